import Verif.Chain.Bills

/-!
# C24, C25: who is punished for what

Specification of faults and points, and the proofs for the tally.
-/

set_option linter.dupNamespace false
namespace Verif.Chain
open Verif
open Chain
open Verif.Bundles (Proposal VoteDist Status)
open Verif.Delegation (SlashType)

/-! ## specification -/

/-- the fault of a voter when the proposal gets status `s`: being on the losing side; for the uploader of an invalid bundle
it is the upload -/
def fault (p : Proposal) (s : Status) (a : Addr) : Option SlashType :=
  match s with
  | .valid => if a ∈ p.invalid then some .vote else none
  | .invalid => if a ∈ p.valid then some (if p.uploader = some a then .upload else .vote) else none
  | _ => none

/-- nobody is at fault -/
def noFault (_ : Addr) : Option SlashType := none

/-- a point for not voting -/
def missed (p : Proposal) (a : Addr) : Nat := if a ∈ p.valid ∨ a ∈ p.invalid ∨ a ∈ p.abstain then 0 else 1

/-- a point for the next uploader that did not upload -/
def late (p : Proposal) (a : Addr) : Nat := if p.nextUploader = some a then 1 else 0

/-- a member after `m` points: unchanged if `m = 0`, removed (`none`) if it reaches the maximum -/
def score (max m : Nat) (v : Stakers.Val) : Option Stakers.Val :=
  if m = 0 then some v else if max ≤ v.points + m then none else some { v with points := v.points + m }

/-- the points of a node that was active start from 0 -/
def renew (active : Option Addr) (a : Addr) (v : Stakers.Val) : Stakers.Val :=
  if active = some a then { v with points := 0 } else v

/-- the member reaches the maximum with these points -/
def TimesOut (c : Chain) (id : Nat) (active : Option Addr) (marks : Addr → Nat) (a : Addr) : Prop :=
  0 < marks a ∧ ∃ v, c.st.vals.get? (id, a) = some v ∧ c.bun.params.maxPoints ≤ (renew active a v).points + marks a

/-- Members of pool `id` at fault and members reaching the maximum of points are removed from the pool, the others get their
points; members of other pools are not touched; `slashed` lists the slashes: exactly those of the stakers at fault and of
those reaching the maximum, once each (a staker without delegators has nothing to slash). -/
structure Judged (id : Nat) (active : Option Addr) (faults : Addr → Option SlashType) (marks : Addr → Nat)
    (slashed : List (Addr × Dec)) (c c' : Chain) : Prop where
  member : ∀ a, c'.st.vals.get? (id, a) = if (faults a).isSome then none else
    ((c.st.vals.get? (id, a)).map (renew active a)).bind (score c.bun.params.maxPoints (marks a))
  other : ∀ j a, j ≠ id → c'.st.vals.get? (j, a) = c.st.vals.get? (j, a)
  once : (slashed.map (·.1)).Nodup
  exactly : ∀ a q, (a, q) ∈ slashed ↔ c.delegated a = true ∧
    ((∃ t, faults a = some t ∧ q = c.del.params.slashFraction t) ∨
     (faults a = none ∧ TimesOut c id active marks a ∧ q = c.del.params.slashFraction .timeout))

namespace Chain

/-! ## small facts -/

theorem renew_none (a : Addr) (v : Stakers.Val) : renew none a v = v := by unfold renew; simp

theorem score_zero (max : Nat) (v : Stakers.Val) : score max 0 v = some v := by unfold score; simp
theorem score_one (max : Nat) (v : Stakers.Val) : score max 1 v = bump max v := by
  unfold score bump; simp

theorem score_bump (max m : Nat) (v : Stakers.Val) : (score max m v).bind (bump max) = score max (m + 1) v := by
  unfold score
  by_cases hm : m = 0
  · subst hm; simp [bump]
  · rw [if_neg hm, if_neg (show ¬ m + 1 = 0 by omega)]
    by_cases h : max ≤ v.points + m
    · rw [if_pos h, if_pos (by omega)]; rfl
    · rw [if_neg h]
      unfold bump
      simp only [Option.bind_some, ge_iff_le]
      by_cases h2 : max ≤ v.points + m + 1
      · rw [if_pos h2, if_pos (by omega)]
      · rw [if_neg h2, if_neg (by omega)]; rfl

theorem missed_iff {p : Proposal} {a : Addr} : a ∉ voters p ↔ missed p a = 1 := by
  unfold missed voters
  simp only [List.mem_append, or_assoc]
  split
  · rename_i h; simp [h]
  · rename_i h; simp [h]

theorem missed_le (p : Proposal) (a : Addr) : missed p a = 0 ∨ missed p a = 1 := by
  unfold missed; split <;> simp

theorem mem_losers {p : Proposal} {s : Status} {a : Addr} {t : SlashType} :
    (a, t) ∈ losers p s ↔ fault p s a = some t := by
  unfold losers fault
  cases s with
  | valid =>
    simp only [List.mem_map, Prod.mk.injEq]
    constructor
    · rintro ⟨b, hb, rfl, rfl⟩; rw [if_pos hb]
    · intro h; split at h
      · rename_i ha; cases h; exact ⟨a, ha, rfl, rfl⟩
      · cases h
  | invalid =>
    simp only [List.mem_map, Prod.mk.injEq]
    constructor
    · rintro ⟨b, hb, rfl, rfl⟩; rw [if_pos hb]
    · intro h; split at h
      · rename_i ha; cases h; exact ⟨a, ha, rfl, rfl⟩
      · cases h
  | _ => simp

theorem mem_losers_fst {p : Proposal} {s : Status} {a : Addr} :
    a ∈ (losers p s).map (·.1) ↔ (fault p s a).isSome = true := by
  rw [List.mem_map, Option.isSome_iff_exists]
  constructor
  · rintro ⟨⟨b, t⟩, h, rfl⟩; exact ⟨t, mem_losers.1 h⟩
  · rintro ⟨t, h⟩; exact ⟨(a, t), mem_losers.2 h, rfl⟩

theorem losers_nodup {p : Proposal} (h : (voters p).Nodup) (s : Status) : ((losers p s).map (·.1)).Nodup := by
  unfold voters at h
  rw [List.nodup_append, List.nodup_append] at h
  unfold losers
  split
  · rw [List.map_map]; simpa [Function.comp_def] using h.1.2.1
  · rw [List.map_map]; simpa [Function.comp_def] using h.1.1
  · simp

theorem fault_voter {p : Proposal} {s : Status} {a : Addr} (h : (fault p s a).isSome = true) : a ∈ voters p := by
  unfold fault at h
  unfold voters
  split at h
  · split at h
    · rename_i ha; simp [ha]
    · cases h
  · split at h
    · rename_i ha; simp [ha]
    · cases h
  · cases h

theorem mem_filter_pair {l : List Addr} {f : Addr → Bool} {q0 q : Dec} {a : Addr} :
    (a, q) ∈ (l.filter f).map (·, q0) ↔ a ∈ l ∧ f a = true ∧ q = q0 := by
  rw [List.mem_map]
  constructor
  · rintro ⟨b, hb, e⟩
    rw [List.mem_filter] at hb
    cases e
    exact ⟨hb.1, hb.2, rfl⟩
  · rintro ⟨h1, h2, rfl⟩
    exact ⟨a, List.mem_filter.2 ⟨h1, h2⟩, rfl⟩

theorem reaches_iff {c : Chain} {id : Nat} {a : Addr} :
    c.reaches id a = true ↔ ∃ v, c.st.vals.get? (id, a) = some v ∧ c.bun.params.maxPoints ≤ v.points + 1 := by
  unfold reaches
  split
  · rename_i h; simp [h]
  · rename_i v h; simp [h]

/-! ## the tally -/

/-- no vote counts: only points for not voting -/
theorem judged_nonVoters (c : Chain) (id : Nat) :
    ∃ l, (c.nonVoters id).slashes = c.slashes ++ l ∧
      Judged id none noFault (missed (c.proposal id)) l c (c.nonVoters id) := by
  obtain ⟨-, n2, n3⟩ := nonVoters_spec c id
  refine ⟨_, n3, fun a => ?_, fun j a hj => ?_, ?_, fun a q => ?_⟩
  · rw [n2]
    show _ = ((c.st.vals.get? (id, a)).map (renew none a)).bind _
    cases hv : c.st.vals.get? (id, a) with
    | none => simp
    | some v =>
      simp only [Option.map_some, Option.bind_some, renew_none]
      have hm : c.member id a = true := (Stakers.has_iff _ _).2 ⟨v, hv⟩
      by_cases ha : a ∈ c.absent id
      · rw [if_pos (by exact ⟨trivial, ha⟩)]
        rw [mem_absent] at ha
        rw [missed_iff.1 ha.2, score_one]
      · rw [if_neg (fun h => ha h.2)]
        rw [mem_absent] at ha
        have : missed (c.proposal id) a = 0 := by
          rcases missed_le (c.proposal id) a with h | h
          · exact h
          · exact absurd ⟨hm, missed_iff.2 h⟩ ha
        rw [this, score_zero]
  · rw [n2, if_neg (fun h => hj h.1)]
  · rw [List.map_map]
    have hnd : (c.absent id).Nodup := (Stakers.stakersOf_nodup _ _).filter _
    simpa [Function.comp_def] using hnd.filter _
  · rw [mem_filter_pair, mem_absent, Bool.and_eq_true, reaches_iff]
    constructor
    · rintro ⟨⟨h1, h2⟩, ⟨⟨v, h3, h4⟩, h5⟩, rfl⟩
      refine ⟨h5, Or.inr ⟨rfl, ⟨?_, v, h3, ?_⟩, rfl⟩⟩
      · rw [missed_iff.1 h2]; omega
      · rw [missed_iff.1 h2, renew_none]; exact h4
    · rintro ⟨h5, ⟨t, h, -⟩ | ⟨-, ⟨h1, v, h3, h4⟩, rfl⟩⟩
      · cases h
      · have hm : missed (c.proposal id) a = 1 := by
          rcases missed_le (c.proposal id) a with h | h <;> omega
        rw [renew_none, hm] at h4
        exact ⟨⟨(Stakers.has_iff _ _).2 ⟨v, h3⟩, missed_iff.2 hm⟩, ⟨⟨v, h3, h4⟩, h5⟩, rfl⟩

/-- a tally that ends -/
theorem judged_tally {c y : Chain} {id : Nat} {v : VoteDist} (hn : (voters (c.proposal id)).Nodup)
    (h : c.tally id (c.proposal id) = .done y v) :
    ∃ l, y.slashes = c.slashes ++ l ∧
      Judged id none (fault (c.proposal id) v.status) (missed (c.proposal id)) l c y := by
  obtain ⟨-, t2, t3⟩ := tally_spec h
  obtain ⟨l, hl, j⟩ := judged_nonVoters c id
  obtain ⟨-, n2, n3⟩ := nonVoters_spec c id
  rw [← n3, hl, List.append_assoc] at t3
  refine ⟨_, t3, fun a => ?_, fun j' a hj => ?_, ?_, fun a q => ?_⟩
  · rw [t2, ← n2 (id, a)]
    by_cases hf : (fault (c.proposal id) v.status a).isSome = true
    · rw [if_pos hf, if_pos ⟨rfl, mem_losers_fst.2 hf⟩]
    · rw [if_neg hf, if_neg (fun h => hf (mem_losers_fst.1 h.2)), j.member a]
      rfl
  · rw [t2, if_neg (fun h => hj h.1), ← n2 (j', a), j.other j' a hj]
  · rw [List.map_append, List.nodup_append]
    refine ⟨j.once, ?_, ?_⟩
    · rw [List.map_map]
      have e : ((losers (c.proposal id) v.status).filter (fun e => c.delegated e.1)).map
          ((fun e : Addr × Dec => e.1) ∘ fun e => (e.1, c.del.params.slashFraction e.2)) =
          ((losers (c.proposal id) v.status).filter (fun e => c.delegated e.1)).map (·.1) := rfl
      rw [e]
      exact ((losers_nodup hn v.status).sublist (List.Sublist.map _ List.filter_sublist))
    · intro a ha b hb e
      subst e
      rw [List.mem_map] at ha hb
      obtain ⟨⟨a1, q1⟩, ha, rfl⟩ := ha
      obtain ⟨⟨b1, q2⟩, hb, e⟩ := hb
      have e : b1 = a1 := e
      subst e
      rw [List.mem_map] at hb
      obtain ⟨⟨b2, t⟩, hb, e⟩ := hb
      injection e with e _
      have e : b2 = b1 := e
      subst e
      have hb := (List.mem_filter.1 hb).1
      have hvot := fault_voter (by rw [mem_losers.1 hb]; rfl)
      rcases ((j.exactly b2 q1).1 ha).2 with ⟨t, h, -⟩ | ⟨-, ⟨h1, -⟩, -⟩
      · cases h
      · rcases missed_le (c.proposal id) b2 with h | h
        · omega
        · exact missed_iff.2 h hvot
  · rw [List.mem_append, j.exactly]
    have hl2 : (a, q) ∈ ((losers (c.proposal id) v.status).filter (fun e => c.delegated e.1)).map
        (fun e => (e.1, c.del.params.slashFraction e.2)) ↔ c.delegated a = true ∧
        ∃ t, fault (c.proposal id) v.status a = some t ∧ q = c.del.params.slashFraction t := by
      rw [List.mem_map]
      constructor
      · rintro ⟨⟨b, t⟩, hb, e⟩
        rw [List.mem_filter] at hb
        injection e with e1 e2
        have e1 : b = a := e1
        subst e1
        exact ⟨hb.2, t, mem_losers.1 hb.1, e2.symm⟩
      · rintro ⟨h1, t, h2, rfl⟩
        exact ⟨(a, t), List.mem_filter.2 ⟨mem_losers.2 h2, h1⟩, rfl⟩
    rw [hl2]
    constructor
    · rintro (⟨h1, ⟨t, h, -⟩ | ⟨-, h2, h3⟩⟩ | ⟨h1, h2⟩)
      · cases h
      · refine ⟨h1, Or.inr ⟨?_, h2, h3⟩⟩
        cases hf : fault (c.proposal id) v.status a with
        | none => rfl
        | some t =>
          have hvot := fault_voter (by rw [hf]; rfl)
          rcases missed_le (c.proposal id) a with h | h
          · have := h2.1; omega
          · exact absurd hvot (missed_iff.2 h)
      · exact ⟨h1, Or.inl h2⟩
    · rintro ⟨h1, h2 | ⟨-, h2, h3⟩⟩
      · exact Or.inr ⟨h1, h2⟩
      · exact Or.inl ⟨h1, Or.inr ⟨rfl, h2, h3⟩⟩

/-! ## a point for the late uploader -/

theorem Judged.marks {id : Nat} {active : Option Addr} {f : Addr → Option SlashType} {m m' : Addr → Nat}
    {l : List (Addr × Dec)} {c c' : Chain} (h : Judged id active f m l c c') (e : ∀ a, m' a = m a) :
    Judged id active f m' l c c' := by
  have : m' = m := funext e
  rw [this]; exact h

theorem judged_late {c y : Chain} {id : Nat} {active : Option Addr} {f : Addr → Option SlashType} {m : Addr → Nat}
    {l : List (Addr × Dec)} (hs : y.slashes = c.slashes ++ l) (h : Judged id active f m l c y)
    (hd : ∀ a, y.delegated a = c.delegated a) (hp : y.del.params = c.del.params)
    (hb : y.bun.params = c.bun.params) (o : Option Addr) :
    ∃ l', (y.pointLate id o).slashes = c.slashes ++ l' ∧
      Judged id active f (fun a => m a + if o = some a then 1 else 0) l' c (y.pointLate id o) := by
  cases o with
  | none => exact ⟨l, hs, Judged.marks h (fun a => by simp)⟩
  | some b =>
    have hne : ∀ a, b ≠ a → m a + (if some b = some a then 1 else 0) = m a := fun a ha => by
      rw [if_neg (by simpa using ha)]; rfl
    have heq : m b + (if some b = some b then 1 else 0) = m b + 1 := by rw [if_pos rfl]
    -- the state of `b` before its point
    have hb0 := h.member b
    show ∃ l', (if y.member id b then y.addPoint id b else y).slashes = _ ∧
      Judged id active f _ l' c (if y.member id b then y.addPoint id b else y)
    by_cases hm : y.member id b = true
    · rw [if_pos hm]
      obtain ⟨w, hw⟩ := (Stakers.has_iff _ _).1 hm
      have hg := addPoint_get hw
      have hsl := addPoint_slashes hw
      rw [hw] at hb0
      have hf0 : f b = none := by
        cases e : f b with
        | none => rfl
        | some t => rw [e] at hb0; simp at hb0
      rw [hf0] at hb0
      simp only [Option.isSome_none, Bool.false_eq_true, if_false] at hb0
      -- the member before
      obtain ⟨v, hv⟩ : ∃ v, c.st.vals.get? (id, b) = some v := by
        cases e : c.st.vals.get? (id, b) with
        | none => rw [e] at hb0; simp at hb0
        | some v => exact ⟨v, rfl⟩
      have hsc : score c.bun.params.maxPoints (m b) (renew active b v) = some w := by
        rw [hv] at hb0; simpa using hb0.symm
      have hwp : w.points = (renew active b v).points + m b := by
        unfold score at hsc
        split at hsc
        · rename_i e; cases hsc; omega
        · split at hsc
          · cases hsc
          · cases hsc; rfl
      have hnot : ¬ TimesOut c id active m b := by
        rintro ⟨h1, v', h2, h3⟩
        rw [hv] at h2; cases h2
        unfold score at hsc
        rw [if_neg (by omega), if_pos h3] at hsc
        cases hsc
      have hreach : y.reaches id b = true ↔ TimesOut c id active (fun a => m a + if some b = some a then 1 else 0) b := by
        rw [reaches_iff]
        unfold TimesOut
        beta_reduce
        rw [heq, hb]
        constructor
        · rintro ⟨w', h1, h2⟩
          rw [hw] at h1; cases h1
          exact ⟨by omega, v, hv, by omega⟩
        · rintro ⟨-, v', h1, h2⟩
          rw [hv] at h1; cases h1
          exact ⟨w, hw, by omega⟩
      rw [hs, List.append_assoc] at hsl
      refine ⟨_, hsl, fun a => ?_, fun j a hj => ?_, ?_, fun a q => ?_⟩
      · rw [hg]
        by_cases e : b = a
        · subst e
          rw [if_pos rfl, hf0, hb]
          simp only [Option.isSome_none, Bool.false_eq_true, if_false, if_true]
          rw [hv]
          simp only [Option.map_some, Option.bind_some]
          rw [← score_bump, hsc]; rfl
        · rw [if_neg (by intro x; injection x with _ x; exact e x.symm), h.member a]
          simp only [hne a e]
      · rw [hg, if_neg (by intro x; injection x with x _; exact hj x), h.other j a hj]
      · rw [List.map_append, List.nodup_append]
        refine ⟨h.once, ?_, ?_⟩
        · split <;> simp
        · intro a ha a' ha' e
          subst e
          split at ha'
          · simp only [List.map_cons, List.map_nil, List.mem_singleton] at ha'
            subst ha'
            obtain ⟨⟨a1, q1⟩, hx, rfl⟩ := List.mem_map.1 ha
            rcases ((h.exactly _ _).1 hx).2 with ⟨t, h1, -⟩ | ⟨-, h1, -⟩
            · rw [hf0] at h1; cases h1
            · exact hnot h1
          · cases ha'
      · rw [List.mem_append, h.exactly]
        by_cases e : b = a
        · subst e
          rw [hf0]
          simp only [reduceCtorEq, false_and, exists_false, true_and, false_or, hnot, and_false]
          by_cases hc : (y.reaches id b && y.delegated b) = true
          · rw [if_pos hc, Bool.and_eq_true, hd, hreach] at *
            simp only [List.mem_singleton, Prod.mk.injEq, true_and, hp]
            exact ⟨fun e => ⟨hc.2, hc.1, e⟩, fun e => e.2.2⟩
          · rw [if_neg hc]
            simp only [List.not_mem_nil, false_iff]
            rintro ⟨h1, h2, -⟩
            rw [Bool.and_eq_true, hd, hreach] at hc
            exact hc ⟨h2, h1⟩
        · have e2 : (a, q) ∉ (if (y.reaches id b && y.delegated b) = true then
              [(b, y.del.params.slashFraction .timeout)] else []) := by
            split
            · simp only [List.mem_singleton, Prod.mk.injEq, not_and]
              intro x; exact absurd x.symm e
            · simp
          simp only [e2, or_false]
          have e3 : TimesOut c id active (fun a => m a + if some b = some a then 1 else 0) a ↔ TimesOut c id active m a := by
            unfold TimesOut
            beta_reduce
            rw [hne a e]
          rw [e3]
    · rw [if_neg hm]
      have hw : y.st.vals.get? (id, b) = none := by
        cases e : y.st.vals.get? (id, b) with
        | none => rfl
        | some w => exact absurd ((Stakers.has_iff _ _).2 ⟨w, e⟩) hm
      rw [hw] at hb0
      have hscore : (f b).isSome = false → ∀ v, c.st.vals.get? (id, b) = some v →
          0 < m b ∧ c.bun.params.maxPoints ≤ (renew active b v).points + m b := by
        intro hf v hv
        rw [hf, hv] at hb0
        simp only [Bool.false_eq_true, if_false, Option.map_some, Option.bind_some] at hb0
        unfold score at hb0
        split at hb0
        · cases hb0
        · split at hb0
          · rename_i h1 h2; exact ⟨by omega, h2⟩
          · cases hb0
      refine ⟨l, hs, fun a => ?_, h.other, h.once, fun a q => ?_⟩
      · rw [h.member a]
        by_cases e : b = a
        · subst e
          cases hf : (f b).isSome with
          | true => rfl
          | false =>
            simp only [Bool.false_eq_true, if_false, if_true]
            cases hv : c.st.vals.get? (id, b) with
            | none => rfl
            | some v =>
              obtain ⟨h1, h2⟩ := hscore hf v hv
              simp only [Option.map_some, Option.bind_some]
              unfold score
              rw [if_neg (by omega), if_pos h2, if_neg (by omega), if_pos (by omega)]
        · simp only [hne a e]
      · rw [h.exactly]
        by_cases e : b = a
        · subst e
          cases hf : f b with
          | some t => simp
          | none =>
            have e3 : TimesOut c id active (fun a => m a + if some b = some a then 1 else 0) b ↔ TimesOut c id active m b := by
              constructor
              · rintro ⟨-, v, h2, -⟩
                obtain ⟨h1, h3⟩ := hscore (by rw [hf]; rfl) v h2
                exact ⟨h1, v, h2, h3⟩
              · rintro ⟨h1, v, h2, h3⟩
                exact ⟨by show 0 < m b + _; omega, v, h2, by show _ ≤ _ + (m b + _); omega⟩
            rw [e3]
        · have e3 : TimesOut c id active (fun a => m a + if some b = some a then 1 else 0) a ↔ TimesOut c id active m a := by
            unfold TimesOut
            beta_reduce
            rw [hne a e]
          rw [e3]

/-- what follows without touching members and delegations -/
theorem Judged.congr {id : Nat} {active : Option Addr} {f : Addr → Option SlashType} {m : Addr → Nat}
    {l : List (Addr × Dec)} {c y z : Chain} (h : Judged id active f m l c y) (hs : z.st.vals = y.st.vals) :
    Judged id active f m l c z :=
  ⟨fun a => by rw [hs]; exact h.member a, fun j a hj => by rw [hs]; exact h.other j a hj, h.once, h.exactly⟩

/-- nothing happened -/
theorem judged_idle (c : Chain) (id : Nat) : Judged id none noFault (fun _ => 0) [] c c := by
  refine ⟨fun a => ?_, fun _ _ _ => rfl, by simp, fun a q => ?_⟩
  · show _ = ((c.st.vals.get? (id, a)).map (renew none a)).bind _
    cases c.st.vals.get? (id, a) with
    | none => rfl
    | some v => simp [renew_none, score_zero]
  · simp only [List.not_mem_nil, false_iff]
    rintro ⟨-, ⟨t, h, -⟩ | ⟨-, ⟨h, -⟩, -⟩⟩
    · cases h
    · exact absurd h (Nat.lt_irrefl 0)

/-- the points of the sender of a message start from 0 -/
theorem judged_reset {id : Nat} {s : Addr} {f : Addr → Option SlashType} {m : Addr → Nat}
    {l : List (Addr × Dec)} {c y : Chain} (h : Judged id none f m l (c.resetPoints id s) y) :
    Judged id (some s) f m l c y := by
  have hget : ∀ a, ((c.resetPoints id s).st.vals.get? (id, a)).map (renew none a) =
      (c.st.vals.get? (id, a)).map (renew (some s) a) := by
    intro a
    rw [resetPoints_get]
    by_cases e : s = a
    · subst e
      rw [if_pos rfl]
      cases c.st.vals.get? (id, s) <;> simp [renew]
    · rw [if_neg (by intro x; injection x with _ x; exact e x.symm)]
      cases c.st.vals.get? (id, a) with
      | none => rfl
      | some v => simp [renew, e]
  have ht : ∀ a, TimesOut (c.resetPoints id s) id none m a ↔ TimesOut c id (some s) m a := by
    intro a
    have hx := hget a
    unfold TimesOut
    refine and_congr Iff.rfl ?_
    constructor
    · rintro ⟨v, h1, h2⟩
      rw [h1] at hx
      cases hv : c.st.vals.get? (id, a) with
      | none => rw [hv] at hx; cases hx
      | some w =>
        rw [hv] at hx
        simp only [Option.map_some, Option.some.injEq] at hx
        exact ⟨w, rfl, by rw [← hx]; exact h2⟩
    · rintro ⟨v, h1, h2⟩
      rw [h1] at hx
      cases hv : (c.resetPoints id s).st.vals.get? (id, a) with
      | none => rw [hv] at hx; cases hx
      | some w =>
        rw [hv] at hx
        simp only [Option.map_some, Option.some.injEq] at hx
        exact ⟨w, rfl, by rw [hx]; exact h2⟩
  refine ⟨fun a => ?_, fun j a hj => ?_, h.once, fun a q => ?_⟩
  · rw [h.member a, hget a]; rfl
  · rw [h.other j a hj, resetPoints_get, if_neg (by intro x; injection x with x _; exact hj x)]
  · rw [h.exactly, ht]; rfl

end Chain
end Verif.Chain
