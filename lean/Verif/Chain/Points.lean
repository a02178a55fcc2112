import Verif.Chain.SampleReach

/-!
# Points and slashes, exactly

What the point loop, the vote slashes and the tally do to the members of all pools and to the slash history.
-/

set_option linter.dupNamespace false
namespace Verif.Chain
open Verif
open Chain
open Verif.Bundles (Proposal VoteDist Reward)

/-! ## specification -/

/-- all slashes of a history, oldest first: the staker and the fraction -/
def slashesOf : List Delegation.Event → List (Addr × Dec)
  | [] => []
  | .f1 a (.slash q) :: t => slashesOf t ++ [(a, q)]
  | _ :: t => slashesOf t

/-- the slashes the chain has seen -/
def Chain.slashes (c : Chain) : List (Addr × Dec) := slashesOf c.del.trace

/-- the staker has delegators, so there is something to slash -/
def Chain.delegated (c : Chain) (a : Addr) : Bool := (c.del.at a).data.isSome

/-- one more point; `none`: removed -/
def bump (max : Nat) (v : Stakers.Val) : Option Stakers.Val :=
  if v.points + 1 ≥ max then none else some { v with points := v.points + 1 }

/-- the staker reaches the maximum with one more point -/
def Chain.reaches (c : Chain) (id : Nat) (a : Addr) : Bool :=
  match c.st.vals.get? (id, a) with
  | none => false
  | some v => decide (v.points + 1 ≥ c.bun.params.maxPoints)

namespace Chain

/-! ## what nothing here changes -/

/-- the parameters and whether a staker has delegators -/
structure Fixed (c c' : Chain) : Prop where
  still : Still c c'
  del : ∀ a, c'.delegated a = c.delegated a
  params : c'.del.params = c.del.params

theorem Fixed.refl (c : Chain) : Fixed c c := ⟨Still.refl c, fun _ => rfl, rfl⟩
theorem Fixed.trans {c c' c'' : Chain} (h : Fixed c c') (h' : Fixed c' c'') : Fixed c c'' :=
  ⟨Still.trans h.still h'.still, fun a => (h'.del a).trans (h.del a), h'.params.trans h.params⟩

/-! ## slash -/

theorem slash_fixed (c : Chain) (a : Addr) (t : Delegation.SlashType) : Fixed c (c.slash a t) := by
  refine ⟨⟨rfl, rfl, rfl, rfl, fun _ => rfl, fun _ _ h => h⟩, fun b => ?_, ?_⟩
  · show ((Delegation.slashDelegators c.dw a t).s.at b).data.isSome = _
    unfold Delegation.slashDelegators
    split
    · rfl
    · rename_i hn
      show ((c.del.applyIndexed a _).at b).data.isSome = (c.del.at b).data.isSome
      rw [Delegation.at_applyIndexed]
      split
      · rename_i e
        subst e
        show (Delegation.slash (c.del.at b) _).1.data.isSome = _
        unfold Delegation.slash
        cases hd : (c.del.at b).data with
        | none => rw [hd]
        | some d => rfl
      · rfl
  · show (Delegation.slashDelegators c.dw a t).s.params = _
    unfold Delegation.slashDelegators
    split <;> rfl

theorem slash_slashes (c : Chain) (a : Addr) (t : Delegation.SlashType) :
    (c.slash a t).slashes =
      c.slashes ++ (if c.delegated a then [(a, c.del.params.slashFraction t)] else []) := by
  show slashesOf (Delegation.slashDelegators c.dw a t).s.trace = slashesOf c.del.trace ++ _
  unfold Delegation.slashDelegators Chain.delegated
  cases hd : (c.del.at a).data with
  | none => simp [dw, hd]
  | some d => simp only [dw, hd]; rfl

theorem kick_fixed (c : Chain) (id : Nat) (a : Addr) : Fixed c (c.kick id a) :=
  ⟨(kick_q 0 c id a).still, fun _ => rfl, rfl⟩

theorem kick_get (c : Chain) (id : Nat) (a : Addr) (k : Nat × Addr) :
    (c.kick id a).st.vals.get? k = if k = (id, a) then none else c.st.vals.get? k := by
  show (c.st.kick c.now id a).vals.get? k = _
  rw [Stakers.kick_vals, Map.get?_del]

theorem slashAndRemove_fixed (c : Chain) (id : Nat) (a : Addr) (t : Delegation.SlashType) :
    Fixed c (c.slashAndRemove id a t) := (slash_fixed c a t).trans (kick_fixed _ id a)

theorem slashAndRemove_get (c : Chain) (id : Nat) (a : Addr) (t : Delegation.SlashType) (k : Nat × Addr) :
    (c.slashAndRemove id a t).st.vals.get? k = if k = (id, a) then none else c.st.vals.get? k :=
  kick_get (c.slash a t) id a k

theorem slashAndRemove_slashes (c : Chain) (id : Nat) (a : Addr) (t : Delegation.SlashType) :
    (c.slashAndRemove id a t).slashes =
      c.slashes ++ (if c.delegated a then [(a, c.del.params.slashFraction t)] else []) := slash_slashes c a t

/-! ## points -/

theorem incPoints_fixed (c : Chain) (id : Nat) (a : Addr) : Fixed c (c.incPoints id a) :=
  ⟨(incPoints_q 0 c id a).still, fun _ => rfl, rfl⟩

theorem resetPoints_fixed (c : Chain) (id : Nat) (a : Addr) : Fixed c (c.resetPoints id a) :=
  ⟨(resetPoints_q 0 c id a).still, fun _ => rfl, rfl⟩

theorem resetPoints_slashes (c : Chain) (id : Nat) (a : Addr) : (c.resetPoints id a).slashes = c.slashes := rfl

theorem resetPoints_get (c : Chain) (id : Nat) (a : Addr) (k : Nat × Addr) :
    (c.resetPoints id a).st.vals.get? k =
      if k = (id, a) then (c.st.vals.get? k).map (fun v => { v with points := 0 }) else c.st.vals.get? k := by
  show (c.st.resetPoints id a).vals.get? k = _
  unfold Stakers.State.resetPoints
  cases hv : c.st.vals.get? (id, a) with
  | none =>
    show c.st.vals.get? k = _
    by_cases e : k = (id, a)
    · rw [if_pos e, e, hv]; rfl
    · rw [if_neg e]
  | some v =>
    show (c.st.vals.set (id, a) _).get? k = _
    rw [Map.get?_set]
    split
    · rename_i e; rw [e, hv]; rfl
    · rfl

theorem addPoint_fixed (c : Chain) (id : Nat) (a : Addr) : Fixed c (c.addPoint id a) := by
  unfold addPoint
  split
  · exact (incPoints_fixed c id a).trans (slashAndRemove_fixed _ id a _)
  · exact incPoints_fixed c id a

theorem addPoint_get {c : Chain} {id : Nat} {a : Addr} {v : Stakers.Val} (h : c.st.vals.get? (id, a) = some v)
    (k : Nat × Addr) :
    (c.addPoint id a).st.vals.get? k = if k = (id, a) then bump c.bun.params.maxPoints v else c.st.vals.get? k := by
  have e1 : (c.st.incrementPoints id a).2 = v.points + 1 := by
    unfold Stakers.State.incrementPoints; rw [h]
  have e2 : (c.incPoints id a).st.vals.get? k =
      if k = (id, a) then some { v with points := v.points + 1 } else c.st.vals.get? k := by
    show (c.st.incrementPoints id a).1.vals.get? k = _
    unfold Stakers.State.incrementPoints; rw [h]
    show (c.st.vals.set (id, a) _).get? k = _
    rw [Map.get?_set]
  unfold addPoint bump
  rw [e1]
  split
  · rw [slashAndRemove_get, e2]
    split <;> rfl
  · exact e2

theorem addPoint_slashes {c : Chain} {id : Nat} {a : Addr} {v : Stakers.Val} (h : c.st.vals.get? (id, a) = some v) :
    (c.addPoint id a).slashes =
      c.slashes ++ (if c.reaches id a && c.delegated a then [(a, c.del.params.slashFraction .timeout)] else []) := by
  have e1 : (c.st.incrementPoints id a).2 = v.points + 1 := by
    unfold Stakers.State.incrementPoints; rw [h]
  unfold addPoint reaches
  rw [e1, h]
  by_cases hp : v.points + 1 ≥ c.bun.params.maxPoints
  · rw [if_pos hp, slashAndRemove_slashes]
    simp only [hp, decide_true, Bool.true_and]
    rfl
  · rw [if_neg hp]
    simp only [hp, decide_false, Bool.false_and, Bool.false_eq_true, if_false, List.append_nil]
    rfl

/-- who gets a point in the loop -/
def silent (vs l : List Addr) : List Addr := l.filter (fun a => !decide (a ∈ vs))

theorem pointLoop_spec (id : Nat) (vs l : List Addr) (hn : l.Nodup) (c : Chain)
    (hl : ∀ a ∈ l, ∃ v, c.st.vals.get? (id, a) = some v) :
    Fixed c (pointLoop id vs l c) ∧
    (∀ k, (pointLoop id vs l c).st.vals.get? k =
      if k.1 = id ∧ k.2 ∈ silent vs l then (c.st.vals.get? k).bind (bump c.bun.params.maxPoints)
      else c.st.vals.get? k) ∧
    (pointLoop id vs l c).slashes = c.slashes ++
      ((silent vs l).filter (fun a => c.reaches id a && c.delegated a)).map (·, c.del.params.slashFraction .timeout) := by
  induction l generalizing c with
  | nil => exact ⟨Fixed.refl c, fun k => by simp [silent, pointLoop], by simp [silent, pointLoop]⟩
  | cons a l ih =>
    rw [List.nodup_cons] at hn
    by_cases ha : a ∈ vs
    · have e1 : silent vs (a :: l) = silent vs l := by simp [silent, ha]
      have e2 : pointLoop id vs (a :: l) c = pointLoop id vs l c := by
        show pointLoop id vs l (if a ∈ vs then c else c.addPoint id a) = _
        rw [if_pos ha]
      rw [e1, e2]
      exact ih hn.2 c (fun b hb => hl b (by simp [hb]))
    · have e1 : silent vs (a :: l) = a :: silent vs l := by simp [silent, ha]
      have e2 : pointLoop id vs (a :: l) c = pointLoop id vs l (c.addPoint id a) := by
        show pointLoop id vs l (if a ∈ vs then c else c.addPoint id a) = _
        rw [if_neg ha]
      obtain ⟨v, hv⟩ := hl a (by simp)
      have hne : ∀ b ∈ l, b ≠ a := fun b hb e => hn.1 (e ▸ hb)
      have hs : ∀ b ∈ silent vs l, b ∈ l := fun b hb => (List.mem_filter.1 hb).1
      have f := addPoint_fixed c id a
      have hsame : ∀ b ∈ l, (c.addPoint id a).st.vals.get? (id, b) = c.st.vals.get? (id, b) := by
        intro b hb
        rw [addPoint_get hv, if_neg (by simp [hne b hb])]
      obtain ⟨g1, g2, g3⟩ := ih hn.2 (c.addPoint id a) (fun b hb => by
        rw [hsame b hb]; exact hl b (by simp [hb]))
      have hmax : (c.addPoint id a).bun.params.maxPoints = c.bun.params.maxPoints := by rw [f.still.bun]
      rw [e1, e2]
      refine ⟨f.trans g1, fun k => ?_, ?_⟩
      · rw [g2 k, hmax, addPoint_get hv]
        obtain ⟨i, b⟩ := k
        simp only [List.mem_cons, Prod.mk.injEq]
        by_cases hi : i = id
        · subst hi
          by_cases hb : b = a
          · subst hb
            have : b ∉ silent vs l := fun h => hn.1 (hs b h)
            simp [this, hv]
          · simp [hb]
        · simp [hi]
      · rw [g3, addPoint_slashes hv, f.params]
        have e4 : (silent vs l).filter (fun b => (c.addPoint id a).reaches id b && (c.addPoint id a).delegated b)
            = (silent vs l).filter (fun b => c.reaches id b && c.delegated b) := by
          apply List.filter_congr
          intro b hb
          rw [f.del]
          unfold reaches
          rw [hsame b (hs b hb), hmax]
        rw [e4, List.append_assoc]
        congr 1
        rw [List.filter_cons]
        split <;> rfl

/-! ## slashes of the losing side -/

/-- slash and remove a list of stakers -/
def punish (id : Nat) : List (Addr × Delegation.SlashType) → Chain → Chain
  | [], c => c
  | e :: l, c => punish id l (c.slashAndRemove id e.1 e.2)

theorem slashInvalid_punish (id : Nat) (l : List Addr) (c : Chain) :
    slashInvalid id l c = punish id (l.map (·, .vote)) c := by
  induction l generalizing c with
  | nil => rfl
  | cons a l ih => exact ih _

theorem slashValid_punish (id : Nat) (u : Option Addr) (l : List Addr) (c : Chain) :
    slashValid id u l c = punish id (l.map (fun a => (a, if u = some a then .upload else .vote))) c := by
  induction l generalizing c with
  | nil => rfl
  | cons a l ih => exact ih _

theorem punish_spec (id : Nat) (l : List (Addr × Delegation.SlashType)) (c : Chain) :
    Fixed c (punish id l c) ∧
    (∀ k, (punish id l c).st.vals.get? k = if k.1 = id ∧ k.2 ∈ l.map (·.1) then none else c.st.vals.get? k) ∧
    (punish id l c).slashes = c.slashes ++
      (l.filter (fun e => c.delegated e.1)).map (fun e => (e.1, c.del.params.slashFraction e.2)) := by
  induction l generalizing c with
  | nil => exact ⟨Fixed.refl c, fun k => by simp [punish], by simp [punish]⟩
  | cons e l ih =>
    have f := slashAndRemove_fixed c id e.1 e.2
    obtain ⟨g1, g2, g3⟩ := ih (c.slashAndRemove id e.1 e.2)
    refine ⟨f.trans g1, fun k => ?_, ?_⟩
    · show (punish id l (c.slashAndRemove id e.1 e.2)).st.vals.get? k = _
      rw [g2 k, slashAndRemove_get]
      obtain ⟨i, b⟩ := k
      simp only [List.map_cons, List.mem_cons, Prod.mk.injEq]
      by_cases hi : i = id
      · by_cases hb : b = e.1
        · simp [hi, hb]
        · subst hi
          have e5 : (if i = i ∧ b = e.1 then none else c.st.vals.get? (i, b)) = c.st.vals.get? (i, b) :=
            if_neg (fun h => hb h.2)
          rw [e5]
          exact if_congr ⟨fun h => ⟨h.1, Or.inr h.2⟩, fun h => ⟨h.1, h.2.resolve_left hb⟩⟩ rfl rfl
      · simp [hi]
    · show (punish id l (c.slashAndRemove id e.1 e.2)).slashes = _
      rw [g3, slashAndRemove_slashes, f.params]
      have e4 : l.filter (fun x => (c.slashAndRemove id e.1 e.2).delegated x.1) = l.filter (fun x => c.delegated x.1) := by
        apply List.filter_congr
        intro b _
        rw [f.del]
      rw [e4, List.append_assoc]
      congr 1
      rw [List.filter_cons]
      split <;> rfl

/-! ## payments leave members and slashes alone -/

/-- nothing happens to members and slashes -/
structure NoSlash (c c' : Chain) : Prop where
  fixed : Fixed c c'
  vals : c'.st.vals = c.st.vals
  slashes : c'.slashes = c.slashes
  amount : ∀ a, c'.del.amount a = c.del.amount a

theorem NoSlash.refl (c : Chain) : NoSlash c c := ⟨Fixed.refl c, rfl, rfl, fun _ => rfl⟩
theorem NoSlash.trans {c c' c'' : Chain} (h : NoSlash c c') (h' : NoSlash c' c'') : NoSlash c c'' :=
  ⟨h.fixed.trans h'.fixed, h'.vals.trans h.vals, h'.slashes.trans h.slashes,
    fun a => (h'.amount a).trans (h.amount a)⟩

theorem noSlash_pay (c : Chain) (b : Bank) (hl : Bool) : NoSlash c { c with b := b, halted := hl } :=
  ⟨⟨⟨rfl, rfl, rfl, rfl, fun _ => rfl, fun _ _ h => h⟩, fun _ => rfl, rfl⟩, rfl, rfl, fun _ => rfl⟩

theorem noSlash_fund (c : Chain) (w : Funders.World) : NoSlash c (c.withFund w) :=
  ⟨⟨⟨rfl, rfl, rfl, rfl, fun _ => rfl, fun _ _ h => h⟩, fun _ => rfl, rfl⟩, rfl, rfl, fun _ => rfl⟩

theorem noSlash_payDelegators (c : Chain) (u : Addr) (r : Reward) : Both (NoSlash c) (c.payDelegators u r) := by
  have hq := payDelegators_q 0 c u r
  unfold payDelegators at hq ⊢
  split
  · exact NoSlash.refl c
  · rename_i w hw
    rw [hw] at hq
    have hst : Still c (c.withDel w) := QSteps.still hq
    show NoSlash c (c.withDel w)
    unfold Delegation.payoutRewards at hw
    split at hw
    · injection hw with hw; rw [← hw]; exact NoSlash.refl c
    · split at hw
      · cases hw
      · split at hw
        · cases hw
        · injection hw with hw
          subst hw
          have hat : ∀ a, ((c.del.apply u (.payout r.delegation)).at a).data.isSome = (c.del.at a).data.isSome ∧
              (c.del.apply u (.payout r.delegation)).amount a = c.del.amount a := by
            intro a
            have e := Delegation.at_apply c.del u a (.payout r.delegation)
            unfold Delegation.State.amount
            rw [e]
            split
            · rename_i e; subst e
              show (Delegation.payout (c.del.at a) _).data.isSome = _ ∧ (Delegation.payout (c.del.at a) _).d.total = _
              unfold Delegation.payout
              cases hd : (c.del.at a).data with
              | none =>
                refine ⟨by show (c.del.at a).data.isSome = _; rw [hd], ?_⟩
                show ((c.del.at a).data.getD _).total = _
                rw [hd]
              | some d => exact ⟨rfl, rfl⟩
            · exact ⟨rfl, rfl⟩
          exact ⟨⟨hst, fun a => (hat a).1, rfl⟩, rfl, rfl, fun a => (hat a).2⟩

theorem NoSlash.both {c d : Chain} (h : NoSlash c d) {r : Except Chain Chain} (hr : Both (NoSlash d) r) :
    Both (NoSlash c) r := by
  cases r with
  | ok x => exact h.trans hr
  | error x => exact h.trans hr

theorem noSlash_payUploader (c : Chain) (u : Addr) (r : Reward) : Both (NoSlash c) (c.payUploader u r) := by
  unfold payUploader
  split
  · exact NoSlash.refl c
  · rename_i w hw
    refine NoSlash.both ?_ (noSlash_payDelegators _ u r)
    have hst : Still c (c.withSt w) := by
      have := Quiet.still 0 c (.reward u (r.commission.add r.storage))
      have e : (Quiet.reward u (r.commission.add r.storage)).micro.run 0 c = c.withSt w := by
        show c.withSt (Stakers.orElse c.sw (Stakers.increaseRewards c.sw .pool u _)) = _
        rw [hw]; rfl
      rw [e] at this; exact this
    rcases Stakers.increase_ok hw with ⟨-, rfl⟩ | ⟨x, -, -, hs⟩
    · exact NoSlash.refl _
    · refine ⟨⟨hst, fun _ => rfl, rfl⟩, ?_, rfl, fun _ => rfl⟩
      show w.s.vals = _
      rw [hs]; rfl

theorem noSlash_payReward (c : Chain) (u : Option Addr) (r : Reward) : Both (NoSlash c) (c.payReward u r) := by
  unfold payReward
  split
  · exact NoSlash.refl c
  · rename_i b _
    refine NoSlash.both (noSlash_pay c b c.halted) ?_
    split
    · exact NoSlash.refl _
    · exact noSlash_payUploader _ _ _

theorem Both.ok {P : Chain → Prop} {r : Except Chain Chain} {c : Chain} (h : Both P r) (e : r = .ok c) : P c := by
  subst e; exact h
theorem Both.error {P : Chain → Prop} {r : Except Chain Chain} {c : Chain} (h : Both P r) (e : r = .error c) : P c := by
  subst e; exact h

/-! ## the tally -/

/-- the losing side of a decided bundle, with the kind of slash -/
def losers (p : Proposal) (s : Bundles.Status) : List (Addr × Delegation.SlashType) :=
  match s with
  | .valid => p.invalid.map (·, .vote)
  | .invalid => p.valid.map (fun a => (a, if p.uploader = some a then .upload else .vote))
  | _ => []

theorem tallyOutcome_punish {c c' : Chain} {id : Nat} {p : Proposal} {v w : VoteDist}
    (h : c.tallyOutcome id p v = .done c' w) :
    w = v ∧ ∃ d, NoSlash c d ∧ c' = punish id (losers p v.status) d := by
  unfold tallyOutcome at h
  split at h
  · rename_i hv
    unfold tallyValid at h
    split at h
    · cases h
    · rename_i r hr
      unfold tallyInflation at h
      split at h
      · cases h
      · rename_i q hq
        unfold tallyPay at h
        split at h
        · cases h
        · split at h
          · cases h
          · rename_i d hd
            injection h with h1 h2
            refine ⟨h2.symm, d, ?_, ?_⟩
            · exact ((noSlash_fund c _).trans (noSlash_pay _ _ _)).trans (Both.ok (noSlash_payReward _ _ _) hd)
            · rw [← h1, slashInvalid_punish]
              unfold losers; rw [hv]
  · rename_i hv
    injection h with h1 h2
    refine ⟨h2.symm, c, NoSlash.refl c, ?_⟩
    rw [← h1, slashValid_punish]
    unfold losers; rw [hv]
  · rename_i hv hi
    injection h with h1 h2
    refine ⟨h2.symm, c, NoSlash.refl c, ?_⟩
    rw [← h1]
    unfold losers
    split
    · rename_i e; exact absurd e hv
    · rename_i e; exact absurd e hi
    · rfl

theorem tallyOutcome_failed {c c' : Chain} {id : Nat} {p : Proposal} {v : VoteDist}
    (h : c.tallyOutcome id p v = .failed c') : NoSlash c c' := by
  unfold tallyOutcome at h
  split at h
  · unfold tallyValid at h
    split at h
    · injection h with h; rw [← h]; exact NoSlash.refl c
    · unfold tallyInflation at h
      split at h
      · cases h
      · unfold tallyPay at h
        split at h
        · cases h
        · split at h
          · rename_i d hd
            injection h with h
            subst h
            exact ((noSlash_fund c _).trans (noSlash_pay _ _ _)).trans (Both.error (noSlash_payReward _ _ _) hd)
          · cases h
  · cases h
  · cases h

/-- the members that did not vote -/
def absent (c : Chain) (id : Nat) : List Addr := silent (voters (c.proposal id)) (c.members id)

theorem mem_absent {c : Chain} {id : Nat} {a : Addr} :
    a ∈ c.absent id ↔ c.member id a = true ∧ a ∉ voters (c.proposal id) := by
  unfold absent silent
  rw [List.mem_filter, mem_members]
  simp

theorem nonVoters_spec (c : Chain) (id : Nat) :
    Fixed c (c.nonVoters id) ∧
    (∀ k, (c.nonVoters id).st.vals.get? k =
      if k.1 = id ∧ k.2 ∈ c.absent id then (c.st.vals.get? k).bind (bump c.bun.params.maxPoints)
      else c.st.vals.get? k) ∧
    (c.nonVoters id).slashes = c.slashes ++
      ((c.absent id).filter (fun a => c.reaches id a && c.delegated a)).map
        (·, c.del.params.slashFraction .timeout) := by
  refine pointLoop_spec id _ (c.members id) (Stakers.stakersOf_nodup _ _) c (fun a ha => ?_)
  rw [mem_members] at ha
  exact (Stakers.has_iff _ _).1 ha

/-- a tally that ends: who gets points, who is removed, who is slashed -/
theorem tally_spec {c c' : Chain} {id : Nat} {p : Proposal} {v : VoteDist} (h : c.tally id p = .done c' v) :
    Fixed c c' ∧
    (∀ k, c'.st.vals.get? k =
      if k.1 = id ∧ k.2 ∈ (losers p v.status).map (·.1) then none
      else if k.1 = id ∧ k.2 ∈ c.absent id then (c.st.vals.get? k).bind (bump c.bun.params.maxPoints)
      else c.st.vals.get? k) ∧
    c'.slashes = c.slashes ++
      ((c.absent id).filter (fun a => c.reaches id a && c.delegated a)).map
        (·, c.del.params.slashFraction .timeout) ++
      ((losers p v.status).filter (fun e => c.delegated e.1)).map
        (fun e => (e.1, c.del.params.slashFraction e.2)) := by
  obtain ⟨n1, n2, n3⟩ := nonVoters_spec c id
  unfold tally at h
  obtain ⟨rfl, d, hd, rfl⟩ := tallyOutcome_punish h
  generalize ((c.nonVoters id).dist id) = v at *
  obtain ⟨g1, g2, g3⟩ := punish_spec id (losers p v.status) d
  refine ⟨(n1.trans hd.fixed).trans g1, fun k => ?_, ?_⟩
  · rw [g2 k, hd.vals, n2 k]
  · rw [g3, hd.slashes, n3, hd.fixed.params, n1.params]
    congr 2
    apply List.filter_congr
    intro e _
    rw [hd.fixed.del, n1.del]

end Chain
end Verif.Chain
