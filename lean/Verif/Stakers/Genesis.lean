import Verif.Stakers.Examples
import Verif.Lib.Genesis

/-!
# x/stakers genesis: validation (C51) and export/import (C55)

Models /repo/x/stakers/genesis.go and /repo/x/stakers/types/genesis.go.
-/

namespace Verif.Stakers
open Verif

/-- `GenesisState` -/
structure Genesis where
  params : Params
  /-- `StakerList` -/
  stakers : List (Addr × Staker)
  /-- `ValaccountList`, by pool and staker -/
  vals : List ((Nat × Addr) × Val)
  /-- `CommissionChangeEntries`, by index -/
  changes : List (Nat × Change)
  /-- `LeavePoolEntries`, by index -/
  leaves : List (Nat × Leave)
  /-- `QueueStateCommission` -/
  cLow : Nat
  cHigh : Nat
  /-- `QueueStateLeave` -/
  lLow : Nat
  lHigh : Nat

/-- types/genesis.go:51-67, the leave entries and the final check; the first argument are the keys whose entry in
`stakerLeaving` is true -/
def checkLeaves (low high : Nat) : List (Nat × Addr) → List (Nat × Leave) → Bool
  | fl, [] => fl.isEmpty
  | fl, (i, e) :: l => decide (i ≤ high) && decide (low ≤ i) && decide ((e.pool, e.staker) ∈ fl) &&
      checkLeaves low high (fl.filter (fun k => decide (k ≠ (e.pool, e.staker)))) l

/-- types/genesis.go:16-70 `Validate`; the parameters are always valid, types/params.go:33-43 -/
def Genesis.validate (g : Genesis) : Bool :=
  dupFree [] (g.vals.map (·.1)) &&
  (dupFree [] (g.changes.map (·.1)) && g.changes.all (fun p => decide (p.1 ≤ g.cHigh) && decide (g.cLow ≤ p.1))) &&
  checkLeaves g.lLow g.lHigh ((g.vals.filter (fun p => p.2.leaving)).map (·.1)) g.leaves

/-- genesis.go:37-55 `ExportGenesis` -/
def exportGenesis (s : State) : Genesis :=
  ⟨s.params, s.stakers.toList, s.vals.toList, s.changes.toList, s.leaves.toList, s.cLow, s.cHigh, s.lLow, s.lHigh⟩

/-- `AddOneToCount` -/
def addCount (m : Map Nat Nat) (p : Nat) : Map Nat Nat := m.set p ((m.get? p).getD 0 + 1)

/-- genesis.go:11-34 `InitGenesis` into an empty store -/
def initGenesis (g : Genesis) : State where
  params := g.params
  stakers := g.stakers.foldl (fun m p => m.set p.1 p.2) ∅
  vals := g.vals.foldl (fun m p => m.set p.1 p.2) ∅
  valIdx := g.vals.foldl (fun m p => m.set (p.1.2, p.1.1) ()) ∅
  counts := g.vals.foldl (fun m p => addCount m p.1.1) ∅
  active := g.vals.foldl (fun m p => addActive m p.1.2) ∅
  changes := g.changes.foldl (fun m p => m.set p.1 p.2) ∅
  changeIdx := g.changes.foldl (fun m p => m.set p.2.staker p.1) ∅
  leaves := g.leaves.foldl (fun m p => m.set p.1 p.2) ∅
  leaveIdx := g.leaves.foldl (fun m p => m.set (p.2.staker, p.2.pool) p.1) ∅
  cLow := g.cLow
  cHigh := g.cHigh
  lLow := g.lLow
  lHigh := g.lHigh
  trace := []
  gifts := Coins.zero

/-! ## C51 -/

theorem checkLeaves_iff (low high : Nat) (fl : List (Nat × Addr)) (l : List (Nat × Leave)) :
    checkLeaves low high fl l = true ↔
      (l.map (fun p => (p.2.pool, p.2.staker))).Nodup ∧ (∀ k, k ∈ l.map (fun p => (p.2.pool, p.2.staker)) ↔ k ∈ fl) ∧
      ∀ p ∈ l, low ≤ p.1 ∧ p.1 ≤ high := by
  induction l generalizing fl with
  | nil =>
    cases fl with
    | nil => simp [checkLeaves]
    | cons x fl =>
      simp only [checkLeaves, List.isEmpty_cons, Bool.false_eq_true, List.map_nil, List.nodup_nil, List.not_mem_nil,
        false_iff, true_and, false_implies, implies_true, and_true]
      intro h
      exact h x (by simp)
  | cons x l ih =>
    obtain ⟨i, e⟩ := x
    simp only [checkLeaves, Bool.and_eq_true, decide_eq_true_eq, ih, List.map_cons, List.nodup_cons, List.mem_cons,
      List.mem_filter]
    constructor
    · rintro ⟨⟨⟨h1, h2⟩, h3⟩, h4, h5, h6⟩
      refine ⟨⟨?_, h4⟩, ?_, ?_⟩
      · intro hx; exact ((h5 _).1 hx).2 rfl
      · intro k
        constructor
        · rintro (rfl | hk)
          · exact h3
          · exact ((h5 k).1 hk).1
        · intro hk
          by_cases c : k = (e.pool, e.staker)
          · exact Or.inl c
          · exact Or.inr ((h5 k).2 ⟨hk, c⟩)
      · rintro p (rfl | hp)
        · exact ⟨h2, h1⟩
        · exact h6 p hp
    · rintro ⟨⟨h1, h2⟩, h3, h4⟩
      have h5 := h4 (i, e) (Or.inl rfl)
      refine ⟨⟨⟨h5.2, h5.1⟩, (h3 _).1 (Or.inl rfl)⟩, h2, ?_, fun p hp => h4 p (Or.inr hp)⟩
      intro k
      constructor
      · intro hk
        exact ⟨(h3 k).1 (Or.inr hk), by rintro rfl; exact h1 hk⟩
      · rintro ⟨hk, hne⟩
        rcases (h3 k).2 hk with c | c
        · exact absurd c hne
        · exact c

/-- what an accepted genesis state satisfies -/
theorem validate_iff (g : Genesis) : g.validate = true ↔
    (g.vals.map (·.1)).Nodup ∧ (g.changes.map (·.1)).Nodup ∧ (∀ p ∈ g.changes, g.cLow ≤ p.1 ∧ p.1 ≤ g.cHigh) ∧
    (g.leaves.map (fun p => (p.2.pool, p.2.staker))).Nodup ∧
    (∀ k, k ∈ g.leaves.map (fun p => (p.2.pool, p.2.staker)) ↔ ∃ v, (k, v) ∈ g.vals ∧ v.leaving = true) ∧
    ∀ p ∈ g.leaves, g.lLow ≤ p.1 ∧ p.1 ≤ g.lHigh := by
  unfold Genesis.validate
  simp only [Bool.and_eq_true, dupFree_nil, List.all_eq_true, decide_eq_true_eq, checkLeaves_iff]
  have hfl : ∀ k, k ∈ (g.vals.filter (fun p => p.2.leaving)).map (·.1) ↔ ∃ v, (k, v) ∈ g.vals ∧ v.leaving = true := by
    intro k
    rw [List.mem_map]
    constructor
    · rintro ⟨⟨k', v⟩, hm, rfl⟩
      rw [List.mem_filter] at hm
      exact ⟨v, hm.1, hm.2⟩
    · rintro ⟨v, h1, h2⟩
      exact ⟨(k, v), List.mem_filter.2 ⟨h1, h2⟩, rfl⟩
  constructor
  · rintro ⟨⟨h1, h2, h3⟩, h4, h5, h6⟩
    exact ⟨h1, h2, fun p hp => ⟨(h3 p hp).2, (h3 p hp).1⟩, h4, fun k => (h5 k).trans (hfl k), h6⟩
  · rintro ⟨h1, h2, h3, h4, h5, h6⟩
    exact ⟨⟨h1, h2, fun p hp => ⟨(h3 p hp).2, (h3 p hp).1⟩⟩, h4, fun k => (h5 k).trans (hfl k).symm, h6⟩

/-- C51 (stakers): validation accepts no two valaccounts of a staker in a pool, no two commission
changes with the same index and no two announcements of the same staker for the same pool; queue indices are in range; the
announcements are exactly those of the members marked as leaving.  Stakers and the indices of announcements are not checked, see
`C67_false_stakers`. -/
theorem C51_stakers (g : Genesis) (h : g.validate = true) :
    (g.vals.map (·.1)).Nodup ∧ (g.changes.map (·.1)).Nodup ∧
    (g.leaves.map (fun p => (p.2.pool, p.2.staker))).Nodup ∧
    (∀ p ∈ g.changes, g.cLow ≤ p.1 ∧ p.1 ≤ g.cHigh) ∧ (∀ p ∈ g.leaves, g.lLow ≤ p.1 ∧ p.1 ≤ g.lHigh) ∧
    (∀ pool st, (∃ i t, (i, (⟨st, pool, t⟩ : Leave)) ∈ g.leaves) ↔ ∃ v, ((pool, st), v) ∈ g.vals ∧ v.leaving = true) := by
  obtain ⟨h1, h2, h3, h4, h5, h6⟩ := (validate_iff g).1 h
  refine ⟨h1, h2, h4, h3, h6, ?_⟩
  intro pool st
  rw [← h5, List.mem_map]
  constructor
  · rintro ⟨i, t, hm⟩; exact ⟨_, hm, rfl⟩
  · rintro ⟨⟨i, e⟩, hm, he⟩
    obtain ⟨est, ep, et⟩ := e
    simp only [Prod.mk.injEq] at he
    rw [he.1, he.2] at hm
    exact ⟨i, et, hm⟩

/-- C67 is false of the stakers module: a genesis file with two entries for the same staker and two announcements with the
same index is accepted. -/
theorem C67_false_stakers : ∃ g : Genesis, g.validate = true ∧ ¬ (g.stakers.map (·.1)).Nodup ∧ ¬ (g.leaves.map (·.1)).Nodup := by
  refine ⟨⟨Params.default, [(1, ⟨0, Coins.zero, 0⟩), (1, ⟨tenPercent, Coins.zero, 0⟩)],
    [((0, 1), ⟨101, 0, true⟩), ((1, 1), ⟨102, 0, true⟩)], [], [(1, ⟨1, 0, 5⟩), (1, ⟨1, 1, 6⟩)], 0, 0, 0, 1⟩, ?_⟩
  decide +kernel

/-! ## C55 -/

/-- a member marked as leaving has announced it -/
def FlagInv (s : State) : Prop :=
  ∀ p st v, s.vals.get? (p, st) = some v → v.leaving = true → s.announcement st p ≠ none

theorem FlagInv.of_eq {s s' : State} (h : FlagInv s) (hv : s'.vals = s.vals)
    (ha : ∀ st p, s'.announcement st p = s.announcement st p) : FlagInv s' := by
  intro p st v; rw [hv, ha]; exact h p st v

theorem FlagInv.setPoints {s : State} (h : FlagInv s) {p : Nat} {st : Addr} {v w : Val}
    (hw : s.vals.get? (p, st) = some w) (hl : v.leaving = w.leaving) : FlagInv (s.setVal p st v) := by
  intro q a u hu hlu
  show s.announcement a q ≠ none
  have hu : (s.vals.set (p, st) v).get? (q, a) = some u := hu
  rw [Map.get?_set] at hu
  split at hu
  · rename_i e
    cases hu; cases e
    exact h _ _ w hw (by rw [← hl]; exact hlu)
  · exact h q a u hu hlu

theorem FlagInv.kick {s : State} (h : FlagInv s) (now p : Nat) (st : Addr) : FlagInv (s.kick now p st) := by
  intro q a u hu hlu
  rw [(kick_same s now p st).announcement]
  rw [kick_vals, Map.get?_del] at hu
  split at hu
  · cases hu
  · exact h q a u hu hlu

theorem FlagInv.step (gov : Addr) {y : Sys} (hy : Reachable gov y) (h : FlagInv y.w.s) (o : Op) (ho : o.ok) :
    FlagInv (Sys.step gov y o).w.s := by
  have hi := hy.inv
  cases o with
  | createStaker a c d =>
    simp only [Sys.step]
    cases hr : createStaker y.w.s a c d with
    | error e => exact h
    | ok s' =>
      unfold createStaker at hr
      split at hr
      · cases hr
      split at hr
      · cases hr
      split at hr
      · cases hr
      cases hr; exact h
  | join ans amt m =>
    simp only [Sys.step, joinStep]
    cases hr : joinPool y.w y.now ans amt m with
    | error e => exact h
    | ok w' =>
      obtain ⟨f1, -⟩ := join_same hi.mem ho hr
      obtain ⟨s1, he, hv⟩ := join_vals hi.mem ho hr
      obtain ⟨-, g2, -, -, -, -, -, -, -, g10, g11, -⟩ := noteGift_same m y.w w'
      have h1 : FlagInv s1 := by
        rcases ensureFreeSlot_ok hi.mem ho he with ⟨-, rfl⟩ | ⟨-, low, -, -, -, rfl⟩
        · exact h
        · exact h.kick _ _ _
      have hs1 := (ensureFreeSlot_same hi.mem ho he).1
      intro q a u hu hlu
      show (noteGift m y.w w').s.announcement a q ≠ none
      rw [announcement_eq g10 g11, f1.announcement]
      have hu : (noteGift m y.w w').s.vals.get? (q, a) = some u := hu
      rw [g2, hv, Map.get?_set] at hu
      split at hu
      · injection hu with hu; rw [← hu] at hlu; cases hlu
      · have := h1 q a u hu hlu
        rw [hs1.announcement] at this; exact this
  | leave a p =>
    simp only [Sys.step]
    cases hr : leavePool y.w.s y.now p a with
    | error e => exact h
    | ok s' =>
      unfold leavePool at hr
      split at hr
      · cases hr
      rename_i v hv
      have hl1 : LInv (y.w.s.setVal p a { v with leaving := true }) y.now := (setVal_same _ _ _ _).lv hi.lv (fun _ _ => rfl)
      obtain ⟨-, -, h3, h4⟩ := orderLeave_ok hl1 hr
      intro q b u hu hlu
      show s'.announcement b q ≠ none
      rw [h3]
      split
      · simp
      · rename_i hne
        have hu : s'.vals.get? (q, b) = some u := hu
        rw [h4] at hu
        have hu : (y.w.s.vals.set (p, a) { v with leaving := true }).get? (q, b) = some u := hu
        rw [Map.get?_set_ne _ _ (by intro x; injection x with x1 x2; exact hne ⟨x2, x1⟩)] at hu
        exact h q b u hu hlu
  | updateCommission a c =>
    simp only [Sys.step]
    cases hr : updateCommission y.w.s y.now a c with
    | error e => exact h
    | ok s' =>
      unfold updateCommission at hr
      split at hr
      · cases hr
      split at hr
      · cases hr
      cases hr; exact h
  | updateMetadata a i v =>
    simp only [Sys.step]
    cases hr : updateMetadata y.w.s a i v with
    | error e => exact h
    | ok s' =>
      unfold updateMetadata at hr
      split at hr
      · cases hr
      split at hr
      · cases hr
      cases hr; exact h
  | claim a c =>
    simp only [Sys.step]
    cases hr : claimRewards y.w a c with
    | error e => exact h
    | ok w' =>
      obtain ⟨-, x, -, -, -, hs⟩ := claim_ok hr
      show FlagInv w'.s
      rw [hs]; exact h
  | updateParams a q =>
    simp only [Sys.step]
    cases hr : updateParams gov y.w.s a q with
    | error e => exact h
    | ok s' =>
      unfold updateParams at hr
      split at hr
      · cases hr
      split at hr
      · cases hr
      cases hr; exact h
  | kick q a => exact h.kick _ _ _
  | incrementPoints q a =>
    simp only [Sys.step, State.incrementPoints]
    cases hv : y.w.s.vals.get? (q, a) with
    | none => exact h
    | some v => exact h.setPoints hv rfl
  | resetPoints q a =>
    simp only [Sys.step, State.resetPoints]
    cases hv : y.w.s.vals.get? (q, a) with
    | none => exact h
    | some v => exact h.setPoints hv rfl
  | increaseRewards a c =>
    simp only [Sys.step]
    cases hr : increaseRewards y.w .pool a c with
    | error e => exact h
    | ok w' =>
      rcases increase_ok hr with ⟨-, rfl⟩ | ⟨x, hx, -, hs⟩
      · exact h
      · show FlagInv w'.s
        rw [hs]; exact h
  | beginBlock dt =>
    obtain ⟨r1, r2, -⟩ := beginBlock_inv (Nat.le_add_right y.now dt) hi.mem hi.ch hi.lv hi.tr hi.rate
    intro q a u hu hlu
    have hu : (beginBlock y.w.s (y.now + dt)).vals.get? (q, a) = some u := hu
    show (beginBlock y.w.s (y.now + dt)).announcement a q ≠ none
    rcases r2.each a q with ⟨e1, e2⟩ | ⟨t, -, -, -, e4⟩
    · rw [e1, announcement_eq r1.leaves r1.leaveIdx]
      rw [e2, r1.vals] at hu
      exact h q a u hu hlu
    · rw [e4] at hu; cases hu
  | external b g => exact h

theorem Reachable.flag {gov : Addr} {y : Sys} (h : Reachable gov y) : FlagInv y.w.s := by
  obtain ⟨p, b, now, ops, hok, rfl⟩ := h
  induction ops using List.reverseRecOn with
  | nil => intro p st v hv; cases hv
  | append_singleton ops o ih =>
    rw [Sys.run_snoc]
    have hok' : ∀ x ∈ ops, x.ok := fun x hx => hok x (by simp [hx])
    exact FlagInv.step gov ⟨p, b, now, ops, hok', rfl⟩ (ih hok') o (hok o (by simp))

/-- a loop that writes entries with distinct keys -/
theorem get?_fold {A K V : Type} [DecidableEq K] [KeyOrd K] (key : A → K) (val : A → V) (l : List A)
    (hn : (l.map key).Nodup) (m : Map K V) (k : K) (v : V) :
    (l.foldl (fun m a => m.set (key a) (val a)) m).get? k = some v ↔
      (∃ a ∈ l, key a = k ∧ val a = v) ∨ ((∀ a ∈ l, key a ≠ k) ∧ m.get? k = some v) := by
  induction l generalizing m with
  | nil => simp
  | cons x l ih =>
    simp only [List.map_cons, List.nodup_cons] at hn
    rw [List.foldl_cons, ih hn.2, Map.get?_set]
    constructor
    · rintro (⟨a, ha, h1⟩ | ⟨h1, h2⟩)
      · exact Or.inl ⟨a, by simp [ha], h1⟩
      · split at h2
        · rename_i e
          injection h2 with h2
          exact Or.inl ⟨x, by simp, e.symm, h2⟩
        · rename_i e
          refine Or.inr ⟨?_, h2⟩
          intro a ha
          rcases List.mem_cons.1 ha with rfl | ha
          · exact fun c => e c.symm
          · exact h1 a ha
    · rintro (⟨a, ha, h1, h2⟩ | ⟨h1, h2⟩)
      · rcases List.mem_cons.1 ha with rfl | ha
        · refine Or.inr ⟨?_, by rw [if_pos h1.symm, h2]⟩
          intro b hb c
          exact hn.1 (List.mem_map.2 ⟨b, hb, c.trans h1.symm⟩)
        · exact Or.inl ⟨a, ha, h1, h2⟩
      · refine Or.inr ⟨fun a ha => h1 a (by simp [ha]), ?_⟩
        rw [if_neg (fun c => h1 x (by simp) c.symm)]; exact h2

/-- two stores with the same entries are the same -/
theorem map_eq_of {K V : Type} [DecidableEq K] [KeyOrd K] {m m' : Map K V}
    (h : ∀ k v, m.get? k = some v ↔ m'.get? k = some v) : m = m' := by
  apply Map.ext
  intro k
  cases h1 : m.get? k with
  | some v => exact ((h k v).1 h1).symm
  | none =>
    cases h2 : m'.get? k with
    | none => rfl
    | some v => rw [(h k v).2 h2] at h1; cases h1

theorem reload {K V : Type} [DecidableEq K] [KeyOrd K] (m : Map K V) : m.toList.foldl (fun m p => m.set p.1 p.2) ∅ = m :=
  Map.ofList_toList m

/-- a secondary index that is rebuilt from the entries -/
theorem reindex {K V J W : Type} [DecidableEq K] [KeyOrd K] [DecidableEq J] [KeyOrd J] (m : Map K V) (idx : Map J W)
    (key : K → V → J) (val : K → V → W)
    (h : ∀ j w, idx.get? j = some w ↔ ∃ k v, m.get? k = some v ∧ key k v = j ∧ val k v = w)
    (hinj : ∀ k v k' v', m.get? k = some v → m.get? k' = some v' → key k v = key k' v' → k = k') :
    m.toList.foldl (fun x p => x.set (key p.1 p.2) (val p.1 p.2)) ∅ = idx := by
  have hn : (m.toList.map (fun p => key p.1 p.2)).Nodup := by
    rw [List.nodup_map_iff_inj_on]
    · rintro ⟨k, v⟩ h1 ⟨k', v'⟩ h2 e
      have h1 := (m.mem_iff k v).1 h1
      have h2 := (m.mem_iff k' v').1 h2
      have := hinj k v k' v' h1 h2 e
      subst this
      rw [h1] at h2; injection h2 with h2; rw [h2]
    · exact List.Nodup.of_map _ m.keys_nodup
  apply map_eq_of
  intro j w
  rw [get?_fold (fun p : K × V => key p.1 p.2) (fun p => val p.1 p.2) _ hn, h]
  constructor
  · rintro (⟨⟨k, v⟩, h1, h2, h3⟩ | ⟨-, h2⟩)
    · exact ⟨k, v, (m.mem_iff k v).1 h1, h2, h3⟩
    · cases h2
  · rintro ⟨k, v, h1, h2, h3⟩
    exact Or.inl ⟨(k, v), (m.mem_iff k v).2 h1, h2, h3⟩

/-- a loop that counts -/
theorem get?_countFold {A : Type} (key : A → Nat) (l : List A) (m : Map Nat Nat) (k : Nat) :
    (l.foldl (fun m a => m.set (key a) ((m.get? (key a)).getD 0 + 1)) m).get? k =
      if (l.filter (fun a => decide (key a = k))).length = 0 then m.get? k
      else some ((m.get? k).getD 0 + (l.filter (fun a => decide (key a = k))).length) := by
  induction l generalizing m with
  | nil => simp
  | cons x l ih =>
    rw [List.foldl_cons, ih, Map.get?_set]
    by_cases e : key x = k
    · rw [List.filter_cons_of_pos (by simpa using e), List.length_cons, e]
      simp only [if_true, Option.getD_some]
      generalize (l.filter (fun a => decide (key a = k))).length = n
      by_cases h0 : n = 0
      · rw [if_pos h0, if_neg (by omega), h0]
      · rw [if_neg h0, if_neg (by omega)]; congr 1; omega
    · rw [List.filter_cons_of_neg (by simpa using e)]
      rw [if_neg (show ¬ k = key x from fun c => e c.symm)]

theorem filter_length_nIn (m : Map (Nat × Addr) Val) (p : Nat) :
    (m.toList.filter (fun a => decide (a.1.1 = p))).length = nIn m p := by
  unfold nIn Map.sum
  generalize m.toList = l
  induction l with
  | nil => rfl
  | cons x l ih =>
    by_cases e : x.1.1 = p
    · rw [List.filter_cons_of_pos (by simpa using e)]
      simp only [List.length_cons, List.map_cons, List.sum_cons, if_pos e, ih]; omega
    · rw [List.filter_cons_of_neg (by simpa using e)]
      simp only [List.map_cons, List.sum_cons, if_neg e, ih]; omega

theorem filter_length_nOf (m : Map (Nat × Addr) Val) (p : Nat) :
    (m.toList.filter (fun a => decide (a.1.2 = p))).length = nOf m p := by
  unfold nOf Map.sum
  generalize m.toList = l
  induction l with
  | nil => rfl
  | cons x l ih =>
    by_cases e : x.1.2 = p
    · rw [List.filter_cons_of_pos (by simpa using e)]
      simp only [List.length_cons, List.map_cons, List.sum_cons, if_pos e, ih]; omega
    · rw [List.filter_cons_of_neg (by simpa using e)]
      simp only [List.map_cons, List.sum_cons, if_neg e, ih]; omega

/-- every waiting announcement is that of a member marked as leaving -/
def NoStale (s : State) : Prop :=
  ∀ st p, s.announcement st p ≠ none → ∃ v, s.vals.get? (p, st) = some v ∧ v.leaving = true

/-- C55 (stakers), the import: the state exported from any reachable state, imported into an empty store, is the same
state: every store is equal, the member counts are the same numbers (a count of zero may be stored or not). -/
theorem C55_stakers_roundtrip (gov : Addr) (y : Sys) (hy : Reachable gov y) :
    let s := y.w.s
    let s' := initGenesis (exportGenesis s)
    s'.stakers = s.stakers ∧ s'.vals = s.vals ∧ s'.valIdx = s.valIdx ∧ (∀ p, s'.count p = s.count p) ∧
    s'.active = s.active ∧ s'.changes = s.changes ∧ s'.changeIdx = s.changeIdx ∧ s'.leaves = s.leaves ∧
    s'.leaveIdx = s.leaveIdx ∧ s'.cLow = s.cLow ∧ s'.cHigh = s.cHigh ∧ s'.lLow = s.lLow ∧ s'.lHigh = s.lHigh ∧
    s'.params = s.params := by
  have h := hy.inv
  refine ⟨reload _, reload _, ?_, ?_, ?_, reload _, ?_, reload _, ?_, rfl, rfl, rfl, rfl, rfl⟩
  · refine reindex y.w.s.vals y.w.s.valIdx (fun k _ => (k.2, k.1)) (fun _ _ => ()) ?_ ?_
    · rintro ⟨a, p⟩ u
      constructor
      · intro hg
        have h1 : y.w.s.valIdx.has (a, p) = true := (has_iff _ _).2 ⟨u, hg⟩
        rw [h.mem.idx, has_iff] at h1
        obtain ⟨v, hv⟩ := h1
        exact ⟨(p, a), v, hv, rfl, rfl⟩
      · rintro ⟨⟨q, b⟩, v, hv, h1, -⟩
        injection h1 with h1 h2
        simp only at h1 h2
        subst h1; subst h2
        have h3 : y.w.s.vals.has (q, b) = true := (has_iff _ _).2 ⟨v, hv⟩
        rw [← h.mem.idx, has_iff] at h3
        obtain ⟨u', hu'⟩ := h3
        exact hu'
    · rintro ⟨q, b⟩ v ⟨q', b'⟩ v' - - e
      injection e with e1 e2
      simp only at e1 e2
      rw [e1, e2]
  · intro p
    show ((y.w.s.vals.toList.foldl (fun (m : Map Nat Nat) a => m.set a.1.1 ((m.get? a.1.1).getD 0 + 1)) ∅).get? p).getD 0 = _
    rw [get?_countFold (fun a : (Nat × Addr) × Val => a.1.1), filter_length_nIn, h.mem.cnt]
    split
    · rename_i e; rw [e]; rfl
    · show (((∅ : Map Nat Nat).get? p).getD 0 + _) = _
      simp
  · apply Map.ext
    intro st
    show (y.w.s.vals.toList.foldl (fun (m : Map Nat Nat) a => m.set a.1.2 ((m.get? a.1.2).getD 0 + 1)) ∅).get? st = _
    rw [get?_countFold (fun a : (Nat × Addr) × Val => a.1.2), filter_length_nOf, h.mem.act]
    split
    · rfl
    · simp
  · refine reindex y.w.s.changes y.w.s.changeIdx (fun _ e => e.staker) (fun i _ => i) ?_ ?_
    · intro st i
      rw [h.ch.idx]
      constructor
      · rintro ⟨e, he, hs⟩; exact ⟨i, e, he, hs, rfl⟩
      · rintro ⟨j, e, he, hs, rfl⟩; exact ⟨e, he, hs⟩
    · intro i e j e' h1 h2 h3
      exact h.ch.unique h1 h2 h3
  · refine reindex y.w.s.leaves y.w.s.leaveIdx (fun _ e => (e.staker, e.pool)) (fun i _ => i) ?_ ?_
    · rintro ⟨st, p⟩ i
      rw [h.lv.idx]
      constructor
      · rintro ⟨e, he, h1, h2⟩; exact ⟨i, e, he, by rw [h1, h2], rfl⟩
      · rintro ⟨j, e, he, hs, rfl⟩
        injection hs with h1 h2
        exact ⟨e, he, h1, h2⟩
    · intro i e j e' h1 h2 h3
      injection h3 with h3 h4
      exact h.lv.unique h1 h2 h3 h4

/-- C68 (stakers), the part that holds: the genesis exported from a reachable state passes validation if and
only if every waiting announcement is that of a current member marked as leaving.  Missing: the other states, see
`C68_false_stakers`. -/
theorem C68_stakers_partial (gov : Addr) (y : Sys) (hy : Reachable gov y) :
    (exportGenesis y.w.s).validate = true ↔ NoStale y.w.s := by
  have h := hy.inv
  have hf := hy.flag
  rw [validate_iff]
  constructor
  · rintro ⟨-, -, -, -, h5, -⟩ st p hne
    cases ha : y.w.s.announcement st p with
    | none => exact absurd ha hne
    | some t =>
      obtain ⟨i, hi⟩ := h.lv.of_announcement ha
      obtain ⟨v, h1, h2⟩ := (h5 (p, st)).1 (List.mem_map.2 ⟨(i, ⟨st, p, t⟩), (Map.mem_iff _ _ _).2 hi, rfl⟩)
      exact ⟨v, (Map.mem_iff _ _ _).1 h1, h2⟩
  · intro hs
    refine ⟨Map.keys_nodup _, Map.keys_nodup _, ?_, ?_, ?_, ?_⟩
    · rintro ⟨i, e⟩ hm
      have := h.ch.range i e ((Map.mem_iff _ _ _).1 hm)
      exact ⟨le_of_lt this.1, this.2⟩
    · show (y.w.s.leaves.toList.map _).Nodup
      rw [List.nodup_map_iff_inj_on]
      · rintro ⟨i, e⟩ h1 ⟨j, e'⟩ h2 he
        have h1 := (Map.mem_iff _ _ _).1 h1
        have h2 := (Map.mem_iff _ _ _).1 h2
        simp only [Prod.mk.injEq] at he
        have := h.lv.unique h1 h2 he.2 he.1
        subst this
        rw [h1] at h2; injection h2 with h2; rw [h2]
      · exact List.Nodup.of_map _ y.w.s.leaves.keys_nodup
    · rintro ⟨p, st⟩
      constructor
      · intro hm
        obtain ⟨⟨i, e⟩, h1, h2⟩ := List.mem_map.1 hm
        injection h2 with h2 h3
        simp only at h2 h3
        have ha := h.lv.announcement_some ((Map.mem_iff _ _ _).1 h1)
        rw [h2, h3] at ha
        obtain ⟨v, h4, h5⟩ := hs st p (by rw [ha]; simp)
        exact ⟨v, (Map.mem_iff _ _ _).2 h4, h5⟩
      · rintro ⟨v, h1, h2⟩
        have hne := hf p st v ((Map.mem_iff _ _ _).1 h1) h2
        cases ha : y.w.s.announcement st p with
        | none => exact absurd ha hne
        | some t =>
          obtain ⟨i, hi⟩ := h.lv.of_announcement ha
          exact List.mem_map.2 ⟨(i, ⟨st, p, t⟩), (Map.mem_iff _ _ _).2 hi, rfl⟩
    · rintro ⟨i, e⟩ hm
      have := h.lv.range i e ((Map.mem_iff _ _ _).1 hm)
      exact ⟨le_of_lt this.1, this.2⟩

/-- C68 is false of the stakers module: once a staker that announced leaving is kicked, the exported genesis does not pass
validation until the leave time is over. -/
theorem C68_false_stakers : ∃ y, Reachable 99 y ∧ (exportGenesis y.w.s).validate = false := by
  refine ⟨Sys.run 99 exInit [.createStaker 1 0 true, exJoin 1 0 101, .leave 1 0, .kick 0 1], reach ?_, ?_⟩
  · intro o ho
    simp only [List.mem_cons, List.not_mem_nil, or_false] at ho
    rcases ho with rfl | rfl | rfl | rfl <;> first | exact trivial | exact exAmt_lt
  · decide +kernel

/-- the other direction is not empty: a state with a pending commission change, a reward and an announcement -/
example : (exportGenesis exSys.w.s).validate = true := by decide +kernel

end Verif.Stakers
