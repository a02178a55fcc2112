import Verif.Stakers.Mem
import Verif.Stakers.Spec

/-!
# The commission queue and the leave queue (proofs)
-/

namespace Verif.Stakers
open Verif

/-! ## the commission queue -/

structure CInv (s : State) (now : Nat) : Prop where
  idx : ∀ st i, s.changeIdx.get? st = some i ↔ ∃ e, s.changes.get? i = some e ∧ e.staker = st
  range : ∀ i e, s.changes.get? i = some e → s.cLow < i ∧ i ≤ s.cHigh
  mono : ∀ i j e e', s.changes.get? i = some e → s.changes.get? j = some e' → i ≤ j → e.creation ≤ e'.creation
  past : ∀ i e, s.changes.get? i = some e → e.creation ≤ now
  rate : ∀ i e, s.changes.get? i = some e → e.commission ≤ Dec.one
  exist : ∀ i e, s.changes.get? i = some e → s.stakers.has e.staker = true
  le : s.cLow ≤ s.cHigh
  log : ∀ st, s.pending st = lastOrder s.trace st

theorem pending_eq {s s' : State} (hc : s'.changes = s.changes) (hi : s'.changeIdx = s.changeIdx) (st : Addr) :
    s'.pending st = s.pending st := by
  unfold State.pending; rw [hc, hi]

theorem CInv.of_eq {s s' : State} {now now' : Nat} (h : CInv s now) (hn : now ≤ now') (hc : s'.changes = s.changes)
    (hi : s'.changeIdx = s.changeIdx) (hl : s'.cLow = s.cLow) (hh : s'.cHigh = s.cHigh)
    (hs : ∀ st, s.stakers.has st = true → s'.stakers.has st = true)
    (ht : ∀ st, lastOrder s'.trace st = lastOrder s.trace st) : CInv s' now' := by
  refine ⟨?_, ?_, ?_, ?_, ?_, ?_, ?_, ?_⟩
  · intro st i; rw [hi, hc]; exact h.idx st i
  · intro i e; rw [hc, hl, hh]; exact h.range i e
  · intro i j e e'; rw [hc]; exact h.mono i j e e'
  · intro i e; rw [hc]; intro he; exact le_trans (h.past i e he) hn
  · intro i e; rw [hc]; exact h.rate i e
  · intro i e; rw [hc]; intro he; exact hs _ (h.exist i e he)
  · rw [hl, hh]; exact h.le
  · intro st; rw [pending_eq hc hi, ht]; exact h.log st

theorem CInv.pending_some {s : State} {now : Nat} (h : CInv s now) {i : Nat} {e : Change}
    (he : s.changes.get? i = some e) : s.pending e.staker = some (e.commission, e.creation) := by
  unfold State.pending
  rw [(h.idx e.staker i).2 ⟨e, he, rfl⟩]
  show (s.changes.get? i).map _ = _
  rw [he]; rfl

theorem CInv.of_pending {s : State} {now : Nat} (h : CInv s now) {st : Addr} {c : Dec} {t : Nat}
    (hp : s.pending st = some (c, t)) : ∃ i, s.changes.get? i = some ⟨st, c, t⟩ := by
  unfold State.pending at hp
  cases hi : s.changeIdx.get? st with
  | none => rw [hi] at hp; cases hp
  | some i =>
    rw [hi] at hp
    obtain ⟨e, he, hst⟩ := (h.idx st i).1 hi
    have hp : (s.changes.get? i).map (fun e => (e.commission, e.creation)) = some (c, t) := hp
    rw [he] at hp
    simp only [Option.map_some, Option.some.injEq, Prod.mk.injEq] at hp
    refine ⟨i, ?_⟩
    rw [he, ← hst, ← hp.1, ← hp.2]

theorem CInv.unique {s : State} {now : Nat} (h : CInv s now) {i j : Nat} {e e' : Change}
    (he : s.changes.get? i = some e) (he' : s.changes.get? j = some e') (hst : e.staker = e'.staker) : i = j := by
  have h1 := (h.idx e.staker i).2 ⟨e, he, rfl⟩
  have h2 := (h.idx e.staker j).2 ⟨e', he', hst.symm⟩
  rw [h1] at h2; exact Option.some.inj h2

/-- ordering a change -/
theorem orderChange_get {s : State} {now : Nat} (h : CInv s now) (st : Addr) (c : Dec) (i : Nat) (e : Change) :
    (s.orderChange now st c).changes.get? i = some e ↔
      (i = s.cHigh + 1 ∧ e = ⟨st, c, now⟩) ∨ (s.changes.get? i = some e ∧ e.staker ≠ st) := by
  have hnew : s.changes.get? (s.cHigh + 1) = none := by
    cases hx : s.changes.get? (s.cHigh + 1) with
    | none => rfl
    | some x => have := (h.range _ _ hx).2; omega
  unfold State.orderChange
  simp only
  rw [Map.get?_set]
  constructor
  · intro hg
    split at hg
    · rename_i e1
      exact Or.inl ⟨e1, by injection hg with hg; exact hg.symm⟩
    · cases hi : s.changeIdx.get? st with
      | none =>
        rw [hi] at hg
        simp only at hg
        refine Or.inr ⟨hg, ?_⟩
        intro hst
        have := (h.idx st i).2 ⟨e, hg, hst⟩
        rw [hi] at this; cases this
      | some j =>
        rw [hi] at hg
        simp only at hg
        rw [Map.get?_del] at hg
        split at hg
        · cases hg
        · rename_i hne
          refine Or.inr ⟨hg, ?_⟩
          intro hst
          have := (h.idx st i).2 ⟨e, hg, hst⟩
          rw [hi] at this
          exact hne (Option.some.inj this).symm
  · rintro (⟨e1, e2⟩ | ⟨hg, hne⟩)
    · rw [if_pos e1, e2]
    · have hne' : i ≠ s.cHigh + 1 := by rintro rfl; rw [hnew] at hg; cases hg
      rw [if_neg hne']
      cases hi : s.changeIdx.get? st with
      | none => exact hg
      | some j =>
        simp only
        obtain ⟨e', he', hst'⟩ := (h.idx st j).1 hi
        have : i ≠ j := by
          rintro rfl; rw [hg] at he'; cases he'; exact hne hst'
        rw [Map.get?_del_ne _ this]; exact hg

theorem orderChange_pending {s : State} {now : Nat} (h : CInv s now) (st : Addr) (c : Dec) (a : Addr) :
    (s.orderChange now st c).pending a = if a = st then some (c, now) else s.pending a := by
  have hI : (s.orderChange now st c).changeIdx = s.changeIdx.set st (s.cHigh + 1) := rfl
  unfold State.pending
  rw [hI]
  by_cases e : a = st
  · subst e
    rw [if_pos rfl, Map.get?_set_self]
    show ((s.orderChange now a c).changes.get? (s.cHigh + 1)).map _ = _
    rw [(orderChange_get h a c _ ⟨a, c, now⟩).2 (Or.inl ⟨rfl, rfl⟩)]; rfl
  · rw [if_neg e, Map.get?_set_ne _ _ e]
    cases hi : s.changeIdx.get? a with
    | none => rfl
    | some i =>
      obtain ⟨x, hx, hst⟩ := (h.idx a i).1 hi
      show ((s.orderChange now st c).changes.get? i).map _ = (s.changes.get? i).map _
      rw [hx, (orderChange_get h st c i x).2 (Or.inr ⟨hx, by rw [hst]; exact e⟩)]

theorem CInv.order {s : State} {now : Nat} (h : CInv s now) {st : Addr} {c : Dec} (hst : s.stakers.has st = true)
    (hc : c ≤ Dec.one) : CInv (s.orderChange now st c) now := by
  have hI : (s.orderChange now st c).changeIdx = s.changeIdx.set st (s.cHigh + 1) := rfl
  refine ⟨?_, ?_, ?_, ?_, ?_, ?_, ?_, ?_⟩
  · intro a i
    rw [hI, Map.get?_set]
    constructor
    · intro hg
      split at hg
      · rename_i e
        injection hg with hg
        exact ⟨⟨st, c, now⟩, (orderChange_get h st c i _).2 (Or.inl ⟨hg.symm, rfl⟩), e.symm⟩
      · rename_i hne
        obtain ⟨e, he, hs⟩ := (h.idx a i).1 hg
        exact ⟨e, (orderChange_get h st c i e).2 (Or.inr ⟨he, by rw [hs]; exact hne⟩), hs⟩
    · rintro ⟨e, he, hs⟩
      rcases (orderChange_get h st c i e).1 he with ⟨h1, h2⟩ | ⟨h1, h2⟩
      · rw [if_pos (by rw [← hs, h2]), h1]
      · rw [if_neg (by rw [← hs]; exact h2)]
        exact (h.idx a i).2 ⟨e, h1, hs⟩
  · intro i e he
    show s.cLow < i ∧ i ≤ s.cHigh + 1
    have := h.le
    rcases (orderChange_get h st c i e).1 he with ⟨h1, -⟩ | ⟨h1, -⟩
    · omega
    · have := h.range i e h1; omega
  · intro i j e e' he he' hij
    rcases (orderChange_get h st c i e).1 he with ⟨h1, h2⟩ | ⟨h1, -⟩
    · rcases (orderChange_get h st c j e').1 he' with ⟨h3, h4⟩ | ⟨h3, -⟩
      · rw [h2, h4]
      · have := h.range j e' h3; omega
    · rcases (orderChange_get h st c j e').1 he' with ⟨h3, h4⟩ | ⟨h3, -⟩
      · rw [h4]; exact h.past i e h1
      · exact h.mono i j e e' h1 h3 hij
  · intro i e he
    rcases (orderChange_get h st c i e).1 he with ⟨-, h2⟩ | ⟨h1, -⟩
    · rw [h2]
    · exact h.past i e h1
  · intro i e he
    rcases (orderChange_get h st c i e).1 he with ⟨-, h2⟩ | ⟨h1, -⟩
    · rw [h2]; exact hc
    · exact h.rate i e h1
  · intro i e he
    show s.stakers.has e.staker = true
    rcases (orderChange_get h st c i e).1 he with ⟨-, h2⟩ | ⟨h1, -⟩
    · rw [h2]; exact hst
    · exact h.exist i e h1
  · show s.cLow ≤ s.cHigh + 1
    have := h.le; omega
  · intro a
    rw [orderChange_pending h]
    show _ = if st = a then some (c, now) else lastOrder s.trace a
    by_cases e : a = st
    · rw [if_pos e, if_pos e.symm]
    · rw [if_neg e, if_neg (fun x => e x.symm)]; exact h.log a

/-- what applying one due change does -/
theorem CInv.applied {s : State} {now : Nat} (h : CInv s now) {e : Change}
    (he : s.changes.get? (s.cLow + 1) = some e) :
    CInv { s.applyChange now (s.cLow + 1) e with cLow := s.cLow + 1 } now ∧
    ∀ st, (s.applyChange now (s.cLow + 1) e).pending st = if st = e.staker then none else s.pending st := by
  have hC : (s.applyChange now (s.cLow + 1) e).changes = s.changes.del (s.cLow + 1) := rfl
  have hI : (s.applyChange now (s.cLow + 1) e).changeIdx = s.changeIdx.del e.staker := rfl
  have hget : ∀ i x, (s.changes.del (s.cLow + 1)).get? i = some x ↔ s.changes.get? i = some x ∧ i ≠ s.cLow + 1 := by
    intro i x; rw [Map.get?_del]
    by_cases c : i = s.cLow + 1
    · rw [if_pos c]; simp [c]
    · rw [if_neg c]; simp [c]
  have hpend : ∀ st, (s.applyChange now (s.cLow + 1) e).pending st = if st = e.staker then none else s.pending st := by
    intro st
    unfold State.pending
    rw [hC, hI]
    by_cases c : st = e.staker
    · rw [if_pos c, c, Map.get?_del_self]; rfl
    · rw [if_neg c, Map.get?_del_ne _ c]
      cases hi : s.changeIdx.get? st with
      | none => rfl
      | some i =>
        obtain ⟨x, hx, hst⟩ := (h.idx st i).1 hi
        show ((s.changes.del (s.cLow + 1)).get? i).map _ = (s.changes.get? i).map _
        rw [hx, (hget i x).2 ⟨hx, ?_⟩]
        rintro rfl
        rw [he] at hx; cases hx; exact c hst.symm
  refine ⟨⟨?_, ?_, ?_, ?_, ?_, ?_, ?_, ?_⟩, hpend⟩
  · intro st i
    show (s.changeIdx.del e.staker).get? st = some i ↔ ∃ x, (s.changes.del (s.cLow + 1)).get? i = some x ∧ x.staker = st
    rw [Map.get?_del]
    constructor
    · intro hg
      split at hg
      · cases hg
      · rename_i c
        obtain ⟨x, hx, hst⟩ := (h.idx st i).1 hg
        refine ⟨x, (hget i x).2 ⟨hx, ?_⟩, hst⟩
        rintro rfl
        rw [he] at hx; cases hx; exact c hst.symm
    · rintro ⟨x, hx, hst⟩
      obtain ⟨h1, h2⟩ := (hget i x).1 hx
      rw [if_neg, (h.idx st i).2 ⟨x, h1, hst⟩]
      intro c
      exact h2 (h.unique h1 he (by rw [hst, c]))
  · intro i x hx
    show s.cLow + 1 < i ∧ i ≤ s.cHigh
    obtain ⟨h1, h2⟩ := (hget i x).1 hx
    have := h.range i x h1; omega
  · intro i j x x' hx hx' hij
    exact h.mono i j x x' ((hget i x).1 hx).1 ((hget j x').1 hx').1 hij
  · intro i x hx; exact h.past i x ((hget i x).1 hx).1
  · intro i x hx; exact h.rate i x ((hget i x).1 hx).1
  · intro i x hx
    show (match s.stakers.get? e.staker with
      | some y => s.stakers.set e.staker { y with commission := e.commission }
      | none => s.stakers).has x.staker = true
    have := h.exist i x ((hget i x).1 hx).1
    split
    · rw [has_set, this]; simp
    · exact this
  · show s.cLow + 1 ≤ s.cHigh
    have := h.range _ _ he; omega
  · intro st
    show (s.applyChange now (s.cLow + 1) e).pending st = if e.staker = st then none else lastOrder s.trace st
    rw [hpend]
    by_cases c : st = e.staker
    · rw [if_pos c, if_pos c.symm]
    · rw [if_neg c, if_neg (fun x => c x.symm)]; exact h.log st

/-- one round or several of the commission queue -/
structure CRel (now : Nat) (s s' : State) : Prop where
  inv : CInv s' now
  each : ∀ st, (s'.pending st = s.pending st ∧ s'.rate st = s.rate st) ∨
    ∃ c t, s.pending st = some (c, t) ∧ due t s.params.commissionChangeTime now = true ∧ s'.pending st = none ∧
      s'.rate st = some c
  vals : s'.vals = s.vals
  valIdx : s'.valIdx = s.valIdx
  counts : s'.counts = s.counts
  active : s'.active = s.active
  leaves : s'.leaves = s.leaves
  leaveIdx : s'.leaveIdx = s.leaveIdx
  lLow : s'.lLow = s.lLow
  lHigh : s'.lHigh = s.lHigh
  params : s'.params = s.params
  gifts : s'.gifts = s.gifts
  cHigh : s'.cHigh = s.cHigh
  has : ∀ st, s'.stakers.has st = s.stakers.has st
  rest : ∀ st, (s'.stakers.get? st).map (fun x => (x.rewards, x.info)) = (s.stakers.get? st).map (fun x => (x.rewards, x.info))
  total : ∀ d, s'.totalUnclaimed d = s.totalUnclaimed d
  rates : (∀ st x, s.stakers.get? st = some x → x.commission ≤ Dec.one) →
    ∀ st x, s'.stakers.get? st = some x → x.commission ≤ Dec.one
  trace : Consistent s.trace → Consistent s'.trace
  isMember : ∀ st p, Stakers.isMember s'.trace st p = Stakers.isMember s.trace st p
  announce : ∀ st p, lastAnnounce s'.trace st p = lastAnnounce s.trace st p

theorem CRel.refl {now : Nat} {s : State} (h : CInv s now) : CRel now s s :=
  ⟨h, fun _ => Or.inl ⟨rfl, rfl⟩, rfl, rfl, rfl, rfl, rfl, rfl, rfl, rfl, rfl, rfl, rfl, fun _ => rfl, fun _ => rfl,
    fun _ => rfl, fun h => h, fun h => h, fun _ _ => rfl, fun _ _ => rfl⟩

theorem CRel.trans {now : Nat} {s s' s'' : State} (h : CRel now s s') (h' : CRel now s' s'') : CRel now s s'' := by
  refine ⟨h'.inv, ?_, h'.vals.trans h.vals, h'.valIdx.trans h.valIdx, h'.counts.trans h.counts,
    h'.active.trans h.active, h'.leaves.trans h.leaves, h'.leaveIdx.trans h.leaveIdx, h'.lLow.trans h.lLow,
    h'.lHigh.trans h.lHigh, h'.params.trans h.params, h'.gifts.trans h.gifts, h'.cHigh.trans h.cHigh,
    fun st => (h'.has st).trans (h.has st), fun st => (h'.rest st).trans (h.rest st),
    fun d => (h'.total d).trans (h.total d), fun hh => h'.rates (h.rates hh), fun hh => h'.trace (h.trace hh),
    fun st p => (h'.isMember st p).trans (h.isMember st p), fun st p => (h'.announce st p).trans (h.announce st p)⟩
  intro st
  rcases h.each st with ⟨e1, e2⟩ | ⟨c, t, e1, e2, e3, e4⟩
  · rcases h'.each st with ⟨e5, e6⟩ | ⟨c, t, e5, e6, e7, e8⟩
    · exact Or.inl ⟨e5.trans e1, e6.trans e2⟩
    · exact Or.inr ⟨c, t, by rw [← e1]; exact e5, by rw [← h.params]; exact e6, e7, e8⟩
  · rcases h'.each st with ⟨e5, e6⟩ | ⟨c', t', e5, -⟩
    · exact Or.inr ⟨c, t, e1, e2, e5.trans e3, e6.trans e4⟩
    · rw [e3] at e5; cases e5

theorem changeRound_rel {s : State} {now : Nat} (h : CInv s now) : CRel now s (changeRound s now).1 := by
  unfold changeRound
  cases hg : s.changes.get? (s.cLow + 1) with
  | none =>
    simp only
    split
    · rename_i hlt
      refine ⟨⟨h.idx, ?_, h.mono, h.past, h.rate, h.exist, hlt, h.log⟩, fun _ => Or.inl ⟨rfl, rfl⟩, rfl, rfl, rfl, rfl,
        rfl, rfl, rfl, rfl, rfl, rfl, rfl, fun _ => rfl, fun _ => rfl, fun _ => rfl, fun h => h, fun h => h,
        fun _ _ => rfl, fun _ _ => rfl⟩
      intro i e he
      show s.cLow + 1 < i ∧ i ≤ s.cHigh
      have := h.range i e he
      have : i ≠ s.cLow + 1 := by rintro rfl; rw [hg] at he; cases he
      omega
    · exact CRel.refl h
  | some e =>
    simp only
    split
    · rename_i hdue
      have hlt : s.cLow < s.cHigh := by have := h.range _ _ hg; omega
      rw [if_pos hlt]
      obtain ⟨hinv, hp⟩ := h.applied hg
      have hex := h.exist _ _ hg
      obtain ⟨x, hx⟩ := (has_iff _ _).1 hex
      have hS : (s.applyChange now (s.cLow + 1) e).stakers = s.stakers.set e.staker { x with commission := e.commission } := by
        unfold State.applyChange; simp only [hx]
      refine ⟨hinv, ?_, rfl, rfl, rfl, rfl, rfl, rfl, rfl, rfl, rfl, rfl, rfl, ?_, ?_, ?_, ?_, ?_, fun _ _ => rfl, fun _ _ => rfl⟩
      · intro st
        have hp' := hp st
        by_cases c : st = e.staker
        · right
          refine ⟨e.commission, e.creation, by rw [c]; exact h.pending_some hg, hdue, ?_, ?_⟩
          · show (s.applyChange now (s.cLow + 1) e).pending st = none
            rw [hp', if_pos c]
          · show ((s.applyChange now (s.cLow + 1) e).stakers.get? st).map (·.commission) = some e.commission
            rw [hS, c, Map.get?_set_self]; rfl
        · left
          refine ⟨?_, ?_⟩
          · show (s.applyChange now (s.cLow + 1) e).pending st = _
            rw [hp', if_neg c]
          · show ((s.applyChange now (s.cLow + 1) e).stakers.get? st).map (·.commission) = _
            rw [hS, Map.get?_set_ne _ _ c]; rfl
      · intro st
        show (s.applyChange now (s.cLow + 1) e).stakers.has st = _
        rw [hS, has_set]
        by_cases c : st = e.staker
        · rw [c, hex]; simp
        · simp [c]
      · intro st
        show ((s.applyChange now (s.cLow + 1) e).stakers.get? st).map _ = _
        rw [hS, Map.get?_set]
        by_cases c : st = e.staker
        · rw [if_pos c, c, hx]; rfl
        · rw [if_neg c]
      · intro d
        show (s.applyChange now (s.cLow + 1) e).stakers.sum (fun _ y => y.rewards.amt d) = s.stakers.sum (fun _ y => y.rewards.amt d)
        rw [hS]
        have := s.stakers.sum_set (fun _ y => y.rewards.amt d) e.staker { x with commission := e.commission }
        unfold Map.at' at this
        rw [hx] at this
        exact Nat.add_right_cancel this
      · intro hr st y
        show (s.applyChange now (s.cLow + 1) e).stakers.get? st = some y → _
        rw [hS, Map.get?_set]
        intro hy
        split at hy
        · injection hy with hy; rw [← hy]; exact h.rate _ _ hg
        · exact hr st y hy
      · intro ht
        refine ⟨⟨e.creation, ?_, hdue⟩, ht⟩
        rw [← h.log]; exact h.pending_some hg
    · exact CRel.refl h

/-- when the loop goes on -/
theorem changeRound_more {s : State} {now : Nat} (hm : (changeRound s now).2 = true) :
    s.cLow < s.cHigh ∧ (changeRound s now).1.cLow = s.cLow + 1 := by
  unfold changeRound at hm ⊢
  cases hg : s.changes.get? (s.cLow + 1) with
  | none =>
    rw [hg] at hm
    simp only at hm ⊢
    split
    · rename_i h; exact ⟨h, rfl⟩
    · rename_i h; rw [if_neg h] at hm; cases hm
  | some e =>
    rw [hg] at hm
    simp only at hm ⊢
    split
    · rename_i hd
      rw [if_pos hd] at hm
      split
      · rename_i h; exact ⟨h, rfl⟩
      · rename_i h; rw [if_neg h] at hm; cases hm
    · rename_i hd; rw [if_neg hd] at hm; cases hm

/-- when the loop stops there is nothing left in the queue or its first entry is not due -/
theorem changeRound_stop {s : State} {now : Nat} (h : CInv s now) (hm : (changeRound s now).2 = false) :
    (changeRound s now).1 = s ∧ ((∀ i, s.changes.get? i = none) ∨
      ∃ e, s.changes.get? (s.cLow + 1) = some e ∧ due e.creation s.params.commissionChangeTime now = false) := by
  unfold changeRound at hm ⊢
  cases hg : s.changes.get? (s.cLow + 1) with
  | none =>
    rw [hg] at hm
    simp only at hm ⊢
    split
    · rename_i hlt; rw [if_pos hlt] at hm; cases hm
    · rename_i hlt
      refine ⟨rfl, Or.inl ?_⟩
      intro i
      cases hx : s.changes.get? i with
      | none => rfl
      | some e => have := h.range i e hx; omega
  | some e =>
    rw [hg] at hm
    simp only at hm ⊢
    split
    · rename_i hd
      rw [if_pos hd] at hm
      have hlt : s.cLow < s.cHigh := by have := h.range _ _ hg; omega
      rw [if_pos hlt] at hm; cases hm
    · rename_i hd
      exact ⟨rfl, Or.inr ⟨e, rfl, by simpa using hd⟩⟩

theorem changeLoop_rel {now : Nat} (fuel : Nat) {s : State} (h : CInv s now) (hf : s.cHigh - s.cLow < fuel) :
    CRel now s (changeLoop now fuel s) ∧
    ((∀ i, (changeLoop now fuel s).changes.get? i = none) ∨
      ∃ e, (changeLoop now fuel s).changes.get? ((changeLoop now fuel s).cLow + 1) = some e ∧
        due e.creation s.params.commissionChangeTime now = false) := by
  induction fuel generalizing s with
  | zero => omega
  | succ f ih =>
    have hr := changeRound_rel h
    unfold changeLoop
    by_cases hm : (changeRound s now).2 = true
    · rw [if_pos hm]
      obtain ⟨h1, h2⟩ := changeRound_more hm
      obtain ⟨h3, h4⟩ := ih hr.inv (by rw [h2, hr.cHigh]; omega)
      refine ⟨hr.trans h3, ?_⟩
      rw [hr.params] at h4
      exact h4
    · rw [if_neg hm]
      have hm' : (changeRound s now).2 = false := by simpa using hm
      obtain ⟨h1, h2⟩ := changeRound_stop h hm'
      rw [h1]
      exact ⟨CRel.refl h, h2⟩

theorem processChanges_rel {s : State} {now : Nat} (h : CInv s now) : CRel now s (processChanges s now) :=
  (changeLoop_rel (s.cHigh - s.cLow + 1) h (Nat.lt_succ_self _)).1

/-- `int64` arithmetic is exact here -/
theorem due_iff {t delay now : Nat} (h : t + delay < 2 ^ 63) : due t delay now = true ↔ t + delay ≤ now := by
  have e : (t + delay) % twoPow64 = t + delay := Nat.mod_eq_of_lt (lt_trans h (by unfold twoPow64; norm_num))
  unfold due
  rw [e]
  simp only [decide_eq_true_eq]
  constructor
  · rintro (x | x)
    · exact absurd h (not_lt.2 x)
    · exact x
  · intro x; exact Or.inr x

/-- after the commission queue was processed nothing in it is due -/
theorem processChanges_done {s : State} {now : Nat} (h : CInv s now)
    (hov : now + s.params.commissionChangeTime < 2 ^ 63) {i : Nat} {e : Change}
    (he : (processChanges s now).changes.get? i = some e) :
    due e.creation s.params.commissionChangeTime now = false := by
  obtain ⟨hr, hs⟩ := changeLoop_rel (s.cHigh - s.cLow + 1) h (Nat.lt_succ_self _)
  have hI := hr.inv
  change CInv (processChanges s now) now at hI
  change _ ∨ ∃ e, (processChanges s now).changes.get? ((processChanges s now).cLow + 1) = some e ∧ _ at hs
  rcases hs with hs | ⟨x, hx, hd⟩
  · have := hs i
    change (processChanges s now).changes.get? i = none at this
    rw [this] at he; cases he
  · have h1 := (hI.range i e he).1
    have h2 := hI.mono _ _ _ _ hx he h1
    have h3 := hI.past i e he
    have h4 := hI.past _ x hx
    cases hde : due e.creation s.params.commissionChangeTime now with
    | false => rfl
    | true =>
      exfalso
      rw [due_iff (lt_of_le_of_lt (Nat.add_le_add_right h3 _) hov)] at hde
      have : due x.creation s.params.commissionChangeTime now = true := by
        rw [due_iff (lt_of_le_of_lt (Nat.add_le_add_right h4 _) hov)]
        omega
      rw [this] at hd; cases hd

end Verif.Stakers
