import Verif.Stakers.Queue

/-!
# The leave queue (proofs)
-/

namespace Verif.Stakers
open Verif

structure LInv (s : State) (now : Nat) : Prop where
  idx : ∀ st p i, s.leaveIdx.get? (st, p) = some i ↔ ∃ e, s.leaves.get? i = some e ∧ e.staker = st ∧ e.pool = p
  range : ∀ i e, s.leaves.get? i = some e → s.lLow < i ∧ i ≤ s.lHigh
  mono : ∀ i j e e', s.leaves.get? i = some e → s.leaves.get? j = some e' → i ≤ j → e.creation ≤ e'.creation
  past : ∀ i e, s.leaves.get? i = some e → e.creation ≤ now
  le : s.lLow ≤ s.lHigh
  log : ∀ st p, s.announcement st p = lastAnnounce s.trace st p

/-- the history agrees with the memberships -/
structure TInv (s : State) : Prop where
  ok : Consistent s.trace
  mem : ∀ st p, isMember s.trace st p = s.vals.has (p, st)

theorem announcement_eq {s s' : State} (hc : s'.leaves = s.leaves) (hi : s'.leaveIdx = s.leaveIdx) (st : Addr) (p : Nat) :
    s'.announcement st p = s.announcement st p := by
  unfold State.announcement; rw [hc, hi]

theorem LInv.of_eq {s s' : State} {now now' : Nat} (h : LInv s now) (hn : now ≤ now') (hc : s'.leaves = s.leaves)
    (hi : s'.leaveIdx = s.leaveIdx) (hl : s'.lLow = s.lLow) (hh : s'.lHigh = s.lHigh)
    (ht : ∀ st p, lastAnnounce s'.trace st p = lastAnnounce s.trace st p) : LInv s' now' := by
  refine ⟨?_, ?_, ?_, ?_, ?_, ?_⟩
  · intro st p i; rw [hi, hc]; exact h.idx st p i
  · intro i e; rw [hc, hl, hh]; exact h.range i e
  · intro i j e e'; rw [hc]; exact h.mono i j e e'
  · intro i e; rw [hc]; intro he; exact le_trans (h.past i e he) hn
  · rw [hl, hh]; exact h.le
  · intro st p; rw [announcement_eq hc hi, ht]; exact h.log st p

theorem LInv.announcement_some {s : State} {now : Nat} (h : LInv s now) {i : Nat} {e : Leave}
    (he : s.leaves.get? i = some e) : s.announcement e.staker e.pool = some e.creation := by
  unfold State.announcement
  rw [(h.idx e.staker e.pool i).2 ⟨e, he, rfl, rfl⟩]
  show (s.leaves.get? i).map _ = _
  rw [he]; rfl

theorem LInv.of_announcement {s : State} {now : Nat} (h : LInv s now) {st : Addr} {p t : Nat}
    (hp : s.announcement st p = some t) : ∃ i, s.leaves.get? i = some ⟨st, p, t⟩ := by
  unfold State.announcement at hp
  cases hi : s.leaveIdx.get? (st, p) with
  | none => rw [hi] at hp; cases hp
  | some i =>
    rw [hi] at hp
    obtain ⟨e, he, hst, hpo⟩ := (h.idx st p i).1 hi
    have hp : (s.leaves.get? i).map (fun e => e.creation) = some t := hp
    rw [he] at hp
    simp only [Option.map_some, Option.some.injEq] at hp
    refine ⟨i, ?_⟩
    rw [he, ← hst, ← hpo, ← hp]

theorem LInv.has_iff_announcement {s : State} {now : Nat} (h : LInv s now) (st : Addr) (p : Nat) :
    s.leaveIdx.has (st, p) = (s.announcement st p).isSome := by
  unfold State.announcement Map.has
  cases hi : s.leaveIdx.get? (st, p) with
  | none => rfl
  | some i =>
    obtain ⟨e, he, -⟩ := (h.idx st p i).1 hi
    show true = ((s.leaves.get? i).map (fun e => e.creation)).isSome
    rw [he]; rfl

theorem LInv.unique {s : State} {now : Nat} (h : LInv s now) {i j : Nat} {e e' : Leave}
    (he : s.leaves.get? i = some e) (he' : s.leaves.get? j = some e') (hst : e.staker = e'.staker)
    (hp : e.pool = e'.pool) : i = j := by
  have h1 := (h.idx e.staker e.pool i).2 ⟨e, he, rfl, rfl⟩
  have h2 := (h.idx e.staker e.pool j).2 ⟨e', he', hst.symm, hp.symm⟩
  rw [h1] at h2; exact Option.some.inj h2

/-- announcing -/
theorem orderLeave_ok {s s' : State} {now p : Nat} {st : Addr} (h : LInv s now)
    (hr : s.orderLeave now p st = .ok s') :
    s.announcement st p = none ∧ LInv s' now ∧
    (∀ a q, s'.announcement a q = if a = st ∧ q = p then some now else s.announcement a q) ∧
    s' = { s with lHigh := s.lHigh + 1, leaves := s.leaves.set (s.lHigh + 1) ⟨st, p, now⟩,
                  leaveIdx := s.leaveIdx.set (st, p) (s.lHigh + 1), trace := .announced st p now :: s.trace } := by
  unfold State.orderLeave at hr
  split at hr
  · cases hr
  rename_i hno
  have hno' : s.announcement st p = none := by
    rw [h.has_iff_announcement] at hno
    cases hx : s.announcement st p with
    | none => rfl
    | some t => rw [hx] at hno; exact absurd rfl hno
  cases hr
  have hnoi : s.leaveIdx.get? (st, p) = none := (has_false_iff _ _).1 (by simpa using hno)
  have hnone : ∀ i e, s.leaves.get? i = some e → ¬ (e.staker = st ∧ e.pool = p) := by
    rintro i e he ⟨h1, h2⟩
    have := (h.idx st p i).2 ⟨e, he, h1, h2⟩
    rw [hnoi] at this; cases this
  have hget : ∀ i e, (s.leaves.set (s.lHigh + 1) ⟨st, p, now⟩).get? i = some e ↔
      (i = s.lHigh + 1 ∧ e = ⟨st, p, now⟩) ∨ (s.leaves.get? i = some e) := by
    intro i e
    rw [Map.get?_set]
    constructor
    · intro hg
      split at hg
      · rename_i c; injection hg with hg; exact Or.inl ⟨c, hg.symm⟩
      · exact Or.inr hg
    · rintro (⟨c, rfl⟩ | hg)
      · rw [if_pos c]
      · have := (h.range i e hg).2
        rw [if_neg (by omega)]; exact hg
  have hann : ∀ a q, (((s.leaveIdx.set (st, p) (s.lHigh + 1)).get? (a, q)).bind
      (s.leaves.set (s.lHigh + 1) ⟨st, p, now⟩).get?).map (fun e : Leave => e.creation) = if a = st ∧ q = p then some now else s.announcement a q := by
    intro a q
    rw [Map.get?_set]
    by_cases c : a = st ∧ q = p
    · rw [if_pos (by rw [c.1, c.2]), if_pos c]
      show ((s.leaves.set (s.lHigh + 1) ⟨st, p, now⟩).get? (s.lHigh + 1)).map _ = _
      rw [Map.get?_set_self]; rfl
    · rw [if_neg (by intro x; injection x with x1 x2; exact c ⟨x1, x2⟩), if_neg c]
      unfold State.announcement
      cases hi : s.leaveIdx.get? (a, q) with
      | none => rfl
      | some i =>
        obtain ⟨x, hx, -⟩ := (h.idx a q i).1 hi
        show ((s.leaves.set (s.lHigh + 1) ⟨st, p, now⟩).get? i).map _ = (s.leaves.get? i).map _
        rw [hx, (hget i x).2 (Or.inr hx)]
  refine ⟨hno', ⟨?_, ?_, ?_, ?_, ?_, ?_⟩, hann, rfl⟩
  · intro a q i
    show (s.leaveIdx.set (st, p) (s.lHigh + 1)).get? (a, q) = some i ↔
      ∃ e, (s.leaves.set (s.lHigh + 1) ⟨st, p, now⟩).get? i = some e ∧ e.staker = a ∧ e.pool = q
    rw [Map.get?_set]
    constructor
    · intro hg
      split at hg
      · rename_i c
        injection hg with hg
        injection c with c1 c2
        exact ⟨⟨st, p, now⟩, (hget i _).2 (Or.inl ⟨hg.symm, rfl⟩), c1.symm, c2.symm⟩
      · obtain ⟨e, he, h1⟩ := (h.idx a q i).1 hg
        exact ⟨e, (hget i e).2 (Or.inr he), h1⟩
    · rintro ⟨e, he, h1, h2⟩
      rcases (hget i e).1 he with ⟨c1, c2⟩ | hg
      · rw [if_pos, c1]
        rw [← h1, ← h2, c2]
      · rw [if_neg]
        · exact (h.idx a q i).2 ⟨e, hg, h1, h2⟩
        · intro x
          injection x with x1 x2
          exact hnone i e hg ⟨h1.trans x1, h2.trans x2⟩
  · intro i e he
    show s.lLow < i ∧ i ≤ s.lHigh + 1
    have := h.le
    rcases (hget i e).1 he with ⟨c1, -⟩ | hg
    · omega
    · have := h.range i e hg; omega
  · intro i j e e' he he' hij
    rcases (hget i e).1 he with ⟨c1, c2⟩ | hg
    · rcases (hget j e').1 he' with ⟨c3, c4⟩ | hg'
      · rw [c2, c4]
      · have := h.range j e' hg'; omega
    · rcases (hget j e').1 he' with ⟨c3, c4⟩ | hg'
      · rw [c4]; exact h.past i e hg
      · exact h.mono i j e e' hg hg' hij
  · intro i e he
    rcases (hget i e).1 he with ⟨c1, c2⟩ | hg
    · rw [c2]
    · exact h.past i e hg
  · show s.lLow ≤ s.lHigh + 1
    have := h.le; omega
  · intro a q
    show _ = if st = a ∧ p = q then some now else lastAnnounce s.trace a q
    rw [← h.log]
    refine (hann a q).trans ?_
    by_cases c : a = st ∧ q = p
    · rw [if_pos c, if_pos ⟨c.1.symm, c.2.symm⟩]
    · rw [if_neg c, if_neg (fun x => c ⟨x.1.symm, x.2.symm⟩)]

/-- one round or several of the leave queue -/
structure LRel (now : Nat) (s s' : State) : Prop where
  inv : LInv s' now
  each : ∀ st p, (s'.announcement st p = s.announcement st p ∧ s'.vals.get? (p, st) = s.vals.get? (p, st)) ∨
    ∃ t, s.announcement st p = some t ∧ due t s.params.leavePoolTime now = true ∧ s'.announcement st p = none ∧
      s'.vals.get? (p, st) = none
  stakers : s'.stakers = s.stakers
  changes : s'.changes = s.changes
  changeIdx : s'.changeIdx = s.changeIdx
  cLow : s'.cLow = s.cLow
  cHigh : s'.cHigh = s.cHigh
  params : s'.params = s.params
  gifts : s'.gifts = s.gifts
  lHigh : s'.lHigh = s.lHigh
  mem : MemInv s → MemInv s'
  trace : TInv s → TInv s'
  order : ∀ st, lastOrder s'.trace st = lastOrder s.trace st

theorem LRel.refl {now : Nat} {s : State} (h : LInv s now) : LRel now s s :=
  ⟨h, fun _ _ => Or.inl ⟨rfl, rfl⟩, rfl, rfl, rfl, rfl, rfl, rfl, rfl, rfl, fun h => h, fun h => h, fun _ => rfl⟩

theorem LRel.trans {now : Nat} {s s' s'' : State} (h : LRel now s s') (h' : LRel now s' s'') : LRel now s s'' := by
  refine ⟨h'.inv, ?_, h'.stakers.trans h.stakers, h'.changes.trans h.changes, h'.changeIdx.trans h.changeIdx,
    h'.cLow.trans h.cLow, h'.cHigh.trans h.cHigh, h'.params.trans h.params, h'.gifts.trans h.gifts,
    h'.lHigh.trans h.lHigh, fun x => h'.mem (h.mem x), fun x => h'.trace (h.trace x),
    fun st => (h'.order st).trans (h.order st)⟩
  intro st p
  rcases h.each st p with ⟨e1, e2⟩ | ⟨t, e1, e2, e3, e4⟩
  · rcases h'.each st p with ⟨e5, e6⟩ | ⟨t, e5, e6, e7, e8⟩
    · exact Or.inl ⟨e5.trans e1, e6.trans e2⟩
    · exact Or.inr ⟨t, by rw [← e1]; exact e5, by rw [← h.params]; exact e6, e7, e8⟩
  · rcases h'.each st p with ⟨e5, e6⟩ | ⟨t', e5, -⟩
    · exact Or.inr ⟨t, e1, e2, e5.trans e3, e6.trans e4⟩
    · rw [e3] at e5; cases e5

theorem removeVal_frame (s : State) (p : Nat) (st : Addr) :
    (s.removeVal p st).stakers = s.stakers ∧ (s.removeVal p st).changes = s.changes ∧
    (s.removeVal p st).changeIdx = s.changeIdx ∧ (s.removeVal p st).cLow = s.cLow ∧
    (s.removeVal p st).cHigh = s.cHigh ∧ (s.removeVal p st).params = s.params ∧
    (s.removeVal p st).gifts = s.gifts ∧ (s.removeVal p st).lHigh = s.lHigh ∧
    (s.removeVal p st).lLow = s.lLow ∧ (s.removeVal p st).leaves = s.leaves ∧
    (s.removeVal p st).leaveIdx = s.leaveIdx ∧ (s.removeVal p st).trace = s.trace := by
  unfold State.removeVal
  split
  · exact ⟨rfl, rfl, rfl, rfl, rfl, rfl, rfl, rfl, rfl, rfl, rfl, rfl⟩
  · exact ⟨rfl, rfl, rfl, rfl, rfl, rfl, rfl, rfl, rfl, rfl, rfl, rfl⟩

/-- applying one due announcement -/
theorem leave_applied {s : State} {now : Nat} (h : LInv s now) {e : Leave}
    (he : s.leaves.get? (s.lLow + 1) = some e) (hd : due e.creation s.params.leavePoolTime now = true) :
    LRel now s { s.applyLeave now (s.lLow + 1) e with lLow := s.lLow + 1 } := by
  have hget : ∀ i x, (s.leaves.del (s.lLow + 1)).get? i = some x ↔ s.leaves.get? i = some x ∧ i ≠ s.lLow + 1 := by
    intro i x; rw [Map.get?_del]
    by_cases c : i = s.lLow + 1
    · rw [if_pos c]; simp [c]
    · rw [if_neg c]; simp [c]
  obtain ⟨f1, f2, f3, f4, f5, f6, f7, f8, f9, f10, f11, f12⟩ := removeVal_frame s e.pool e.staker
  have hann : ∀ st p, (((s.leaveIdx.del (e.staker, e.pool)).get? (st, p)).bind
      (s.leaves.del (s.lLow + 1)).get?).map (fun e : Leave => e.creation) = if st = e.staker ∧ p = e.pool then none else s.announcement st p := by
    intro st p
    by_cases c : st = e.staker ∧ p = e.pool
    · rw [if_pos c, c.1, c.2, Map.get?_del_self]; rfl
    · have c' : (st, p) ≠ (e.staker, e.pool) := by intro x; injection x with x1 x2; exact c ⟨x1, x2⟩
      rw [if_neg c, Map.get?_del_ne _ c']
      unfold State.announcement
      cases hi : s.leaveIdx.get? (st, p) with
      | none => rfl
      | some i =>
        obtain ⟨x, hx, h1, h2⟩ := (h.idx st p i).1 hi
        show ((s.leaves.del (s.lLow + 1)).get? i).map _ = (s.leaves.get? i).map _
        rw [hx, (hget i x).2 ⟨hx, ?_⟩]
        rintro rfl
        rw [he] at hx; cases hx; exact c ⟨h1.symm, h2.symm⟩
  have hinv : LInv { s.applyLeave now (s.lLow + 1) e with lLow := s.lLow + 1 } now := by
    refine ⟨?_, ?_, ?_, ?_, ?_, ?_⟩
    · intro st p i
      show (s.leaveIdx.del (e.staker, e.pool)).get? (st, p) = some i ↔
        ∃ x, (s.leaves.del (s.lLow + 1)).get? i = some x ∧ x.staker = st ∧ x.pool = p
      rw [Map.get?_del]
      constructor
      · intro hg
        split at hg
        · cases hg
        · rename_i c
          obtain ⟨x, hx, h1, h2⟩ := (h.idx st p i).1 hg
          refine ⟨x, (hget i x).2 ⟨hx, ?_⟩, h1, h2⟩
          rintro rfl
          rw [he] at hx; cases hx
          exact c (by rw [h1, h2])
      · rintro ⟨x, hx, h1, h2⟩
        obtain ⟨h3, h4⟩ := (hget i x).1 hx
        rw [if_neg, (h.idx st p i).2 ⟨x, h3, h1, h2⟩]
        intro c
        injection c with c1 c2
        exact h4 (h.unique h3 he (h1.trans c1) (h2.trans c2))
    · intro i x hx
      show s.lLow + 1 < i ∧ i ≤ (s.removeVal e.pool e.staker).lHigh
      rw [f8]
      obtain ⟨h1, h2⟩ := (hget i x).1 hx
      have := h.range i x h1; omega
    · intro i j x x' hx hx' hij
      exact h.mono i j x x' ((hget i x).1 hx).1 ((hget j x').1 hx').1 hij
    · intro i x hx; exact h.past i x ((hget i x).1 hx).1
    · show s.lLow + 1 ≤ (s.removeVal e.pool e.staker).lHigh
      rw [f8]
      have := h.range _ _ he; omega
    · intro st p
      refine (hann st p).trans ?_
      show _ = lastAnnounce (if s.vals.has (e.pool, e.staker) then .left e.staker e.pool now s.params.leavePoolTime :: s.trace
        else .expired e.staker e.pool now :: s.trace) st p
      have hl := h.log st p
      have : lastAnnounce (if s.vals.has (e.pool, e.staker) then .left e.staker e.pool now s.params.leavePoolTime :: s.trace
        else .expired e.staker e.pool now :: s.trace) st p =
          if e.staker = st ∧ e.pool = p then none else lastAnnounce s.trace st p := by
        cases s.vals.has (e.pool, e.staker) <;> rfl
      rw [this]
      by_cases c : st = e.staker ∧ p = e.pool
      · rw [if_pos c, if_pos ⟨c.1.symm, c.2.symm⟩]
      · rw [if_neg c, if_neg (fun x => c ⟨x.1.symm, x.2.symm⟩), hl]
  refine ⟨hinv, ?_, f1, f2, f3, f4, f5, f6, f7, f8, ?_, ?_, ?_⟩
  · intro st p
    have hv : ({ s.applyLeave now (s.lLow + 1) e with lLow := s.lLow + 1 } : State).vals = s.vals.del (e.pool, e.staker) :=
      removeVal_vals s e.pool e.staker
    rw [hv]
    by_cases c : st = e.staker ∧ p = e.pool
    · right
      refine ⟨e.creation, by rw [c.1, c.2]; exact h.announcement_some he, hd, ?_, ?_⟩
      · exact (hann st p).trans (if_pos c)
      · rw [c.1, c.2, Map.get?_del_self]
    · left
      refine ⟨(hann st p).trans (if_neg c), ?_⟩
      rw [Map.get?_del_ne]
      intro x; injection x with x1 x2; exact c ⟨x2, x1⟩
  · intro hm
    exact (hm.removeVal e.pool e.staker).of_eq rfl rfl rfl rfl (fun _ x => x)
  · intro ht
    have hv : ({ s.applyLeave now (s.lLow + 1) e with lLow := s.lLow + 1 } : State).vals = s.vals.del (e.pool, e.staker) :=
      removeVal_vals s e.pool e.staker
    have htr : ({ s.applyLeave now (s.lLow + 1) e with lLow := s.lLow + 1 } : State).trace =
      if s.vals.has (e.pool, e.staker) then .left e.staker e.pool now s.params.leavePoolTime :: s.trace
        else .expired e.staker e.pool now :: s.trace := rfl
    refine ⟨?_, ?_⟩
    · rw [htr]
      split
      · rename_i hh
        refine ⟨⟨by rw [ht.mem]; exact hh, e.creation, ?_, hd⟩, ht.ok⟩
        rw [← h.log]; exact h.announcement_some he
      · rename_i hh
        exact ⟨by show isMember _ _ _ = false; rw [ht.mem]; simpa using hh, ht.ok⟩
    · intro st p
      rw [hv, htr, has_del]
      split
      · rename_i hh
        show (if e.staker = st ∧ e.pool = p then false else isMember s.trace st p) = _
        by_cases c : e.staker = st ∧ e.pool = p
        · rw [if_pos c, c.1, c.2]; simp
        · rw [if_neg c, ht.mem]
          have : (p, st) ≠ (e.pool, e.staker) := by intro x; injection x with x1 x2; exact c ⟨x2.symm, x1.symm⟩
          simp [this]
      · rename_i hh
        show isMember s.trace st p = _
        rw [ht.mem]
        by_cases c : (p, st) = (e.pool, e.staker)
        · rw [c]; simp; simpa using hh
        · simp [c]
  · intro st
    show lastOrder (if s.vals.has (e.pool, e.staker) then .left e.staker e.pool now s.params.leavePoolTime :: s.trace
        else .expired e.staker e.pool now :: s.trace) st = _
    split <;> rfl

theorem leaveRound_rel {s : State} {now : Nat} (h : LInv s now) : LRel now s (leaveRound s now).1 := by
  unfold leaveRound
  cases hg : s.leaves.get? (s.lLow + 1) with
  | none =>
    simp only
    split
    · rename_i hlt
      refine ⟨⟨h.idx, ?_, h.mono, h.past, hlt, h.log⟩, fun _ _ => Or.inl ⟨rfl, rfl⟩, rfl, rfl, rfl, rfl, rfl, rfl, rfl, rfl,
        fun h => h.of_eq rfl rfl rfl rfl (fun _ x => x), fun h => ⟨h.ok, h.mem⟩, fun _ => rfl⟩
      intro i e he
      show s.lLow + 1 < i ∧ i ≤ s.lHigh
      have := h.range i e he
      have : i ≠ s.lLow + 1 := by rintro rfl; rw [hg] at he; cases he
      omega
    · exact LRel.refl h
  | some e =>
    simp only
    split
    · rename_i hdue
      have hlt : s.lLow < s.lHigh := by have := h.range _ _ hg; omega
      rw [if_pos hlt]
      exact leave_applied h hg hdue
    · exact LRel.refl h

theorem leaveRound_more {s : State} {now : Nat} (hm : (leaveRound s now).2 = true) :
    s.lLow < s.lHigh ∧ (leaveRound s now).1.lLow = s.lLow + 1 := by
  unfold leaveRound at hm ⊢
  cases hg : s.leaves.get? (s.lLow + 1) with
  | none =>
    rw [hg] at hm
    simp only at hm ⊢
    split
    · rename_i h; exact ⟨h, rfl⟩
    · rename_i h; rw [if_neg h] at hm; cases hm
  | some e =>
    rw [hg] at hm
    simp only at hm ⊢
    split
    · rename_i hd
      rw [if_pos hd] at hm
      split
      · rename_i h; exact ⟨h, rfl⟩
      · rename_i h; rw [if_neg h] at hm; cases hm
    · rename_i hd; rw [if_neg hd] at hm; cases hm

theorem leaveRound_stop {s : State} {now : Nat} (h : LInv s now) (hm : (leaveRound s now).2 = false) :
    (leaveRound s now).1 = s ∧ ((∀ i, s.leaves.get? i = none) ∨
      ∃ e, s.leaves.get? (s.lLow + 1) = some e ∧ due e.creation s.params.leavePoolTime now = false) := by
  unfold leaveRound at hm ⊢
  cases hg : s.leaves.get? (s.lLow + 1) with
  | none =>
    rw [hg] at hm
    simp only at hm ⊢
    split
    · rename_i hlt; rw [if_pos hlt] at hm; cases hm
    · rename_i hlt
      refine ⟨rfl, Or.inl ?_⟩
      intro i
      cases hx : s.leaves.get? i with
      | none => rfl
      | some e => have := h.range i e hx; omega
  | some e =>
    rw [hg] at hm
    simp only at hm ⊢
    split
    · rename_i hd
      rw [if_pos hd] at hm
      have hlt : s.lLow < s.lHigh := by have := h.range _ _ hg; omega
      rw [if_pos hlt] at hm; cases hm
    · rename_i hd
      exact ⟨rfl, Or.inr ⟨e, rfl, by simpa using hd⟩⟩

theorem leaveLoop_rel {now : Nat} (fuel : Nat) {s : State} (h : LInv s now) (hf : s.lHigh - s.lLow < fuel) :
    LRel now s (leaveLoop now fuel s) ∧
    ((∀ i, (leaveLoop now fuel s).leaves.get? i = none) ∨
      ∃ e, (leaveLoop now fuel s).leaves.get? ((leaveLoop now fuel s).lLow + 1) = some e ∧
        due e.creation s.params.leavePoolTime now = false) := by
  induction fuel generalizing s with
  | zero => omega
  | succ f ih =>
    have hr := leaveRound_rel h
    unfold leaveLoop
    by_cases hm : (leaveRound s now).2 = true
    · rw [if_pos hm]
      obtain ⟨h1, h2⟩ := leaveRound_more hm
      obtain ⟨h3, h4⟩ := ih hr.inv (by rw [h2, hr.lHigh]; omega)
      refine ⟨hr.trans h3, ?_⟩
      rw [hr.params] at h4
      exact h4
    · rw [if_neg hm]
      have hm' : (leaveRound s now).2 = false := by simpa using hm
      obtain ⟨h1, h2⟩ := leaveRound_stop h hm'
      rw [h1]
      exact ⟨LRel.refl h, h2⟩

theorem processLeaves_rel {s : State} {now : Nat} (h : LInv s now) : LRel now s (processLeaves s now) :=
  (leaveLoop_rel (s.lHigh - s.lLow + 1) h (Nat.lt_succ_self _)).1

theorem processLeaves_done {s : State} {now : Nat} (h : LInv s now)
    (hov : now + s.params.leavePoolTime < 2 ^ 63) {i : Nat} {e : Leave}
    (he : (processLeaves s now).leaves.get? i = some e) :
    due e.creation s.params.leavePoolTime now = false := by
  obtain ⟨hr, hs⟩ := leaveLoop_rel (s.lHigh - s.lLow + 1) h (Nat.lt_succ_self _)
  have hI := hr.inv
  change LInv (processLeaves s now) now at hI
  change _ ∨ ∃ e, (processLeaves s now).leaves.get? ((processLeaves s now).lLow + 1) = some e ∧ _ at hs
  rcases hs with hs | ⟨x, hx, hd⟩
  · have := hs i
    change (processLeaves s now).leaves.get? i = none at this
    rw [this] at he; cases he
  · have h1 := (hI.range i e he).1
    have h2 := hI.mono _ _ _ _ hx he h1
    have h3 := hI.past i e he
    have h4 := hI.past _ x hx
    cases hde : due e.creation s.params.leavePoolTime now with
    | false => rfl
    | true =>
      exfalso
      rw [due_iff (lt_of_le_of_lt (Nat.add_le_add_right h3 _) hov)] at hde
      have : due x.creation s.params.leavePoolTime now = true := by
        rw [due_iff (lt_of_le_of_lt (Nat.add_le_add_right h4 _) hov)]
        omega
      rw [this] at hd; cases hd

end Verif.Stakers
