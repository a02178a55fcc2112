import Verif.Stakers.Model

/-!
# Memberships (proofs): counters, caps and protocol-node addresses
-/

namespace Verif.Stakers
open Verif

/-- number of memberships of a pool -/
def nIn (m : Map (Nat × Addr) Val) (p : Nat) : Nat := m.sum (fun k _ => if k.1 = p then 1 else 0)
/-- number of memberships of a staker -/
def nOf (m : Map (Nat × Addr) Val) (st : Addr) : Nat := m.sum (fun k _ => if k.2 = st then 1 else 0)

structure MemInv (s : State) : Prop where
  idx : ∀ st p, s.valIdx.has (st, p) = s.vals.has (p, st)
  cnt : ∀ p, s.count p = nIn s.vals p
  act : ∀ st, s.active.get? st = if nOf s.vals st = 0 then none else some (nOf s.vals st)
  mem : ∀ p st v, s.vals.get? (p, st) = some v → s.stakers.has st = true
  own : ∀ p st v, s.vals.get? (p, st) = some v → v.valaddress ≠ st
  inPool : ∀ p st st' v v', s.vals.get? (p, st) = some v → s.vals.get? (p, st') = some v' →
    v.valaddress = v'.valaddress → st = st'
  ofStaker : ∀ p p' st v v', s.vals.get? (p, st) = some v → s.vals.get? (p', st) = some v' →
    v.valaddress = v'.valaddress → p = p'
  cap : ∀ p, s.count p ≤ MaxStakers

theorem MemInv.of_eq {s s' : State} (h : MemInv s) (hv : s'.vals = s.vals) (hi : s'.valIdx = s.valIdx)
    (hc : s'.counts = s.counts) (ha : s'.active = s.active)
    (hs : ∀ st, s.stakers.has st = true → s'.stakers.has st = true) : MemInv s' := by
  have hct : ∀ p, s'.count p = s.count p := by intro p; unfold State.count; rw [hc]
  refine ⟨?_, ?_, ?_, ?_, ?_, ?_, ?_, ?_⟩
  · intro st p; rw [hi, hv]; exact h.idx st p
  · intro p; rw [hct, hv]; exact h.cnt p
  · intro st; rw [ha, hv]; exact h.act st
  · intro p st v; rw [hv]; intro hg; exact hs _ (h.mem p st v hg)
  · intro p st v; rw [hv]; exact h.own p st v
  · intro p st st' v v'; rw [hv]; exact h.inPool p st st' v v'
  · intro p p' st v v'; rw [hv]; exact h.ofStaker p p' st v v'
  · intro p; rw [hct]; exact h.cap p

theorem nIn_set_same (m : Map (Nat × Addr) Val) (k : Nat × Addr) (v w : Val) (h : m.get? k = some w) (p : Nat) :
    nIn (m.set k v) p = nIn m p := by
  have := m.sum_set (fun k _ => if k.1 = p then 1 else 0) k v
  unfold Map.at' at this
  rw [h] at this
  unfold nIn
  exact Nat.add_right_cancel this

theorem nOf_set_same (m : Map (Nat × Addr) Val) (k : Nat × Addr) (v w : Val) (h : m.get? k = some w) (st : Addr) :
    nOf (m.set k v) st = nOf m st := by
  have := m.sum_set (fun k _ => if k.2 = st then 1 else 0) k v
  unfold Map.at' at this
  rw [h] at this
  unfold nOf
  exact Nat.add_right_cancel this

theorem nIn_set_new (m : Map (Nat × Addr) Val) (k : Nat × Addr) (v : Val) (h : m.get? k = none) (p : Nat) :
    nIn (m.set k v) p = nIn m p + if k.1 = p then 1 else 0 := m.sum_set_absent _ v h

theorem nOf_set_new (m : Map (Nat × Addr) Val) (k : Nat × Addr) (v : Val) (h : m.get? k = none) (st : Addr) :
    nOf (m.set k v) st = nOf m st + if k.2 = st then 1 else 0 := m.sum_set_absent _ v h

theorem nIn_del (m : Map (Nat × Addr) Val) (k : Nat × Addr) (w : Val) (h : m.get? k = some w) (p : Nat) :
    nIn (m.del k) p + (if k.1 = p then 1 else 0) = nIn m p := by
  have := m.sum_del (fun k _ => if k.1 = p then 1 else 0) k
  unfold Map.at' at this
  rw [h] at this
  exact this

theorem nOf_del (m : Map (Nat × Addr) Val) (k : Nat × Addr) (w : Val) (h : m.get? k = some w) (st : Addr) :
    nOf (m.del k) st + (if k.2 = st then 1 else 0) = nOf m st := by
  have := m.sum_del (fun k _ => if k.2 = st then 1 else 0) k
  unfold Map.at' at this
  rw [h] at this
  exact this

theorem has_iff {K V : Type} [DecidableEq K] [KeyOrd K] (m : Map K V) (k : K) :
    m.has k = true ↔ ∃ v, m.get? k = some v := by
  unfold Map.has; rw [Option.isSome_iff_exists]

theorem has_false_iff {K V : Type} [DecidableEq K] [KeyOrd K] (m : Map K V) (k : K) :
    m.has k = false ↔ m.get? k = none := by
  unfold Map.has; cases m.get? k <;> simp

theorem has_set {K V : Type} [DecidableEq K] [KeyOrd K] (m : Map K V) (k j : K) (v : V) :
    (m.set k v).has j = (decide (j = k) || m.has j) := by
  unfold Map.has; rw [Map.get?_set]
  by_cases h : j = k
  · subst h; simp
  · simp [h]

theorem has_del {K V : Type} [DecidableEq K] [KeyOrd K] (m : Map K V) (k j : K) :
    (m.del k).has j = (decide (j ≠ k) && m.has j) := by
  unfold Map.has; rw [Map.get?_del]
  by_cases h : j = k
  · subst h; simp
  · simp [h]

/-- points and the leaving flag of a member change -/
theorem MemInv.setVal {s : State} (h : MemInv s) {p : Nat} {st : Addr} {v w : Val}
    (hw : s.vals.get? (p, st) = some w) (hv : v.valaddress = w.valaddress) : MemInv (s.setVal p st v) := by
  have hvals : ∀ q a u, (s.setVal p st v).vals.get? (q, a) = some u →
      ∃ u', s.vals.get? (q, a) = some u' ∧ u.valaddress = u'.valaddress := by
    intro q a u hu
    have hu' : (s.vals.set (p, st) v).get? (q, a) = some u := hu
    rw [Map.get?_set] at hu'
    split at hu'
    · rename_i e
      cases hu'
      cases e
      exact ⟨w, hw, hv⟩
    · exact ⟨u, hu', rfl⟩
  refine ⟨?_, ?_, ?_, ?_, ?_, ?_, ?_, ?_⟩
  · intro st' p'
    show (s.valIdx.set (st, p) ()).has (st', p') = (s.vals.set (p, st) v).has (p', st')
    rw [has_set, has_set, h.idx]
    congr 1
    simp only [Prod.mk.injEq]
    exact decide_eq_decide.2 ⟨fun x => ⟨x.2, x.1⟩, fun x => ⟨x.2, x.1⟩⟩
  · intro p'
    show s.count p' = nIn (s.vals.set (p, st) v) p'
    rw [nIn_set_same _ _ _ _ hw]; exact h.cnt p'
  · intro st'
    show s.active.get? st' = if nOf (s.vals.set (p, st) v) st' = 0 then none else some (nOf (s.vals.set (p, st) v) st')
    rw [nOf_set_same _ _ _ _ hw]; exact h.act st'
  · intro q a u hu
    obtain ⟨u', h1, -⟩ := hvals q a u hu
    exact h.mem q a u' h1
  · intro q a u hu
    obtain ⟨u', h1, h2⟩ := hvals q a u hu
    rw [h2]; exact h.own q a u' h1
  · intro q a a' u x hu hx hux
    obtain ⟨u', h1, h2⟩ := hvals q a u hu
    obtain ⟨x', h3, h4⟩ := hvals q a' x hx
    exact h.inPool q a a' u' x' h1 h3 (by rw [← h2, ← h4]; exact hux)
  · intro q q' a u x hu hx hux
    obtain ⟨u', h1, h2⟩ := hvals q a u hu
    obtain ⟨x', h3, h4⟩ := hvals q' a x hx
    exact h.ofStaker q q' a u' x' h1 h3 (by rw [← h2, ← h4]; exact hux)
  · exact h.cap

theorem MemInv.removeVal {s : State} (h : MemInv s) (p : Nat) (st : Addr) : MemInv (s.removeVal p st) := by
  unfold State.removeVal
  cases hhas : s.vals.has (p, st) with
  | false => simp only [Bool.not_false, if_true]; exact h
  | true =>
    simp only [Bool.not_true, Bool.false_eq_true, if_false]
    obtain ⟨w, hw⟩ := (has_iff _ _).1 hhas
    have hvals : ∀ q a u, (s.vals.del (p, st)).get? (q, a) = some u → s.vals.get? (q, a) = some u := by
      intro q a u hu
      rw [Map.get?_del] at hu
      split at hu
      · cases hu
      · exact hu
    have hc1 := h.cap p
    have hc0 := h.cnt p
    have hdel := nIn_del _ _ _ hw p
    simp only [if_true] at hdel
    have hsub : u64sub (s.count p) 1 = s.count p - 1 := by
      refine u64sub_of_le (by omega) ?_
      have : MaxStakers < twoPow64 := by unfold MaxStakers twoPow64; norm_num
      omega
    rw [hsub]
    clear hsub
    have hcount : ∀ p', ((s.counts.set p (s.count p - 1)).get? p').getD 0 = nIn (s.vals.del (p, st)) p' := by
      intro p'
      rw [Map.get?_set]
      have hd := nIn_del _ _ _ hw p'
      by_cases e : p' = p
      · subst e; rw [if_pos rfl]; simp only [Option.getD_some, if_true] at hd ⊢; omega
      · rw [if_neg e]
        rw [if_neg (show ¬ (p, st).1 = p' from fun x => e x.symm)] at hd
        have := h.cnt p'
        unfold State.count at this
        rw [this]; omega
    refine ⟨?_, hcount, ?_, ?_, ?_, ?_, ?_, ?_⟩
    · intro st' p'
      show (s.valIdx.del (st, p)).has (st', p') = (s.vals.del (p, st)).has (p', st')
      rw [has_del, has_del, h.idx]
      congr 1
      simp only [ne_eq, Prod.mk.injEq, not_and]
      exact decide_eq_decide.2 ⟨fun x y z => x z y, fun x y z => x z y⟩
    · intro st'
      show (removeActive s.active st).get? st' = if nOf (s.vals.del (p, st)) st' = 0 then none
        else some (nOf (s.vals.del (p, st)) st')
      have hd := nOf_del _ _ _ hw st'
      have ha := h.act st'
      have ha0 := h.act st
      have hd0 := nOf_del _ _ _ hw st
      simp only [if_true] at hd0
      rw [if_neg (by omega)] at ha0
      unfold removeActive
      rw [ha0]
      simp only [Option.getD_some]
      by_cases e : st' = st
      · subst e
        by_cases e1 : nOf s.vals st' ≤ 1
        · rw [if_pos e1, Map.get?_del_self, if_pos (by omega)]
        · rw [if_neg e1, Map.get?_set_self, if_neg (by omega)]; congr 1; omega
      · rw [if_neg (show ¬ (p, st).2 = st' from fun x => e x.symm)] at hd
        have hd' : nOf (s.vals.del (p, st)) st' = nOf s.vals st' := by omega
        rw [hd']
        split
        · rw [Map.get?_del_ne _ e]; exact ha
        · rw [Map.get?_set_ne _ _ e]; exact ha
    · intro q a u hu; exact h.mem q a u (hvals q a u hu)
    · intro q a u hu; exact h.own q a u (hvals q a u hu)
    · intro q a a' u x hu hx; exact h.inPool q a a' u x (hvals _ _ _ hu) (hvals _ _ _ hx)
    · intro q q' a u x hu hx; exact h.ofStaker q q' a u x (hvals _ _ _ hu) (hvals _ _ _ hx)
    · intro p'
      show ((s.counts.set p (s.count p - 1)).get? p').getD 0 ≤ MaxStakers
      rw [Map.get?_set]
      split
      · simp only [Option.getD_some]; omega
      · exact h.cap p'

theorem removeVal_vals (s : State) (p : Nat) (st : Addr) : (s.removeVal p st).vals = s.vals.del (p, st) := by
  unfold State.removeVal
  cases hhas : s.vals.has (p, st) with
  | false => simp only [Bool.not_false, if_true]; exact (Map.del_absent _ ((has_false_iff _ _).1 hhas)).symm
  | true => simp only [Bool.not_true, Bool.false_eq_true, if_false]

theorem MemInv.kick {s : State} (h : MemInv s) (now p : Nat) (st : Addr) : MemInv (s.kick now p st) := by
  unfold State.kick
  split
  · exact (h.removeVal p st).of_eq rfl rfl rfl rfl (fun _ x => x)
  · exact h

theorem kick_vals (s : State) (now p : Nat) (st : Addr) : (s.kick now p st).vals = s.vals.del (p, st) := by
  unfold State.kick
  split
  · exact removeVal_vals s p st
  · rename_i hh
    exact (Map.del_absent _ ((has_false_iff _ _).1 (by simpa using hh))).symm

theorem MemInv.addVal {s : State} (h : MemInv s) {p : Nat} {st va : Addr} (hown : va ≠ st)
    (hroom : s.vals.has (p, st) = false → s.count p < MaxStakers)
    (hs : ∀ q v, s.vals.get? (q, st) = some v → v.valaddress ≠ va)
    (hp : ∀ a v, s.vals.get? (p, a) = some v → v.valaddress ≠ va) : MemInv (s.addVal p st va) := by
  unfold State.addVal
  split
  · exact h
  · split
    · exact h
    · rename_i hex hnew
      have hnew' : s.vals.has (p, st) = false := by simpa using hnew
      have hn := (has_false_iff _ _).1 hnew'
      have hroom := hroom hnew'
      have hvals : ∀ q a u, (s.vals.set (p, st) ⟨va, 0, false⟩).get? (q, a) = some u →
          (q = p ∧ a = st ∧ u.valaddress = va) ∨ s.vals.get? (q, a) = some u := by
        intro q a u hu
        rw [Map.get?_set] at hu
        split at hu
        · rename_i e
          cases hu; cases e
          exact Or.inl ⟨rfl, rfl, rfl⟩
        · exact Or.inr hu
      refine ⟨?_, ?_, ?_, ?_, ?_, ?_, ?_, ?_⟩
      · intro st' p'
        show (s.valIdx.set (st, p) ()).has (st', p') = (s.vals.set (p, st) ⟨va, 0, false⟩).has (p', st')
        rw [has_set, has_set, h.idx]
        congr 1
        simp only [Prod.mk.injEq]
        exact decide_eq_decide.2 ⟨fun x => ⟨x.2, x.1⟩, fun x => ⟨x.2, x.1⟩⟩
      · intro p'
        show ((s.counts.set p (s.count p + 1)).get? p').getD 0 = nIn (s.vals.set (p, st) ⟨va, 0, false⟩) p'
        rw [nIn_set_new _ _ _ hn, Map.get?_set]
        by_cases e : p' = p
        · subst e; simp only [if_true, Option.getD_some]; rw [h.cnt]
        · rw [if_neg e, if_neg (show ¬ (p, st).1 = p' from fun x => e x.symm)]
          exact h.cnt p'
      · intro st'
        show (addActive s.active st).get? st' = if nOf (s.vals.set (p, st) ⟨va, 0, false⟩) st' = 0 then none
          else some (nOf (s.vals.set (p, st) ⟨va, 0, false⟩) st')
        rw [nOf_set_new _ _ _ hn]
        unfold addActive
        have ha := h.act st
        rw [Map.get?_set]
        by_cases e : st' = st
        · subst e
          simp only [if_true]
          rw [if_neg (by omega), ha]
          congr 1
          split
          · rename_i h0; rw [h0]; rfl
          · rfl
        · rw [if_neg e, if_neg (show ¬ (p, st).2 = st' from fun x => e x.symm)]
          exact h.act st'
      · intro q a u hu
        rcases hvals q a u hu with ⟨rfl, rfl, -⟩ | h1
        · show s.stakers.has a = true
          simpa using hex
        · exact h.mem q a u h1
      · intro q a u hu
        rcases hvals q a u hu with ⟨rfl, rfl, e⟩ | h1
        · rw [e]; exact hown
        · exact h.own q a u h1
      · intro q a a' u x hu hx hux
        rcases hvals q a u hu with ⟨e1, e2, e3⟩ | h1
        · rcases hvals q a' x hx with ⟨e4, e5, e6⟩ | h2
          · rw [e2, e5]
          · subst e1
            exact absurd (by rw [← hux, e3]) (hp a' x h2)
        · rcases hvals q a' x hx with ⟨e4, e5, e6⟩ | h2
          · subst e4
            exact absurd (by rw [hux, e6]) (hp a u h1)
          · exact h.inPool q a a' u x h1 h2 hux
      · intro q q' a u x hu hx hux
        rcases hvals q a u hu with ⟨e1, e2, e3⟩ | h1
        · rcases hvals q' a x hx with ⟨e4, e5, e6⟩ | h2
          · rw [e1, e4]
          · subst e2
            exact absurd (by rw [← hux, e3]) (hs q' x h2)
        · rcases hvals q' a x hx with ⟨e4, e5, e6⟩ | h2
          · subst e5
            exact absurd (by rw [hux, e6]) (hs q u h1)
          · exact h.ofStaker q q' a u x h1 h2 hux
      · intro p'
        show ((s.counts.set p (s.count p + 1)).get? p').getD 0 ≤ MaxStakers
        rw [Map.get?_set]
        split
        · simp only [Option.getD_some]; omega
        · exact h.cap p'

/-! ## the full pool -/

theorem mem_stakersOf {s : State} {p : Nat} {a : Addr} : a ∈ s.stakersOf p ↔ ∃ v, s.vals.get? (p, a) = some v := by
  unfold State.stakersOf
  rw [List.mem_map]
  constructor
  · rintro ⟨⟨q, a'⟩, hk, rfl⟩
    rw [List.mem_filter] at hk
    have hq : q = p := by simpa using hk.2
    subst hq
    exact (Map.mem_keys_iff _ _).1 hk.1
  · intro h
    refine ⟨(p, a), ?_, rfl⟩
    rw [List.mem_filter]
    exact ⟨(Map.mem_keys_iff _ _).2 h, by simp⟩

theorem stakersOf_nodup (s : State) (p : Nat) : (s.stakersOf p).Nodup := by
  unfold State.stakersOf
  rw [List.nodup_map_iff_inj_on (s.vals.keys_nodup.filter _)]
  rintro ⟨q, a⟩ h1 ⟨q', a'⟩ h2 e
  rw [List.mem_filter] at h1 h2
  have e1 : q = p := by simpa using h1.2
  have e2 : q' = p := by simpa using h2.2
  rw [e1, e2]; simp only at e; rw [e]

theorem length_stakersOf (s : State) (p : Nat) : (s.stakersOf p).length = nIn s.vals p := by
  unfold State.stakersOf nIn Map.sum Map.keys
  rw [List.length_map]
  generalize s.vals.toList = l
  induction l with
  | nil => rfl
  | cons x l ih =>
    simp only [List.map_cons, List.sum_cons, List.filter_cons]
    by_cases e : x.1.1 = p
    · simp only [e, beq_self_eq_true, if_true, List.length_cons, ih]; omega
    · simp only [beq_eq_false_iff_ne.2 e, Bool.false_eq_true, if_false, if_neg e, ih]; omega

theorem lowestLoop_spec (amt : Addr → Nat) (l : List Addr) (r : Nat × Option Addr)
    (hr : ∀ a, r.2 = some a → amt a = r.1) :
    let q := lowestLoop amt r l
    (∀ a, q.2 = some a → amt a = q.1) ∧ q.1 ≤ r.1 ∧ (∀ a ∈ l, q.1 ≤ amt a) ∧
    (∀ a, q.2 = some a → a ∈ l ∨ r.2 = some a) ∧ (q.1 < r.1 → ∃ a, q.2 = some a) ∧
    (q.1 = r.1 → q.2 = r.2) := by
  induction l generalizing r with
  | nil => exact ⟨hr, le_refl _, by simp, fun a ha => Or.inr ha, fun h => absurd h (lt_irrefl _), fun _ => rfl⟩
  | cons x l ih =>
    unfold lowestLoop
    by_cases hx : amt x < r.1
    · rw [if_pos hx]
      obtain ⟨h1, h2, h3, h4, h5, h6⟩ := ih (amt x, some x) (by rintro a ⟨⟩; rfl)
      refine ⟨h1, by simp only at h2 ⊢; omega, ?_, ?_, ?_, ?_⟩
      · intro a ha
        rcases List.mem_cons.1 ha with rfl | ha
        · exact h2
        · exact h3 a ha
      · intro a ha
        rcases h4 a ha with h | h
        · exact Or.inl (List.mem_cons_of_mem _ h)
        · cases h; exact Or.inl (by simp)
      · intro _
        simp only at h2 h5 h6
        rcases Nat.lt_or_ge (lowestLoop amt (amt x, some x) l).1 (amt x) with h | h
        · exact h5 h
        · exact ⟨x, h6 (by omega)⟩
      · intro he
        simp only at h2 he
        omega
    · rw [if_neg hx]
      obtain ⟨h1, h2, h3, h4, h5, h6⟩ := ih r hr
      refine ⟨h1, h2, ?_, ?_, h5, h6⟩
      · intro a ha
        rcases List.mem_cons.1 ha with rfl | ha
        · omega
        · exact h3 a ha
      · intro a ha
        rcases h4 a ha with h | h
        · exact Or.inl (List.mem_cons_of_mem _ h)
        · exact Or.inr h

theorem lowest_some {s : State} {amt : Addr → Nat} {p : Nat} {a : Addr} (h : s.lowest amt p = some a) :
    a ∈ s.stakersOf p ∧ ∀ x ∈ s.stakersOf p, amt a ≤ amt x := by
  obtain ⟨h1, h2, h3, h4, -, -⟩ := lowestLoop_spec amt (s.stakersOf p) (2 ^ 64 - 1, none) (by rintro a ⟨⟩)
  have h' : (lowestLoop amt (2 ^ 64 - 1, none) (s.stakersOf p)).2 = some a := h
  refine ⟨?_, ?_⟩
  · rcases h4 a h' with h | h
    · exact h
    · cases h
  · intro x hx
    rw [h1 a h']; exact h3 x hx

theorem lowest_none {s : State} {amt : Addr → Nat} {p : Nat} (h : s.lowest amt p = none)
    (hb : ∀ a, amt a < 2 ^ 64 - 1) : s.stakersOf p = [] := by
  obtain ⟨h1, h2, h3, h4, h5, h6⟩ := lowestLoop_spec amt (s.stakersOf p) (2 ^ 64 - 1, none) (by rintro a ⟨⟩)
  have h' : (lowestLoop amt (2 ^ 64 - 1, none) (s.stakersOf p)).2 = none := h
  cases hl : s.stakersOf p with
  | nil => rfl
  | cons x l =>
    exfalso
    have hx := h3 x (by rw [hl]; simp)
    obtain ⟨a, ha⟩ := h5 (lt_of_le_of_lt hx (hb x))
    rw [h'] at ha; cases ha

/-- how `ensureFreeSlot` succeeds -/
theorem ensureFreeSlot_ok {s s' : State} {amt : Addr → Nat} {now p : Nat} {st : Addr} (h : MemInv s)
    (hb : ∀ a, amt a < 2 ^ 64 - 1) (hr : s.ensureFreeSlot amt now p st = .ok s') :
    (s.count p < MaxStakers ∧ s' = s) ∨
    (s.count p = MaxStakers ∧ ∃ low, low ∈ s.stakersOf p ∧ (∀ x ∈ s.stakersOf p, amt low ≤ amt x) ∧
      amt low < amt st ∧ s' = s.kick now p low) := by
  unfold State.ensureFreeSlot at hr
  split at hr
  · rename_i hc
    cases hr; exact Or.inl ⟨hc, rfl⟩
  · rename_i hc
    have hc' : s.count p = MaxStakers := le_antisymm (h.cap p) (by omega)
    right
    refine ⟨hc', ?_⟩
    split at hr
    · rename_i hl
      exfalso
      have := lowest_none hl hb
      have hlen := length_stakersOf s p
      rw [this, ← h.cnt, hc'] at hlen
      simp [MaxStakers] at hlen
    · rename_i low hl
      split at hr
      · rename_i hlt
        cases hr
        obtain ⟨h1, h2⟩ := lowest_some hl
        exact ⟨low, h1, h2, hlt, rfl⟩
      · cases hr

theorem kick_count {s : State} (h : MemInv s) {now p : Nat} {st : Addr} (hm : st ∈ s.stakersOf p) :
    (s.kick now p st).count p + 1 = s.count p := by
  obtain ⟨w, hw⟩ := mem_stakersOf.1 hm
  rw [(h.kick now p st).cnt, h.cnt, kick_vals]
  have := nIn_del _ _ _ hw p
  simpa using this

theorem mem_valsOf {s : State} (h : MemInv s) {st : Addr} {v : Val} :
    v ∈ s.valsOf st ↔ ∃ p, s.vals.get? (p, st) = some v := by
  unfold State.valsOf
  rw [List.mem_filterMap]
  constructor
  · rintro ⟨⟨a, p⟩, hk, hv⟩
    rw [List.mem_filter] at hk
    have : a = st := by simpa using hk.2
    subst this
    exact ⟨p, hv⟩
  · rintro ⟨p, hp⟩
    refine ⟨(st, p), ?_, hp⟩
    rw [List.mem_filter]
    refine ⟨?_, by simp⟩
    rw [Map.mem_keys_iff, ← has_iff, h.idx, has_iff]
    exact ⟨v, hp⟩

/-- how `JoinPool` succeeds -/
theorem joinPool_ok {w w' : World} {now : Nat} {ans : PoolAnswer} {amt : Addr → Nat} {m : JoinMsg} (h : MemInv w.s)
    (hb : ∀ a, amt a < 2 ^ 64 - 1) (hr : joinPool w now ans amt m = .ok w') :
    ans = .enabled ∧ w.s.stakers.has m.creator = true ∧ m.creator ≠ m.valaddress ∧
    w.s.vals.get? (m.pool, m.creator) = none ∧
    ∃ s1, w.s.ensureFreeSlot amt now m.pool m.creator = .ok s1 ∧
      (∀ q v, s1.vals.get? (q, m.creator) = some v → v.valaddress ≠ m.valaddress) ∧
      (∀ a v, s1.vals.get? (m.pool, a) = some v → v.valaddress ≠ m.valaddress) ∧
      m.amount < 2 ^ 63 ∧ w.b.send (.user m.creator) m.dst (Coins.single kyve m.amount) = .ok w'.b ∧
      w'.s = { s1.addVal m.pool m.creator m.valaddress with trace := .joined m.creator m.pool now :: s1.trace } := by
  unfold joinPool at hr
  split at hr
  · cases hr
  rename_i c1
  split at hr
  · cases hr
  rename_i c2
  split at hr
  · cases hr
  rename_i c3
  split at hr
  · cases hr
  rename_i c4
  split at hr
  · cases hr
  rename_i c5
  have c5' : w.s.vals.get? (m.pool, m.creator) = none := (has_false_iff _ _).1 (by simpa using c5)
  refine ⟨by cases ans <;> simp_all, by simpa using c3, c4, c5', ?_⟩
  cases he : w.s.ensureFreeSlot amt now m.pool m.creator with
  | error e => rw [he] at hr; cases hr
  | ok s1 =>
    rw [he] at hr
    have hr : finishJoin s1 w.b now m = .ok w' := hr
    refine ⟨s1, rfl, ?_⟩
    have h1 : MemInv s1 := by
      rcases ensureFreeSlot_ok h hb he with ⟨-, rfl⟩ | ⟨-, low, -, -, -, rfl⟩
      · exact h
      · exact h.kick now m.pool low
    unfold finishJoin at hr
    split at hr
    · cases hr
    rename_i d1
    split at hr
    · cases hr
    rename_i d2
    split at hr
    · cases hr
    rename_i b' ht
    cases hr
    refine ⟨?_, ?_, ?_, ?_, rfl⟩
    · intro q v hv e
      apply d1
      rw [List.any_eq_true]
      exact ⟨v, (mem_valsOf h1).2 ⟨q, hv⟩, by simp [e]⟩
    · intro a v hv e
      apply d2
      rw [List.any_eq_true]
      refine ⟨a, mem_stakersOf.2 ⟨v, hv⟩, ?_⟩
      rw [hv]; simp [e]
    · unfold transfer at ht; split at ht
      · assumption
      · cases ht
    · unfold transfer at ht; split at ht
      · exact ht
      · cases ht

/-- after the free slot was ensured there is room -/
theorem ensureFreeSlot_inv {s s1 : State} {amt : Addr → Nat} {now p : Nat} {st : Addr} (h : MemInv s)
    (hb : ∀ a, amt a < 2 ^ 64 - 1) (hr : s.ensureFreeSlot amt now p st = .ok s1) :
    MemInv s1 ∧ s1.count p < MaxStakers ∧ s1.stakers = s.stakers := by
  rcases ensureFreeSlot_ok h hb hr with ⟨hc, rfl⟩ | ⟨hc, low, hl, -, -, rfl⟩
  · exact ⟨h, hc, rfl⟩
  · refine ⟨h.kick now p low, ?_, ?_⟩
    · have := kick_count h (now := now) hl; omega
    · unfold State.kick; split
      · unfold State.removeVal; split <;> rfl
      · rfl

theorem MemInv.join {w w' : World} {now : Nat} {ans : PoolAnswer} {amt : Addr → Nat} {m : JoinMsg} (h : MemInv w.s)
    (hb : ∀ a, amt a < 2 ^ 64 - 1) (hr : joinPool w now ans amt m = .ok w') : MemInv w'.s := by
  obtain ⟨-, hst, hown, -, s1, he, h1, h2, -, -, e⟩ := joinPool_ok h hb hr
  obtain ⟨hi, hroom, hsk⟩ := ensureFreeSlot_inv h hb he
  have := hi.addVal (p := m.pool) (st := m.creator) (va := m.valaddress) (fun x => hown x.symm) (fun _ => hroom) h1 h2
  rw [e]
  exact this.of_eq rfl rfl rfl rfl (fun _ x => x)

end Verif.Stakers
