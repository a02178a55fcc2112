import Verif.Delegation.F1Spec

/-!
# The F1 invariant

Every reachable F1 state satisfies `F1Inv`, which ties the lazily maintained store of the code to the
eager stakes of the specification.
-/

namespace Verif.Delegation

open Verif

/-! ## Lists of slashes -/

theorem slashOne_le (b q : Dec) : slashOne b q ≤ b := Nat.sub_le _ _

theorem slashOne_zero (q : Dec) : slashOne 0 q = 0 := by simp [slashOne]

theorem slashBal_append (l : List (Nat × Dec)) (n : Nat) (q : Dec) (b : Dec) :
    slashBal (l ++ [(n, q)]) b = slashOne (slashBal l b) q := by
  simp [slashBal]

theorem slashBal_le (l : List (Nat × Dec)) (b : Dec) : slashBal l b ≤ b := by
  induction l generalizing b with
  | nil => exact Nat.le_refl _
  | cons p t ih => exact le_trans (ih (slashOne b p.2)) (slashOne_le b p.2)

/-- Sorted insertion at the end. -/
theorem insertL_last {V : Type} (l : List (Nat × V)) (n : Nat) (v : V) (h : ∀ p ∈ l, p.1 < n) :
    insertL n v l = l ++ [(n, v)] := by
  induction l with
  | nil => rfl
  | cons p t ih =>
    obtain ⟨k, w⟩ := p
    have hk : k < n := h (k, w) (by simp)
    have h1 : KeyOrd.lt n k = false := by simp [KeyOrd.lt]; omega
    have h2 : KeyOrd.lt k n = true := by simp [KeyOrd.lt]; omega
    simp only [insertL, h1, h2, if_true, List.cons_append]
    rw [if_neg (by simp), ih (fun p hp => h p (List.mem_cons_of_mem _ hp))]

theorem mem_slashesBetween {m : Map Nat Dec} {lo hi : Nat} {p : Nat × Dec} :
    p ∈ slashesBetween m lo hi ↔ m.get? p.1 = some p.2 ∧ lo ≤ p.1 ∧ p.1 ≤ hi := by
  obtain ⟨k, q⟩ := p
  simp [slashesBetween, List.mem_filter, Map.mem_iff]

/-- Extending the range beyond the last slash changes nothing. -/
theorem slashesBetween_hi {m : Map Nat Dec} {lo hi hi' : Nat} (hle : hi ≤ hi')
    (h : ∀ j q, m.get? j = some q → j ≤ hi) : slashesBetween m lo hi' = slashesBetween m lo hi := by
  unfold slashesBetween
  apply List.filter_congr
  intro p hp
  have := h p.1 p.2 ((Map.mem_iff m p.1 p.2).1 hp)
  have e : (decide (p.1 ≤ hi')) = decide (p.1 ≤ hi) := by
    apply decide_eq_decide.2; omega
  rw [e]

/-- A range that starts after the last slash is empty. -/
theorem slashesBetween_empty {m : Map Nat Dec} {lo hi : Nat}
    (h : ∀ j q, m.get? j = some q → j < lo) : slashesBetween m lo hi = [] := by
  unfold slashesBetween
  rw [List.filter_eq_nil_iff]
  intro p hp
  have := h p.1 p.2 ((Map.mem_iff m p.1 p.2).1 hp)
  simp; omega

/-- A new slash after all others. -/
theorem slashesBetween_set {m : Map Nat Dec} {lo n : Nat} {q : Dec} (hlo : lo ≤ n)
    (h : ∀ j q, m.get? j = some q → j < n) :
    slashesBetween (m.set n q) lo n = slashesBetween m lo n ++ [(n, q)] := by
  unfold slashesBetween Map.set
  show (insertL n q m.toList).filter _ = _
  rw [insertL_last _ _ _ (fun p hp => h p.1 p.2 ((Map.mem_iff m p.1 p.2).1 hp))]
  simp [List.filter_append, hlo]

theorem balUpTo_le (m : Map Nat Dec) (x : Del) (hi : Nat) : balUpTo m x hi ≤ Dec.ofNat x.amount :=
  slashBal_le _ _

theorem trunc_balUpTo_le (m : Map Nat Dec) (x : Del) (hi : Nat) : Dec.trunc (balUpTo m x hi) ≤ x.amount :=
  Dec.trunc_le (balUpTo_le m x hi)

/-! ## Entries -/

theorem entryVal_set (e : Map Nat DecCoins) (k j : Nat) (v : DecCoins) :
    entryVal (e.set k v) j = if j = k then v else entryVal e j := by
  unfold entryVal; rw [Map.get?_set]; split <;> simp

theorem entryVal_del_ne (e : Map Nat DecCoins) {k j : Nat} (h : j ≠ k) :
    entryVal (e.del k) j = entryVal e j := by
  unfold entryVal; rw [Map.get?_del_ne _ h]

theorem entryVal_of_get? {e : Map Nat DecCoins} {j : Nat} {v : DecCoins} (h : e.get? j = some v) :
    entryVal e j = v := by unfold entryVal; rw [h]; rfl

/-- the denominationwise quotient of a period -/
def quoAmt (cur total : Nat) : Nat := if total = 0 then 0 else Dec.quo (Dec.ofNat cur) (Dec.ofNat total)

theorem quo_zero (b : Dec) : Dec.quo (Dec.ofNat 0) b = 0 := by
  simp [Dec.quo, Dec.ofNat, Dec.chop_zero]

theorem amt_periodQuo (c : Coins) (t : Nat) (d : Denom) :
    (periodQuo c t).amt d = quoAmt (c.amt d) t := by
  unfold periodQuo quoAmt
  split
  · simp
  · rw [Coins.amt_mapAmt c (fun c => Dec.quo (Dec.ofNat c) (Dec.ofNat t)) (quo_zero _)]

theorem quoAmt_zero (t : Nat) : quoAmt 0 t = 0 := by
  unfold quoAmt; split
  · rfl
  · exact quo_zero _

theorem periodQuo_zero (t : Nat) : periodQuo Coins.zero t = Coins.zero := by
  ext d; rw [amt_periodQuo]; simp [quoAmt_zero]

theorem newEntries_latest (e : Map Nat DecCoins) (d : Data) :
    (newEntries e d).get? (d.latest + 1) = some ((periodQuo d.cur d.total).add (entryVal e d.latest)) := by
  unfold newEntries
  split
  · rw [Map.get?_del_ne _ (by omega), Map.get?_set_self]
  · rw [Map.get?_set_self]

theorem newEntries_other (e : Map Nat DecCoins) (d : Data) {j : Nat} (h : j ≠ d.latest + 1)
    (h' : d.undel = true → j ≠ d.latest) : (newEntries e d).get? j = e.get? j := by
  unfold newEntries
  split
  · rename_i hu
    simp at hu
    rw [Map.get?_del_ne _ (h' hu.1), Map.get?_set_ne _ _ h]
  · rw [Map.get?_set_ne _ _ h]

theorem newEntries_some {e : Map Nat DecCoins} {d : Data} {j : Nat} {v : DecCoins}
    (h : (newEntries e d).get? j = some v) :
    (j = d.latest + 1 ∧ v = (periodQuo d.cur d.total).add (entryVal e d.latest)) ∨
      (j ≠ d.latest + 1 ∧ e.get? j = some v) := by
  by_cases hj : j = d.latest + 1
  · subst hj
    rw [newEntries_latest] at h
    exact Or.inl ⟨rfl, by injection h with h; exact h.symm⟩
  · right
    refine ⟨hj, ?_⟩
    unfold newEntries at h
    split at h
    · rw [Map.get?_del] at h
      split at h
      · cases h
      · rwa [Map.get?_set_ne _ _ hj] at h
    · rwa [Map.get?_set_ne _ _ hj] at h

/-! ## The invariant -/

/-- What holds of the store of a staker that has (had) delegators. -/
structure DInv (s : F1) (d : Data) : Prop where
  /-- a delegator's period is one that has started -/
  klt : ∀ w x, s.dels.get? w = some x → x.k ≤ d.latest
  /-- no two delegators share a period -/
  kdist : ∀ w w' x x', s.dels.get? w = some x → s.dels.get? w' = some x' → x.k = x'.k → w = w'
  /-- the entry of a delegator's period exists -/
  kent : ∀ w x, s.dels.get? w = some x → (s.entries.get? x.k).isSome
  /-- a slash is in a period that has started, its fraction is at most one and its entry exists -/
  sent : ∀ j q, s.slashes.get? j = some q → j ≤ d.latest ∧ q ≤ Dec.one ∧ (s.entries.get? j).isSome
  /-- no delegator started in the period of a slash -/
  kslash : ∀ w x, s.dels.get? w = some x → s.slashes.get? x.k = none
  /-- the counter -/
  cnt : d.count = s.dels.size
  /-- while there are delegators the latest entry exists -/
  lat : ∀ w x, s.dels.get? w = some x → (s.entries.get? d.latest).isSome
  /-- if the latest period is an undelegation, nothing refers to its entry -/
  und : d.undel = true → s.slashes.get? d.latest = none ∧ ∀ w x, s.dels.get? w = some x → x.k ≠ d.latest
  /-- entries only grow while somebody delegates -/
  mono : ∀ w x a b ea eb, s.dels.get? w = some x → x.k ≤ a → a ≤ b →
    s.entries.get? a = some ea → s.entries.get? b = some eb → ∀ dn, ea.amt dn ≤ eb.amt dn
  /-- no entry of a period that has not started -/
  elt : ∀ j v, s.entries.get? j = some v → j ≤ d.latest

/-- The decimal balance of a delegator, zero for everybody else. -/
def balance (s : F1) (who : Addr) : Dec :=
  match s.dels.get? who with
  | none => 0
  | some x => balUpTo s.slashes x (s.data.getD Data.fresh).latest

theorem balance_some {s : F1} {w : Addr} {x : Del} {d : Data} (h : s.dels.get? w = some x)
    (hd : s.data = some d) : balance s w = balUpTo s.slashes x d.latest := by
  unfold balance; rw [h, hd]; rfl

theorem balance_none {s : F1} {w : Addr} (h : s.dels.get? w = none) : balance s w = 0 := by
  unfold balance; rw [h]

theorem curDel_eq (s : F1) (w : Addr) : curDel s w = Dec.trunc (balance s w) := by
  unfold curDel balance
  cases s.dels.get? w with
  | none => simp [Dec.trunc]
  | some x => rfl

/-- The F1 invariant. -/
structure F1Inv (s : F1) : Prop where
  dnone : s.data = none → s.dels = ∅ ∧ s.entries = ∅ ∧ s.slashes = ∅
  dsome : ∀ d, s.data = some d → DInv s d
  ok : s.halted = false

theorem F1Inv.init : F1Inv F1.init := by
  refine ⟨fun _ => ⟨rfl, rfl, rfl⟩, ?_, rfl⟩
  intro d h; cases h

theorem F1Inv.data_of_del {s : F1} (h : F1Inv s) {w : Addr} {x : Del} (hw : s.dels.get? w = some x) :
    ∃ d, s.data = some d := by
  cases hd : s.data with
  | some d => exact ⟨d, rfl⟩
  | none => rw [(h.dnone hd).1] at hw; simp at hw

/-! ## Starting a period -/

/-- `f1StartNewPeriod` with the metadata saved. -/
def tick (s : F1) (d : Data) : F1 :=
  { s with data := some (newData d), entries := newEntries s.entries d }

/-- What holds right after a period was started. -/
structure Fresh (s : F1) (d : Data) : Prop where
  cur : d.cur = Coins.zero
  undel : d.undel = false
  ent : (s.entries.get? d.latest).isSome
  nok : ∀ w x, s.dels.get? w = some x → x.k < d.latest
  nos : ∀ j q, s.slashes.get? j = some q → j < d.latest

theorem DInv.tick {s : F1} {d : Data} (h : DInv s d) :
    DInv (tick s d) (newData d) ∧ Fresh (tick s d) (newData d) := by
  have hk : ∀ w x, s.dels.get? w = some x → (newEntries s.entries d).get? x.k = s.entries.get? x.k := by
    intro w x hx
    have := h.klt w x hx
    exact newEntries_other _ _ (by omega) (fun hu => (h.und hu).2 w x hx)
  have hs : ∀ j q, s.slashes.get? j = some q → (newEntries s.entries d).get? j = s.entries.get? j := by
    intro j q hj
    have := (h.sent j q hj).1
    refine newEntries_other _ _ (by omega) (fun hu e => ?_)
    subst e
    rw [(h.und hu).1] at hj; cases hj
  have hm : ∀ w x a b ea eb, s.dels.get? w = some x → x.k ≤ a → a ≤ b →
      (newEntries s.entries d).get? a = some ea → (newEntries s.entries d).get? b = some eb →
      ∀ dn, ea.amt dn ≤ eb.amt dn := by
    intro w x a b ea eb hx ha hab hea heb dn
    obtain ⟨el, hel⟩ := Option.isSome_iff_exists.1 (h.lat w x hx)
    rcases newEntries_some hea with ⟨ha', rfl⟩ | ⟨ha', hea'⟩
    · rcases newEntries_some heb with ⟨hb', rfl⟩ | ⟨hb', heb'⟩
      · exact Nat.le_refl _
      · have := h.elt b eb heb'; omega
    · rcases newEntries_some heb with ⟨hb', rfl⟩ | ⟨hb', heb'⟩
      · have hal := h.elt a ea hea'
        have := h.mono w x a d.latest ea el hx ha hal hea' hel dn
        rw [entryVal_of_get? hel, Coins.amt_add]
        omega
      · exact h.mono w x a b ea eb hx ha hab hea' heb' dn
  refine ⟨⟨?_, ?_, ?_, ?_, ?_, ?_, ?_, ?_, hm, ?_⟩, ⟨rfl, rfl, ?_, ?_, ?_⟩⟩
  · intro w x hx; have := h.klt w x hx; simp only [newData]; omega
  · exact h.kdist
  · intro w x hx
    show ((newEntries s.entries d).get? x.k).isSome
    rw [hk w x hx]; exact h.kent w x hx
  · intro j q hj
    have := h.sent j q hj
    refine ⟨by simp only [newData]; omega, this.2.1, ?_⟩
    show ((newEntries s.entries d).get? j).isSome
    rw [hs j q hj]; exact this.2.2
  · exact h.kslash
  · exact h.cnt
  · intro w x _
    show ((newEntries s.entries d).get? (d.latest + 1)).isSome
    rw [newEntries_latest]; rfl
  · intro hu; cases hu
  · intro j v hj
    rcases newEntries_some hj with ⟨rfl, _⟩ | ⟨_, hj'⟩
    · exact Nat.le_refl _
    · have := h.elt j v hj'; simp only [newData]; omega
  · show ((newEntries s.entries d).get? (d.latest + 1)).isSome
    rw [newEntries_latest]; rfl
  · intro w x hx; have := h.klt w x hx; simp only [newData]; omega
  · intro j q hj; have := (h.sent j q hj).1; simp only [newData]; omega

/-! ## The operations keep the invariant -/

/-- The first delegator. -/
theorem DInv.create_fresh {s : F1} (h1 : s.dels = ∅) (h2 : s.entries = ∅) (h3 : s.slashes = ∅) :
    DInv s Data.fresh := by
  refine ⟨?_, ?_, ?_, ?_, ?_, ?_, ?_, ?_, ?_, ?_⟩ <;> simp [h1, h2, h3, Data.fresh]

theorem F1Inv.dinv {s : F1} (h : F1Inv s) : DInv s (s.data.getD Data.fresh) := by
  cases hd : s.data with
  | some d => exact h.dsome d hd
  | none => obtain ⟨a, b, c⟩ := h.dnone hd; exact DInv.create_fresh a b c

/-- Creating a delegator that does not exist. -/
theorem F1Inv.create {s : F1} (h : F1Inv s) {w : Addr} {n : Nat} (hw : s.dels.get? w = none) :
    F1Inv (createDelegator s w n) := by
  unfold createDelegator
  split
  · exact h
  · have hd := h.dinv
    obtain ⟨ht, hf⟩ := hd.tick
    generalize hdd : s.data.getD Data.fresh = d at *
    refine ⟨(by intro hn; cases hn), ?_, h.ok⟩
    intro d' hd'
    simp only [Option.some.injEq] at hd'
    subst hd'
    have hget : ∀ w' x', (s.dels.set w ⟨n, d.latest + 1⟩).get? w' = some x' →
        (w' = w ∧ x' = ⟨n, d.latest + 1⟩) ∨ (w' ≠ w ∧ s.dels.get? w' = some x') := by
      intro w' x' hx'
      rw [Map.get?_set] at hx'
      split at hx'
      · injection hx' with hx'; exact Or.inl ⟨by assumption, hx'.symm⟩
      · exact Or.inr ⟨by assumption, hx'⟩
    refine ⟨?_, ?_, ?_, ?_, ?_, ?_, ?_, ?_, ?_, ?_⟩
    · intro w' x' hx'
      rcases hget w' x' hx' with ⟨_, rfl⟩ | ⟨_, hx'⟩
      · exact Nat.le_refl _
      · exact ht.klt w' x' hx'
    · intro w1 w2 x1 x2 h1 h2 he
      rcases hget w1 x1 h1 with ⟨rfl, rfl⟩ | ⟨_, h1'⟩
      · rcases hget w2 x2 h2 with ⟨rfl, rfl⟩ | ⟨_, h2⟩
        · rfl
        · have := hd.klt w2 x2 h2; simp at he; omega
      · rcases hget w2 x2 h2 with ⟨rfl, rfl⟩ | ⟨_, h2⟩
        · have := hd.klt w1 x1 h1'; simp at he; omega
        · exact hd.kdist w1 w2 x1 x2 h1' h2 he
    · intro w' x' hx'
      rcases hget w' x' hx' with ⟨_, rfl⟩ | ⟨_, hx'⟩
      · exact hf.ent
      · exact ht.kent w' x' hx'
    · exact ht.sent
    · intro w' x' hx'
      rcases hget w' x' hx' with ⟨_, rfl⟩ | ⟨_, hx'⟩
      · show s.slashes.get? (d.latest + 1) = none
        cases hq : s.slashes.get? (d.latest + 1) with
        | none => rfl
        | some q => have := (hd.sent _ q hq).1; omega
      · exact ht.kslash w' x' hx'
    · show d.count + 1 = (s.dels.set w _).size
      have := hd.cnt
      rw [Map.size_set, hw]; simp; omega
    · intro w' x' _; exact hf.ent
    · intro hu; cases hu
    · intro w' x' a b ea eb hx' ha hab hea heb dn
      rcases hget w' x' hx' with ⟨_, rfl⟩ | ⟨_, hx'⟩
      · have e1 := ht.elt a ea hea
        have e2 := ht.elt b eb heb
        simp only [newData] at ha e1 e2
        have : a = b := by omega
        subst this
        have : ea = eb := by
          have := hea.symm.trans heb
          injection this
        rw [this]
      · exact ht.mono w' x' a b ea eb hx' ha hab hea heb dn
    · exact ht.elt

theorem tick_get?_of_del {s : F1} {d : Data} (h : DInv s d) {w : Addr} {x : Del}
    (hw : s.dels.get? w = some x) : (newEntries s.entries d).get? x.k = s.entries.get? x.k := by
  have := h.klt w x hw
  exact newEntries_other _ _ (by omega) (fun hu => (h.und hu).2 w x hw)

/-- All endpoints of the periods of constant delegation. -/
theorem mem_segs {l : List (Nat × Dec)} {p m : Nat} {b : Dec} {t : Nat × Nat × Dec}
    (h : t ∈ segs l p m b) :
    (t.1 = p ∨ ∃ q, (t.1, q) ∈ l) ∧ (t.2.1 = m ∨ ∃ q, (t.2.1, q) ∈ l) := by
  induction l generalizing p b with
  | nil => simp [segs] at h; subst h; simp
  | cons y t' ih =>
    obtain ⟨k, q⟩ := y
    simp only [segs, List.mem_cons] at h
    rcases h with rfl | h
    · exact ⟨Or.inl rfl, Or.inr ⟨q, by simp⟩⟩
    · obtain ⟨h1, h2⟩ := ih h
      constructor
      · rcases h1 with h1 | ⟨q', h1⟩
        · right; refine ⟨q, ?_⟩; rw [h1]; simp
        · right; exact ⟨q', List.mem_cons_of_mem _ h1⟩
      · rcases h2 with h2 | ⟨q', h2⟩
        · exact Or.inl h2
        · right; exact ⟨q', List.mem_cons_of_mem _ h2⟩

/-- The periods are consecutive and go upwards. -/
theorem segs_ordered {l : List (Nat × Dec)} {p m : Nat} {b : Dec} (hl : SortedL l)
    (hp : ∀ y ∈ l, p ≤ y.1) (hm : ∀ y ∈ l, y.1 ≤ m) (hpm : p ≤ m) {t : Nat × Nat × Dec}
    (h : t ∈ segs l p m b) : p ≤ t.1 ∧ t.1 ≤ t.2.1 := by
  induction l generalizing p b with
  | nil => simp [segs] at h; subst h; exact ⟨Nat.le_refl _, hpm⟩
  | cons y t' ih =>
    obtain ⟨k, q⟩ := y
    unfold SortedL at hl
    rw [List.pairwise_cons] at hl
    simp only [segs, List.mem_cons] at h
    have hk : p ≤ k := hp (k, q) (by simp)
    rcases h with rfl | h
    · exact ⟨Nat.le_refl _, hk⟩
    · have := ih hl.2 (fun y hy => by
        have := hl.1 y hy; simp [KeyOrd.lt] at this; omega)
        (fun y hy => hm y (List.mem_cons_of_mem _ hy)) (hm (k, q) (by simp)) h
      exact ⟨by omega, this.2⟩

theorem sorted_slashesBetween (m : Map Nat Dec) (lo hi : Nat) : SortedL (slashesBetween m lo hi) :=
  List.Pairwise.filter _ m.sorted

/-- No look-up for a delegator's reward goes wrong, in any state that satisfies the invariant. -/
theorem DInv.noBad {s : F1} {d : Data} (h : DInv s d) {w : Addr} {x : Del} (hw : s.dels.get? w = some x) :
    anyBad s.entries (periodsOf s.slashes x d.latest) = false := by
  unfold anyBad
  rw [List.any_eq_false]
  intro t ht
  have hk := h.klt w x hw
  have hpres : ∀ y, (y = x.k ∨ (∃ q, (y, q) ∈ slashesBetween s.slashes x.k d.latest) ∨ y = d.latest) →
      (s.entries.get? y).isSome := by
    rintro y (rfl | ⟨q, hq⟩ | rfl)
    · exact h.kent w x hw
    · exact (h.sent y q (mem_slashesBetween.1 hq).1).2.2
    · exact h.lat w x hw
  obtain ⟨h1, h2⟩ := mem_segs ht
  obtain ⟨h3, h4⟩ := segs_ordered (sorted_slashesBetween _ _ _)
    (fun y hy => (mem_slashesBetween.1 hy).2.1) (fun y hy => (mem_slashesBetween.1 hy).2.2) hk ht
  obtain ⟨e1, he1⟩ := Option.isSome_iff_exists.1 (hpres t.1 (by tauto))
  obtain ⟨e2, he2⟩ := Option.isSome_iff_exists.1 (hpres t.2.1 (by tauto))
  have hle : (entryVal s.entries t.1).le (entryVal s.entries t.2.1) = true := by
    rw [Coins.le_iff, entryVal_of_get? he1, entryVal_of_get? he2]
    exact h.mono w x t.1 t.2.1 e1 e2 hw h3 h4 he1 he2
  unfold diffBad Map.has
  rw [he1, he2, hle]
  simp

theorem tick_data (s : F1) (d : Data) : (tick s d).data = some (newData d) := rfl

/-- Withdrawing. -/
theorem F1Inv.withdraw {s : F1} (h : F1Inv s) (w : Addr) : F1Inv (withdraw s w).1 := by
  unfold Verif.Delegation.withdraw
  cases hw : s.dels.get? w with
  | none => exact h
  | some x =>
    obtain ⟨d, hd⟩ := h.data_of_del hw
    have hD := h.dsome d hd
    obtain ⟨ht, hf⟩ := hD.tick
    have hbad := ht.noBad (w := w) (x := x) hw
    simp only [hd, Option.getD_some]
    unfold withdrawFound
    have hxk := hD.klt w x hw
    have hdel : ∀ j, j ≠ x.k → ((newEntries s.entries d).del x.k).get? j = (newEntries s.entries d).get? j :=
      fun j hj => Map.get?_del_ne _ hj
    have hsub : ∀ j v, ((newEntries s.entries d).del x.k).get? j = some v →
        (newEntries s.entries d).get? j = some v := by
      intro j v hj
      rw [Map.get?_del] at hj
      split at hj
      · cases hj
      · exact hj
    refine ⟨(by intro hn; cases hn), ?_, ?_⟩
    · intro d' hd'
      simp only [Option.some.injEq] at hd'
      subst hd'
      generalize hn : Dec.trunc (balUpTo s.slashes x (d.latest + 1)) = n
      have hget : ∀ w' x', (s.dels.set w ⟨n, d.latest + 1⟩).get? w' = some x' →
          (w' = w ∧ x' = ⟨n, d.latest + 1⟩) ∨ (w' ≠ w ∧ s.dels.get? w' = some x') := by
        intro w' x' hx'
        rw [Map.get?_set] at hx'
        split at hx'
        · injection hx' with hx'; exact Or.inl ⟨by assumption, hx'.symm⟩
        · exact Or.inr ⟨by assumption, hx'⟩
      have hent : (((newEntries s.entries d).del x.k).get? (d.latest + 1)).isSome := by
        rw [hdel _ (by omega)]; exact hf.ent
      refine ⟨?_, ?_, ?_, ?_, ?_, ?_, ?_, ?_, ?_, ?_⟩
      · intro w' x' hx'
        rcases hget w' x' hx' with ⟨_, rfl⟩ | ⟨_, hx'⟩
        · exact Nat.le_refl _
        · exact ht.klt w' x' hx'
      · intro w1 w2 x1 x2 h1 h2 he
        rcases hget w1 x1 h1 with ⟨rfl, rfl⟩ | ⟨_, h1'⟩
        · rcases hget w2 x2 h2 with ⟨rfl, rfl⟩ | ⟨_, h2⟩
          · rfl
          · have := hD.klt w2 x2 h2; simp at he; omega
        · rcases hget w2 x2 h2 with ⟨rfl, rfl⟩ | ⟨_, h2⟩
          · have := hD.klt w1 x1 h1'; simp at he; omega
          · exact hD.kdist w1 w2 x1 x2 h1' h2 he
      · intro w' x' hx'
        rcases hget w' x' hx' with ⟨_, rfl⟩ | ⟨hne, hx'⟩
        · exact hent
        · show (((newEntries s.entries d).del x.k).get? x'.k).isSome
          rw [hdel _ (fun e => hne (hD.kdist w' w x' x hx' hw e))]
          exact ht.kent w' x' hx'
      · intro j q hj
        have hj' := ht.sent j q hj
        refine ⟨hj'.1, hj'.2.1, ?_⟩
        show (((newEntries s.entries d).del x.k).get? j).isSome
        rw [hdel _ (fun e => by rw [e] at hj; have := hD.kslash w x hw; simp_all)]
        exact hj'.2.2
      · intro w' x' hx'
        rcases hget w' x' hx' with ⟨_, rfl⟩ | ⟨_, hx'⟩
        · show s.slashes.get? (d.latest + 1) = none
          cases hq : s.slashes.get? (d.latest + 1) with
          | none => rfl
          | some q => have := (hD.sent _ q hq).1; omega
        · exact ht.kslash w' x' hx'
      · show d.count = (s.dels.set w _).size
        have := hD.cnt
        rw [Map.size_set, hw]; simp; omega
      · intro w' x' _; exact hent
      · intro hu; cases hu
      · intro w' x' a b ea eb hx' ha hab hea heb dn
        have hea := hsub a ea hea
        have heb := hsub b eb heb
        rcases hget w' x' hx' with ⟨_, rfl⟩ | ⟨_, hx'⟩
        · have e1 := ht.elt a ea hea
          have e2 := ht.elt b eb heb
          simp only [newData] at ha e1 e2
          have : a = b := by omega
          subst this
          have : ea = eb := by
            have := hea.symm.trans heb
            injection this
          rw [this]
        · exact ht.mono w' x' a b ea eb hx' ha hab hea heb dn
      · intro j v hj
        exact ht.elt j v (hsub j v hj)
    · show (s.halted || s.data.isNone ||
        anyBad (newEntries s.entries d) (periodsOf s.slashes x (d.latest + 1))) = false
      rw [h.ok, hd]
      have : anyBad (newEntries s.entries d) (periodsOf s.slashes x (d.latest + 1)) = false := hbad
      rw [this]; rfl

/-- Removing a delegator. -/
theorem F1Inv.remove {s : F1} (h : F1Inv s) (w : Addr) : F1Inv (remove s w).1 := by
  unfold Verif.Delegation.remove
  cases hw : s.dels.get? w with
  | none => exact h
  | some x =>
    obtain ⟨d, hd⟩ := h.data_of_del hw
    have hD := h.dsome d hd
    obtain ⟨ht, hf⟩ := hD.tick
    simp only [hd, Option.getD_some]
    generalize curDel s w = n
    unfold removeFound
    have hxk := hD.klt w x hw
    refine ⟨(by intro hn; cases hn), ?_, by show (s.halted || s.data.isNone) = false; rw [h.ok, hd]; rfl⟩
    intro d' hd'
    simp only [Option.some.injEq] at hd'
    subst hd'
    have hget : ∀ w' x', (s.dels.del w).get? w' = some x' → w' ≠ w ∧ s.dels.get? w' = some x' := by
      intro w' x' hx'
      rw [Map.get?_del] at hx'
      split at hx'
      · cases hx'
      · exact ⟨by assumption, hx'⟩
    have hsize : (s.dels.del w).size = d.count - 1 := by
      rw [Map.size_del, hw, hD.cnt]; rfl
    have hpos : ∀ w' x', (s.dels.del w).get? w' = some x' → d.count - 1 ≠ 0 := by
      intro w' x' hx'
      have := Map.size_pos_of_get? _ hx'
      omega
    have hdel : ∀ j, j ≠ x.k → ((newEntries s.entries d).del x.k).get? j = (newEntries s.entries d).get? j :=
      fun j hj => Map.get?_del_ne _ hj
    have hsub : ∀ j v, (if d.count - 1 = 0 then ((newEntries s.entries d).del x.k).del (d.latest + 1)
        else (newEntries s.entries d).del x.k).get? j = some v →
        (newEntries s.entries d).get? j = some v := by
      intro j v hj
      split at hj
      · rw [Map.get?_del] at hj
        split at hj
        · cases hj
        · rw [Map.get?_del] at hj
          split at hj
          · cases hj
          · exact hj
      · rw [Map.get?_del] at hj
        split at hj
        · cases hj
        · exact hj
    have hslashk : ∀ j q, s.slashes.get? j = some q → j ≠ x.k := by
      intro j q hj e
      rw [e, hD.kslash w x hw] at hj; cases hj
    have hslashn : ∀ j q, s.slashes.get? j = some q → j ≠ d.latest + 1 := by
      intro j q hj e
      have := (hD.sent j q hj).1; omega
    refine ⟨?_, ?_, ?_, ?_, ?_, ?_, ?_, ?_, ?_, ?_⟩
    · intro w' x' hx'
      exact ht.klt w' x' (hget w' x' hx').2
    · intro w1 w2 x1 x2 h1 h2 he
      exact hD.kdist w1 w2 x1 x2 (hget _ _ h1).2 (hget _ _ h2).2 he
    · intro w' x' hx'
      have hne := hpos w' x' hx'
      obtain ⟨hww, hx'⟩ := hget w' x' hx'
      show ((if d.count - 1 = 0 then _ else _ : Map Nat DecCoins).get? x'.k).isSome
      rw [if_neg hne, hdel _ (fun e => hww (hD.kdist w' w x' x hx' hw e))]
      exact ht.kent w' x' hx'
    · intro j q hj
      have hj' := ht.sent j q hj
      refine ⟨hj'.1, hj'.2.1, ?_⟩
      show ((if d.count - 1 = 0 then _ else _ : Map Nat DecCoins).get? j).isSome
      split
      · rw [Map.get?_del_ne _ (hslashn j q hj), hdel _ (hslashk j q hj)]
        exact hj'.2.2
      · rw [hdel _ (hslashk j q hj)]
        exact hj'.2.2
    · intro w' x' hx'
      exact ht.kslash w' x' (hget w' x' hx').2
    · exact hsize.symm
    · intro w' x' hx'
      have hne := hpos w' x' hx'
      show ((if d.count - 1 = 0 then _ else _ : Map Nat DecCoins).get? (d.latest + 1)).isSome
      rw [if_neg hne, hdel _ (by omega)]
      exact hf.ent
    · intro _
      refine ⟨?_, ?_⟩
      · show s.slashes.get? (d.latest + 1) = none
        cases hq : s.slashes.get? (d.latest + 1) with
        | none => rfl
        | some q => exact absurd rfl (hslashn _ q hq)
      · intro w' x' hx'
        have := hD.klt w' x' (hget w' x' hx').2
        simp only [newData]; omega
    · intro w' x' a b ea eb hx' ha hab hea heb dn
      exact ht.mono w' x' a b ea eb (hget w' x' hx').2 ha hab (hsub a ea hea) (hsub b eb heb) dn
    · intro j v hj
      exact ht.elt j v (hsub j v hj)

/-- Slashing. -/
theorem F1Inv.slash {s : F1} (h : F1Inv s) {q : Dec} (hq : q ≤ Dec.one) : F1Inv (slash s q).1 := by
  unfold Verif.Delegation.slash
  cases hd : s.data with
  | none => exact h
  | some d =>
    have hD := h.dsome d hd
    obtain ⟨ht, hf⟩ := hD.tick
    refine ⟨(by intro hn; cases hn), ?_, h.ok⟩
    intro d' hd'
    simp only [Option.some.injEq] at hd'
    subst hd'
    refine ⟨ht.klt, ht.kdist, ht.kent, ?_, ?_, ht.cnt, ht.lat, ?_, ht.mono, ht.elt⟩
    · intro j q' hj
      change (s.slashes.set (d.latest + 1) q).get? j = some q' at hj
      rw [Map.get?_set] at hj
      split at hj
      · injection hj with hj
        subst hj
        subst_vars
        exact ⟨Nat.le_refl _, hq, hf.ent⟩
      · exact ht.sent j q' hj
    · intro w' x' hx'
      show (s.slashes.set (d.latest + 1) q).get? x'.k = none
      rw [Map.get?_set_ne _ _ (by have := hD.klt w' x' hx'; omega)]
      exact ht.kslash w' x' hx'
    · intro hu; cases hu

/-- A payout. -/
theorem F1Inv.payout {s : F1} (h : F1Inv s) (c : Coins) : F1Inv (payout s c) := by
  unfold Verif.Delegation.payout
  cases hd : s.data with
  | none => exact h
  | some d =>
    have hD := h.dsome d hd
    refine ⟨(by intro hn; cases hn), ?_, h.ok⟩
    intro d' hd'
    simp only [Option.some.injEq] at hd'
    subst hd'
    exact ⟨hD.klt, hD.kdist, hD.kent, hD.sent, hD.kslash, hD.cnt, hD.lat, hD.und, hD.mono, hD.elt⟩

theorem remove_get? (s : F1) (w : Addr) : (remove s w).1.dels.get? w = none := by
  unfold remove
  cases hw : s.dels.get? w with
  | none => exact hw
  | some x => simp [removeFound]

theorem F1Inv.delegate {s : F1} (h : F1Inv s) (w : Addr) (n : Nat) : F1Inv (delegate s w n).1 := by
  unfold Verif.Delegation.delegate
  split
  · exact ((h.withdraw w).remove w).create (remove_get? _ w)
  · rename_i hh
    refine h.create ?_
    unfold Map.has at hh
    cases hw : s.dels.get? w with
    | none => rfl
    | some x => rw [hw] at hh; exact absurd rfl hh

theorem F1Inv.undelegate {s : F1} (h : F1Inv s) (w : Addr) (n : Nat) : F1Inv (undelegate s w n).1 := by
  unfold Verif.Delegation.undelegate undelegateRest
  simp only
  split
  · exact ((h.withdraw w).remove w).create (remove_get? _ w)
  · exact (h.withdraw w).remove w

theorem F1Inv.step {s : F1} (h : F1Inv s) (op : Op) (hq : ∀ q, op = .slash q → q ≤ Dec.one) :
    F1Inv (f1Step s op) := by
  cases op with
  | delegate w n => exact h.delegate w n
  | undelegate w n => exact h.undelegate w n
  | withdraw w => exact h.withdraw w
  | slash q => exact h.slash (hq q rfl)
  | payout c => exact h.payout c

theorem Ledger.Reachable.f1inv {l : Ledger} (h : Ledger.Reachable l) : F1Inv l.f1 := by
  induction h with
  | init => exact F1Inv.init
  | step op _ hq _ ih => exact ih.step op hq

end Verif.Delegation
