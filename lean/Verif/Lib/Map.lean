import Mathlib.Algebra.BigOperators.Group.List.Basic
import Mathlib.Tactic.Abel

/-!
# Finite sorted maps: the model of a KV-store

Models the Cosmos SDK `KVStore` (a dependency, not part of /repo) as used by every keeper of /repo:
point lookup, write, delete and iteration in ascending key order.  The byte encoding of the keys is
treated in `Verif/Keys.lean`.
-/

set_option linter.unusedSectionVars false

namespace Verif

/-- A decidable strict total order on keys (byte order of the encoded keys). -/
class KeyOrd (K : Type) where
  lt : K → K → Bool
  irrefl : ∀ a, lt a a = false
  trans : ∀ a b c, lt a b = true → lt b c = true → lt a c = true
  total : ∀ a b, lt a b = false → lt b a = false → a = b

instance : KeyOrd Nat where
  lt a b := decide (a < b)
  irrefl := by simp
  trans := by intro a b c; simp; omega
  total := by intro a b; simp; omega

/-- Composite keys are compared lexicographically. -/
instance {A B : Type} [DecidableEq A] [KeyOrd A] [KeyOrd B] : KeyOrd (A × B) where
  lt a b := KeyOrd.lt a.1 b.1 || (decide (a.1 = b.1) && KeyOrd.lt a.2 b.2)
  irrefl := by intro a; simp [KeyOrd.irrefl]
  trans := by
    rintro ⟨a1, a2⟩ ⟨b1, b2⟩ ⟨c1, c2⟩
    simp only [Bool.or_eq_true, Bool.and_eq_true, decide_eq_true_eq]
    rintro (h | ⟨rfl, h⟩) (h' | ⟨rfl, h'⟩)
    · exact Or.inl (KeyOrd.trans _ _ _ h h')
    · exact Or.inl h
    · exact Or.inl h'
    · exact Or.inr ⟨rfl, KeyOrd.trans _ _ _ h h'⟩
  total := by
    rintro ⟨a1, a2⟩ ⟨b1, b2⟩ h h'
    simp only [Bool.or_eq_false_iff, Bool.and_eq_false_iff, decide_eq_false_iff_not] at h h'
    have e := KeyOrd.total _ _ h.1 h'.1
    subst e
    simp at h h'
    rw [KeyOrd.total _ _ h.2 h'.2]

theorem KeyOrd.asymm {K : Type} [KeyOrd K] {a b : K} (h : KeyOrd.lt a b = true) :
    KeyOrd.lt b a = false := by
  cases hb : KeyOrd.lt b a with
  | false => rfl
  | true => have := KeyOrd.trans _ _ _ h hb; rw [KeyOrd.irrefl] at this; cases this

theorem KeyOrd.ne {K : Type} [KeyOrd K] {a b : K} (h : KeyOrd.lt a b = true) : a ≠ b := by
  rintro rfl; rw [KeyOrd.irrefl] at h; cases h

section
variable {K V : Type} [DecidableEq K] [KeyOrd K]

/-- Point lookup in an association list. -/
def getL (k : K) : List (K × V) → Option V
  | [] => none
  | (k', v) :: t => if k = k' then some v else getL k t

/-- Sorted insertion / overwrite. -/
def insertL (k : K) (v : V) : List (K × V) → List (K × V)
  | [] => [(k, v)]
  | (k', v') :: t =>
    if KeyOrd.lt k k' then (k, v) :: (k', v') :: t
    else if KeyOrd.lt k' k then (k', v') :: insertL k v t
    else (k, v) :: t

def SortedL (l : List (K × V)) : Prop := l.Pairwise (fun a b => KeyOrd.lt a.1 b.1 = true)

omit [DecidableEq K] in
theorem mem_insertL {k : K} {v : V} {l : List (K × V)} {p : K × V} (h : p ∈ insertL k v l) :
    p = (k, v) ∨ p ∈ l := by
  induction l with
  | nil => simp [insertL] at h; simp [h]
  | cons q t ih =>
    obtain ⟨k', v'⟩ := q
    simp only [insertL] at h
    split at h
    · simp at h; rcases h with h | h | h <;> simp [h]
    · split at h
      · simp at h; rcases h with h | h
        · simp [h]
        · rcases ih h with h | h <;> simp [h]
      · simp at h; rcases h with h | h <;> simp [h]

omit [DecidableEq K] in
theorem sorted_insertL {k : K} {v : V} {l : List (K × V)} (h : SortedL l) :
    SortedL (insertL k v l) := by
  unfold SortedL at *
  induction l with
  | nil => simp [insertL]
  | cons q t ih =>
    obtain ⟨k', v'⟩ := q
    rw [List.pairwise_cons] at h
    simp only [insertL]
    split
    · rename_i hlt
      rw [List.pairwise_cons, List.pairwise_cons]
      refine ⟨?_, h⟩
      intro p hp
      simp at hp
      rcases hp with rfl | hp
      · exact hlt
      · exact KeyOrd.trans _ _ _ hlt (h.1 p hp)
    · split
      · rename_i h1 h2
        rw [List.pairwise_cons]
        refine ⟨?_, ih h.2⟩
        intro p hp
        rcases mem_insertL hp with rfl | hp
        · exact h2
        · exact h.1 p hp
      · rename_i h1 h2
        have e := KeyOrd.total _ _ (by simpa using h1) (by simpa using h2)
        subst e
        rw [List.pairwise_cons]
        exact h

theorem getL_insertL {k j : K} {v : V} {l : List (K × V)} :
    getL j (insertL k v l) = if j = k then some v else getL j l := by
  induction l with
  | nil => simp [insertL, getL]
  | cons q t ih =>
    obtain ⟨k', v'⟩ := q
    simp only [insertL]
    split
    · simp [getL]
    · split
      · rename_i h1 h2
        simp only [getL, ih]
        by_cases hj : j = k'
        · subst hj; simp [KeyOrd.ne h2]
        · simp [hj]
      · rename_i h1 h2
        have e := KeyOrd.total _ _ (by simpa using h1) (by simpa using h2)
        subst e
        simp only [getL]
        by_cases hj : j = k <;> simp [hj]

theorem getL_none_of_lt {k : K} {l : List (K × V)} (h : ∀ p ∈ l, KeyOrd.lt k p.1 = true) :
    getL k l = none := by
  induction l with
  | nil => rfl
  | cons q t ih =>
    obtain ⟨k', v'⟩ := q
    have := KeyOrd.ne (h (k', v') (by simp))
    simp only [getL]
    rw [if_neg this]
    exact ih (fun p hp => h p (by simp [hp]))

theorem getL_filter {k j : K} {l : List (K × V)} :
    getL j (l.filter (fun p => decide (p.1 ≠ k))) = if j = k then none else getL j l := by
  induction l with
  | nil => simp [getL]
  | cons q t ih =>
    obtain ⟨k', v'⟩ := q
    rw [List.filter_cons]
    by_cases hk : k' = k
    · subst hk; simp only [ne_eq, not_true_eq_false, decide_false, Bool.false_eq_true, if_false]
      simp only [ne_eq] at ih
      rw [ih]; by_cases hj : j = k' <;> simp [getL, hj]
    · simp only [ne_eq, hk, not_false_eq_true, decide_true, if_true, getL]
      simp only [ne_eq] at ih
      rw [ih]
      by_cases hj : j = k'
      · subst hj; simp [hk]
      · simp [hj]

theorem mem_of_getL {k : K} {v : V} {l : List (K × V)} (h : getL k l = some v) : (k, v) ∈ l := by
  induction l with
  | nil => simp [getL] at h
  | cons q t ih =>
    obtain ⟨k', v'⟩ := q
    simp only [getL] at h
    split at h
    · rename_i hk; subst hk; simp at h; simp [h]
    · exact List.mem_cons_of_mem _ (ih h)

theorem getL_of_mem {k : K} {v : V} {l : List (K × V)} (hs : SortedL l) (h : (k, v) ∈ l) :
    getL k l = some v := by
  induction l with
  | nil => simp at h
  | cons q t ih =>
    obtain ⟨k', v'⟩ := q
    unfold SortedL at hs
    rw [List.pairwise_cons] at hs
    simp only [getL]
    simp at h
    rcases h with ⟨rfl, rfl⟩ | h
    · simp
    · have := KeyOrd.ne (hs.1 _ h)
      rw [if_neg (fun e => this e.symm)]
      exact ih hs.2 h

theorem ext_sortedL {l l' : List (K × V)} (h : SortedL l) (h' : SortedL l')
    (e : ∀ k, getL k l = getL k l') : l = l' := by
  induction l generalizing l' with
  | nil =>
    cases l' with
    | nil => rfl
    | cons q t => obtain ⟨k, v⟩ := q; have := e k; simp [getL] at this
  | cons q t ih =>
    obtain ⟨k, v⟩ := q
    cases l' with
    | nil => have := e k; simp [getL] at this
    | cons q' t' =>
      obtain ⟨k', v'⟩ := q'
      unfold SortedL at h h'
      rw [List.pairwise_cons] at h h'
      have hkk : k = k' := by
        by_contra hne
        have e1 := e k
        have e2 := e k'
        simp only [getL, if_true] at e1 e2
        rw [if_neg hne] at e1
        rw [if_neg (fun x => hne x.symm)] at e2
        have m1 := mem_of_getL e1.symm
        have m2 := mem_of_getL e2
        have l1 := h'.1 _ m1
        have l2 := h.1 _ m2
        have := KeyOrd.asymm l1
        simp only at l2 this
        rw [this] at l2; cases l2
      subst hkk
      have e1 := e k
      simp only [getL, if_true, Option.some.injEq] at e1
      subst e1
      congr 1
      apply ih h.2 h'.2
      intro j
      by_cases hj : j = k
      · subst hj
        rw [getL_none_of_lt h.1, getL_none_of_lt h'.1]
      · have := e j
        simp only [getL, if_neg hj] at this
        exact this

end

/-- A finite map with entries in ascending key order: a KV-store. -/
structure Map (K V : Type) [KeyOrd K] where
  toList : List (K × V)
  sorted : SortedL toList

instance {K V : Type} [KeyOrd K] [DecidableEq K] [DecidableEq V] : DecidableEq (Map K V) :=
  fun a b => if h : a.toList = b.toList then .isTrue (by cases a; cases b; simp at h; subst h; rfl)
    else .isFalse (fun e => h (by rw [e]))

instance {K V : Type} [KeyOrd K] [Repr K] [Repr V] : Repr (Map K V) := ⟨fun m n => reprPrec m.toList n⟩

namespace Map
variable {K V : Type} [DecidableEq K] [KeyOrd K]

/-- `store` without entries. -/
def empty : Map K V := ⟨[], List.Pairwise.nil⟩

instance : EmptyCollection (Map K V) := ⟨empty⟩
instance : Inhabited (Map K V) := ⟨empty⟩

/-- `store.Get` -/
def get? (m : Map K V) (k : K) : Option V := getL k m.toList

/-- `store.Has` -/
def has (m : Map K V) (k : K) : Bool := (m.get? k).isSome

/-- `store.Set` -/
def set (m : Map K V) (k : K) (v : V) : Map K V := ⟨insertL k v m.toList, sorted_insertL m.sorted⟩

/-- `store.Delete` -/
def del (m : Map K V) (k : K) : Map K V :=
  ⟨m.toList.filter (fun p => decide (p.1 ≠ k)), List.Pairwise.filter _ m.sorted⟩

/-- number of entries -/
def size (m : Map K V) : Nat := m.toList.length

/-- all keys in iteration order -/
def keys (m : Map K V) : List K := m.toList.map (·.1)

/-- all values in iteration order -/
def vals (m : Map K V) : List V := m.toList.map (·.2)

@[simp] theorem get?_empty (k : K) : (∅ : Map K V).get? k = none := rfl
@[simp] theorem get?_empty' (k : K) : (Map.empty : Map K V).get? k = none := rfl

theorem get?_set (m : Map K V) (k j : K) (v : V) :
    (m.set k v).get? j = if j = k then some v else m.get? j := getL_insertL

@[simp] theorem get?_set_self (m : Map K V) (k : K) (v : V) : (m.set k v).get? k = some v := by
  simp [get?_set]

theorem get?_set_ne (m : Map K V) {k j : K} (v : V) (h : j ≠ k) :
    (m.set k v).get? j = m.get? j := by simp [get?_set, h]

theorem get?_del (m : Map K V) (k j : K) :
    (m.del k).get? j = if j = k then none else m.get? j := getL_filter

@[simp] theorem get?_del_self (m : Map K V) (k : K) : (m.del k).get? k = none := by
  simp [get?_del]

theorem get?_del_ne (m : Map K V) {k j : K} (h : j ≠ k) :
    (m.del k).get? j = m.get? j := by simp [get?_del, h]

theorem mem_iff (m : Map K V) (k : K) (v : V) : (k, v) ∈ m.toList ↔ m.get? k = some v :=
  ⟨fun h => getL_of_mem m.sorted h, fun h => mem_of_getL h⟩

theorem mem_keys_iff (m : Map K V) (k : K) : k ∈ m.keys ↔ ∃ v, m.get? k = some v := by
  unfold keys
  simp only [List.mem_map, Prod.exists, exists_and_right, exists_eq_right]
  exact exists_congr (fun v => m.mem_iff k v)

@[ext] theorem ext {m m' : Map K V} (h : ∀ k, m.get? k = m'.get? k) : m = m' := by
  have := ext_sortedL m.sorted m'.sorted h
  cases m; cases m'; simp at this; subst this; rfl

theorem keys_nodup (m : Map K V) : m.keys.Nodup := by
  unfold keys
  rw [List.nodup_iff_pairwise_ne, List.pairwise_map]
  exact m.sorted.imp (fun h => KeyOrd.ne h)

theorem set_set (m : Map K V) (k : K) (v w : V) : (m.set k v).set k w = m.set k w := by
  ext1 j; simp only [get?_set]; split <;> rfl

theorem del_set (m : Map K V) (k : K) (v : V) : (m.set k v).del k = m.del k := by
  ext1 j; simp only [get?_set, get?_del]; split <;> rfl

theorem set_comm (m : Map K V) {k j : K} (v w : V) (h : k ≠ j) :
    (m.set k v).set j w = (m.set j w).set k v := by
  ext1 i
  simp only [get?_set]
  by_cases h1 : i = j
  · subst h1; simp [Ne.symm h]
  · simp [h1]

theorem set_get_self (m : Map K V) {k : K} {v : V} (h : m.get? k = some v) : m.set k v = m := by
  ext1 j; simp only [get?_set]; split
  · rename_i e; subst e; exact h.symm
  · rfl

theorem del_absent (m : Map K V) {k : K} (h : m.get? k = none) : m.del k = m := by
  ext1 j; simp only [get?_del]; split
  · rename_i e; subst e; exact h.symm
  · rfl

/-- Sum of a quantity over all entries. -/
def sum {M : Type} [AddCommMonoid M] (m : Map K V) (f : K → V → M) : M :=
  (m.toList.map (fun p => f p.1 p.2)).sum

section sums
variable {M : Type} [AddCommMonoid M]

/-- The contribution of a key. -/
def at' (m : Map K V) (f : K → V → M) (k : K) : M :=
  match m.get? k with
  | some v => f k v
  | none => 0

@[simp] theorem sum_empty (f : K → V → M) : (∅ : Map K V).sum f = 0 := rfl
@[simp] theorem sum_empty' (f : K → V → M) : (Map.empty : Map K V).sum f = 0 := rfl

omit [KeyOrd K] in
theorem sumL_filter_absent {k : K} {l : List (K × V)} (f : K → V → M) (h : getL k l = none) :
    ((l.filter (fun p => decide (p.1 ≠ k))).map (fun p => f p.1 p.2)).sum
      = (l.map (fun p => f p.1 p.2)).sum := by
  induction l with
  | nil => rfl
  | cons q t ih =>
    obtain ⟨k', v'⟩ := q
    simp only [getL] at h
    split at h
    · simp at h
    · rename_i hk
      have hk' : k' ≠ k := fun e => hk e.symm
      rw [List.filter_cons]
      simp only [ne_eq, hk', not_false_eq_true, decide_true, if_true, List.map_cons, List.sum_cons]
      simp only [ne_eq] at ih
      rw [ih h]

theorem sum_del (m : Map K V) (f : K → V → M) (k : K) :
    (m.del k).sum f + m.at' f k = m.sum f := by
  obtain ⟨l, hs⟩ := m
  unfold sum at' del get?
  simp only
  induction l with
  | nil => simp [getL]
  | cons q t ih =>
    obtain ⟨k', v'⟩ := q
    have hs' := hs
    unfold SortedL at hs'
    rw [List.pairwise_cons] at hs'
    rw [List.filter_cons]
    by_cases hk : k' = k
    · subst hk
      have hn : getL k' t = none := getL_none_of_lt hs'.1
      have := sumL_filter_absent f hn
      simp only [ne_eq, not_true_eq_false, decide_false, Bool.false_eq_true, if_false, getL, if_true,
        List.map_cons, List.sum_cons]
      simp only [ne_eq] at this
      rw [this, add_comm]
    · have := ih hs'.2
      have hk' : ¬ k = k' := fun e => hk e.symm
      simp only [ne_eq, hk, not_false_eq_true, decide_true, if_true, List.map_cons, List.sum_cons, getL,
        hk', if_false]
      simp only [ne_eq] at this
      rw [add_assoc, this]

theorem sum_set_absent (m : Map K V) (f : K → V → M) {k : K} (v : V) (h : m.get? k = none) :
    (m.set k v).sum f = m.sum f + f k v := by
  have h1 := sum_del (m.set k v) f k
  rw [del_set, del_absent _ h] at h1
  rw [← h1]
  simp [at']

theorem sum_set (m : Map K V) (f : K → V → M) (k : K) (v : V) :
    (m.set k v).sum f + m.at' f k = m.sum f + f k v := by
  have h1 := sum_del (m.set k v) f k
  rw [del_set] at h1
  have h2 := sum_del m f k
  rw [← h1, ← h2]
  simp only [at', get?_set_self]
  abel

theorem sum_congr (m : Map K V) (f g : K → V → M) (h : ∀ k v, m.get? k = some v → f k v = g k v) :
    m.sum f = m.sum g := by
  unfold sum
  congr 1
  apply List.map_congr_left
  rintro ⟨k, v⟩ hp
  exact h k v ((m.mem_iff k v).1 hp)

theorem sum_add (m : Map K V) (f g : K → V → M) :
    m.sum (fun k v => f k v + g k v) = m.sum f + m.sum g := by
  unfold sum
  generalize m.toList = l
  induction l with
  | nil => simp
  | cons p t ih => simp only [List.map_cons, List.sum_cons, ih]; abel

theorem sum_zero (m : Map K V) : m.sum (fun _ _ => (0 : M)) = 0 := by
  unfold sum; simp

end sums

theorem sum_le (m : Map K V) (f g : K → V → Nat) (h : ∀ k v, m.get? k = some v → f k v ≤ g k v) :
    m.sum f ≤ m.sum g := by
  unfold sum
  have h' : ∀ p ∈ m.toList, f p.1 p.2 ≤ g p.1 p.2 := fun p hp => h p.1 p.2 ((m.mem_iff _ _).1 hp)
  revert h'
  generalize m.toList = l
  intro h'
  induction l with
  | nil => simp
  | cons p t ih =>
    simp only [List.map_cons, List.sum_cons]
    have := h' p (by simp)
    have := ih (fun q hq => h' q (by simp [hq]))
    omega

theorem at'_le_sum (m : Map K V) (f : K → V → Nat) (k : K) : m.at' f k ≤ m.sum f := by
  have := m.sum_del f k; omega

theorem le_sum (m : Map K V) (f : K → V → Nat) {k : K} {v : V} (h : m.get? k = some v) :
    f k v ≤ m.sum f := by
  have := m.at'_le_sum f k; simp only [at', h] at this; exact this

theorem size_eq_sum (m : Map K V) : m.size = m.sum (fun _ _ => 1) := by
  unfold size sum; simp

theorem size_del (m : Map K V) (k : K) :
    (m.del k).size = m.size - (if (m.get? k).isSome then 1 else 0) := by
  have := m.sum_del (fun _ _ => 1) k
  rw [size_eq_sum, size_eq_sum]
  unfold at' at this
  cases h : m.get? k <;> simp [h] at this ⊢ <;> omega

theorem size_set (m : Map K V) (k : K) (v : V) :
    (m.set k v).size = m.size + (if (m.get? k).isSome then 0 else 1) := by
  have := m.sum_set (fun _ _ => 1) k v
  rw [size_eq_sum, size_eq_sum]
  unfold at' at this
  cases h : m.get? k <;> simp [h] at this ⊢ <;> omega

theorem size_pos_of_get? (m : Map K V) {k : K} {v : V} (h : m.get? k = some v) : 0 < m.size := by
  have := m.le_sum (fun _ _ => 1) h
  rw [size_eq_sum]; exact this

theorem eq_empty_of_size (m : Map K V) (h : m.size = 0) : m = ∅ := by
  ext1 k
  cases hk : m.get? k with
  | none => rfl
  | some v => have := m.size_pos_of_get? hk; omega

@[simp] theorem size_empty : (∅ : Map K V).size = 0 := rfl

/-- Build a map from a list (later entries overwrite earlier ones). -/
def ofList (l : List (K × V)) : Map K V := l.foldl (fun m p => m.set p.1 p.2) ∅

end Map

/-- a loop over all entries of `l` that writes each one back -/
theorem get?_foldl_set {K V W : Type} [DecidableEq K] [KeyOrd K] (g : K × W → V) (l : List (K × W))
    (hn : (l.map (·.1)).Nodup) (m : Map K V) (k : K) :
    (l.foldl (fun m p => m.set p.1 (g p)) m).get? k =
      match getL k l with
      | some v => some (g (k, v))
      | none => m.get? k := by
  induction l generalizing m with
  | nil => rfl
  | cons p t ih =>
    obtain ⟨p1, p2⟩ := p
    simp only [List.map_cons, List.nodup_cons] at hn
    rw [List.foldl_cons, ih hn.2]
    by_cases h : k = p1
    · subst h
      have : getL k t = none := by
        cases hg : getL k t with
        | none => rfl
        | some v => exact absurd (List.mem_map.2 ⟨_, mem_of_getL hg, rfl⟩) hn.1
      simp [this, getL]
    · have : getL k ((p1, p2) :: t) = getL k t := by simp [getL, h]
      rw [this]
      split
      · rfl
      · exact Map.get?_set_ne _ _ h

/-- Unsigned 64-bit modulus. -/
def twoPow64 : Nat := 2 ^ 64

/-- Go `uint64` subtraction (wraps around). -/
def u64sub (a b : Nat) : Nat := (a + twoPow64 - b) % twoPow64

/-- Go `uint64` addition (wraps around). -/
def u64add (a b : Nat) : Nat := (a + b) % twoPow64

theorem u64sub_of_le {a b : Nat} (h : b ≤ a) (ha : a < twoPow64) : u64sub a b = a - b := by
  unfold u64sub twoPow64 at *; omega

end Verif
