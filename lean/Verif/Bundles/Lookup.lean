import Verif.Bundles.Model

/-!
# C30 Looking up a finalized bundle by data index

The specification of the stored bundles (`Chained`) and of the in-memory index (`Indexed`), and the lookup theorem for
every state that satisfies them.  `Verif/Chain` shows that every reachable state does.
-/

namespace Verif.Bundles
open Verif

/-- Specification: pool `pool` has exactly the bundles `0 .. n-1`, the first starts at data index 0, each of them starts
where the one before ended, and the last one ends at `last` (`0` if there is none). -/
structure Chained (s : State) (pool n last : Nat) : Prop where
  dense : ∀ i, (∃ f, s.finalized.get? (pool, i) = some f) ↔ i < n
  first : ∀ f, s.finalized.get? (pool, 0) = some f → f.fromIndex = 0
  next : ∀ i f g, s.finalized.get? (pool, i) = some f → s.finalized.get? (pool, i + 1) = some g →
    g.fromIndex = f.toIndex
  final : ∀ i f, s.finalized.get? (pool, i) = some f → i + 1 = n → f.toIndex = last
  empty : n = 0 → last = 0

/-- Specification: no bundle of the pool overflowed the 64-bit data index (every bundle has at least one item). -/
def NoOverflow (s : State) (pool : Nat) : Prop :=
  ∀ i f, s.finalized.get? (pool, i) = some f → f.fromIndex < f.toIndex ∧ f.toIndex < twoPow64

/-- Specification: the in-memory index holds the id of every finalized bundle under its first data index, and nothing
else. -/
def Indexed (s : State) (pool : Nat) : Prop :=
  ∀ x id, s.index.get? (pool, x) = some id ↔ ∃ f, s.finalized.get? (pool, id) = some f ∧ f.fromIndex = x

/-- the last element satisfying a condition in a sorted list is the greatest -/
theorem getLast?_filter_sorted {A : Type} {lt : A → A → Prop} {q : A → Bool} {l : List A} {e : A}
    (hs : l.Pairwise lt) (h : (l.filter q).getLast? = some e) :
    e ∈ l ∧ q e = true ∧ ∀ x ∈ l, q x = true → x = e ∨ lt x e := by
  have hm : e ∈ l.filter q := List.mem_of_getLast? h
  refine ⟨(List.mem_filter.mp hm).1, (List.mem_filter.mp hm).2, fun x hx hq => ?_⟩
  have hp : (l.filter q).Pairwise lt := hs.filter _
  have hx' : x ∈ l.filter q := List.mem_filter.mpr ⟨hx, hq⟩
  have happ : l.filter q = (l.filter q).dropLast ++ [e] := by
    obtain ⟨hne, he⟩ := List.getLast?_eq_some_iff.mp h
    rw [he]; simp
  rw [happ] at hx' hp
  rcases List.mem_append.mp hx' with h1 | h1
  · right
    exact (List.pairwise_append.mp hp).2.2 x h1 e (by simp)
  · left; simpa using h1

theorem getLast?_filter_none {A : Type} {q : A → Bool} {l : List A} (h : (l.filter q).getLast? = none) :
    ∀ x ∈ l, q x = false := by
  intro x hx
  rw [List.getLast?_eq_none_iff, List.filter_eq_nil_iff] at h
  simpa using h x hx

variable {s : State} {pool n last : Nat}

theorem Chained.mono (h : Chained s pool n last) (ho : NoOverflow s pool) {i j : Nat} {f g : FBundle} (hij : i < j)
    (hf : s.finalized.get? (pool, i) = some f) (hg : s.finalized.get? (pool, j) = some g) :
    f.toIndex ≤ g.fromIndex := by
  induction j generalizing g with
  | zero => omega
  | succ j ih =>
    have hj : j < n := by
      have := (h.dense (j + 1)).mp ⟨g, hg⟩; omega
    obtain ⟨f', hf'⟩ := (h.dense j).mpr hj
    have hn := h.next j f' g hf' hg
    by_cases he : i = j
    · subst he
      rw [hf] at hf'; cases hf'
      omega
    · have := ih (by omega) hf'
      have := (ho j f' hf').1
      omega

/-- C30 (for stored bundles as specified): looking up a data index answers a bundle iff it is the finalized bundle that
contains the index.  Index `2^64 - 1` is excluded: no bundle can contain it. -/
theorem C30_lookup (h : Chained s pool n last) (ho : NoOverflow s pool) (hx : Indexed s pool) (x : Nat)
    (hb : x < twoPow64 - 1) (id : Nat) (f : FBundle) :
    s.lookup pool x = some (id, f) ↔
      s.finalized.get? (pool, id) = some f ∧ f.fromIndex ≤ x ∧ x < f.toIndex := by
  have hu : u64add x 1 = x + 1 := by
    unfold u64add; exact Nat.mod_eq_of_lt (by omega)
  unfold State.lookup
  rw [hu]
  clear hu hb
  cases hl : (s.index.toList.filter (fun e => e.1.1 == pool && decide (e.1.2 < x + 1))).getLast? with
  | none =>
    refine ⟨fun h => (by cases h), fun ⟨h1, h2, h3⟩ => ?_⟩
    have := getLast?_filter_none hl ((pool, f.fromIndex), id)
      ((Map.mem_iff _ _ _).mpr ((hx _ _).mpr ⟨f, h1, rfl⟩))
    simp at this; omega
  | some e =>
    obtain ⟨he, hq, hmax⟩ := getLast?_filter_sorted s.index.sorted hl
    obtain ⟨⟨ep, ex⟩, ei⟩ := e
    simp only [Bool.and_eq_true, beq_iff_eq, decide_eq_true_eq] at hq
    obtain ⟨rfl, hex⟩ := hq
    obtain ⟨g, hg, hgx⟩ := (hx ex ei).mp ((Map.mem_iff _ _ _).mp he)
    simp only [hg]
    constructor
    · intro h
      split at h
      · next hc => simp only [Option.some.injEq, Prod.mk.injEq] at h; obtain ⟨rfl, rfl⟩ := h; exact ⟨hg, hc⟩
      · cases h
    · rintro ⟨h1, h2, h3⟩
      have hkey := hmax ((ep, f.fromIndex), id) ((Map.mem_iff _ _ _).mpr ((hx _ _).mpr ⟨f, h1, rfl⟩))
        (by simp; omega)
      have hfe : f.fromIndex ≤ ex := by
        rcases hkey with hk | hk
        · simp only [Prod.mk.injEq] at hk; omega
        · simp only [KeyOrd.lt, Bool.or_eq_true, decide_eq_true_eq, Bool.and_eq_true] at hk
          omega
      have hid : id = ei := by
        rcases Nat.lt_trichotomy id ei with hlt | heq | hgt
        · have := h.mono ho hlt h1 hg
          omega
        · exact heq
        · have := h.mono ho hgt hg h1
          have := (ho _ _ hg).1
          omega
      subst hid
      rw [h1] at hg; cases hg
      rw [if_pos ⟨h2, h3⟩]

/-- C30: an index that is finalized is found, an index at or beyond the current index of the pool is not. -/
theorem C30_found (h : Chained s pool n last) (ho : NoOverflow s pool) (hx : Indexed s pool) (x : Nat)
    (hb : x < twoPow64 - 1) : (∃ r, s.lookup pool x = some r) ↔ x < last := by
  constructor
  · rintro ⟨⟨id, f⟩, hr⟩
    obtain ⟨h1, -, h3⟩ := (C30_lookup h ho hx x hb id f).mp hr
    have hn := (h.dense id).mp ⟨f, h1⟩
    obtain ⟨g, hg⟩ := (h.dense (n - 1)).mpr (by omega)
    have hl := h.final (n - 1) g hg (by omega)
    by_cases he : id = n - 1
    · rw [he] at h1; rw [h1] at hg; cases hg; omega
    · have := h.mono ho (by omega : id < n - 1) h1 hg
      have := (ho _ _ hg).1
      omega
  · intro hlt
    have key : ∀ m, m ≤ n → (∀ g, s.finalized.get? (pool, m - 1) = some g → 0 < m → x < g.toIndex) → 0 < m →
        ∃ id f, s.finalized.get? (pool, id) = some f ∧ f.fromIndex ≤ x ∧ x < f.toIndex := by
      intro m
      induction m with
      | zero => intro _ _ h0; omega
      | succ m ih =>
        intro hm hg _
        obtain ⟨g, hgm⟩ := (h.dense m).mpr (by omega)
        have hxg := hg g (by simpa using hgm) (by omega)
        by_cases hc : g.fromIndex ≤ x
        · exact ⟨m, g, hgm, hc, hxg⟩
        · cases m with
          | zero => have := h.first g hgm; omega
          | succ m =>
            refine ih (by omega) (fun g' hg' _ => ?_) (by omega)
            have := h.next m g' g (by simpa using hg') hgm
            omega
    have hn : 0 < n := by
      rcases Nat.eq_zero_or_pos n with h0 | h0
      · have := h.empty h0; omega
      · exact h0
    obtain ⟨id, f, hf⟩ := key n (le_refl _) (fun g hg _ => by rw [h.final (n - 1) g hg (by omega)]; exact hlt) hn
    exact ⟨(id, f), (C30_lookup h ho hx x hb id f).mpr hf⟩

/-- C30: there is only one answer. -/
theorem C30_unique (h : Chained s pool n last) (ho : NoOverflow s pool) {x i j : Nat} {f g : FBundle}
    (hf : s.finalized.get? (pool, i) = some f) (hg : s.finalized.get? (pool, j) = some g)
    (h1 : f.fromIndex ≤ x ∧ x < f.toIndex) (h2 : g.fromIndex ≤ x ∧ x < g.toIndex) : i = j ∧ f = g := by
  have : i = j := by
    rcases Nat.lt_trichotomy i j with hlt | heq | hgt
    · have := h.mono ho hlt hf hg; omega
    · exact heq
    · have := h.mono ho hgt hg hf; omega
  subst this
  rw [hf] at hg; cases hg
  exact ⟨rfl, rfl⟩

/-! ### rebuilding the index after a restart -/

theorem get?_foldl_index (l : List ((Nat × Nat) × FBundle)) (m : Map (Nat × Nat) Nat) (k : Nat × Nat) :
    ((l.foldl (fun m e => m.set (e.1.1, e.2.fromIndex) e.1.2) m).get? k =
      match (l.filter (fun e => decide ((e.1.1, e.2.fromIndex) = k))).getLast? with
      | some e => some e.1.2
      | none => m.get? k) := by
  induction l generalizing m with
  | nil => rfl
  | cons e l ih =>
    rw [List.foldl_cons, ih, List.filter_cons]
    by_cases hk : (e.1.1, e.2.fromIndex) = k
    · rw [decide_eq_true hk]
      simp only [if_true]
      cases hl : (l.filter (fun e => decide ((e.1.1, e.2.fromIndex) = k))).getLast? with
      | none =>
        have : l.filter (fun e => decide ((e.1.1, e.2.fromIndex) = k)) = [] := by
          simpa [List.getLast?_eq_none_iff] using hl
        rw [this]
        simp [← hk]
      | some x =>
        rw [List.getLast?_cons, hl]; rfl
    · rw [decide_eq_false hk]
      simp only [Bool.false_eq_true, if_false]
      cases hl : (l.filter (fun e => decide ((e.1.1, e.2.fromIndex) = k))).getLast? with
      | none => simp only [Map.get?_set, if_neg (fun h : k = _ => hk h.symm)]
      | some x => rfl

/-- C30: a node that restarts rebuilds the same index from the stored bundles. -/
theorem indexed_initMemStore (h : Chained s pool n last) (ho : NoOverflow s pool) : Indexed s.initMemStore pool := by
  intro x id
  unfold State.initMemStore
  simp only
  rw [get?_foldl_index]
  constructor
  · intro hg
    split at hg
    · next e he =>
      have hm := List.mem_filter.mp (List.mem_of_getLast? he)
      have h2 := hm.2
      simp only [decide_eq_true_eq, Prod.mk.injEq] at h2
      obtain ⟨⟨ep, ei⟩, f⟩ := e
      simp only [Option.some.injEq] at hg h2
      obtain ⟨rfl, rfl⟩ := h2
      subst hg
      exact ⟨f, (Map.mem_iff _ _ _).mp hm.1, rfl⟩
    · simp at hg
  · rintro ⟨f, hf, rfl⟩
    have hm : ((pool, id), f) ∈ s.finalized.toList.filter
        (fun e => decide ((e.1.1, e.2.fromIndex) = (pool, f.fromIndex))) :=
      List.mem_filter.mpr ⟨(Map.mem_iff _ _ _).mpr hf, by simp⟩
    split
    · next e he =>
      have hm' := List.mem_filter.mp (List.mem_of_getLast? he)
      have h2 := hm'.2
      obtain ⟨⟨ep, ei⟩, g⟩ := e
      simp only [decide_eq_true_eq, Prod.mk.injEq] at h2
      obtain ⟨rfl, h3⟩ := h2
      have hg : s.finalized.get? (ep, ei) = some g := (Map.mem_iff _ _ _).mp hm'.1
      have h4 := (ho _ _ hf).1
      have h5 := (ho _ _ hg).1
      have := (C30_unique h ho (x := f.fromIndex) hf hg ⟨by omega, by omega⟩ ⟨by omega, by omega⟩).1
      rw [this]
    · next he =>
      rw [List.getLast?_eq_none_iff] at he
      rw [he] at hm; simp at hm

end Verif.Bundles
