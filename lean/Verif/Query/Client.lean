import Verif.Query.Pagination

/-!
# A client that reads a list page by page

Specification of a client of a paginated query: it asks for the first page, and for each further page with the key the
last page answered, until there is no next key.
-/

set_option linter.unusedSectionVars false

namespace Verif

/-- the part of a store under a key prefix, or selected otherwise by the key (SDK `prefix.NewStore`) -/
def Map.restrict {K V : Type} [KeyOrd K] (m : Map K V) (p : K → Bool) : Map K V :=
  ⟨m.toList.filter (fun e => p e.1), m.sorted.filter _⟩

namespace Query
variable {K V R : Type} [DecidableEq K] [KeyOrd K]

/-- The pages a client has read from key `k` on (`none`: from the beginning) to the end; `q` is the query: for a key the
rows of the page and the next key, or a failure. -/
inductive Pages (q : Option K → Option (List R × Option K)) : Option K → List (List R) → Prop
  | last {k p} : q k = some (p, none) → Pages q k [p]
  | more {k k' p ps} : q k = some (p, some k') → Pages q (some k') ps → Pages q k (p :: ps)

/-- `q` shows the rows `f e` of the entries `e` of a store that pass the filter -/
def Shows (q : Option K → Option (List R × Option K)) (m : Map K V) (acc : K × V → Bool) (limit : Nat) (total : Bool)
    (f : K × V → Option R) : Prop :=
  ∀ k, q k = ((filteredPaginate m acc limit total k).1.mapM f).map (fun rows => (rows, (filteredPaginate m acc limit total k).2))

theorem mapM_append {α β : Type} (f : α → Option β) (l l' : List α) :
    (l ++ l').mapM f = (l.mapM f).bind (fun x => (l'.mapM f).map (fun y => x ++ y)) := by
  induction l with
  | nil =>
    rw [List.nil_append, List.mapM_nil]
    show _ = ((l'.mapM f).map (fun y => [] ++ y))
    cases h : l'.mapM f <;> simp
  | cons a l ih =>
    rw [List.cons_append, List.mapM_cons, List.mapM_cons, ih]
    cases ha : f a with
    | none => rfl
    | some b =>
      cases hl : l.mapM f with
      | none => rfl
      | some x =>
        cases hl' : l'.mapM f with
        | none => rfl
        | some y => rfl

theorem mapM_some {α β : Type} (g : α → β) (l : List α) : l.mapM (fun a => some (g a)) = some (l.map g) := by
  induction l with
  | nil => rfl
  | cons a l ih => rw [List.mapM_cons, ih]; rfl

theorem mapM_mem {α β : Type} {f : α → Option β} {l : List α} {r : List β} (h : l.mapM f = some r) :
    ∀ b, b ∈ r ↔ ∃ a ∈ l, f a = some b := by
  induction l generalizing r with
  | nil =>
    rw [List.mapM_nil] at h
    cases h
    simp
  | cons a l ih =>
    rw [List.mapM_cons] at h
    cases ha : f a with
    | none => rw [ha] at h; cases h
    | some x =>
      cases hl : l.mapM f with
      | none => rw [ha, hl] at h; cases h
      | some y =>
        rw [ha, hl] at h
        cases h
        intro b
        rw [List.mem_cons, ih hl b]
        constructor
        · rintro (rfl | ⟨c, hc, e⟩)
          · exact ⟨a, by simp, ha⟩
          · exact ⟨c, by simp [hc], e⟩
        · rintro ⟨c, hc, e⟩
          rcases List.mem_cons.mp hc with rfl | hc
          · rw [ha] at e; cases e; exact Or.inl rfl
          · exact Or.inr ⟨c, hc, e⟩

/-- rows that can be computed keep the order and a common projection -/
theorem mapM_proj {α β γ : Type} {f : α → Option β} {u : α → γ} {v : β → γ} (hf : ∀ a b, f a = some b → v b = u a)
    {l : List α} {r : List β} (h : l.mapM f = some r) : r.map v = l.map u := by
  induction l generalizing r with
  | nil =>
    rw [List.mapM_nil] at h
    cases h; rfl
  | cons a l ih =>
    rw [List.mapM_cons] at h
    cases ha : f a with
    | none => rw [ha] at h; cases h
    | some x =>
      cases hl : l.mapM f with
      | none => rw [ha, hl] at h; cases h
      | some y =>
        rw [ha, hl] at h
        cases h
        show v x :: y.map v = u a :: l.map u
        rw [hf a x ha, ih hl]

theorem pages_reading {q : Option K → Option (List R × Option K)} {m : Map K V} {acc : K × V → Bool} {limit : Nat}
    {total : Bool} {f : K × V → Option R} (hq : Shows q m acc limit total f) {k : Option K} {ps : List (List R)}
    (h : Pages q k ps) : ∃ es, Reading m acc limit total k es ∧ es.flatten.mapM f = some ps.flatten := by
  induction h with
  | @last k p h =>
    rw [hq] at h
    obtain ⟨rows, h1, h2⟩ := Option.map_eq_some_iff.mp h
    injection h2 with e1 e2
    subst e1
    refine ⟨[(filteredPaginate m acc limit total k).1], .last (Prod.ext rfl e2), ?_⟩
    simpa using h1
  | @more k k' p ps h _ ih =>
    rw [hq] at h
    obtain ⟨rows, h1, h2⟩ := Option.map_eq_some_iff.mp h
    injection h2 with e1 e2
    subst e1
    obtain ⟨es, h3, h4⟩ := ih
    refine ⟨(filteredPaginate m acc limit total k).1 :: es, .more (Prod.ext rfl e2) h3, ?_⟩
    rw [List.flatten_cons, List.flatten_cons, mapM_append, h1, h4]; rfl

/-- All pages together are the rows of the matching entries in store order. -/
theorem Pages.all {q : Option K → Option (List R × Option K)} {m : Map K V} {acc : K × V → Bool} {limit : Nat}
    {total : Bool} {f : K × V → Option R} (hq : Shows q m acc limit total f) {ps : List (List R)}
    (h : Pages q none ps) : (m.toList.filter acc).mapM f = some ps.flatten := by
  obtain ⟨es, h1, h2⟩ := pages_reading hq h
  rw [(C53_keys m acc h1).1] at h2
  exact h2

/-- the same if no row can fail -/
theorem Pages.map {q : Option K → Option (List R × Option K)} {m : Map K V} {acc : K × V → Bool} {limit : Nat}
    {total : Bool} {g : K × V → R} (hq : Shows q m acc limit total (fun e => some (g e))) {ps : List (List R)}
    (h : Pages q none ps) : ps.flatten = (m.toList.filter acc).map g := by
  have := Pages.all hq h
  rw [mapM_some] at this
  injection this with e
  exact e.symm

/-- and the client comes to an end if no row fails and it asks for at least one row per page -/
theorem Pages.ends {q : Option K → Option (List R × Option K)} {m : Map K V} {acc : K × V → Bool} {limit : Nat}
    {total : Bool} {g : K × V → R} (hq : Shows q m acc limit total (fun e => some (g e))) (hl : 0 < limit) :
    ∃ ps, Pages q none ps := by
  obtain ⟨es, h⟩ := C53_keys_end m acc hl total
  have key : ∀ k es, Reading m acc limit total k es → Pages q k (es.map (fun l => l.map g)) := by
    intro k es h
    induction h with
    | @last k p h =>
      refine .last ?_
      rw [hq, h, mapM_some]; rfl
    | @more k k' p ps h _ ih =>
      refine .more (k' := k') ?_ ih
      rw [hq, h, mapM_some]; rfl
  exact ⟨_, key none es h⟩

end Query
end Verif
