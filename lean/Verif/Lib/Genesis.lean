import Verif.Lib.Map
import Mathlib.Data.List.Nodup
import Mathlib.Data.List.Basic

/-!
# Genesis import/export: lists and stores

Helpers for the genesis functions of /repo/x/*/genesis.go and /repo/x/*/types/genesis.go: the duplicate check with a
Go map and the rebuilding of a store from the exported list.
-/

namespace Verif

/-- `for x in l { if seen[x] { return error }; seen[x] = {} }` -/
def dupFree {K : Type} [DecidableEq K] (seen : List K) : List K → Bool
  | [] => true
  | x :: l => if x ∈ seen then false else dupFree (x :: seen) l

theorem dupFree_iff {K : Type} [DecidableEq K] (seen l : List K) :
    dupFree seen l = true ↔ l.Nodup ∧ ∀ x ∈ l, x ∉ seen := by
  induction l generalizing seen with
  | nil => simp [dupFree]
  | cons x l ih =>
    unfold dupFree
    by_cases h : x ∈ seen
    · rw [if_pos h]
      constructor
      · intro h'; cases h'
      · intro h'; exact absurd h (h'.2 x (by simp))
    · rw [if_neg h, ih]
      simp only [List.nodup_cons, List.mem_cons, not_or]
      constructor
      · rintro ⟨h1, h2⟩
        refine ⟨⟨fun hx => (h2 x hx).1 rfl, h1⟩, ?_⟩
        rintro y (rfl | hy)
        · exact h
        · exact (h2 y hy).2
      · rintro ⟨⟨h1, h2⟩, h3⟩
        refine ⟨h2, fun y hy => ⟨?_, h3 y (Or.inr hy)⟩⟩
        rintro rfl; exact h1 hy

theorem dupFree_nil {K : Type} [DecidableEq K] (l : List K) : dupFree [] l = true ↔ l.Nodup := by
  rw [dupFree_iff]; simp

section
variable {K V : Type} [DecidableEq K] [KeyOrd K]

/-- importing everything that was exported gives the same store -/
theorem Map.ofList_toList (m : Map K V) : Map.ofList m.toList = m := by
  apply Map.ext
  intro k
  unfold Map.ofList
  rw [get?_foldl_set (fun p => p.2) m.toList m.keys_nodup]
  show (match m.get? k with | some v => some v | none => none) = m.get? k
  cases m.get? k <;> rfl
end

end Verif
