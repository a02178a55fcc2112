import Verif.Funders.Properties

/-!
# What a pool is shown to have

`GetTotalActiveFunding` adds up the active fundings of a pool; that is what all its funders have left.
-/

namespace Verif.Funders
open Verif

/-- Specification: the fundings of a pool, in the order of their funders -/
def fundingsIn (s : State) (p : Nat) : List Funding := (s.fundings.toList.filter (fun e => e.1.2 == p)).map (·.2)

theorem sum_drop_zero {α : Type} (l : List α) (p : α → Bool) (f : α → Nat) (h : ∀ a ∈ l, p a = false → f a = 0) :
    ((l.filter p).map f).sum = (l.map f).sum := by
  induction l with
  | nil => rfl
  | cons a l ih =>
    have ih' := ih (fun b hb => h b (List.mem_cons_of_mem _ hb))
    cases hp : p a with
    | true => rw [List.filter_cons_of_pos hp, List.map_cons, List.sum_cons, ih', List.map_cons, List.sum_cons]
    | false => rw [List.filter_cons_of_neg (by simp [hp]), ih', List.map_cons, List.sum_cons, h a (by simp) hp, Nat.zero_add]

/-- The total shown for a pool is what its funders have left. -/
theorem total_active {s : State} (h : SInv s) (p : Nat) (d : Denom) :
    (totalActiveFunding s p).amt d = ((fundingsIn s p).map (fun f => f.amounts.amt d)).sum := by
  let g : Addr → Nat := fun a => ((s.fundings.get? (a, p)).map (fun f => f.amounts.amt d)).getD 0
  let K : List Addr := (s.fundings.keys.filter (fun k => k.2 == p)).map (·.1)
  have hK : K.Nodup := by
    show ((s.fundings.keys.filter (fun k => k.2 == p)).map (·.1)).Nodup
    rw [List.nodup_map_iff_inj_on (s.fundings.keys_nodup.filter _)]
    rintro ⟨a, i⟩ h1 ⟨b, j⟩ h2 e
    have e1 : i = p := by simpa using (List.mem_filter.mp h1).2
    have e2 : j = p := by simpa using (List.mem_filter.mp h2).2
    rw [e1, e2, show a = b from e]
  have hmem : ∀ a, a ∈ K ↔ ∃ f, s.fundings.get? (a, p) = some f := by
    intro a
    show a ∈ (s.fundings.keys.filter (fun k => k.2 == p)).map (·.1) ↔ _
    rw [List.mem_map]
    constructor
    · rintro ⟨⟨b, i⟩, h1, rfl⟩
      have e1 : i = p := by simpa using (List.mem_filter.mp h1).2
      subst e1
      exact (Map.mem_keys_iff _ _).mp (List.mem_filter.mp h1).1
    · intro hf
      exact ⟨(a, p), List.mem_filter.mpr ⟨(Map.mem_keys_iff _ _).mpr hf, by simp⟩, rfl⟩
  have hr : ((fundingsIn s p).map (fun f => f.amounts.amt d)).sum = (K.map g).sum := by
    show _ = (((s.fundings.keys.filter (fun k => k.2 == p)).map (·.1)).map g).sum
    unfold fundingsIn Map.keys
    rw [List.filter_map, List.map_map, List.map_map, List.map_map]
    congr 1
    refine List.map_congr_left ?_
    rintro ⟨⟨a, i⟩, f⟩ hx
    have e1 : i = p := by simpa using (List.mem_filter.mp hx).2
    subst e1
    have e2 : s.fundings.get? (a, i) = some f := (Map.mem_iff _ _ _).mp (List.mem_filter.mp hx).1
    show f.amounts.amt d = ((s.fundings.get? (a, i)).map (fun f => f.amounts.amt d)).getD 0
    rw [e2]; rfl
  rw [hr]
  unfold totalActiveFunding
  cases hl : s.active.get? p with
  | none =>
    have : K = [] := by
      rw [List.eq_nil_iff_forall_not_mem]
      intro a ha
      obtain ⟨f, hf⟩ := (hmem a).mp ha
      obtain ⟨l, hl'⟩ := h.has a p f hf
      rw [hl] at hl'; cases hl'
    rw [this]; rfl
  | some l =>
    simp only
    rw [Coins.amt_sumL, List.map_map]
    have e1 : l.map ((fun c => c.amt d) ∘ fun a => match s.funding? a p with | some f => f.amounts | none => Coins.zero)
        = l.map g := by
      refine List.map_congr_left ?_
      intro a ha
      obtain ⟨f, hf⟩ := h.listed p l a hl ha
      have hf' : s.fundings.get? (a, p) = some f := hf
      show (match s.funding? a p with | some f => f.amounts | none => Coins.zero).amt d =
        ((s.fundings.get? (a, p)).map (fun f => f.amounts.amt d)).getD 0
      rw [hf, hf']; rfl
    refine (congrArg List.sum e1).trans ?_
    rw [← sum_drop_zero K (fun a => decide (a ∈ l)) g]
    · have hperm : l.Perm (K.filter (fun a => decide (a ∈ l))) := by
        rw [List.perm_ext_iff_of_nodup (h.nodup p l hl) (hK.filter _)]
        intro a
        rw [List.mem_filter, decide_eq_true_eq, hmem]
        constructor
        · intro ha; exact ⟨h.listed p l a hl ha, ha⟩
        · exact fun h => h.2
      exact (hperm.map g).sum_eq
    · intro a ha hn
      obtain ⟨f, hf⟩ := (hmem a).mp ha
      show ((s.fundings.get? (a, p)).map (fun f => f.amounts.amt d)).getD 0 = 0
      rw [hf]
      by_contra hne
      obtain ⟨l', hl', hin⟩ := h.act a p f d hf hne
      rw [hl] at hl'; cases hl'
      simp [hin] at hn

end Verif.Funders
