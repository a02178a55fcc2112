import Verif.Funders.Model

/-!
# Helper lemmas for x/funders
-/

namespace Verif.Funders
open Verif

/-! ## the active list -/

theorem setInactive_perm {l : List Addr} {a : Addr} (h : a ∈ l) : (setInactive l a).Perm (l.erase a) := by
  obtain ⟨pre, post, rfl, hpre⟩ := List.eq_append_cons_of_mem h
  unfold setInactive
  rw [if_pos h]
  have hidx : (pre ++ a :: post).idxOf a = pre.length := by
    rw [List.idxOf_append_of_notMem hpre]
    simp
  rw [hidx]
  have hset : ∀ z, (pre ++ a :: post).set pre.length z = pre ++ z :: post := by
    intro z
    rw [List.set_append]
    simp
  rw [hset, List.erase_append_right _ hpre]
  simp only [List.erase_cons_head]
  rcases List.eq_nil_or_concat post with rfl | ⟨post', z, rfl⟩
  · simp
  · have : (pre ++ a :: (post' ++ [z])).getLastD 0 = z := by
      rw [show pre ++ a :: (post' ++ [z]) = (pre ++ a :: post') ++ [z] by simp, List.getLastD_eq_getLast?,
        List.getLast?_concat]
      rfl
    rw [List.concat_eq_append] at *
    rw [this, show pre ++ z :: (post' ++ [z]) = (pre ++ z :: post') ++ [z] by simp, List.dropLast_concat]
    exact (List.perm_append_left_iff pre).2 (List.perm_append_singleton z post').symm

theorem setInactive_of_not_mem {l : List Addr} {a : Addr} (h : a ∉ l) : setInactive l a = l := if_neg h

theorem mem_setInactive {l : List Addr} (hn : l.Nodup) {a x : Addr} : x ∈ setInactive l a ↔ x ∈ l ∧ x ≠ a := by
  by_cases h : a ∈ l
  · rw [(setInactive_perm h).mem_iff, hn.mem_erase_iff]
    exact and_comm
  · rw [setInactive_of_not_mem h]
    constructor
    · intro hx; exact ⟨hx, fun e => h (e ▸ hx)⟩
    · exact fun hx => hx.1

theorem nodup_setInactive {l : List Addr} (hn : l.Nodup) (a : Addr) : (setInactive l a).Nodup := by
  by_cases h : a ∈ l
  · exact ((setInactive_perm h).nodup_iff).2 (hn.erase a)
  · rw [setInactive_of_not_mem h]; exact hn

theorem length_setInactive_le (l : List Addr) (a : Addr) : (setInactive l a).length ≤ l.length := by
  by_cases h : a ∈ l
  · rw [(setInactive_perm h).length_eq, List.length_erase_of_mem h]; omega
  · rw [setInactive_of_not_mem h]

theorem length_setInactive {l : List Addr} {a : Addr} (h : a ∈ l) : (setInactive l a).length + 1 = l.length := by
  rw [(setInactive_perm h).length_eq, List.length_erase_of_mem h]
  have := List.length_pos_of_mem h
  omega

theorem mem_setActive {l : List Addr} {a x : Addr} : x ∈ setActive l a ↔ x ∈ l ∨ x = a := by
  unfold setActive
  split
  · rename_i h
    constructor
    · exact Or.inl
    · rintro (h' | rfl)
      · exact h'
      · exact h
  · simp

theorem nodup_setActive {l : List Addr} (hn : l.Nodup) (a : Addr) : (setActive l a).Nodup := by
  unfold setActive
  split
  · exact hn
  · rename_i h
    rw [List.nodup_append]
    refine ⟨hn, by simp, ?_⟩
    intro x hx y hy
    simp only [List.mem_singleton] at hy
    subst hy
    exact fun e => h (e ▸ hx)

/-! ## ensureParams -/

theorem clean_amounts (f : Funding) : f.clean.amounts = f.amounts := rfl
theorem clean_funder (f : Funding) : f.clean.funder = f.funder := rfl
theorem clean_pool (f : Funding) : f.clean.pool = f.pool := rfl

theorem ensureParams_ok {p : Params} {f f' : Funding} (h : ensureParams p f = .ok f') : f' = f.clean := by
  unfold ensureParams at h
  simp only at h
  repeat' split at h
  all_goals first | cases h; rfl | cases h

/-- the checks pass when nothing is left -/
theorem ensureParams_empty (p : Params) (f : Funding) (h : ∀ d, f.amounts.amt d = 0) :
    ensureParams p f = .ok f.clean := by
  have hpb : ∀ d, f.clean.perBundle.amt d = 0 := by
    intro d
    unfold Funding.clean
    simp only [Coins.amt_filter]
    rw [h d]; simp
  have den : ∀ c : Coins, (∀ d, c.amt d = 0) → c.denoms = [] := by
    intro c hc
    have := Coins.isZero_iff.2 hc
    unfold Coins.isZero at this
    exact List.isEmpty_iff.1 this
  have h1 : f.clean.amounts.denoms = [] := den _ (by intro d; rw [clean_amounts]; exact h d)
  have h2 : f.clean.perBundle.denoms = [] := den _ hpb
  have any0 : ∀ a b : Coins, (∀ d, b.amt d = 0) → isAnyGT a b = false := by
    intro a b hb
    unfold isAnyGT
    rw [List.any_eq_false]
    intro d _
    simp [hb d]
  unfold ensureParams
  simp only [subsetOf, h1, h2, List.all_nil, Bool.not_true, Bool.false_eq_true, if_false]
  rw [any0 _ _ (by intro d; rw [clean_amounts]; exact h d), any0 _ _ hpb,
    any0 _ _ (by intro d; rw [clean_amounts]; exact h d)]
  have : f.clean.perBundle.isZero = true := Coins.isZero_iff.2 hpb
  simp [this]

/-- what the checks guarantee, in terms of the parameters -/
theorem mergeFunding_key {old : Option Funding} {m : FundMsg}
    (h : ∀ f, old = some f → f.funder = m.creator ∧ f.pool = m.pool) :
    (mergeFunding old m).funder = m.creator ∧ (mergeFunding old m).pool = m.pool := by
  cases old with
  | none => exact ⟨rfl, rfl⟩
  | some f => exact h f rfl

/-! ## lowest funding -/

theorem lowestLoop_spec {p : Params} {fs : List Funding} {low r : Funding} (h : lowestLoop p low fs = some r) :
    (r = low ∨ r ∈ fs) ∧ (fs ≠ [] → ∃ y, score p r.amounts = some y ∧
      (∀ x, score p low.amounts = some x → y ≤ x) ∧ ∀ f ∈ fs, ∃ x, score p f.amounts = some x ∧ y ≤ x) := by
  induction fs generalizing low with
  | nil => cases h; exact ⟨Or.inl rfl, fun h => absurd rfl h⟩
  | cons f t ih =>
    unfold lowestLoop at h
    split at h
    · rename_i x y hx hy
      split at h
      · rename_i hlt
        obtain ⟨h1, h2⟩ := ih h
        refine ⟨?_, fun _ => ?_⟩
        · rcases h1 with rfl | h1
          · exact Or.inr (by simp)
          · exact Or.inr (by simp [h1])
        · by_cases ht : t = []
          · subst ht
            cases h
            refine ⟨x, hx, ?_, ?_⟩
            · intro z hz; rw [hy] at hz; cases hz; omega
            · intro g hg; simp at hg; subst hg; exact ⟨x, hx, Nat.le_refl _⟩
          · obtain ⟨z, hz, ha, hb⟩ := h2 ht
            refine ⟨z, hz, ?_, ?_⟩
            · intro v hv; rw [hy] at hv; cases hv; have := ha x hx; omega
            · intro g hg
              rcases List.mem_cons.1 hg with rfl | hg
              · exact ⟨x, hx, ha x hx⟩
              · exact hb g hg
      · rename_i hlt
        obtain ⟨h1, h2⟩ := ih h
        refine ⟨?_, fun _ => ?_⟩
        · rcases h1 with rfl | h1
          · exact Or.inl rfl
          · exact Or.inr (by simp [h1])
        · by_cases ht : t = []
          · subst ht
            cases h
            refine ⟨y, hy, ?_, ?_⟩
            · intro z hz; rw [hy] at hz; cases hz; exact Nat.le_refl _
            · intro g hg; simp at hg; subst hg; exact ⟨x, hx, by omega⟩
          · obtain ⟨z, hz, ha, hb⟩ := h2 ht
            refine ⟨z, hz, ha, ?_⟩
            intro g hg
            rcases List.mem_cons.1 hg with rfl | hg
            · exact ⟨x, hx, by have := ha y hy; omega⟩
            · exact hb g hg
    · cases h

theorem lowestFunding_spec {p : Params} {fs : List Funding} {r : Funding} (h : lowestFunding p fs = some r) :
    r ∈ fs ∧ ∃ y, score p r.amounts = some y ∧ ∀ f ∈ fs, ∃ x, score p f.amounts = some x ∧ y ≤ x := by
  cases fs with
  | nil => cases h
  | cons f t =>
    obtain ⟨h1, h2⟩ := lowestLoop_spec (p := p) h
    obtain ⟨y, hy, _, hb⟩ := h2 (by simp)
    refine ⟨?_, y, hy, hb⟩
    rcases h1 with rfl | h1
    · simp
    · exact h1

/-! ## fundings -/

theorem mem_activeFundings {s : State} {pool : Nat} {l : List Addr} {f : Funding} :
    f ∈ s.activeFundings pool l ↔ ∃ a ∈ l, s.funding? a pool = some f := by
  unfold State.activeFundings
  rw [List.mem_filterMap]

theorem funding?_set (s : State) (f : Funding) (a : Addr) (p : Nat) :
    (s.setFunding f).funding? a p = if a = f.funder ∧ p = f.pool then some f else s.funding? a p := by
  unfold State.setFunding State.funding?
  simp only [Map.get?_set, Prod.mk.injEq]

end Verif.Funders
