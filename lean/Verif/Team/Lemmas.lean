import Verif.Team.Spec

namespace Verif.Team
open Verif Spec

theorem CLIFF_eq : CLIFF = year := by decide
theorem VESTING_eq : VESTING = 3 * year := by decide
theorem UNLOCK_eq : UNLOCK = 2 * year := by decide
theorem year_pos : 0 < year := by decide
theorem year_small : 3 * year < 2 ^ 30 := by decide
theorem TGE_small : TGE < 2 ^ 31 := by decide
theorem one_big : 2 ^ 40 ≤ Dec.one := by decide

attribute [local irreducible] year VESTING UNLOCK CLIFF TGE Dec.one

theorem mul_ofNat_ofNat (a b : Nat) : Dec.mul (Dec.ofNat a) (Dec.ofNat b) = Dec.ofNat (a * b) := by
  rw [Dec.ofNat_mul]; unfold Dec.ofNat; ring

theorem scaled_eq {a num den : Nat} (ha : a < 2 ^ 63) (hd : 0 < den) (hd' : 2 * den ≤ Dec.one) :
    scaled a num den = a * num / den := by
  unfold scaled
  rw [if_pos ha, mul_ofNat_ofNat, Dec.trunc_quo_ofNat hd hd']

theorem vestedAmount_eq {a : Account} (h : Sane a) (t : Nat) :
    vestedAmount a t = vested a t := by
  obtain ⟨h1, h2, h3, h4⟩ := h
  have hd : (if 0 < a.clawback ∧ a.clawback < t then u64sub a.clawback a.commencement
      else (if t > a.commencement then t - a.commencement else 0))
      = elapsed a.commencement a.clawback t := by
    unfold elapsed
    by_cases hc : a.clawback = 0
    · simp only [hc, Nat.lt_irrefl, false_and, if_false, if_true]
      split <;> omega
    · rcases h3 with h3 | h3
      · exact absurd h3 hc
      · rw [if_neg hc]
        by_cases hlt : a.clawback < t
        · rw [if_pos ⟨by omega, hlt⟩, u64sub_of_le h3 (by unfold twoPow64; omega),
            Nat.min_eq_right (by omega)]
        · rw [if_neg (by tauto), Nat.min_eq_left (by omega)]
          split <;> omega
  unfold vestedAmount vested vestedAfter
  simp only
  rw [hd]
  generalize elapsed a.commencement a.clawback t = d
  have := year_pos; have := year_small; have := one_big
  rw [CLIFF_eq, VESTING_eq, scaled_eq h1 (by omega) (by omega)]

theorem vestedAfter_mono (total : Nat) {d e : Nat} (h : d ≤ e) : vestedAfter total d ≤ vestedAfter total e := by
  unfold vestedAfter
  have h0 : total * d / (3 * year) ≤ total * e / (3 * year) :=
    Nat.div_le_div_right (Nat.mul_le_mul_left _ h)
  have h1 : d < 3 * year → total * d / (3 * year) ≤ total := by
    intro hd
    apply Nat.div_le_of_le_mul
    rw [Nat.mul_comm]
    exact Nat.mul_le_mul_right _ (by omega)
  have := year_pos
  split_ifs <;> first | exact Nat.zero_le _ | omega | (have := h1 (by omega); omega)

theorem vestedAfter_le (total d : Nat) : vestedAfter total d ≤ total := by
  have h1 : d < 3 * year → total * d / (3 * year) ≤ total := by
    intro hd
    apply Nat.div_le_of_le_mul
    rw [Nat.mul_comm]
    exact Nat.mul_le_mul_right _ (by omega)
  unfold vestedAfter; split_ifs <;> first | exact Nat.zero_le _ | exact h1 (by assumption) | exact Nat.le_refl _

theorem elapsed_mono (c cb : Nat) {s t : Nat} (h : s ≤ t) : elapsed c cb s ≤ elapsed c cb t := by
  unfold elapsed; split <;> omega

theorem vested_mono (a : Account) {s t : Nat} (h : s ≤ t) : vested a s ≤ vested a t :=
  vestedAfter_mono _ (elapsed_mono _ _ h)

theorem vested_lt {a : Account} (h : Sane a) (t : Nat) : vested a t < 2 ^ 63 :=
  Nat.lt_of_le_of_lt (vestedAfter_le _ _) h.total

/-- Once three years have passed since the commencement, the vested amount does not change any more. -/
theorem vested_final (a : Account) {s t : Nat} (hs : a.commencement + 3 * year ≤ s) (h : s ≤ t) :
    vested a s = vested a t := by
  unfold vested
  by_cases hc : a.clawback = 0
  · have e1 : ¬ elapsed a.commencement a.clawback s < 3 * year := by unfold elapsed; simp [hc]; omega
    have e2 : ¬ elapsed a.commencement a.clawback t < 3 * year := by unfold elapsed; simp [hc]; omega
    have := year_pos
    unfold vestedAfter
    rw [if_neg (by omega), if_neg e1, if_neg (by omega), if_neg e2]
  · by_cases hlt : a.clawback < a.commencement + 3 * year
    · have : elapsed a.commencement a.clawback s = elapsed a.commencement a.clawback t := by
        unfold elapsed; simp [hc]; omega
      rw [this]
    · have e1 : ¬ elapsed a.commencement a.clawback s < 3 * year := by unfold elapsed; simp [hc]; omega
      have e2 : ¬ elapsed a.commencement a.clawback t < 3 * year := by unfold elapsed; simp [hc]; omega
      have := year_pos
      unfold vestedAfter
      rw [if_neg (by omega), if_neg e1, if_neg (by omega), if_neg e2]

theorem maxAmount_eq {a : Account} (h : Sane a) : maxAmount a = vested a (a.commencement + 3 * year) := by
  unfold maxAmount
  rw [vestedAmount_eq h]
  have := h.comm
  have := year_small
  have e : u64add a.commencement VESTING = a.commencement + 3 * year := by
    unfold u64add twoPow64
    rw [VESTING_eq]
    omega
  rw [e]

theorem maxAmount_final {a : Account} (h : Sane a) {t : Nat} (ht : a.commencement + 3 * year ≤ t) :
    maxAmount a = vested a t := by
  rw [maxAmount_eq h, vested_final a (Nat.le_refl _) ht]

theorem vested_le_max {a : Account} (h : Sane a) (t : Nat) : vested a t ≤ maxAmount a := by
  rw [maxAmount_final h (t := max t (a.commencement + 3 * year)) (by omega)]
  exact vested_mono a (by omega)

theorem maxAmount_le {a : Account} (h : Sane a) : maxAmount a ≤ a.totalAllocation := by
  rw [maxAmount_eq h]; exact vestedAfter_le _ _

theorem lockUp_eq {a : Account} (h : Sane a) : lockUpReferenceDate a = unlockStart a := by
  unfold lockUpReferenceDate unlockStart u64add twoPow64
  rw [CLIFF_eq]
  have := h.comm
  have h1 := TGE_small
  have h2 := year_small
  have : max a.commencement TGE < 2 ^ 62 := by omega
  omega

theorem unlockedAmount_eq {a : Account} (h : Sane a) (t : Nat) :
    unlockedAmount a t = unlocked a t := by
  unfold unlockedAmount unlocked
  simp only
  rw [lockUp_eq h, vestedAmount_eq h]
  have := year_pos; have := year_small; have := one_big
  rw [UNLOCK_eq]
  by_cases h1 : t < unlockStart a
  · simp [h1]
  · rw [if_neg h1, if_neg h1]
    by_cases h2 : t < unlockStart a + 2 * year
    · rw [if_pos (by omega), if_pos h2, scaled_eq (vested_lt h t) (by omega) (by omega)]
    · rw [if_neg (by omega), if_neg h2]
      apply maxAmount_final h
      unfold unlockStart at *
      omega

theorem unlocked_le_vested (a : Account) (t : Nat) : unlocked a t ≤ vested a t := by
  unfold unlocked
  split_ifs with h1 h2
  · omega
  · apply Nat.div_le_of_le_mul
    rw [Nat.mul_comm]
    exact Nat.mul_le_mul_right _ (by omega)
  · exact Nat.le_refl _

/-- comparing two accounts that vest at the same speed: more vested means more unlocked -/
theorem unlocked_mono_of {a b : Account} (hc : a.commencement = b.commencement) {s t : Nat} (h : s ≤ t)
    (hv : vested a s ≤ vested b t) : unlocked a s ≤ unlocked b t := by
  have hu : unlockStart b = unlockStart a := by unfold unlockStart; rw [hc]
  have hle := unlocked_le_vested a s
  unfold unlocked at *
  rw [hu]
  by_cases h1 : s < unlockStart a
  · rw [if_pos h1]; exact Nat.zero_le _
  · have h3 : ¬ t < unlockStart a := by omega
    rw [if_neg h1] at hle ⊢
    rw [if_neg h3]
    by_cases h2 : s < unlockStart a + 2 * year
    · rw [if_pos h2] at hle ⊢
      by_cases h4 : t < unlockStart a + 2 * year
      · rw [if_pos h4]; exact Nat.div_le_div_right (Nat.mul_le_mul hv (by omega))
      · rw [if_neg h4]; omega
    · rw [if_neg h2]
      rw [if_neg (by omega)]
      exact hv

theorem unlocked_mono (a : Account) {s t : Nat} (h : s ≤ t) : unlocked a s ≤ unlocked a t :=
  unlocked_mono_of rfl h (vested_mono a h)

/-- the account without a clawback -/
def noCb (a : Account) : Account := { a with clawback := 0 }

theorem vested_le_noCb (a : Account) (t : Nat) : vested a t ≤ vested (noCb a) t := by
  unfold vested noCb
  apply vestedAfter_mono
  unfold elapsed; simp only [if_true]; split <;> omega

theorem unlocked_le_noCb (a : Account) (t : Nat) : unlocked a t ≤ unlocked (noCb a) t :=
  unlocked_mono_of (a := a) (b := noCb a) rfl (Nat.le_refl _) (vested_le_noCb a t)

/-- With a clawback date not before `s`, the account unlocks from `s` on at least what it would have
unlocked at `s` without any clawback. -/
theorem noCb_le_unlocked {a : Account} {s t : Nat} (hc : a.clawback = 0 ∨ s ≤ a.clawback) (h : s ≤ t) :
    unlocked (noCb a) s ≤ unlocked a t := by
  apply unlocked_mono_of (a := noCb a) (b := a) rfl h
  unfold vested noCb
  apply vestedAfter_mono
  unfold elapsed
  simp only [if_true]
  split <;> omega

end Verif.Team
