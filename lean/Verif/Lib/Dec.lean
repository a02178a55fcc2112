import Mathlib.Tactic.Ring
import Mathlib.Tactic.Linarith
import Mathlib.Tactic.NormNum
import Mathlib.Tactic.Positivity

/-!
# `math.LegacyDec`

Model of `cosmossdk.io/math.LegacyDec` (a dependency, not part of /repo).  A decimal is its raw
integer, i.e. the value times `10^18`.  Non-negative decimals are `Nat`; the round-robin code, which
needs negative values, uses the `Int` variants.
-/

namespace Verif

/-- Non-negative `LegacyDec`, raw value (scaled by `10^18`). -/
abbrev Dec := Nat

namespace Dec

/-- `LegacyOneDec` / `precisionReuse` -/
def one : Nat := 1000000000000000000

theorem one_pos : 0 < one := by unfold one; omega

/-- `chopPrecisionAndRound`: divide by `10^18`, round half to even. -/
def chop (x : Nat) : Nat :=
  if 2 * (x % one) < one then x / one
  else if one < 2 * (x % one) then x / one + 1
  else if (x / one) % 2 = 0 then x / one else x / one + 1

/-- `LegacyNewDec` -/
def ofNat (n : Nat) : Dec := n * one

/-- `Mul` (rounds half to even) -/
def mul (a b : Dec) : Dec := chop (a * b)

/-- `MulTruncate` -/
def mulTrunc (a b : Dec) : Dec := a * b / one

/-- `Quo`: multiply by the precision twice, divide, round half to even. The code panics for `b = 0`. -/
def quo (a b : Dec) : Dec := chop (a * one * one / b)

/-- `TruncateInt` -/
def trunc (a : Dec) : Nat := a / one

/-- `Ceil().RoundInt()`: `Ceil` adds one to the truncated quotient if there is a remainder. -/
def ceil (a : Dec) : Nat := if a % one = 0 then a / one else a / one + 1

theorem chop_upper (x : Nat) : 2 * one * chop x ≤ 2 * x + one := by
  unfold chop one; split_ifs <;> omega

theorem chop_lower (x : Nat) : 2 * x ≤ 2 * one * chop x + one := by
  unfold chop one; split_ifs <;> omega

theorem div_le_chop (x : Nat) : x / one ≤ chop x := by
  unfold chop; split_ifs <;> omega

theorem chop_le_div_succ (x : Nat) : chop x ≤ x / one + 1 := by
  unfold chop; split_ifs <;> omega

theorem chop_mono {x y : Nat} (h : x ≤ y) : chop x ≤ chop y := by
  unfold chop one
  have : x / 1000000000000000000 ≤ y / 1000000000000000000 := Nat.div_le_div_right h
  split_ifs <;> omega

theorem chop_mul_one (n : Nat) : chop (n * one) = n := by
  unfold chop one; split_ifs <;> omega

theorem chop_zero : chop 0 = 0 := by decide

/-- Rounding up can only reach a natural bound, never pass it. -/
theorem chop_le_of_le {x n : Nat} (h : x ≤ n * one) : chop x ≤ n := by
  have := chop_mono h; rwa [chop_mul_one] at this

theorem le_chop_of_le {x n : Nat} (h : n * one ≤ x) : n ≤ chop x := by
  have := chop_mono h; rwa [chop_mul_one] at this

theorem mul_one_right (a : Dec) : mul a one = a := chop_mul_one a

theorem mul_ofNat (a : Dec) (n : Nat) : mul a (ofNat n) = a * n := by
  unfold mul ofNat
  rw [← mul_assoc, chop_mul_one]

theorem ofNat_mul (n : Nat) (a : Dec) : mul (ofNat n) a = n * a := by
  unfold mul ofNat
  rw [show n * one * a = (n * a) * one by ring, chop_mul_one]

theorem trunc_ofNat (n : Nat) : trunc (ofNat n) = n := by
  unfold trunc ofNat; exact Nat.mul_div_cancel _ one_pos

theorem trunc_le {a n : Nat} (h : a ≤ n * one) : trunc a ≤ n := by
  unfold trunc
  exact Nat.div_le_of_le_mul (by rw [mul_comm]; exact h)

theorem trunc_mul_le (a : Nat) : trunc a * one ≤ a := Nat.div_mul_le_self _ _

theorem lt_trunc_succ_mul (a : Nat) : a < (trunc a + 1) * one := by
  unfold trunc one; omega

theorem trunc_mono {a b : Nat} (h : a ≤ b) : trunc a ≤ trunc b := Nat.div_le_div_right h

theorem mulTrunc_le_left {a q : Dec} (h : q ≤ one) : mulTrunc a q ≤ a := by
  unfold mulTrunc
  apply Nat.div_le_of_le_mul
  rw [mul_comm one a]
  exact Nat.mul_le_mul_left a h

theorem mulTrunc_mono {a b q : Dec} (h : a ≤ b) : mulTrunc a q ≤ mulTrunc b q :=
  Nat.div_le_div_right (Nat.mul_le_mul_right q h)

theorem mul_le_left {a q : Dec} (h : q ≤ one) : mul a q ≤ a :=
  chop_le_of_le (Nat.mul_le_mul_left a h)

theorem mul_mono {a b q : Dec} (h : a ≤ b) : mul a q ≤ mul b q :=
  chop_mono (Nat.mul_le_mul_right q h)

/-- For whole numbers, `Quo` then `TruncateInt` is integer division, as long as the divisor is small
compared to the precision (rounding cannot reach the next integer). -/
theorem trunc_quo_ofNat {a b : Nat} (hb : 0 < b) (hb' : 2 * b ≤ one) :
    trunc (quo (ofNat a) (ofNat b)) = a / b := by
  have hne : b * one ≠ 0 := Nat.mul_ne_zero (by omega) (by unfold one; omega)
  have e : ofNat a * one * one / ofNat b = a * one * one / b := by
    unfold ofNat
    rw [show a * one * one * one = (a * one * one) * one by ring, Nat.mul_div_mul_right _ _ one_pos]
  unfold trunc quo
  rw [e]
  have h1 : a / b * b ≤ a := Nat.div_mul_le_self a b
  have h2 : a < (a / b + 1) * b := by
    have := Nat.lt_mul_div_succ a hb
    rw [mul_comm] at this; exact this
  set q := a / b with hq
  apply Nat.div_eq_of_lt_le
  · -- q * one ≤ chop (...)
    apply le_chop_of_le
    rw [Nat.le_div_iff_mul_le hb]
    calc q * one * one * b = (q * b) * one * one := by ring
      _ ≤ a * one * one := by gcongr
  · -- chop (...) < (q+1) * one
    have h3 : a + 1 ≤ (q + 1) * b := h2
    set y := a * one * one / b with hy
    have h4 : y * b ≤ a * one * one := Nat.div_mul_le_self _ _
    have h5 := chop_upper y
    -- 2*one*chop y ≤ 2y + one
    by_contra hcon
    push Not at hcon
    have h6 : 2 * one * ((q + 1) * one) ≤ 2 * y + one := le_trans (by gcongr) h5
    have h7 : (2 * one * ((q + 1) * one)) * b ≤ (2 * y + one) * b := Nat.mul_le_mul_right b h6
    have h8 : 2 * one * one * ((q + 1) * b) ≤ 2 * (a * one * one) + one * b := by
      calc 2 * one * one * ((q + 1) * b) = (2 * one * ((q + 1) * one)) * b := by ring
        _ ≤ (2 * y + one) * b := h7
        _ = 2 * (y * b) + one * b := by ring
        _ ≤ _ := by gcongr
    have h9 : 2 * one * one * (a + 1) ≤ 2 * (a * one * one) + one * b :=
      le_trans (Nat.mul_le_mul_left _ h3) h8
    have h10 : 2 * one * one ≤ one * b := by
      have : 2 * one * one * (a + 1) = 2 * (a * one * one) + 2 * one * one := by ring
      omega
    have h11 : 2 * one ≤ b := by
      have : one * (2 * one) ≤ one * b := by calc one * (2 * one) = 2 * one * one := by ring
          _ ≤ _ := h10
      exact Nat.le_of_mul_le_mul_left this one_pos
    unfold one at *
    omega

/-- The quotient error bound: `quo` is within half a unit of the exact quotient (from above: the inner
division truncates, so the value is never more than half a unit too large). -/
theorem quo_upper (a b : Dec) : 2 * (quo a b * b) ≤ 2 * (a * one) + b := by
  unfold quo
  set y := a * one * one / b with hy
  have h4 : y * b ≤ a * one * one := Nat.div_mul_le_self _ _
  have h5 := chop_upper y
  have h6 : one * (2 * (chop y * b)) ≤ one * (2 * (a * one) + b) := by
    calc one * (2 * (chop y * b)) = (2 * one * chop y) * b := by ring
      _ ≤ (2 * y + one) * b := Nat.mul_le_mul_right b h5
      _ = 2 * (y * b) + one * b := by ring
      _ ≤ 2 * (a * one * one) + one * b := by gcongr
      _ = one * (2 * (a * one) + b) := by ring
  exact Nat.le_of_mul_le_mul_left h6 one_pos

end Dec

end Verif
