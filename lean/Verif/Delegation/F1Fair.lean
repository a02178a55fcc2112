import Mathlib.Algebra.Order.AbsoluteValue.Basic
import Mathlib.Algebra.Order.Ring.Abs
import Verif.Delegation.F1Bal

/-!
# Rewards: the lazily computed payouts are the eager shares, up to an explicit rounding error
-/

namespace Verif.Delegation

open Verif

/-- `10^18` as a rational -/
abbrev oneQ : ℚ := (Dec.one : ℚ)

theorem oneQ_pos : (0 : ℚ) < oneQ := by
  unfold oneQ; exact_mod_cast Dec.one_pos

/-! ## The quotient of a period -/

/-- arithmetic core of `quo_bounds` with the precision as a variable -/
theorem quo_bounds_aux {c t y z o : Nat} (ho : 2 ≤ o) (h1 : y * t ≤ c * o * o) (h2 : c * o * o < (y + 1) * t)
    (h3 : 2 * o * z ≤ 2 * y + o) (h4 : 2 * y ≤ 2 * o * z + o) :
    z * t ≤ c * o + t ∧ c * o ≤ z * t + t := by
  have ho' : 0 < 2 * o := by omega
  constructor
  · apply Nat.le_of_mul_le_mul_left _ ho'
    calc 2 * o * (z * t) = (2 * o * z) * t := by ring
      _ ≤ (2 * y + o) * t := Nat.mul_le_mul_right _ h3
      _ = 2 * (y * t) + o * t := by ring
      _ ≤ 2 * (c * o * o) + 2 * o * t := by nlinarith
      _ = 2 * o * (c * o + t) := by ring
  · apply Nat.le_of_mul_le_mul_left _ ho'
    calc 2 * o * (c * o) = 2 * (c * o * o) := by ring
      _ ≤ 2 * ((y + 1) * t) := by omega
      _ = (2 * y + 2) * t := by ring
      _ ≤ (2 * o * z + o + 2) * t := Nat.mul_le_mul_right _ (by omega)
      _ ≤ (2 * o * z + 2 * o) * t := Nat.mul_le_mul_right _ (by omega)
      _ = 2 * o * (z * t + t) := by ring

/-- The code's quotient is within one unit of the 18th decimal of the exact one. -/
theorem quo_bounds (c t : Nat) (ht : 0 < t) :
    quoAmt c t * t ≤ c * Dec.one + t ∧ c * Dec.one ≤ quoAmt c t * t + t := by
  have e : quoAmt c t = Dec.chop (c * Dec.one * Dec.one / t) := by
    have e0 : c * Dec.one * Dec.one * Dec.one / (t * Dec.one) = c * Dec.one * Dec.one / t :=
      Nat.mul_div_mul_right _ _ Dec.one_pos
    unfold quoAmt Dec.quo Dec.ofNat
    rw [if_neg (by omega), e0]
  rw [e]
  refine quo_bounds_aux (y := c * Dec.one * Dec.one / t) (by unfold Dec.one; omega) (Nat.div_mul_le_self _ _)
    ?_ (Dec.chop_upper _) (Dec.chop_lower _)
  have := Nat.lt_mul_div_succ (c * Dec.one * Dec.one) ht
  rwa [mul_comm t] at this

/-- The share of the running period, scaled by `10^36`. -/
def openShare (d : Data) (b : Dec) (dn : Denom) : ℚ :=
  (d.cur.amt dn : ℚ) * oneQ * (b : ℚ) / (d.total : ℚ)

theorem quo_share (d : Data) (b : Dec) (dn : Denom) :
    |((periodQuo d.cur d.total).amt dn : ℚ) * (b : ℚ) - openShare d b dn| ≤ (b : ℚ) := by
  rw [amt_periodQuo]
  have hb : (0 : ℚ) ≤ (b : ℚ) := by exact_mod_cast Nat.zero_le b
  unfold openShare
  by_cases ht : d.total = 0
  · rw [ht]; simp [quoAmt]
  · have htp : 0 < d.total := by omega
    have htq : (0 : ℚ) < (d.total : ℚ) := by exact_mod_cast htp
    obtain ⟨h1, h2⟩ := quo_bounds (d.cur.amt dn) d.total htp
    have h1' : (quoAmt (d.cur.amt dn) d.total : ℚ) * d.total ≤ (d.cur.amt dn) * oneQ + d.total := by
      exact_mod_cast h1
    have h2' : ((d.cur.amt dn : ℚ)) * oneQ ≤ (quoAmt (d.cur.amt dn) d.total : ℚ) * d.total + d.total := by
      exact_mod_cast h2
    have e : ((quoAmt (d.cur.amt dn) d.total : ℚ) * (b : ℚ) - (d.cur.amt dn : ℚ) * oneQ * (b : ℚ) / (d.total : ℚ))
        = ((quoAmt (d.cur.amt dn) d.total : ℚ) * d.total - (d.cur.amt dn) * oneQ) / d.total * b := by
      field_simp
    rw [e, abs_mul, abs_of_nonneg hb]
    have h3 : |((quoAmt (d.cur.amt dn) d.total : ℚ) * d.total - (d.cur.amt dn) * oneQ) / d.total| ≤ 1 := by
      rw [abs_div, abs_of_pos htq, div_le_one htq, abs_le]
      constructor <;> linarith
    calc _ ≤ 1 * (b : ℚ) := mul_le_mul_of_nonneg_right h3 hb
      _ = b := one_mul _

/-! ## What a delegator has earned in finished periods -/

/-- the exact value of the rewards of the constant-delegation periods, scaled by `10^36` -/
def evalE (f : Nat → ℚ) : List (Nat × Dec) → Nat → Nat → Dec → ℚ
  | [], p, m, b => (f m - f p) * (b : ℚ)
  | (k, q) :: t, p, m, b => (f k - f p) * (b : ℚ) + evalE f t k m (slashOne b q)

theorem evalE_hi (f : Nat → ℚ) (l : List (Nat × Dec)) (p m m' : Nat) (b : Dec) :
    evalE f l p m' b = evalE f l p m b + (f m' - f m) * (slashBal l b : ℚ) := by
  induction l generalizing p b with
  | nil => simp only [evalE, slashBal, List.foldl_nil]; ring
  | cons y t ih =>
    obtain ⟨k, q⟩ := y
    simp only [evalE]
    rw [ih]
    have : slashBal ((k, q) :: t) b = slashBal t (slashOne b q) := rfl
    rw [this]; ring

theorem evalE_append (f : Nat → ℚ) (l : List (Nat × Dec)) (p n : Nat) (q b : Dec) :
    evalE f (l ++ [(n, q)]) p n b = evalE f l p n b := by
  induction l generalizing p b with
  | nil => simp [evalE]
  | cons y t ih => obtain ⟨k, q'⟩ := y; simp only [List.cons_append, evalE, ih]

theorem evalE_congr {f g : Nat → ℚ} {l : List (Nat × Dec)} {p m : Nat} (b : Dec) (hp : f p = g p)
    (hm : f m = g m) (hl : ∀ y ∈ l, f y.1 = g y.1) : evalE f l p m b = evalE g l p m b := by
  induction l generalizing p b with
  | nil => simp only [evalE, hp, hm]
  | cons y t ih =>
    obtain ⟨k, q⟩ := y
    have hk := hl (k, q) (by simp)
    simp only [evalE]
    simp only at hk
    rw [hp, hk, ih _ hk (fun y hy => hl y (List.mem_cons_of_mem _ hy))]

/-- the value of an entry -/
def ent (e : Map Nat DecCoins) (dn : Denom) (j : Nat) : ℚ := ((entryVal e j).amt dn : ℚ)

/-- the exact reward of a delegator record for the finished periods, scaled by `10^36` -/
def earned (s : F1) (x : Del) (hi : Nat) (dn : Denom) : ℚ :=
  evalE (ent s.entries dn) (slashesBetween s.slashes x.k hi) x.k hi (Dec.ofNat x.amount)

theorem earned_tick {s : F1} {d : Data} (h : DInv s d) {w : Addr} {x : Del} (hw : s.dels.get? w = some x)
    (dn : Denom) :
    earned (tick s d) x (d.latest + 1) dn
      = earned s x d.latest dn + ((periodQuo d.cur d.total).amt dn : ℚ) * (balUpTo s.slashes x d.latest : ℚ) := by
  have hk := h.klt w x hw
  have hlat : ent (newEntries s.entries d) dn (d.latest + 1)
      = ((periodQuo d.cur d.total).amt dn : ℚ) + ent s.entries dn d.latest := by
    unfold ent
    rw [entryVal_of_get? (newEntries_latest s.entries d), Coins.amt_add]
    push_cast; rfl
  have hkk : ent (newEntries s.entries d) dn x.k = ent s.entries dn x.k := by
    unfold ent entryVal; rw [tick_get?_of_del h hw]
  have hss : ∀ j q, s.slashes.get? j = some q → ent (newEntries s.entries d) dn j = ent s.entries dn j := by
    intro j q hj
    have := (h.sent j q hj).1
    unfold ent entryVal
    rw [newEntries_other _ _ (by omega)]
    intro hu e
    subst e
    rw [(h.und hu).1] at hj; cases hj
  unfold earned
  show evalE (ent (newEntries s.entries d) dn) (slashesBetween s.slashes x.k (d.latest + 1)) x.k (d.latest + 1) _ = _
  rw [slashesBetween_hi (Nat.le_succ _) h.slash_le]
  generalize hl : slashesBetween s.slashes x.k d.latest = l
  have hmem : ∀ y ∈ l, s.slashes.get? y.1 = some y.2 ∧ y.1 ≤ d.latest := by
    intro y hy; rw [← hl] at hy; exact ⟨(mem_slashesBetween.1 hy).1, (mem_slashesBetween.1 hy).2.2⟩
  let f' : Nat → ℚ := fun j =>
    if j = d.latest + 1 then ((periodQuo d.cur d.total).amt dn : ℚ) + ent s.entries dn d.latest
    else ent s.entries dn j
  have e1 : evalE (ent (newEntries s.entries d) dn) l x.k (d.latest + 1) (Dec.ofNat x.amount)
      = evalE f' l x.k (d.latest + 1) (Dec.ofNat x.amount) := by
    apply evalE_congr
    · show _ = if x.k = d.latest + 1 then _ else _
      rw [if_neg (by omega), hkk]
    · show _ = if d.latest + 1 = d.latest + 1 then _ else _
      rw [if_pos rfl, hlat]
    · intro y hy
      show _ = if y.1 = d.latest + 1 then _ else _
      rw [if_neg (by have := (hmem y hy).2; omega), hss y.1 y.2 (hmem y hy).1]
  have e2 : evalE f' l x.k d.latest (Dec.ofNat x.amount)
      = evalE (ent s.entries dn) l x.k d.latest (Dec.ofNat x.amount) := by
    apply evalE_congr
    · show (if x.k = d.latest + 1 then _ else _) = _
      rw [if_neg (by omega)]
    · show (if d.latest = d.latest + 1 then _ else _) = _
      rw [if_neg (by omega)]
    · intro y hy
      show (if y.1 = d.latest + 1 then _ else _) = _
      rw [if_neg (by have := (hmem y hy).2; omega)]
  rw [e1, evalE_hi f' l x.k d.latest, e2]
  have e3 : f' (d.latest + 1) - f' d.latest = ((periodQuo d.cur d.total).amt dn : ℚ) := by
    show (if d.latest + 1 = d.latest + 1 then _ else _) - (if d.latest = d.latest + 1 then _ else _) = _
    rw [if_pos rfl, if_neg (by omega)]; ring
  rw [e3]
  unfold balUpTo
  rw [hl]

/-- Deleting an entry nobody refers to. -/
theorem earned_del {s : F1} {x : Del} {hi : Nat} {dn : Denom} {e : Map Nat DecCoins} {j : Nat}
    (h1 : j ≠ x.k) (h2 : j ≠ hi) (h3 : s.slashes.get? j = none) (he : e = s.entries.del j) {s' : F1}
    (hs' : s'.entries = e) (hsl : s'.slashes = s.slashes) :
    earned s' x hi dn = earned s x hi dn := by
  unfold earned
  rw [hs', hsl, he]
  apply evalE_congr
  · unfold ent; rw [entryVal_del_ne _ h1.symm]
  · unfold ent; rw [entryVal_del_ne _ h2.symm]
  · intro y hy
    have := (mem_slashesBetween.1 hy).1
    unfold ent
    rw [entryVal_del_ne]
    rintro e; rw [e, h3] at this; cases this

theorem earned_self (s : F1) (n k : Nat) (dn : Denom) (h : ∀ j q, s.slashes.get? j = some q → j < k) :
    earned s ⟨n, k⟩ k dn = 0 := by
  unfold earned
  simp only
  rw [slashesBetween_empty h]
  simp [evalE]

/-! ## The code's rounding of a reward -/

/-- the raw decimal the code computes for one denomination -/
def rewardAmt (e : Map Nat DecCoins) (dn : Denom) : List (Nat × Nat × Dec) → Nat
  | [] => 0
  | (lo, hi, b) :: t => Dec.mul ((entryVal e hi).amt dn - (entryVal e lo).amt dn) b + rewardAmt e dn t

theorem amt_safeMulDec (c : DecCoins) (b : Dec) (dn : Denom) : (safeMulDec c b).amt dn = Dec.mul (c.amt dn) b := by
  unfold safeMulDec
  split
  · subst_vars; simp [Dec.mul, Dec.chop_zero]
  · rw [Coins.amt_mapAmt c (fun v => Dec.mul v b) (by simp [Dec.mul, Dec.chop_zero])]

theorem amt_rewardOf (e : Map Nat DecCoins) (dn : Denom) (l : List (Nat × Nat × Dec)) :
    (rewardOf e l).amt dn = rewardAmt e dn l := by
  induction l with
  | nil => rfl
  | cons p t ih =>
    obtain ⟨lo, hi, b⟩ := p
    simp only [rewardOf, rewardAmt, Coins.amt_add, amt_safeMulDec, ih, entryDiff, Coins.amt_sub]

theorem amt_truncateDecCoins (c : DecCoins) (dn : Denom) : (truncateDecCoins c).amt dn = Dec.trunc (c.amt dn) := by
  unfold truncateDecCoins
  rw [Coins.amt_mapAmt c Dec.trunc (by simp [Dec.trunc])]

theorem mul_error (a b : Nat) : |oneQ * (Dec.mul a b : ℚ) - (a : ℚ) * (b : ℚ)| ≤ oneQ / 2 := by
  unfold Dec.mul
  have h1 := Dec.chop_upper (a * b)
  have h2 := Dec.chop_lower (a * b)
  have h1' : 2 * oneQ * (Dec.chop (a * b) : ℚ) ≤ 2 * ((a : ℚ) * b) + oneQ := by exact_mod_cast h1
  have h2' : 2 * ((a : ℚ) * b) ≤ 2 * oneQ * (Dec.chop (a * b) : ℚ) + oneQ := by exact_mod_cast h2
  rw [abs_le]
  constructor <;> linarith

theorem reward_error (e : Map Nat DecCoins) (dn : Denom) (l : List (Nat × Dec)) (p m : Nat) (b : Dec)
    (h : anyBad e (segs l p m b) = false) :
    |oneQ * (rewardAmt e dn (segs l p m b) : ℚ) - evalE (ent e dn) l p m b|
      ≤ oneQ / 2 * ((l.length : ℚ) + 1) := by
  have hdiff : ∀ lo hi : Nat, diffBad e lo hi = false →
      ((((entryVal e hi).amt dn - (entryVal e lo).amt dn : Nat)) : ℚ) = ent e dn hi - ent e dn lo := by
    intro lo hi hb
    unfold diffBad at hb
    simp only [Bool.or_eq_false_iff, Bool.not_eq_false'] at hb
    have := Coins.le_iff.1 hb.2 dn
    unfold ent
    rw [Nat.cast_sub this]
  induction l generalizing p b with
  | nil =>
    simp only [segs, anyBad, List.any_cons, List.any_nil, Bool.or_false] at h
    simp only [segs, rewardAmt, evalE, Nat.add_zero]
    have := mul_error ((entryVal e m).amt dn - (entryVal e p).amt dn) b
    rw [hdiff p m h] at this
    simpa using this
  | cons y t ih =>
    obtain ⟨k, q⟩ := y
    simp only [segs, anyBad, List.any_cons, Bool.or_eq_false_iff] at h
    have ih' := ih k (slashOne b q) h.2
    simp only [segs, rewardAmt, evalE, List.length_cons]
    have h1 := mul_error ((entryVal e k).amt dn - (entryVal e p).amt dn) b
    rw [hdiff p k h.1] at h1
    rw [abs_le] at *
    push_cast
    constructor <;> linarith [h1.1, h1.2, ih'.1, ih'.2]

/-! ## The reward invariant -/

/-- number of slashes a delegator has seen since its last interaction -/
def nslash (s : F1) (x : Del) : Nat := (slashesBetween s.slashes x.k s.d.latest).length

/-- Finished periods plus the share of the running one agree with the eager share up to `slack`
(scaled by `10^36`); one unit of `10^18` per slash is reserved for the rounding of the final payout. -/
def FairInv (s : F1) (fair : Addr → Denom → ℚ) (slack : Addr → Nat) : Prop :=
  ∀ w x, s.dels.get? w = some x → ∀ dn,
    |earned s x s.d.latest dn + openShare s.d (balance s w) dn - oneQ * oneQ * fair w dn|
      + oneQ * (nslash s x : ℚ) ≤ (slack w : ℚ)

theorem F1.d_eq {s : F1} {d : Data} (h : s.data = some d) : s.d = d := by unfold F1.d; rw [h]; rfl

theorem openShare_zero {d : Data} (h : d.cur = Coins.zero) (b : Dec) (dn : Denom) : openShare d b dn = 0 := by
  unfold openShare; rw [h]; simp

theorem nslash_tick {s : F1} {d : Data} (h : DInv s d) (hd : s.data = some d) (x : Del) :
    nslash (tick s d) x = nslash s x := by
  unfold nslash
  rw [F1.d_eq hd, F1.d_eq (tick_data s d)]
  show (slashesBetween s.slashes x.k (d.latest + 1)).length = _
  rw [slashesBetween_hi (Nat.le_succ _) h.slash_le]

theorem balance_tick {s : F1} {d : Data} (h : DInv s d) (hd : s.data = some d) (w : Addr) :
    balance (tick s d) w = balance s w := by
  unfold balance
  rw [hd, tick_data]
  show (match s.dels.get? w with | none => _ | some x => balUpTo s.slashes x (d.latest + 1)) = _
  cases s.dels.get? w with
  | none => rfl
  | some x => exact h.balUpTo_succ x

/-- Starting a period costs at most one unit of the 18th decimal per staked token. -/
theorem FairInv.tick {s : F1} {d : Data} {fair : Addr → Denom → ℚ} {slack : Addr → Nat}
    (h : FairInv s fair slack) (hD : DInv s d) (hd : s.data = some d) :
    FairInv (tick s d) fair (fun a => slack a + balance s a) := by
  intro w x hw dn
  have hw' : s.dels.get? w = some x := hw
  have h1 := h w x hw' dn
  rw [nslash_tick hD hd, F1.d_eq (tick_data s d), openShare_zero rfl]
  rw [F1.d_eq hd] at h1
  have h2 := earned_tick hD hw' dn
  have h3 := quo_share d (balance s w) dn
  rw [← balance_some hw' hd] at h2
  show |earned (Verif.Delegation.tick s d) x (d.latest + 1) dn + 0 - _| + _ ≤ _
  rw [h2]
  push_cast
  rw [abs_le] at h3
  have h4 : |earned s x d.latest dn + ((periodQuo d.cur d.total).amt dn : ℚ) * (balance s w : ℚ) + 0
      - oneQ * oneQ * fair w dn|
      ≤ |earned s x d.latest dn + openShare d (balance s w) dn - oneQ * oneQ * fair w dn| + (balance s w : ℚ) := by
    have h5 := abs_le.1 (le_refl |earned s x d.latest dn + openShare d (balance s w) dn - oneQ * oneQ * fair w dn|)
    rw [abs_le]
    constructor <;> linarith [h3.1, h3.2, h5.1, h5.2]
  linarith

theorem FairInv.mono {s : F1} {fair fair' : Addr → Denom → ℚ} {slack slack' : Addr → Nat}
    (h : FairInv s fair slack) (hf : ∀ w x, s.dels.get? w = some x → ∀ dn, fair' w dn = fair w dn)
    (hs : ∀ w x, s.dels.get? w = some x → slack w ≤ slack' w) : FairInv s fair' slack' := by
  intro w x hw dn
  rw [hf w x hw dn]
  have h1 : (slack w : ℚ) ≤ (slack' w : ℚ) := by exact_mod_cast hs w x hw
  exact le_trans (h w x hw dn) h1

/-- The slack after an operation that starts a period. -/
def grow (s : F1) (slack : Addr → Nat) : Addr → Nat := fun a => slack a + balance s a

/-- A record that starts in the latest period. -/
theorem fair_new {s' : F1} {d' : Data} {n : Nat} {b : Dec} {v : Nat} {f : ℚ} (dn : Denom) (hd : s'.data = some d')
    (hc : d'.cur = Coins.zero) (hf : f = 0) (hns : ∀ j q, s'.slashes.get? j = some q → j < d'.latest) :
    |earned s' ⟨n, d'.latest⟩ s'.d.latest dn + openShare s'.d b dn - oneQ * oneQ * f|
      + oneQ * (nslash s' ⟨n, d'.latest⟩ : ℚ) ≤ (v : ℚ) := by
  unfold nslash
  rw [F1.d_eq hd, openShare_zero hc, earned_self _ _ _ _ hns, hf]
  simp only
  rw [slashesBetween_empty hns]
  simp

/-- A record that was not touched when a period was started. -/
theorem fair_other {s s' : F1} {d d' : Data} {y : Del} {b b' : Dec} {v : Nat} {f : ℚ} {dn : Denom}
    (hd : s'.data = some d') (hc : d'.cur = Coins.zero) (hl : d'.latest = d.latest + 1)
    (hsl : s'.slashes = s.slashes)
    (he : earned s' y (d.latest + 1) dn = earned (Verif.Delegation.tick s d) y (d.latest + 1) dn)
    (h : |earned (Verif.Delegation.tick s d) y (Verif.Delegation.tick s d).d.latest dn
        + openShare (Verif.Delegation.tick s d).d b dn - oneQ * oneQ * f|
      + oneQ * (nslash (Verif.Delegation.tick s d) y : ℚ) ≤ (v : ℚ)) :
    |earned s' y s'.d.latest dn + openShare s'.d b' dn - oneQ * oneQ * f|
      + oneQ * (nslash s' y : ℚ) ≤ (v : ℚ) := by
  have hn : nslash s' y = nslash (Verif.Delegation.tick s d) y := by
    unfold nslash
    rw [F1.d_eq hd, F1.d_eq (tick_data s d), hsl, hl]; rfl
  rw [hn, F1.d_eq hd, openShare_zero hc, hl, he]
  rw [F1.d_eq (tick_data s d), openShare_zero rfl] at h
  exact h

theorem FairInv.withdraw {s : F1} (hi : F1Inv s) {fair : Addr → Denom → ℚ} {slack : Addr → Nat}
    (h : FairInv s fair slack) (w : Addr) :
    FairInv (withdraw s w).1 (fun a dn => if a = w then 0 else fair a dn)
      (fun a => if a = w then 0 else grow s slack a) := by
  unfold Verif.Delegation.withdraw
  cases hw : s.dels.get? w with
  | none =>
    refine h.mono ?_ ?_
    · intro a y ha dn
      have : a ≠ w := by rintro rfl; rw [hw] at ha; cases ha
      simp [this]
    · intro a y ha
      have : a ≠ w := by rintro rfl; rw [hw] at ha; cases ha
      simp [this, grow]
  | some x =>
    obtain ⟨d, hd⟩ := hi.data_of_del hw
    have hD := hi.dsome d hd
    have ht := h.tick hD hd
    obtain ⟨hDt, hFt⟩ := hD.tick
    simp only [hd, Option.getD_some, withdrawFound]
    intro a y ha dn
    simp only [Map.get?_set] at ha
    by_cases haw : a = w
    · subst haw
      rw [if_pos rfl] at ha
      injection ha with ha
      subst ha
      have hns : ∀ j q, s.slashes.get? j = some q → j < d.latest + 1 :=
        fun j q hj => by have := hD.slash_le j q hj; omega
      simp only [if_pos]
      refine fair_new (d' := newData d) dn rfl rfl rfl ?_
      exact hns
    · rw [if_neg haw] at ha
      have h1 := ht a y ha dn
      simp only [if_neg haw]
      have hka : y.k ≠ x.k := fun e => haw (hD.kdist a w y x ha hw e)
      have hxl := hD.klt w x hw
      have e1 : ∀ s', s'.entries = (newEntries s.entries d).del x.k → s'.slashes = s.slashes →
          earned s' y (d.latest + 1) dn = earned (Verif.Delegation.tick s d) y (d.latest + 1) dn := by
        intro s' he hs
        exact earned_del (s := Verif.Delegation.tick s d) hka.symm (by omega) (hD.kslash w x hw) rfl he hs
      refine fair_other (d' := newData d) ?_ rfl rfl ?_ ?_ h1
      · rfl
      · rfl
      · exact e1 _ rfl rfl

/-- What a withdrawal pays, scaled by `10^36`, is the eager share up to the slack and one token. -/
theorem withdraw_pays {s : F1} (hi : F1Inv s) {fair : Addr → Denom → ℚ} {slack : Addr → Nat}
    (h : FairInv s fair slack) {w : Addr} {x : Del} (hw : s.dels.get? w = some x) (dn : Denom) :
    oneQ * oneQ * ((Verif.Delegation.withdraw s w).2.amt dn : ℚ)
        ≤ oneQ * oneQ * fair w dn + (grow s slack w : ℚ) + oneQ ∧
      oneQ * oneQ * fair w dn
        ≤ oneQ * oneQ * (((Verif.Delegation.withdraw s w).2.amt dn : ℚ) + 1) + (grow s slack w : ℚ) + oneQ := by
  obtain ⟨d, hd⟩ := hi.data_of_del hw
  have hD := hi.dsome d hd
  have ht := h.tick hD hd
  obtain ⟨hDt, hFt⟩ := hD.tick
  have hb := hDt.noBad (w := w) (x := x) hw
  have h1 := ht w x hw dn
  rw [F1.d_eq (tick_data s d), openShare_zero rfl] at h1
  have e : (Verif.Delegation.withdraw s w).2.amt dn
      = Dec.trunc (rewardAmt (newEntries s.entries d) dn (periodsOf s.slashes x (d.latest + 1))) := by
    unfold Verif.Delegation.withdraw
    rw [hw]
    simp only [hd, Option.getD_some, withdrawFound]
    rw [amt_truncateDecCoins, amt_rewardOf]
  have h2 := reward_error (newEntries s.entries d) dn (slashesBetween s.slashes x.k (d.latest + 1)) x.k
    (d.latest + 1) (Dec.ofNat x.amount) hb
  have hlen : nslash (Verif.Delegation.tick s d) x = (slashesBetween s.slashes x.k (d.latest + 1)).length := rfl
  rw [hlen] at h1
  have h1' : |earned (Verif.Delegation.tick s d) x (d.latest + 1) dn + 0 - oneQ * oneQ * fair w dn|
      + oneQ * ((slashesBetween s.slashes x.k (d.latest + 1)).length : ℚ) ≤ ((slack w + balance s w : Nat) : ℚ) := h1
  have h2' : |oneQ * (rewardAmt (newEntries s.entries d) dn (periodsOf s.slashes x (d.latest + 1)) : ℚ)
      - earned (Verif.Delegation.tick s d) x (d.latest + 1) dn|
      ≤ oneQ / 2 * (((slashesBetween s.slashes x.k (d.latest + 1)).length : ℚ) + 1) := h2
  rw [e]
  generalize rewardAmt (newEntries s.entries d) dn (periodsOf s.slashes x (d.latest + 1)) = r at *
  have hL0 : (0 : ℚ) ≤ ((slashesBetween s.slashes x.k (d.latest + 1)).length : ℚ) := Nat.cast_nonneg _
  generalize ((slashesBetween s.slashes x.k (d.latest + 1)).length : ℚ) = L at *
  have h3 := Dec.trunc_mul_le r
  have h4 := Dec.lt_trunc_succ_mul r
  have h3' : (Dec.trunc r : ℚ) * oneQ ≤ (r : ℚ) := by exact_mod_cast h3
  have h4' : (r : ℚ) ≤ ((Dec.trunc r : ℚ) + 1) * oneQ := by exact_mod_cast le_of_lt h4
  have hL : 0 ≤ oneQ * L := mul_nonneg (le_of_lt oneQ_pos) hL0
  have hp := oneQ_pos
  have m1 : oneQ * oneQ * (Dec.trunc r : ℚ) ≤ oneQ * (r : ℚ) := by nlinarith
  have m2 : oneQ * (r : ℚ) ≤ oneQ * oneQ * ((Dec.trunc r : ℚ) + 1) := by nlinarith
  have hg : (grow s slack w : ℚ) = ((slack w + balance s w : Nat) : ℚ) := rfl
  rw [hg]
  have a1 := abs_le.1 h2'
  have a2 := abs_le.1 (le_refl |earned (Verif.Delegation.tick s d) x (d.latest + 1) dn + 0 - oneQ * oneQ * fair w dn|)
  constructor
  · linarith [a1.2, a2.2]
  · linarith [a1.1, a2.1]

theorem FairInv.remove {s : F1} (hi : F1Inv s) {fair : Addr → Denom → ℚ} {slack : Addr → Nat}
    (h : FairInv s fair slack) (w : Addr) : FairInv (remove s w).1 fair (grow s slack) := by
  unfold Verif.Delegation.remove
  cases hw : s.dels.get? w with
  | none => exact h.mono (fun _ _ _ _ => rfl) (fun a _ _ => by simp [grow])
  | some x =>
    obtain ⟨d, hd⟩ := hi.data_of_del hw
    have hD := hi.dsome d hd
    have ht := h.tick hD hd
    simp only [hd, Option.getD_some]
    generalize curDel s w = n
    unfold removeFound
    intro a y ha dn
    have hsize : (s.dels.del w).size = d.count - 1 := by
      rw [Map.size_del, hw, hD.cnt]; rfl
    have hpos : d.count - 1 ≠ 0 := by
      have := Map.size_pos_of_get? _ ha
      simp only at this
      omega
    simp only [Map.get?_del] at ha
    by_cases haw : a = w
    · subst haw; simp at ha
    · rw [if_neg haw] at ha
      have h1 := ht a y ha dn
      have hka : y.k ≠ x.k := fun e => haw (hD.kdist a w y x ha hw e)
      have hxl := hD.klt w x hw
      have e1 : ∀ s', s'.entries = (newEntries s.entries d).del x.k → s'.slashes = s.slashes →
          earned s' y (d.latest + 1) dn = earned (Verif.Delegation.tick s d) y (d.latest + 1) dn := by
        intro s' he hs
        exact earned_del (s := Verif.Delegation.tick s d) hka.symm (by omega) (hD.kslash w x hw) rfl he hs
      refine fair_other (d' := { newData d with undel := true, total := d.total - n, count := d.count - 1 })
        ?_ rfl rfl ?_ ?_ h1
      · rfl
      · rfl
      · exact e1 _ (by simp only [if_neg hpos]) rfl

theorem FairInv.create {s : F1} (hi : F1Inv s) {fair : Addr → Denom → ℚ} {slack : Addr → Nat}
    (h : FairInv s fair slack) {w : Addr} (hw : s.dels.get? w = none) (hf : ∀ dn, fair w dn = 0) (n : Nat) :
    FairInv (createDelegator s w n) fair (fun a => if a = w then 0 else grow s slack a) := by
  unfold createDelegator
  split
  · refine h.mono (fun _ _ _ _ => rfl) ?_
    intro a y ha
    have : a ≠ w := by rintro rfl; rw [hw] at ha; cases ha
    simp [this, grow]
  · intro a y ha dn
    simp only [Map.get?_set] at ha
    have hDD := hi.dinv
    have hns : ∀ j q, s.slashes.get? j = some q → j < (s.data.getD Data.fresh).latest + 1 :=
      fun j q hj => by have := hDD.slash_le j q hj; omega
    by_cases haw : a = w
    · subst haw
      rw [if_pos rfl] at ha
      injection ha with ha
      subst ha
      refine fair_new (d' := { newData (s.data.getD Data.fresh) with
        total := (s.data.getD Data.fresh).total + n
        count := (s.data.getD Data.fresh).count + 1 }) dn ?_ rfl (hf dn) ?_
      · rfl
      · exact hns
    · rw [if_neg haw] at ha
      obtain ⟨d, hd⟩ := hi.data_of_del ha
      have ht := h.tick (hi.dsome d hd) hd
      have h1 := ht a y ha dn
      simp only [if_neg haw]
      refine fair_other (d := d) (d' := { newData (s.data.getD Data.fresh) with
        total := (s.data.getD Data.fresh).total + n
        count := (s.data.getD Data.fresh).count + 1 }) ?_ rfl ?_ ?_ ?_ h1
      · rfl
      · simp [hd, newData]
      · rfl
      · simp only [hd, Option.getD_some]; rfl

theorem FairInv.slash {s : F1} (hi : F1Inv s) {fair : Addr → Denom → ℚ} {slack : Addr → Nat}
    (h : FairInv s fair slack) (q : Dec) :
    FairInv (slash s q).1 fair (fun a => grow s slack a + Dec.one) := by
  unfold Verif.Delegation.slash
  cases hd : s.data with
  | none => exact h.mono (fun _ _ _ _ => rfl) (fun a _ _ => by simp [grow]; omega)
  | some d =>
    have hD := hi.dsome d hd
    have ht := h.tick hD hd
    intro a y ha dn
    have ha' : s.dels.get? a = some y := ha
    have hk := hD.klt a y ha'
    have h1 := ht a y ha' dn
    rw [F1.d_eq (tick_data s d), openShare_zero rfl] at h1
    have hns : ∀ j q, s.slashes.get? j = some q → j < d.latest + 1 :=
      fun j q hj => by have := hD.slash_le j q hj; omega
    have e1 : ∀ s', s'.entries = newEntries s.entries d → s'.slashes = s.slashes.set (d.latest + 1) q →
        earned s' y (d.latest + 1) dn = earned (Verif.Delegation.tick s d) y (d.latest + 1) dn := by
      intro s' he hs
      unfold earned
      rw [he, hs, slashesBetween_set (by omega) hns, evalE_append]
      rfl
    have e2 : ∀ s', s'.data = some { newData d with total := d.total - slashedAmount d.total q } →
        s'.slashes = s.slashes.set (d.latest + 1) q →
        nslash s' y = nslash (Verif.Delegation.tick s d) y + 1 := by
      intro s' he hs
      unfold nslash
      rw [F1.d_eq he, hs, F1.d_eq (tick_data s d)]
      show (slashesBetween (s.slashes.set (d.latest + 1) q) y.k (d.latest + 1)).length
        = (slashesBetween s.slashes y.k (d.latest + 1)).length + 1
      rw [slashesBetween_set (by omega) hns]
      simp
    have e3 : ∀ (s' : F1) (b : Dec), s'.data = some { newData d with total := d.total - slashedAmount d.total q } →
        earned s' y s'.d.latest dn + openShare s'.d b dn = earned s' y (d.latest + 1) dn + 0 := by
      intro s' b he
      rw [F1.d_eq he, openShare_zero rfl]; rfl
    rw [e3 _ _ rfl, e2 _ rfl rfl, e1 _ rfl rfl]
    have hg : ((grow s slack a + Dec.one : Nat) : ℚ) = ((slack a + balance s a : Nat) : ℚ) + oneQ := by
      unfold grow; push_cast; rfl
    rw [hg]
    have h1' : |earned (Verif.Delegation.tick s d) y (d.latest + 1) dn + 0 - oneQ * oneQ * fair a dn|
        + oneQ * (nslash (Verif.Delegation.tick s d) y : ℚ) ≤ ((slack a + balance s a : Nat) : ℚ) := h1
    rw [Nat.cast_add (nslash _ y) 1, Nat.cast_one]
    linarith

theorem FairInv.payout {s : F1} {fair : Addr → Denom → ℚ} {slack : Addr → Nat}
    (h : FairInv s fair slack) (c : Coins) :
    FairInv (payout s c)
      (fun a dn => fair a dn + (c.amt dn : ℚ) * ((balance s a : ℚ) / ((s.d.total : ℚ) * oneQ))) slack := by
  intro a y ha dn
  have hdels : (Verif.Delegation.payout s c).dels = s.dels := by
    unfold Verif.Delegation.payout; cases s.data <;> rfl
  rw [hdels] at ha
  have h1 := h a y ha dn
  rw [balance_payout]
  have e1 : earned (Verif.Delegation.payout s c) y (Verif.Delegation.payout s c).d.latest dn
      = earned s y s.d.latest dn := by
    unfold Verif.Delegation.payout F1.d
    cases hd : s.data <;> simp [hd] <;> rfl
  have e2 : nslash (Verif.Delegation.payout s c) y = nslash s y := by
    unfold nslash Verif.Delegation.payout F1.d
    cases hd : s.data <;> simp [hd]
  rw [e1, e2]
  have hp := oneQ_pos
  by_cases hd : s.data = none
  · have e3 : Verif.Delegation.payout s c = s := by unfold Verif.Delegation.payout; rw [hd]
    have e4 : s.d.total = 0 := by unfold F1.d; rw [hd]; rfl
    rw [e3, e4]
    simpa [e4] using h1
  · obtain ⟨d, hd⟩ := Option.ne_none_iff_exists'.1 hd
    have e3 : (Verif.Delegation.payout s c).d = { d with cur := d.cur.add c } := by
      unfold Verif.Delegation.payout F1.d; rw [hd]; rfl
    rw [e3]
    rw [F1.d_eq hd] at h1 ⊢
    have e4 : earned s y d.latest dn + openShare { d with cur := d.cur.add c } (balance s a) dn
          - oneQ * oneQ * (fair a dn + (c.amt dn : ℚ) * ((balance s a : ℚ) / ((d.total : ℚ) * oneQ)))
        = earned s y d.latest dn + openShare d (balance s a) dn - oneQ * oneQ * fair a dn := by
      unfold openShare
      simp only [Coins.amt_add]
      push_cast
      by_cases ht : (d.total : ℚ) = 0
      · rw [ht]; simp
      · field_simp; ring
    rw [e4]
    exact h1

end Verif.Delegation
