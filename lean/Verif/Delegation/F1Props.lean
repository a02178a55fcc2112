import Verif.Delegation.F1Ledger

/-!
# Properties of the F1 reward distribution (C01 - C06, C10)

All theorems range over `Ledger.Reachable` (F1Spec.lean): every finite sequence of delegations,
undelegations, withdrawals, slashes and payouts on one staker, starting from the empty store.
-/

namespace Verif.Delegation

open Verif

/-! ## C01 -/

/-- **C01.** No operation of any history makes the F1 code call `PanicHalt` or panic on a missing or
decreasing entry, and neither would any query for any address in the state reached. -/
theorem C01_no_halt {l : Ledger} (h : Ledger.Reachable l) :
    l.f1.halted = false ∧ ∀ who, lookupHalts l.f1 who = false ∧ outstandingHalts l.f1 who = false := by
  have hi := h.f1inv
  refine ⟨hi.ok, fun who => ?_⟩
  cases hw : l.f1.dels.get? who with
  | none => simp [lookupHalts, outstandingHalts, Map.has, hw]
  | some x =>
    obtain ⟨d, hd⟩ := hi.data_of_del hw
    have hD := hi.dsome d hd
    have h1 := hD.noBad hw
    have h2 := hD.lat who x hw
    simp [lookupHalts, outstandingHalts, Map.has, hw, hd, h1, h2]

/-! ## C02 -/

/-- **C02.** The total delegation of the staker is at least the sum of what its delegators currently
own, the counter is the number of delegators, no subtraction ever underflowed, and removing any delegator
would not underflow either. -/
theorem C02_total {l : Ledger} (h : Ledger.Reachable l) :
    l.f1.dels.sum (fun w _ => curDel l.f1 w) ≤ l.f1.d.total ∧
      (∀ who, curDel l.f1 who ≤ l.f1.d.total) ∧
      l.f1.d.count = l.f1.dels.size ∧ l.f1.wrapped = false := by
  obtain ⟨hr, hd⟩ := h.rinv
  refine ⟨?_, ?_, ?_, hr.nowrap⟩
  · simp only [curDel_eq]; exact sum_trunc_le hr.cover hd
  · intro who; rw [curDel_eq]; exact trunc_balance_le hr.cover hd who
  · exact hr.inv.dinv.cnt

/-! ## C05 -/

/-- **C05.** At any time every delegator's current delegation is the whole-token part of the stake of the
eager bookkeeping, in which a slash with fraction `q` immediately takes `stake * q` (truncated at the 18th
decimal) from every delegator and nothing else changes a stake except the delegator's own messages; the
total delegation agrees as well. -/
theorem C05_eager {l : Ledger} (h : Ledger.Reachable l) :
    (∀ who, curDel l.f1 who = l.ideal.stake who / Dec.one) ∧ l.f1.d.total = l.ideal.total := by
  obtain ⟨hr, _⟩ := h.rinv
  refine ⟨fun who => ?_, hr.total.symm⟩
  rw [curDel_eq, hr.stake]; rfl

/-- **C05.** The slash itself, spelled out: it takes the fraction from every delegator at once, removes
exactly `floor(total * q)` from the total, and somebody who has not delegated is not affected by it when
delegating later. -/
theorem C05_slash {l : Ledger} (h : Ledger.Reachable l) {q : Dec} (hq : q ≤ Dec.one)
    (hd : (l.step (.slash q)).dust < Dec.one) :
    (∀ who, curDel (slash l.f1 q).1 who
      = (l.ideal.stake who - l.ideal.stake who * q / Dec.one) / Dec.one) ∧
      (slash l.f1 q).1.d.total = l.f1.d.total - (slash l.f1 q).2 ∧
      (slash l.f1 q).2 = l.f1.d.total * q / Dec.one ∧
      ∀ who n, l.f1.dels.get? who = none → curDel (delegate (slash l.f1 q).1 who n).1 who = n := by
  have h' : Ledger.Reachable (l.step (.slash q)) := .step _ h (by rintro _ ⟨⟩; exact hq) hd
  have h1 := (C05_eager h').1
  have e2 : (slash l.f1 q).2 = l.f1.d.total * q / Dec.one := by
    unfold slash
    cases hdd : l.f1.data with
    | none => simp [F1.d, hdd, Data.fresh]
    | some d => simp [F1.d, hdd, slashedAmount_eq]
  refine ⟨fun who => ?_, ?_, e2, ?_⟩
  · exact h1 who
  · rw [total_slash, e2]
  · intro who n hw
    have hi := h.f1inv.slash hq
    have hw' : (slash l.f1 q).1.dels.get? who = none := by rw [dels_slash]; exact hw
    rw [curDel_eq, delegate_fst, withdraw_absent hw', remove_absent hw', balance_create hi hw', if_pos rfl,
      Dec.trunc_ofNat, Nat.zero_add]

/-! ## C04 -/

/-- **C04.** Whenever a delegator interacts (delegates more, undelegates or withdraws) the code pays, for
every coin, the delegator's exact share of all payouts since the last interaction, up to less than one base
unit for truncation plus a rounding error of at most `(since + 1) * (3 * base + 1) + 1` units of the 18th
decimal, where `base` is the delegator's stake in base units and `since` the number of operations of
anybody on this staker since the last interaction. -/
theorem C04_fair {l : Ledger} (h : Ledger.Reachable l) (op : Op) (w : Addr) (hw : op.who = some w) (dn : Denom) :
    |((f1Reward l.f1 op).amt dn : ℚ) - l.ideal.fair w dn|
      ≤ 1 + (((l.ideal.since w + 1) * (3 * l.ideal.base w + 1) + 1 : Nat) : ℚ) / (Dec.one : ℚ) := by
  obtain ⟨hr, _⟩ := h.rinv
  obtain ⟨slack, sp, hl⟩ := h.linv
  have e : (f1Reward l.f1 op).amt dn = (withdraw l.f1 w).2.amt dn := by
    cases op with
    | delegate w' n => injection hw with hw; subst hw; exact congrArg (·.amt dn) (delegate_snd _ _ _)
    | undelegate w' n => injection hw with hw; subst hw; rfl
    | withdraw w' => injection hw with hw; subst hw; rfl
    | slash q => cases hw
    | payout c => cases hw
  rw [e]
  cases hx : l.f1.dels.get? w with
  | none =>
    rw [withdraw_absent hx, hl.fnon w hx dn]
    have : (0 : ℚ) ≤ (((l.ideal.since w + 1) * (3 * l.ideal.base w + 1) + 1 : Nat) : ℚ) / (Dec.one : ℚ) := by
      apply div_nonneg
      · exact_mod_cast Nat.zero_le _
      · exact le_of_lt oneQ_pos
    rw [show Coins.zero.amt dn = 0 from rfl, Nat.cast_zero, sub_zero, abs_zero]
    linarith
  | some x =>
    obtain ⟨h1, h2⟩ := withdraw_pays hr.inv hl.fair hx dn
    have hs := hl.each w x hx
    have hb := balance_le_base hl hx
    have hg : grow l.f1 slack w ≤ ((l.ideal.since w + 1) * (3 * l.ideal.base w + 1)) * Dec.one := by
      have e1 : (l.ideal.since w + 1) * (3 * l.ideal.base w + 1) * Dec.one
            = l.ideal.since w * (3 * l.ideal.base w + 1) * Dec.one + 3 * (l.ideal.base w * Dec.one) + Dec.one := by
        ring
      have e2 : grow l.f1 slack w ≤ slack w + 3 * balance l.f1 w + Dec.one := by unfold grow; omega
      have e3 : 3 * balance l.f1 w ≤ 3 * (l.ideal.base w * Dec.one) := Nat.mul_le_mul_left _ hb
      rw [e1]
      exact le_trans e2 (Nat.add_le_add_right (Nat.add_le_add hs e3) _)
    have hgq : (grow l.f1 slack w : ℚ)
        ≤ (((l.ideal.since w + 1) * (3 * l.ideal.base w + 1) : Nat) : ℚ) * oneQ := by exact_mod_cast hg
    have hp := oneQ_pos
    have key : ∀ (p f g K o : ℚ), 0 < o → o * o * p ≤ o * o * f + g + o → o * o * f ≤ o * o * (p + 1) + g + o →
        g ≤ K * o → |p - f| ≤ 1 + (K + 1) / o := by
      intro p f g K o ho a b c
      have e1 : o * o * (1 + (K + 1) / o) = o * o + (K + 1) * o := by field_simp
      have ho2 : 0 < o * o := mul_pos ho ho
      rw [abs_le]
      constructor
      · have : o * o * (f - p) ≤ o * o * (1 + (K + 1) / o) := by rw [e1]; nlinarith
        have := le_of_mul_le_mul_left this ho2
        linarith
      · have : o * o * (p - f) ≤ o * o * (1 + (K + 1) / o) := by rw [e1]; nlinarith
        have := le_of_mul_le_mul_left this ho2
        linarith
    have := key _ _ _ _ _ hp h1 h2 hgq
    push_cast at this ⊢
    exact this

/-- The eager shares are never negative. -/
theorem fair_nonneg {l : Ledger} (h : Ledger.Reachable l) : ∀ w dn, 0 ≤ l.ideal.fair w dn := by
  induction h with
  | init => intro w dn; exact le_refl _
  | @step l op _ _ _ ih =>
    intro w dn
    have touch : ∀ w' n, 0 ≤ (l.ideal.touch w' n).fair w dn := by
      intro w' n
      show (0 : ℚ) ≤ if w = w' then 0 else l.ideal.fair w dn
      split
      · exact le_refl _
      · exact ih w dn
    cases op with
    | delegate w' n => exact touch w' (Dec.trunc (l.ideal.stake w') + n)
    | undelegate w' n => exact touch w' (Dec.trunc (l.ideal.stake w') - n)
    | withdraw w' => exact touch w' (Dec.trunc (l.ideal.stake w'))
    | slash q => exact ih w dn
    | payout c =>
      show (0 : ℚ) ≤ l.ideal.fair w dn + (c.amt dn : ℚ) * ((l.ideal.stake w : ℚ) / ((l.ideal.total : ℚ) * (Dec.one : ℚ)))
      have := ih w dn
      have h2 := oneQ_pos
      have h3 : (0 : ℚ) ≤ (c.amt dn : ℚ) * ((l.ideal.stake w : ℚ) / ((l.ideal.total : ℚ) * oneQ)) := by positivity
      linarith

/-! ## C03 -/

/-- **C03.** Everything the delegators of a staker ever withdraw, of any coin, is at most what was ever
paid in for the staker, up to an explicit rounding error: with `ops` operations so far, total delegation at
most `maxTotal`, and `dust` the number of (slash, affected delegator) pairs,
`10^18 * out ≤ (10^18 + dust) * in + 3 * ops * (maxTotal + 1) + ops + dust`. -/
theorem C03_covered {l : Ledger} (h : Ledger.Reachable l) (dn : Denom) :
    Dec.one * l.paidOut dn
      ≤ (Dec.one + l.dust) * l.paidIn dn + (3 * l.ops * (l.maxTotal + 1) + l.ops + l.dust) := by
  obtain ⟨slack, sp, hl⟩ := h.linv
  have hnn := fair_nonneg h
  have h1 := hl.paid dn
  have h2 := hl.fsum dn
  have h3 := hl.tot
  have h4 : (0 : ℚ) ≤ fairSum l.f1 l.ideal.fair dn := by
    unfold fairSum Map.sum
    apply List.sum_nonneg
    intro x hx
    obtain ⟨p, _, rfl⟩ := List.mem_map.1 hx
    exact hnn _ _
  have h5 : sp ≤ budget l.ops l.maxTotal l.dust := by omega
  have h5' : (sp : ℚ) ≤ ((3 * l.ops * (l.maxTotal + 1) + l.ops + l.dust : Nat) : ℚ) * oneQ := by
    unfold budget at h5
    exact_mod_cast h5
  have hp := oneQ_pos
  have key : ∀ (o W f P D B s : ℚ), 0 < o → o * o * W ≤ o * o * f + s → f ≤ P * (1 + D / o) → s ≤ B * o →
      o * W ≤ (o + D) * P + B := by
    intro o W f P D B s ho a b c
    have e1 : o * (P * (1 + D / o)) = (o + D) * P := by field_simp
    have : o * (o * W) ≤ o * ((o + D) * P + B) := by
      have : o * f ≤ (o + D) * P := by rw [← e1]; exact mul_le_mul_of_nonneg_left b (le_of_lt ho)
      nlinarith
    exact le_of_mul_le_mul_left this ho
  have := key oneQ (l.paidOut dn) (l.fairPaid dn) (l.paidIn dn) l.dust _ sp hp h1 (by linarith) h5'
  exact_mod_cast this

/-! ## C06 -/

theorem chop_add_le (x y : Nat) : Dec.chop (x + y) ≤ Dec.chop x + Dec.chop y + 1 ∧
    Dec.chop x + Dec.chop y ≤ Dec.chop (x + y) + 1 := by
  have a1 := Dec.chop_upper x
  have a2 := Dec.chop_lower x
  have b1 := Dec.chop_upper y
  have b2 := Dec.chop_lower y
  have c1 := Dec.chop_upper (x + y)
  have c2 := Dec.chop_lower (x + y)
  generalize Dec.chop x = cx at *
  generalize Dec.chop y = cy at *
  generalize Dec.chop (x + y) = cz at *
  unfold Dec.one at *
  omega

/-- The query's sum against the withdrawal's sum. -/
theorem rewardAmt_succ (e e' : Map Nat DecCoins) (dn : Denom) (Q : Nat) (l : List (Nat × Dec)) (p m : Nat) (b : Dec)
    (hp : entryVal e' p = entryVal e p) (hl : ∀ y ∈ l, entryVal e' y.1 = entryVal e y.1)
    (hm : (entryVal e' (m + 1)).amt dn = Q + (entryVal e m).amt dn)
    (hb : anyBad e (segs l p m b) = false) :
    rewardAmt e' dn (segs l p (m + 1) b) ≤ rewardAmt e dn (segs l p m b) + Dec.mul Q (slashBal l b) + 1 ∧
    rewardAmt e dn (segs l p m b) + Dec.mul Q (slashBal l b) ≤ rewardAmt e' dn (segs l p (m + 1) b) + 1 ∧
    (∀ n, slashBal l b = Dec.ofNat n →
      rewardAmt e' dn (segs l p (m + 1) b) = rewardAmt e dn (segs l p m b) + Dec.mul Q (slashBal l b)) := by
  induction l generalizing p b with
  | nil =>
    simp only [segs, anyBad, List.any_cons, List.any_nil, Bool.or_false] at hb
    unfold diffBad at hb
    simp only [Bool.or_eq_false_iff, Bool.not_eq_false'] at hb
    have hle := Coins.le_iff.1 hb.2 dn
    simp only [segs, rewardAmt, Nat.add_zero, hp, hm]
    have e1 : slashBal [] b = b := rfl
    rw [e1]
    obtain ⟨k, hk⟩ := Nat.exists_eq_add_of_le hle
    have e2 : Q + (entryVal e m).amt dn - (entryVal e p).amt dn = k + Q := by omega
    have e3 : (entryVal e m).amt dn - (entryVal e p).amt dn = k := by omega
    rw [e2, e3]
    unfold Dec.mul
    have := chop_add_le (k * b) (Q * b)
    rw [Nat.add_mul]
    refine ⟨this.1, this.2, ?_⟩
    intro n hn
    subst hn
    have h1 := Dec.mul_ofNat (k + Q) n
    have h2 := Dec.mul_ofNat k n
    have h3 := Dec.mul_ofNat Q n
    unfold Dec.mul at h1 h2 h3
    rw [Nat.add_mul] at h1
    rw [h1, h2, h3]; ring
  | cons y t ih =>
    obtain ⟨k, q⟩ := y
    simp only [segs, anyBad, List.any_cons, Bool.or_eq_false_iff] at hb
    have hk := hl (k, q) (by simp)
    simp only at hk
    obtain ⟨i1, i2, i3⟩ := ih k (slashOne b q) hk (fun y hy => hl y (List.mem_cons_of_mem _ hy)) hb.2
    have e1 : slashBal ((k, q) :: t) b = slashBal t (slashOne b q) := rfl
    simp only [segs, rewardAmt, hp, hk, e1]
    refine ⟨by omega, by omega, ?_⟩
    intro n hn
    rw [i3 n hn]; omega

theorem trunc_add_one (a b : Nat) (h : a ≤ b + 1) : Dec.trunc a ≤ Dec.trunc b + 1 := by
  unfold Dec.trunc Dec.one; omega

/-- **C06.** In every reachable state and for every address and coin, the outstanding-rewards query and an
immediately following withdrawal differ by at most one base unit, and not at all if the delegator's stake is
a whole number of base units (in particular if it was not slashed since its last interaction). -/
theorem C06_query {l : Ledger} (h : Ledger.Reachable l) (who : Addr) (dn : Denom) :
    (outstanding l.f1 who).amt dn ≤ (withdraw l.f1 who).2.amt dn + 1 ∧
    (withdraw l.f1 who).2.amt dn ≤ (outstanding l.f1 who).amt dn + 1 ∧
    (∀ n, l.ideal.stake who = n * Dec.one → (outstanding l.f1 who).amt dn = (withdraw l.f1 who).2.amt dn) := by
  obtain ⟨hr, _⟩ := h.rinv
  cases hw : l.f1.dels.get? who with
  | none => simp [outstanding, withdraw, hw]
  | some x =>
    obtain ⟨d, hd⟩ := hr.inv.data_of_del hw
    have hD := hr.inv.dsome d hd
    have hb := hD.noBad hw
    have hk := hD.klt who x hw
    have e1 : (outstanding l.f1 who).amt dn = Dec.trunc (rewardAmt l.f1.entries dn (periodsOf l.f1.slashes x d.latest)
        + Dec.mul ((periodQuo d.cur d.total).amt dn) (balUpTo l.f1.slashes x d.latest)) := by
      unfold outstanding
      rw [hw]
      simp only [hd, Option.getD_some]
      rw [amt_truncateDecCoins, Coins.amt_add, amt_rewardOf, amt_safeMulDec]
    have e2 : (withdraw l.f1 who).2.amt dn
        = Dec.trunc (rewardAmt (newEntries l.f1.entries d) dn (periodsOf l.f1.slashes x (d.latest + 1))) := by
      unfold withdraw
      rw [hw]
      simp only [hd, Option.getD_some, withdrawFound]
      rw [amt_truncateDecCoins, amt_rewardOf]
    have hp : entryVal (newEntries l.f1.entries d) x.k = entryVal l.f1.entries x.k := by
      unfold entryVal; rw [tick_get?_of_del hD hw]
    have hs : ∀ y ∈ slashesBetween l.f1.slashes x.k d.latest,
        entryVal (newEntries l.f1.entries d) y.1 = entryVal l.f1.entries y.1 := by
      intro y hy
      have hy' := mem_slashesBetween.1 hy
      unfold entryVal
      rw [newEntries_other _ _ (by omega)]
      intro hu e
      have := (hD.und hu).1
      rw [← e, hy'.1] at this; cases this
    have hm : (entryVal (newEntries l.f1.entries d) (d.latest + 1)).amt dn
        = (periodQuo d.cur d.total).amt dn + (entryVal l.f1.entries d.latest).amt dn := by
      rw [entryVal_of_get? (newEntries_latest _ _), Coins.amt_add]
    have key := rewardAmt_succ l.f1.entries (newEntries l.f1.entries d) dn _
      (slashesBetween l.f1.slashes x.k d.latest) x.k d.latest (Dec.ofNat x.amount) hp hs hm hb
    have e3 : periodsOf l.f1.slashes x (d.latest + 1)
        = segs (slashesBetween l.f1.slashes x.k d.latest) x.k (d.latest + 1) (Dec.ofNat x.amount) := by
      unfold periodsOf; rw [slashesBetween_hi (Nat.le_succ _) hD.slash_le]
    rw [e1, e2, e3]
    obtain ⟨k1, k2, k3⟩ := key
    refine ⟨trunc_add_one _ _ k2, trunc_add_one _ _ k1, ?_⟩
    intro n hn
    rw [hr.stake, balance_some hw hd] at hn
    rw [k3 n hn]
    rfl

/-! ## C10 -/

/-- Histories without slashes in which nothing is paid out to a staker nobody delegates to. -/
inductive Ledger.Lossless : Ledger → Prop
  | init : Lossless Ledger.init
  | step {l : Ledger} (op : Op) :
      Lossless l → (∀ q, op ≠ .slash q) → (∀ c, op = .payout c → l.ideal.total ≠ 0) → Lossless (l.step op)

theorem Ledger.Lossless.dust {l : Ledger} (h : Ledger.Lossless l) : l.dust = 0 := by
  induction h with
  | init => rfl
  | @step l op _ hs _ ih =>
    cases op with
    | slash q => exact absurd rfl (hs q)
    | _ => exact ih

theorem Ledger.Lossless.reachable {l : Ledger} (h : Ledger.Lossless l) : Ledger.Reachable l := by
  induction h with
  | init => exact .init
  | @step l op h1 hs hp ih =>
    refine .step op ih (fun q hq => absurd hq (hs q)) ?_
    rw [(Ledger.Lossless.step op h1 hs hp).dust]
    exact Dec.one_pos

/-- Without slashes every balance is whole and the total is the sum of the balances. -/
theorem Ledger.Lossless.exact {l : Ledger} (h : Ledger.Lossless l) :
    balSum l.f1 = l.f1.d.total * Dec.one ∧ ∀ a, ∃ n, balance l.f1 a = Dec.ofNat n := by
  induction h with
  | init => exact ⟨rfl, fun a => ⟨0, rfl⟩⟩
  | @step l op hl hs hp ih =>
    obtain ⟨h1, h2⟩ := ih
    have hi := hl.reachable.f1inv
    have hcov := C02_total hl.reachable
    have wsum : ∀ w, balSum (withdraw l.f1 w).1 = balSum l.f1 := by
      intro w
      rcases dels_withdraw l.f1 w with ⟨_, e⟩ | ⟨x, y, hw, hy⟩
      · rw [e]
      · unfold balSum
        rw [hy]
        rw [Map.sum_congr _ _ (fun a _ => balance l.f1 a)]
        · exact sum_dels_set _ hw y
        · intro a v _
          rw [balance_withdraw hi]
          split
          · subst_vars
            obtain ⟨n, hn⟩ := h2 a
            rw [hn, Dec.trunc_ofNat]
          · rfl
    have rsum : ∀ w, balSum (remove (withdraw l.f1 w).1 w).1
        = (remove (withdraw l.f1 w).1 w).1.d.total * Dec.one := by
      intro w
      have hi1 := hi.withdraw w
      have e1 := balSum_remove hi1 w
      obtain ⟨n, hn⟩ := h2 w
      have e2 : balance (withdraw l.f1 w).1 w = Dec.ofNat n := by
        rw [balance_withdraw hi, if_pos rfl, hn, Dec.trunc_ofNat]
      have hle := hcov.2.1 w
      rw [curDel_eq, hn, Dec.trunc_ofNat] at hle
      rw [total_remove hi1, e2, Dec.trunc_ofNat, total_withdraw hi, Nat.sub_mul]
      rw [e2, wsum, h1] at e1
      unfold Dec.ofNat at e1
      omega
    have csum : ∀ w n, balSum (createDelegator (remove (withdraw l.f1 w).1 w).1 w n)
        = (createDelegator (remove (withdraw l.f1 w).1 w).1 w n).d.total * Dec.one := by
      intro w n
      rw [balSum_create ((hi.withdraw w).remove w) (remove_get? _ w), rsum, total_create, Nat.add_mul]
      rfl
    have cbal : ∀ w n a, ∃ m, balance (createDelegator (remove (withdraw l.f1 w).1 w).1 w n) a = Dec.ofNat m := by
      intro w n a
      rw [balance_create ((hi.withdraw w).remove w) (remove_get? _ w)]
      split
      · exact ⟨n, rfl⟩
      · rename_i ha
        rw [balance_remove (hi.withdraw w), if_neg ha, balance_withdraw hi, if_neg ha]
        exact h2 a
    cases op with
    | slash q => exact absurd rfl (hs q)
    | delegate w n =>
      show balSum (delegate l.f1 w n).1 = (delegate l.f1 w n).1.d.total * Dec.one
        ∧ ∀ a, ∃ m, balance (delegate l.f1 w n).1 a = Dec.ofNat m
      rw [delegate_fst]
      exact ⟨csum w _, cbal w _⟩
    | undelegate w n =>
      show balSum (undelegate l.f1 w n).1 = (undelegate l.f1 w n).1.d.total * Dec.one
        ∧ ∀ a, ∃ m, balance (undelegate l.f1 w n).1 a = Dec.ofNat m
      unfold undelegate undelegateRest
      simp only
      split
      · exact ⟨csum w _, cbal w _⟩
      · refine ⟨rsum w, fun a => ?_⟩
        rw [balance_remove (hi.withdraw w)]
        split
        · exact ⟨0, by simp [Dec.ofNat]⟩
        · rename_i ha
          rw [balance_withdraw hi, if_neg ha]
          exact h2 a
    | withdraw w =>
      show balSum (withdraw l.f1 w).1 = (withdraw l.f1 w).1.d.total * Dec.one
        ∧ ∀ a, ∃ m, balance (withdraw l.f1 w).1 a = Dec.ofNat m
      refine ⟨by rw [wsum, h1, total_withdraw hi], fun a => ?_⟩
      rw [balance_withdraw hi]
      split
      · exact ⟨_, rfl⟩
      · exact h2 a
    | payout c =>
      show balSum (payout l.f1 c) = (payout l.f1 c).d.total * Dec.one
        ∧ ∀ a, ∃ m, balance (payout l.f1 c) a = Dec.ofNat m
      refine ⟨by rw [balSum_payout, h1, total_payout], fun a => ?_⟩
      rw [balance_payout]; exact h2 a

theorem fairSum_touch {l : Ledger} {slack : Addr → Nat} {sp : Nat} (hl : LInv l slack sp) {s' : F1} {w : Addr}
    (ho : ∀ a, a ≠ w → s'.dels.get? a = l.f1.dels.get? a) (dn : Denom) :
    l.ideal.fair w dn + fairSum s' (fun a dn => if a = w then 0 else l.ideal.fair a dn) dn
      = fairSum l.f1 l.ideal.fair dn := by
  unfold fairSum
  rw [sum_off]
  have e : s'.dels.del w = l.f1.dels.del w := by
    ext1 a
    rw [Map.get?_del, Map.get?_del]
    split
    · rfl
    · exact ho a (by assumption)
  rw [e]
  have h2 := l.f1.dels.sum_del (fun a _ => l.ideal.fair a dn) w
  unfold Map.at' at h2
  cases hw : l.f1.dels.get? w with
  | none => rw [hw] at h2; rw [hl.fnon w hw dn]; simp at h2; linarith
  | some x => rw [hw] at h2; simp at h2; linarith

/-- **C10, partial.** As long as nobody is slashed and payouts happen only while somebody delegates, every
reward that was ever paid in is, to the last unit, either already settled or in the share of a current
delegator (which C04 says is what that delegator gets when withdrawing, up to rounding).  Missing: histories
with slashes, where the code loses rewards (see `C10_false`). -/
theorem C10_partial {l : Ledger} (h : Ledger.Lossless l) (dn : Denom) :
    l.fairPaid dn + l.f1.dels.sum (fun a _ => l.ideal.fair a dn) = (l.paidIn dn : ℚ) := by
  induction h with
  | init => simp [Ledger.init, F1.init]
  | @step l op hl hs hp ih =>
    obtain ⟨hr, _⟩ := hl.reachable.rinv
    obtain ⟨slack, sp, hL⟩ := hl.reachable.linv
    change l.fairPaid dn + fairSum l.f1 l.ideal.fair dn = _ at ih
    change l.fairPaid dn + l.ideal.settled op dn + fairSum (f1Step l.f1 op) (l.ideal.step op).fair dn
      = ((l.paidIn dn + l.ideal.paysIn op dn : Nat) : ℚ)
    cases op with
    | slash q => exact absurd rfl (hs q)
    | delegate w n =>
      obtain ⟨slack', ht, _⟩ := touch_delegate hr.inv hL.fair w n
      have h1 := fairSum_touch hL ht.others dn
      show l.fairPaid dn + l.ideal.fair w dn
        + fairSum (delegate l.f1 w n).1 (fun a dn => if a = w then 0 else l.ideal.fair a dn) dn = (l.paidIn dn : ℚ)
      linarith
    | undelegate w n =>
      obtain ⟨slack', ht, _⟩ := touch_undelegate hr.inv hL.fair w n
      have h1 := fairSum_touch hL ht.others dn
      show l.fairPaid dn + l.ideal.fair w dn
        + fairSum (undelegate l.f1 w n).1 (fun a dn => if a = w then 0 else l.ideal.fair a dn) dn = (l.paidIn dn : ℚ)
      linarith
    | withdraw w =>
      obtain ⟨slack', ht, _⟩ := touch_withdraw hr.inv hL.fair w
      have h1 := fairSum_touch hL ht.others dn
      show l.fairPaid dn + l.ideal.fair w dn
        + fairSum (withdraw l.f1 w).1 (fun a dn => if a = w then 0 else l.ideal.fair a dn) dn = (l.paidIn dn : ℚ)
      linarith
    | payout c =>
      have hT := hp c rfl
      have hdels : (payout l.f1 c).dels = l.f1.dels := by unfold payout; cases l.f1.data <;> rfl
      have hact : l.ideal.active = true := by
        cases hh : l.f1.data with
        | none =>
          exfalso; apply hT
          rw [hr.total]; unfold F1.d; rw [hh]; rfl
        | some d => rw [hr.active, hh]; rfl
      show l.fairPaid dn + 0 + fairSum (payout l.f1 c)
          (fun a dn => l.ideal.fair a dn + (c.amt dn : ℚ) * ((l.ideal.stake a : ℚ) / ((l.ideal.total : ℚ) * oneQ))) dn
        = ((l.paidIn dn + (if l.ideal.active then c.amt dn else 0) : Nat) : ℚ)
      rw [fairSum_add l.f1 _ hdels l.ideal.fair l.ideal.stake (fun dn => (c.amt dn : ℚ))]
      have hsum : l.f1.dels.sum (fun a _ => l.ideal.stake a) = l.ideal.total * Dec.one := by
        rw [hr.total, ← hl.exact.1]
        unfold balSum
        exact Map.sum_congr _ _ _ (fun a _ _ => hr.stake a)
      rw [hsum, hact, if_pos rfl]
      have htq : (l.ideal.total : ℚ) ≠ 0 := by exact_mod_cast hT
      have hp := oneQ_pos
      have e : (c.amt dn : ℚ) * ((l.ideal.total * Dec.one : Nat) : ℚ) / ((l.ideal.total : ℚ) * oneQ) = (c.amt dn : ℚ) := by
        push_cast
        field_simp
      rw [e]
      push_cast
      linarith

/-! ## Falsified strict versions -/

/-- Run a history. -/
def Ledger.run (l : Ledger) : List Op → Ledger
  | [] => l
  | op :: t => (l.step op).run t

/-- half, as a raw decimal -/
def half : Dec := 500000000000000000

/-- the side conditions of `Ledger.Reachable` along a history, as a computation -/
def Ledger.okRun (l : Ledger) : List Op → Bool
  | [] => true
  | op :: t =>
    (match op with | .slash q => decide (q ≤ Dec.one) | _ => true)
      && decide ((l.step op).dust < Dec.one) && (l.step op).okRun t

theorem Ledger.run_reachable {l : Ledger} (h : Ledger.Reachable l) (ops : List Op) (ho : l.okRun ops = true) :
    Ledger.Reachable (l.run ops) := by
  induction ops generalizing l with
  | nil => exact h
  | cons op t ih =>
    simp only [Ledger.okRun, Bool.and_eq_true, decide_eq_true_eq] at ho
    refine ih (.step op h ?_ ho.1.2) ho.2
    rintro q rfl
    simpa using ho.1.1

/-- Alice (1) delegates 3, Bob (2) delegates 4, the staker is paid 100 of coin 0 and 7 of coin 5, is slashed
by one half, Bob withdraws, Alice delegates 2 more, 50 are paid, Bob takes 1 out. -/
def exampleOps : List Op :=
  [.delegate 1 3, .delegate 2 4, .payout ((Coins.single 0 100).add (Coins.single 5 7)), .slash half, .withdraw 2,
   .delegate 1 2, .payout (Coins.single 0 50), .undelegate 2 1]

def exampleLedger : Ledger := Ledger.init.run exampleOps

/-- The example meets the hypotheses of all theorems above. -/
theorem exampleLedger_reachable : Ledger.Reachable exampleLedger :=
  Ledger.run_reachable .init _ (by decide +kernel)

/-- ... and it is not trivial: both still delegate, the code paid 57 + 42 + 16 of coin 0 so far, Alice could
withdraw another 24. -/
example : curDel exampleLedger.f1 1 = 3 ∧ curDel exampleLedger.f1 2 = 1 ∧ exampleLedger.f1.d.total = 5
    ∧ exampleLedger.paidIn 0 = 150 ∧ exampleLedger.paidOut 0 = 115
    ∧ (outstanding exampleLedger.f1 1).amt 0 = 24 := by
  decide +kernel

/-- The strict version of C03 is false of the code: somebody delegates `4 * 10^18`, 3 are paid, and the
delegator withdraws 4 (the quotient `3 / (4*10^18)` is rounded up to one unit of the 18th decimal). -/
theorem C03_false : ∃ l, Ledger.Reachable l ∧ l.paidIn 0 < l.paidOut 0 := by
  refine ⟨Ledger.init.run [.delegate 1 (4 * Dec.one), .payout (Coins.single 0 3), .withdraw 1],
    Ledger.run_reachable .init _ (by decide +kernel), ?_⟩
  decide +kernel

theorem amt_zero_mapAmt (f : Nat → Nat) (dn : Denom) : (Coins.zero.mapAmt f).amt dn = 0 := rfl

/-- Somebody who joins starts with nothing, and whatever the current period held is gone. -/
theorem outstanding_new {s : F1} (h : F1Inv s) {who : Addr} (hw : s.dels.get? who = none) {n : Nat} (hn : 0 < n)
    (dn : Denom) :
    (delegate s who n).1.d.cur.amt dn = 0 ∧ (delegate s who n).2.amt dn = 0
      ∧ (outstanding (delegate s who n).1 who).amt dn = 0 := by
  have e : delegate s who n = (createDelegator s who n, Coins.zero) := by
    unfold delegate; simp [Map.has, hw]
  have hd : (createDelegator s who n).data = some { newData (s.data.getD Data.fresh) with
        total := (s.data.getD Data.fresh).total + n
        count := (s.data.getD Data.fresh).count + 1 } := by
    unfold createDelegator; rw [if_neg (by omega)]
  have hx : (createDelegator s who n).dels.get? who = some ⟨n, (s.data.getD Data.fresh).latest + 1⟩ := by
    unfold createDelegator; rw [if_neg (by omega)]; simp
  have hs : (createDelegator s who n).slashes = s.slashes := by
    unfold createDelegator; rw [if_neg (by omega)]
  rw [e]
  refine ⟨?_, rfl, ?_⟩
  · simp only [F1.d, hd, Option.getD_some]; rfl
  · have hlt : ∀ j q, (createDelegator s who n).slashes.get? j = some q → j < (s.data.getD Data.fresh).latest + 1 := by
      intro j q hj
      rw [hs] at hj
      cases hdd : s.data with
      | none => have := (h.dnone hdd); simp_all
      | some d =>
        have := (h.dsome d hdd).slash_le j q hj
        simp only [Option.getD_some]; omega
    unfold outstanding
    simp only [hx, hd, Option.getD_some]
    rw [amt_truncateDecCoins, Coins.amt_add, amt_rewardOf, amt_safeMulDec]
    unfold periodsOf
    rw [slashesBetween_empty hlt]
    have hq : ∀ t, (periodQuo Coins.zero t).amt dn = 0 := by
      intro t
      unfold periodQuo
      split
      · rfl
      · exact amt_zero_mapAmt _ dn
    have hq' : ∀ t, (periodQuo (newData (s.data.getD Data.fresh)).cur t).amt dn = 0 := hq
    simp only [segs, rewardAmt, newData, Nat.sub_self, hq]
    simp [Dec.mul, Dec.chop_zero, Dec.trunc]

/-- The strict version of C10 is false of the code: after a slash the total delegation of a staker can stay
positive although its last delegator left; a payout is then accepted, and nobody - neither a current
delegator nor anybody who joins later - can ever withdraw it. -/
theorem C10_false : ∃ l, Ledger.Reachable l ∧ l.paidIn 0 = 7 ∧ l.paidOut 0 = 0 ∧ l.f1.dels.size = 0
    ∧ l.f1.d.total = 1 ∧ l.f1.d.cur.amt 0 = 7
    ∧ (∀ who n, 0 < n → (delegate l.f1 who n).1.d.cur.amt 0 = 0 ∧ (delegate l.f1 who n).2.amt 0 = 0
        ∧ (outstanding (delegate l.f1 who n).1 who).amt 0 = 0) := by
  refine ⟨Ledger.init.run [.delegate 1 3, .slash half, .undelegate 1 1, .payout (Coins.single 0 7)],
    Ledger.run_reachable .init _ (by decide +kernel), by decide +kernel, by decide +kernel, by decide +kernel,
    by decide +kernel, by decide +kernel, ?_⟩
  intro who n hn
  have hr : Ledger.Reachable (Ledger.init.run [.delegate 1 3, .slash half, .undelegate 1 1, .payout (Coins.single 0 7)]) :=
    Ledger.run_reachable .init _ (by decide +kernel)
  refine outstanding_new hr.f1inv ?_ hn 0
  have hz : (Ledger.init.run [.delegate 1 3, .slash half, .undelegate 1 1, .payout (Coins.single 0 7)]).f1.dels.size = 0 := by
    decide +kernel
  rw [Map.eq_empty_of_size _ hz]; rfl

end Verif.Delegation
