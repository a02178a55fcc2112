import Verif.Global.Model

/-!
# Properties of x/global (C46 - C49, C52 for global parameters)
-/

namespace Verif.Global
open Verif

namespace Spec

/-- the extra gas configured for a message: the first entry of its type, otherwise nothing -/
def extraGas (p : Params) (m : MsgType) : Nat := ((p.gasAdjustments.find? (fun a => a.1 == m)).map (·.2)).getD 0

/-- the refund fraction (raw decimal) configured for a message: the first entry of its type, otherwise zero -/
def refundShare (p : Params) (m : MsgType) : Nat := ((p.gasRefunds.find? (fun a => a.1 == m)).map (·.2)).getD 0

/-- what a transaction gets back of a fee of `n`: only single-message transactions -/
def refund (p : Params) (tx : Tx) (n : Nat) : Nat :=
  match tx.msgs with
  | [m] => n * refundShare p m / 10 ^ 18
  | _ => 0

/-- who pays the fee -/
def payerOf (tx : Tx) : Addr := tx.granter.getD tx.payer

/-- remaining allowance -/
def allowance (w : World) (granter grantee : Addr) (d : Denom) : Nat :=
  ((w.grants.get? (granter, grantee)).getD Coins.zero).amt d

end Spec
open Spec

/-! ## lemmas -/

theorem ceil_le_iff (x n : Nat) : Dec.ceil x ≤ n ↔ x ≤ n * 10 ^ 18 := by
  unfold Dec.ceil Dec.one
  have hd := Nat.div_add_mod x 1000000000000000000
  have hm := Nat.mod_lt x (show 0 < 1000000000000000000 by decide)
  by_cases h : x % 1000000000000000000 = 0
  · rw [if_pos h]; omega
  · rw [if_neg h]; omega

theorem feesFor_amt (prices : DecCoins) (gas : Nat) (d : Denom) :
    (feesFor prices gas).amt d = Dec.ceil (prices.amt d * gas) := by
  unfold feesFor
  rw [Coins.amt_ofFn]
  split
  · rw [Dec.mul_ofNat]
  · rename_i h
    simp only [Coins.mem_denoms, ne_eq, not_not] at h
    rw [h, Nat.zero_mul]; rfl

theorem coinsMax_amt (a b : Coins) (d : Denom) : (coinsMax a b).amt d = Nat.max (a.amt d) (b.amt d) := by
  unfold coinsMax
  rw [Coins.amt_ofFn]
  split
  · rfl
  · rename_i h
    simp only [List.mem_append, not_or, Coins.mem_denoms, ne_eq, not_not] at h
    rw [h.1, h.2]; rfl

theorem isAnyGTE_iff (a b : Coins) : isAnyGTE a b = true ↔ ∃ d, b.amt d ≠ 0 ∧ b.amt d ≤ a.amt d := by
  unfold isAnyGTE
  rw [List.any_eq_true]
  constructor
  · rintro ⟨d, _, h⟩
    simp only [Bool.and_eq_true, decide_eq_true_eq] at h
    exact ⟨d, h⟩
  · rintro ⟨d, h1, h2⟩
    refine ⟨d, Coins.mem_denoms.2 (by omega), by simp [h1, h2]⟩

theorem adjustmentOf_eq (p : Params) (m : MsgType) : adjustmentOf m p.gasAdjustments = extraGas p m := by
  unfold extraGas
  induction p.gasAdjustments with
  | nil => rfl
  | cons a t ih =>
    unfold adjustmentOf
    by_cases h : m = a.1
    · simp [h]
    · have : ¬ a.1 = m := fun e => h e.symm
      rw [if_neg h, ih]; simp [this]

theorem refundFraction_eq (p : Params) (m : MsgType) : refundFraction m p.gasRefunds = refundShare p m := by
  unfold refundShare
  induction p.gasRefunds with
  | nil => rfl
  | cons a t ih =>
    unfold refundFraction
    by_cases h : m = a.1
    · simp [h]
    · have : ¬ a.1 = m := fun e => h e.symm
      rw [if_neg h, ih]; simp [this]

theorem share_amt (n q : Nat) : Dec.trunc (Dec.mul (Dec.ofNat n) q) = n * q / 10 ^ 18 := by
  rw [Dec.ofNat_mul]; rfl

theorem refundOf_amt (fee : Coins) (q d : Nat) : (refundOf fee q).amt d = fee.amt d * q / 10 ^ 18 := by
  unfold refundOf
  rw [Coins.amt_mapAmt _ _ (by rw [share_amt]; simp), share_amt]

theorem burnAmount_amt (fees : Coins) (q d : Nat) : (burnAmount fees q).amt d = fees.amt d * q / 10 ^ 18 := by
  unfold burnAmount
  rw [Coins.amt_mapAmt _ _ (by rw [share_amt]; simp), share_amt]

theorem share_le {n q : Nat} (h : q ≤ 10 ^ 18) : n * q / 10 ^ 18 ≤ n := by
  apply Nat.div_le_of_le_mul
  rw [Nat.mul_comm]; exact Nat.mul_le_mul_right _ h

theorem useGrant_ok {g g' : Map (Addr × Addr) Coins} {a b : Addr} {fee : Coins}
    (h : useGrant g a b fee = .ok g') :
    (∀ d, fee.amt d ≤ ((g.get? (a, b)).getD Coins.zero).amt d) ∧
    (∀ d, ((g'.get? (a, b)).getD Coins.zero).amt d = ((g.get? (a, b)).getD Coins.zero).amt d - fee.amt d) ∧
    ∀ k, k ≠ (a, b) → g'.get? k = g.get? k := by
  unfold useGrant at h
  split at h
  · cases h
  · rename_i limit hl
    split at h
    · rename_i hle
      rw [Coins.le_iff] at hle
      rw [hl]
      split at h
      · rename_i hz
        cases h
        refine ⟨hle, fun d => ?_, fun k hk => Map.get?_del_ne _ hk⟩
        have := Coins.isZero_iff.1 hz d
        simp at this
        simp; omega
      · cases h
        exact ⟨hle, fun d => by simp, fun k hk => Map.get?_set_ne _ _ hk⟩
    · cases h

theorem feeAccount_ok {w : World} {tx : Tx} {aw : Addr × World} (h : feeAccount w tx = .ok aw) :
    aw.1 = payerOf tx ∧ aw.2.bank = w.bank ∧ aw.2.params = w.params ∧ aw.2.supply = w.supply ∧
    aw.2.halted = w.halted ∧ aw.2.height = w.height ∧ aw.2.bond = w.bond ∧
    (∀ g, tx.granter = some g → g ≠ tx.payer →
      (∀ d, tx.fee.amt d ≤ allowance w g tx.payer d) ∧
      ∀ d, allowance aw.2 g tx.payer d = allowance w g tx.payer d - tx.fee.amt d) ∧
    (∀ k, (∀ g, tx.granter = some g → g ≠ tx.payer → k ≠ (g, tx.payer)) → aw.2.grants.get? k = w.grants.get? k) := by
  unfold feeAccount at h
  split at h
  · rename_i hg
    cases h
    refine ⟨by simp [payerOf, hg], rfl, rfl, rfl, rfl, rfl, rfl, by simp [hg], fun _ _ => rfl⟩
  · rename_i g hg
    split at h
    · rename_i e
      cases h
      refine ⟨by simp [payerOf, hg, e], rfl, rfl, rfl, rfl, rfl, rfl, ?_, fun _ _ => rfl⟩
      intro g' h1 h2
      rw [hg] at h1; cases h1; exact absurd e h2
    · rename_i hne
      split at h
      · cases h
      · rename_i gs hgs
        cases h
        obtain ⟨h1, h2, h3⟩ := useGrant_ok hgs
        refine ⟨by simp [payerOf, hg], rfl, rfl, rfl, rfl, rfl, rfl, ?_, ?_⟩
        · intro g' e _
          rw [hg] at e; cases e
          exact ⟨h1, h2⟩
        · intro k hk
          exact h3 k (hk g hg hne)

/-! ## C46 the consensus minimum fee -/

/-- C46: in FinalizeBlock the fee check accepts a transaction exactly if its bond-coin fee is at least
`minGasPrice * gasLimit` (the price is a decimal with 18 digits, so the raw price is scaled by 10^18). -/
theorem C46_min_fee (p : Params) (bond : Denom) (tx : Tx) (hg : 0 < tx.gas) :
    checkFee p bond none tx = .ok tx.fee ↔ p.minGasPrice * tx.gas ≤ tx.fee.amt bond * 10 ^ 18 := by
  have hreq : ∀ d, (requiredFees p.minGasPrice bond tx.gas none).amt d
      = if d = bond then Dec.ceil (p.minGasPrice * tx.gas) else 0 := by
    intro d
    unfold requiredFees
    simp only
    rw [feesFor_amt, Coins.amt_single]
    split
    · rfl
    · rw [Nat.zero_mul]; rfl
  unfold checkFee
  simp only
  have hg' : (decide (tx.gas = 0) && !tx.fee.isZero) = false := by
    rw [decide_eq_false (by omega)]; rfl
  rw [hg', ← ceil_le_iff]
  by_cases hz : (requiredFees p.minGasPrice bond tx.gas none).isZero = true
  · have := Coins.isZero_iff.1 hz bond
    rw [hreq, if_pos rfl] at this
    simp [hz, this]
  · have hz' : (requiredFees p.minGasPrice bond tx.gas none).isZero = false := by simpa using hz
    obtain ⟨d, hd⟩ := Coins.isZero_false_iff.1 hz'
    rw [hreq] at hd
    have hne : Dec.ceil (p.minGasPrice * tx.gas) ≠ 0 := by
      split at hd
      · exact hd
      · exact absurd rfl hd
    have hany : isAnyGTE tx.fee (requiredFees p.minGasPrice bond tx.gas none) = true ↔
        Dec.ceil (p.minGasPrice * tx.gas) ≤ tx.fee.amt bond := by
      rw [isAnyGTE_iff]
      constructor
      · rintro ⟨e, h1, h2⟩
        rw [hreq] at h1 h2
        split at h1
        · rename_i he; subst he; rwa [if_pos rfl] at h2
        · exact absurd rfl h1
      · intro h
        exact ⟨bond, by rw [hreq, if_pos rfl]; exact hne, by rw [hreq, if_pos rfl]; exact h⟩
    rw [hz']
    by_cases ha : isAnyGTE tx.fee (requiredFees p.minGasPrice bond tx.gas none) = true
    · simp [ha, hany.1 ha]
    · have ha' : isAnyGTE tx.fee (requiredFees p.minGasPrice bond tx.gas none) = false := by simpa using ha
      rw [ha']
      simp
      have := mt hany.2 ha
      omega

example : checkFee ⟨20000000000000000, 0, [], []⟩ kyve none ⟨[1], Coins.single kyve 4001, 200001, 7, none⟩
      = .ok (Coins.single kyve 4001) ∧
    checkFee ⟨20000000000000000, 0, [], []⟩ kyve none ⟨[1], Coins.single kyve 4000, 200001, 7, none⟩
      ≠ .ok (Coins.single kyve 4000) := by
  constructor
  · exact (C46_min_fee _ _ ⟨[1], Coins.single kyve 4001, 200001, 7, none⟩ (by decide)).2 (by decide)
  · intro h
    exact absurd ((C46_min_fee _ _ ⟨[1], Coins.single kyve 4000, 200001, 7, none⟩ (by decide)).1 h) (by decide)

/-- C46: from height 2 on a transaction's fee is only taken if the minimum is met, and then exactly the fee moves from
the payer (or fee granter) to the fee collector. -/
theorem C46_deduct (w w' : World) (tx : Tx) (hh : 1 < w.height) (h : deductFee w tx none = .ok w') :
    w.params.minGasPrice * tx.gas ≤ tx.fee.amt w.bond * 10 ^ 18 ∧
    (∀ d, (w.bank (.user (payerOf tx))).amt d = (w'.bank (.user (payerOf tx))).amt d + tx.fee.amt d) ∧
    (∀ d, (w'.bank (.mod .feeCollector)).amt d = (w.bank (.mod .feeCollector)).amt d + tx.fee.amt d) ∧
    ∀ a, a ≠ .user (payerOf tx) → a ≠ .mod .feeCollector → w'.bank a = w.bank a := by
  have hg : 0 < tx.gas := by
    rcases Nat.eq_zero_or_pos tx.gas with hz | hp
    · unfold deductFee at h; rw [if_pos hz] at h; cases h
    · exact hp
  unfold deductFee at h
  rw [if_neg hg.ne', if_pos hh] at h
  split at h
  · cases h
  · rename_i fee hfee
    have hf : fee = tx.fee := by
      unfold checkFee at hfee
      simp only at hfee
      split at hfee
      · cases hfee
      · split at hfee <;> cases hfee
        rfl
    subst hf
    split at h
    · cases h
    · rename_i aw haw
      obtain ⟨e1, e2, -⟩ := feeAccount_ok haw
      split at h
      · cases h
      · rename_i b hb
        cases h
        rw [e1, e2] at hb
        obtain ⟨s1, s2⟩ := Bank.send_ok hb
        refine ⟨(C46_min_fee _ _ tx hg).1 hfee, ?_, ?_, ?_⟩
        · intro d
          have := s1 d
          have := s2 (.user (payerOf tx)) d
          simp at this
          simp only; omega
        · intro d
          have := s2 (.mod .feeCollector) d
          simpa using this
        · intro a h1 h2
          ext d
          have := s2 a d
          simp [h1, h2] at this
          exact this

/-- the hypotheses are met, see `exTxWorld` below -/
def exTxWorld : World :=
  { bank := fun a => if a = .user 7 ∨ a = .user 9 then Coins.single kyve 100000 else Coins.zero
    supply := Coins.single kyve 200000
    grants := (∅ : Map (Addr × Addr) Coins).set (9, 7) (Coins.single kyve 10000)
    params := ⟨20000000000000000, 500000000000000000, [(1, 5)], [(1, 500000000000000000)]⟩
    bond := kyve, height := 2, halted := false }

def exTx : Tx := ⟨[1], Coins.single kyve 4001, 200001, 7, some 9⟩

example : ∃ w', deductFee exTxWorld exTx none = .ok w' :=
  ⟨(match deductFee exTxWorld exTx none with | .ok w' => w' | .error _ => exTxWorld), by rfl⟩

/-- C46, observation: in CheckTx with additional node-specific prices one sufficient coin is enough, so the mempool
check alone does not guarantee the consensus minimum (FinalizeBlock does, `C46_min_fee`). -/
theorem C46_checktx_is_weaker :
    ∃ (p : Params) (prices : DecCoins) (tx : Tx), 0 < tx.gas ∧
      checkFee p kyve (some prices) tx = .ok tx.fee ∧ tx.fee.amt kyve * 10 ^ 18 < p.minGasPrice * tx.gas := by
  refine ⟨⟨10 ^ 18, 0, [], []⟩, Coins.single 5 1, ⟨[], Coins.single 5 1, 1, 7, none⟩, by decide, by rfl, by decide⟩

/-- the gas price a node asks for in CheckTx: the larger of the consensus minimum and its own minimum -/
def nodePrice (p : Params) (bond : Denom) (prices : DecCoins) (d : Denom) : Nat :=
  max (if d = bond then p.minGasPrice else 0) (prices.amt d)

/-- C46, CheckTx: the exact criterion.  A transaction enters the mempool of a node exactly if the node asks for nothing
or some coin of the fee pays the node's price of that coin for the whole gas limit. -/
theorem C46_checktx (p : Params) (bond : Denom) (prices : DecCoins) (tx : Tx) (hg : 0 < tx.gas) :
    checkFee p bond (some prices) tx = .ok tx.fee ↔
      (∀ d, nodePrice p bond prices d = 0) ∨
      ∃ d, nodePrice p bond prices d ≠ 0 ∧ nodePrice p bond prices d * tx.gas ≤ tx.fee.amt d * 10 ^ 18 := by
  have hreq : ∀ d, (requiredFees p.minGasPrice bond tx.gas (some prices)).amt d
      = Dec.ceil (nodePrice p bond prices d * tx.gas) := by
    intro d
    unfold requiredFees
    simp only
    rw [coinsMax_amt, feesFor_amt, feesFor_amt, Coins.amt_single]
    unfold nodePrice
    have hmono : ∀ x y : Nat, x ≤ y → Dec.ceil x ≤ Dec.ceil y := by
      intro x y h
      rw [ceil_le_iff]
      have := (ceil_le_iff y (Dec.ceil y)).1 (Nat.le_refl _)
      omega
    generalize (if d = bond then p.minGasPrice else 0) = a
    rcases Nat.le_total a (prices.amt d) with h | h
    · rw [Nat.max_eq_right h]
      exact Nat.max_eq_right (hmono _ _ (Nat.mul_le_mul_right _ h))
    · rw [Nat.max_eq_left h]
      exact Nat.max_eq_left (hmono _ _ (Nat.mul_le_mul_right _ h))
  have hz0 : ∀ d, (requiredFees p.minGasPrice bond tx.gas (some prices)).amt d = 0 ↔ nodePrice p bond prices d = 0 := by
    intro d
    rw [hreq, ← Nat.le_zero, ceil_le_iff]
    constructor
    · intro h
      have h : nodePrice p bond prices d * tx.gas = 0 := by omega
      rcases Nat.mul_eq_zero.1 h with h | h
      · exact h
      · omega
    · intro h; rw [h]; omega
  have hcf : checkFee p bond (some prices) tx = .ok tx.fee ↔
      ((requiredFees p.minGasPrice bond tx.gas (some prices)).isZero = true ∨
        isAnyGTE tx.fee (requiredFees p.minGasPrice bond tx.gas (some prices)) = true) := by
    unfold checkFee
    simp only
    have hg' : (decide (tx.gas = 0) && !tx.fee.isZero) = false := by
      rw [decide_eq_false (by omega)]; rfl
    rw [hg']
    generalize (requiredFees p.minGasPrice bond tx.gas (some prices)).isZero = a
    generalize isAnyGTE tx.fee (requiredFees p.minGasPrice bond tx.gas (some prices)) = b
    cases a <;> cases b <;> simp
  rw [hcf, Coins.isZero_iff, isAnyGTE_iff]
  constructor
  · rintro (h | ⟨d, h1, h2⟩)
    · exact Or.inl fun d => (hz0 d).1 (h d)
    · refine Or.inr ⟨d, fun h => h1 ((hz0 d).2 h), ?_⟩
      rw [hreq, ceil_le_iff] at h2; exact h2
  · rintro (h | ⟨d, h1, h2⟩)
    · exact Or.inl fun d => (hz0 d).2 (h d)
    · refine Or.inr ⟨d, fun h => h1 ((hz0 d).1 h), ?_⟩
      rw [hreq, ceil_le_iff]; exact h2

/-- C46: a node that only sets prices in the bond coin never lets a transaction into its mempool that pays less than
the consensus minimum or less than its own price. -/
theorem C46_checktx_bond_only (p : Params) (bond : Denom) (prices : DecCoins) (tx : Tx) (hg : 0 < tx.gas)
    (hp : ∀ d, d ≠ bond → prices.amt d = 0) (h : checkFee p bond (some prices) tx = .ok tx.fee) :
    p.minGasPrice * tx.gas ≤ tx.fee.amt bond * 10 ^ 18 ∧ prices.amt bond * tx.gas ≤ tx.fee.amt bond * 10 ^ 18 := by
  have hb : nodePrice p bond prices bond = max p.minGasPrice (prices.amt bond) := by simp [nodePrice]
  have hle : nodePrice p bond prices bond * tx.gas ≤ tx.fee.amt bond * 10 ^ 18 := by
    rcases (C46_checktx p bond prices tx hg).1 h with h | ⟨d, h1, h2⟩
    · rw [h bond]; omega
    · by_cases hd : d = bond
      · subst hd; exact h2
      · exact absurd (by simp [nodePrice, hd, hp d hd]) h1
  rw [hb] at hle
  exact ⟨le_trans (Nat.mul_le_mul_right _ (Nat.le_max_left _ _)) hle,
    le_trans (Nat.mul_le_mul_right _ (Nat.le_max_right _ _)) hle⟩

example : checkFee ⟨10 ^ 18, 0, [], []⟩ kyve (some (Coins.single kyve (2 * 10 ^ 18)))
    ⟨[], Coins.single kyve 20, 10, 7, none⟩ = .ok (Coins.single kyve 20) := by rfl

/-! ## C47 burning and refunds -/

/-- C47: with a ratio of at most one, the end of a block (after height 1) burns exactly `floor(fees * ratio)` of every
coin held by the fee collector, from the account and from the supply; no other account changes and the chain does not
halt. -/
theorem C47_burn (w : World) (hv : w.params.burnRatio ≤ 10 ^ 18) (hh : w.height ≠ 1) :
    (∀ d, ((endBlock w).bank (.mod .feeCollector)).amt d
      = (w.bank (.mod .feeCollector)).amt d - (w.bank (.mod .feeCollector)).amt d * w.params.burnRatio / 10 ^ 18) ∧
    (∀ d, (endBlock w).supply.amt d
      = w.supply.amt d - (w.bank (.mod .feeCollector)).amt d * w.params.burnRatio / 10 ^ 18) ∧
    (∀ a, a ≠ .mod .feeCollector → (endBlock w).bank a = w.bank a) ∧
    (endBlock w).halted = w.halted := by
  unfold endBlock
  rw [if_neg hh]
  split
  · rename_i h0
    rw [h0]
    simp
  · split
    · rename_i hz
      have h0 := Coins.isZero_iff.1 hz
      refine ⟨fun d => by simp [h0], fun d => by simp [h0], fun _ _ => rfl, rfl⟩
    · have hle : (burnAmount (w.bank (.mod .feeCollector)) w.params.burnRatio).le (w.bank (.mod .feeCollector))
          = true := by
        rw [Coins.le_iff]
        intro d
        rw [burnAmount_amt]
        exact share_le hv
      have hb : burn w .feeCollector (burnAmount (w.bank (.mod .feeCollector)) w.params.burnRatio)
          = .ok { w with
              bank := w.bank.upd (.mod .feeCollector) ((w.bank (.mod .feeCollector)).sub
                (burnAmount (w.bank (.mod .feeCollector)) w.params.burnRatio))
              supply := w.supply.sub (burnAmount (w.bank (.mod .feeCollector)) w.params.burnRatio) } := by
        unfold burn; rw [if_pos hle]
      rw [hb]
      refine ⟨fun d => ?_, fun d => ?_, fun a ha => ?_, rfl⟩
      · simp [Bank.upd, burnAmount_amt]
      · simp [burnAmount_amt]
      · simp [Bank.upd, ha]

example : exTxWorld.params.burnRatio ≤ 10 ^ 18 ∧ exTxWorld.height ≠ 1 := by decide

/-- C47: a refund takes exactly `floor(fee * fraction)` of every coin of the fee from the fee collector to the account
that paid the fee; nothing for transactions with zero or several messages or without a configured refund. -/
theorem C47_refund (w w' : World) (tx : Tx) (h : refundFee w tx = .ok w') :
    (∀ d, (w'.bank (.user (payerOf tx))).amt d
      = (w.bank (.user (payerOf tx))).amt d + refund w.params tx (tx.fee.amt d)) ∧
    (∀ d, (w.bank (.mod .feeCollector)).amt d
      = (w'.bank (.mod .feeCollector)).amt d + refund w.params tx (tx.fee.amt d)) ∧
    ∀ a, a ≠ .user (payerOf tx) → a ≠ .mod .feeCollector → w'.bank a = w.bank a := by
  have triv : w' = w → (∀ d, refund w.params tx (tx.fee.amt d) = 0) →
      (∀ d, (w'.bank (.user (payerOf tx))).amt d
        = (w.bank (.user (payerOf tx))).amt d + refund w.params tx (tx.fee.amt d)) ∧
      (∀ d, (w.bank (.mod .feeCollector)).amt d
        = (w'.bank (.mod .feeCollector)).amt d + refund w.params tx (tx.fee.amt d)) ∧
      ∀ a, a ≠ .user (payerOf tx) → a ≠ .mod .feeCollector → w'.bank a = w.bank a := by
    rintro rfl h0
    exact ⟨fun d => by rw [h0]; rfl, fun d => by rw [h0]; rfl, fun _ _ _ => rfl⟩
  unfold refundFee at h
  split at h
  · rename_i hz
    cases h
    refine triv rfl (fun d => ?_)
    rw [Coins.isZero_iff.1 hz d]
    unfold refund
    split <;> simp
  · split at h
    · rename_i m hm
      split at h
      · rename_i h0
        cases h
        refine triv rfl (fun d => ?_)
        unfold refund
        rw [hm]
        simp only
        rw [← refundFraction_eq, h0]
        simp
      · split at h
        · cases h
        · rename_i aw haw
          obtain ⟨e1, e2, -⟩ := feeAccount_ok haw
          split at h
          · cases h
          · rename_i b hb
            cases h
            rw [e1, e2] at hb
            obtain ⟨s1, s2⟩ := Bank.send_ok hb
            have hr : ∀ d, refund w.params tx (tx.fee.amt d)
                = (refundOf tx.fee (refundFraction m w.params.gasRefunds)).amt d := by
              intro d
              rw [refundOf_amt, refundFraction_eq]
              unfold refund
              rw [hm]
            refine ⟨fun d => ?_, fun d => ?_, fun a h1 h2 => ?_⟩
            · rw [hr]
              have := s2 (.user (payerOf tx)) d
              simpa using this
            · rw [hr]
              have h1 := s1 d
              have h2 := s2 (.mod .feeCollector) d
              simp at h2
              simp only; omega
            · ext d
              have := s2 a d
              simpa [h1, h2] using this
    · rename_i hm
      cases h
      refine triv rfl (fun d => ?_)
      unfold refund
      split
      · rename_i m' hm'
        exact absurd hm' (hm m')
      · rfl

example : ∃ w', refundFee { exTxWorld with bank := fun _ => Coins.single kyve 100000 } exTx = .ok w' ∧
    refund exTxWorld.params exTx 4001 = 2000 :=
  ⟨(match refundFee { exTxWorld with bank := fun _ => Coins.single kyve 100000 } exTx with
    | .ok w' => w' | .error _ => exTxWorld), by rfl, by decide⟩

theorem refundShare_le {p : Params} (hv : p.validate = true) (m : MsgType) : refundShare p m ≤ 10 ^ 18 := by
  unfold Params.validate at hv
  simp only [Bool.and_eq_true, List.all_eq_true, decide_eq_true_eq] at hv
  unfold refundShare
  cases hf : p.gasRefunds.find? (fun a => a.1 == m) with
  | none => simp
  | some r => exact hv.2 r (List.mem_of_find?_eq_some hf)

/-- C47: with valid parameters a refund never exceeds the fee. -/
theorem C47_refund_le_fee (p : Params) (hv : p.validate = true) (tx : Tx) (n : Nat) : refund p tx n ≤ n := by
  unfold refund
  split
  · exact share_le (refundShare_le hv _)
  · exact Nat.zero_le _

example : exTxWorld.params.validate = true := by decide

theorem mergeAdjustments_ok (l : List (Option MsgType × Option Nat)) :
    ∀ old : List (MsgType × Nat), old.all (fun a => decide (a.2 < 2 ^ 63)) = true →
      ∀ o2 : List (MsgType × Nat), (mergeAdjustments o2 l).all (fun a => decide (a.2 < 2 ^ 63)) = true →
      (mergeAdjustments old l).all (fun a => decide (a.2 < 2 ^ 63)) = true := by
  induction l with
  | nil => intro old _ o2 _; cases old <;> rfl
  | cons q qs ih =>
    intro old ho o2 h
    have hq : ∀ n, q.2 = some n → n < 2 ^ 63 := by
      intro n hn
      cases o2 with
      | nil => rw [mergeAdjustments] at h; simp only [List.all_cons, Bool.and_eq_true, decide_eq_true_eq, hn] at h; exact h.1
      | cons e es =>
        rw [mergeAdjustments] at h; simp only [List.all_cons, Bool.and_eq_true, decide_eq_true_eq, hn] at h; exact h.1
    have hr : ∃ o3, (mergeAdjustments o3 qs).all (fun a => decide (a.2 < 2 ^ 63)) = true := by
      cases o2 with
      | nil => rw [mergeAdjustments] at h; rw [List.all_cons, Bool.and_eq_true] at h; exact ⟨_, h.2⟩
      | cons e es => rw [mergeAdjustments] at h; rw [List.all_cons, Bool.and_eq_true] at h; exact ⟨_, h.2⟩
    obtain ⟨o3, h3⟩ := hr
    cases old with
    | nil =>
      rw [mergeAdjustments, List.all_cons, Bool.and_eq_true, decide_eq_true_eq]
      refine ⟨?_, ih [] rfl o3 h3⟩
      cases hc : q.2 with
      | none => simp
      | some n => simpa using hq n hc
    | cons e es =>
      rw [List.all_cons, Bool.and_eq_true, decide_eq_true_eq] at ho
      rw [mergeAdjustments, List.all_cons, Bool.and_eq_true, decide_eq_true_eq]
      refine ⟨?_, ih es ho.2 o3 h3⟩
      cases hc : q.2 with
      | none => simpa using ho.1
      | some n => simpa using hq n hc

theorem mergeRefunds_ok (l : List (Option MsgType × Dec)) :
    ∀ old o2 : List (MsgType × Dec), (mergeRefunds o2 l).all (fun r => decide (r.2 ≤ Dec.one)) = true →
      (mergeRefunds old l).all (fun r => decide (r.2 ≤ Dec.one)) = true := by
  induction l with
  | nil => intro old o2 _; cases old <;> rfl
  | cons q qs ih =>
    intro old o2 h
    have hq : decide (q.2 ≤ Dec.one) = true ∧ ∃ o3, (mergeRefunds o3 qs).all (fun r => decide (r.2 ≤ Dec.one)) = true := by
      cases o2 with
      | nil => rw [mergeRefunds, List.all_cons, Bool.and_eq_true] at h; exact ⟨h.1, _, h.2⟩
      | cons e es => rw [mergeRefunds, List.all_cons, Bool.and_eq_true] at h; exact ⟨h.1, _, h.2⟩
    obtain ⟨o3, h3⟩ := hq.2
    cases old with
    | nil => rw [mergeRefunds, List.all_cons, Bool.and_eq_true]; exact ⟨hq.1, ih _ o3 h3⟩
    | cons e es => rw [mergeRefunds, List.all_cons, Bool.and_eq_true]; exact ⟨hq.1, ih _ o3 h3⟩

/-- C47: parameter updates keep the parameters valid, whoever sends whatever. -/
theorem C47_params_stay_valid (gov : Addr) (w w' : World) (s : Addr) (y : Payload)
    (hv : w.params.validate = true) (h : updateParams gov w s y = .ok w') : w'.params.validate = true := by
  unfold updateParams at h
  split at h
  · cases h
  · rename_i hd
    split at h
    · cases h
    · cases h
      simp only [Bool.not_eq_true', Bool.not_eq_false] at hd
      unfold Payload.apply Params.default at hd
      unfold Payload.apply
      unfold Params.validate at hd hv ⊢
      simp only [Bool.and_eq_true] at hd hv ⊢
      obtain ⟨⟨a1, a2⟩, a3⟩ := hd
      obtain ⟨⟨b1, b2⟩, b3⟩ := hv
      refine ⟨⟨?_, ?_⟩, ?_⟩
      · cases hy : y.burnRatio with
        | none => simpa using b1
        | some x => rw [hy] at a1; simpa using a1
      · cases hy : y.gasAdjustments with
        | none => simpa using b2
        | some x =>
          rw [hy] at a2
          exact mergeAdjustments_ok x w.params.gasAdjustments b2 [] a2
      · cases hy : y.gasRefunds with
        | none => simpa using b3
        | some x =>
          rw [hy] at a3
          exact mergeRefunds_ok x w.params.gasRefunds [] a3

/-- C47: over a whole successful transaction whose messages leave the fee collector and the payer alone, the payer pays
exactly the fee minus the refund, and the fee collector keeps that amount: refunds never eat other people's fees. -/
theorem C47_tx_net (w w1 w2 w3 : World) (tx : Tx) (hh : 1 < w.height)
    (hv : w.params.validate = true)
    (h1 : deductFee w tx none = .ok w1) (h2 : w2.params = w.params)
    (hb : w2.bank (.mod .feeCollector) = w1.bank (.mod .feeCollector))
    (hb' : w2.bank (.user (payerOf tx)) = w1.bank (.user (payerOf tx)))
    (h3 : refundFee w2 tx = .ok w3) (d : Denom) :
    (w.bank (.user (payerOf tx))).amt d
      = (w3.bank (.user (payerOf tx))).amt d + (tx.fee.amt d - refund w.params tx (tx.fee.amt d)) ∧
    (w3.bank (.mod .feeCollector)).amt d
      = (w.bank (.mod .feeCollector)).amt d + (tx.fee.amt d - refund w.params tx (tx.fee.amt d)) := by
  obtain ⟨-, a1, a2, -⟩ := C46_deduct w w1 tx hh h1
  obtain ⟨r1, r2, -⟩ := C47_refund w2 w3 tx h3
  have hle := C47_refund_le_fee w.params hv tx (tx.fee.amt d)
  have a1 := a1 d
  have a2 := a2 d
  have r1 := r1 d
  have r2 := r2 d
  rw [h2] at r1 r2
  rw [hb'] at r1
  rw [hb] at r2
  omega

/-! ## C48 fee grants -/

/-- C48 is false of the code: for a refundable message the allowance shrinks by twice the fee. -/
theorem C48_false_double_use :
    allowance (runTx exTxWorld exTx 0 .ok) 9 7 kyve + 2 * exTx.fee.amt kyve = allowance exTxWorld 9 7 kyve := by
  decide +kernel

/-- C48 is false of the code: a granter's allowance that covers the fee once lets the transaction fail (the fee is
taken, the message effects are dropped), although nothing is wrong with it. -/
theorem C48_false_fails :
    ∃ (w : World) (exec : World → Except String World),
      allowance w 9 7 kyve = exTx.fee.amt kyve ∧ (∃ x, exec w = .ok x) ∧
      ((runTx w exTx 0 exec).bank (.user 11)).amt kyve = 0 ∧
      ((runTx { w with params := { w.params with gasRefunds := [] } } exTx 0 exec).bank (.user 11)).amt kyve = 1 ∧
      ((runTx w exTx 0 exec).bank (.user 9)).amt kyve + exTx.fee.amt kyve = (w.bank (.user 9)).amt kyve := by
  refine ⟨{ exTxWorld with grants := (∅ : Map (Addr × Addr) Coins).set (9, 7) (Coins.single kyve 4001) },
    fun w => (w.bank.send (.user 7) (.user 11) (Coins.single kyve 1)).map (fun b => { w with bank := b }),
    by decide +kernel, ?_, by decide +kernel, by decide +kernel, by decide +kernel⟩
  exact ⟨_, by rfl⟩

theorem refundFee_noop {w : World} {tx : Tx} (h : ∀ m, tx.msgs = [m] → refundShare w.params m = 0) :
    refundFee w tx = .ok w := by
  unfold refundFee
  split
  · rfl
  · split
    · rename_i m hm
      rw [refundFraction_eq, if_pos (h m hm)]
    · rfl

theorem refundFee_zero {w : World} {tx : Tx} (h : tx.fee.isZero = true) : refundFee w tx = .ok w := by
  unfold refundFee; rw [if_pos h]

/-- C48, partial: a transaction that is not refundable (several messages or no configured refund, as seen by the post
handler) uses the allowance of its granter exactly once, by the fee, if the fee could be deducted at all (messages do
not touch the allowance and the parameters). Missing: refundable transactions (false, see above). -/
theorem C48_grant_used_once_partial (w : World) (tx : Tx) (gas0 : Nat) (exec : World → Except String World)
    (g : Addr) (hg : tx.granter = some g) (hne : g ≠ tx.payer)
    (hex : ∀ x y, exec x = .ok y → y.grants = x.grants ∧ y.params = x.params)
    (hno : ∀ m, tx.msgs = [m] → refundShare w.params m = 0)
    (gas1 : Nat) (h0 : adjustGas w.params tx.gas tx.msgs gas0 = .ok gas1)
    (w1 : World) (h1 : deductFee w tx none = .ok w1) (d : Denom) :
    allowance (runTx w tx gas0 exec) g tx.payer d + tx.fee.amt d = allowance w g tx.payer d := by
  have hd : allowance w1 g tx.payer d + tx.fee.amt d = allowance w g tx.payer d ∧ w1.params = w.params := by
    unfold deductFee at h1
    split at h1
    · cases h1
    split at h1
    · cases h1
    · split at h1
      · cases h1
      · rename_i aw haw
        obtain ⟨-, -, e3, -, -, -, -, e4, -⟩ := feeAccount_ok haw
        split at h1
        · cases h1
        · cases h1
          obtain ⟨a1, a2⟩ := e4 g hg hne
          have b1 := a1 d
          have b2 := a2 d
          refine ⟨?_, e3⟩
          simp only [allowance] at b1 b2 ⊢
          omega
  unfold runTx
  rw [h0, h1]
  simp only
  split
  · exact hd.1
  · rename_i w2 hw2
    obtain ⟨x1, x2⟩ := hex _ _ hw2
    rw [refundFee_noop (by rw [x2, hd.2]; exact hno)]
    simp only [allowance, x1] at hd ⊢
    exact hd.1

example : (∃ g1, adjustGas exTxWorld.params exTx.gas [2, 2] 0 = .ok g1) ∧
    (∃ w1, deductFee exTxWorld { exTx with msgs := [2, 2] } none = .ok w1) :=
  ⟨⟨_, by rfl⟩, ⟨_, by rfl⟩⟩

/-! ## C49 gas adjustments -/

/-- C49: the gas adjustment succeeds exactly if the gas limit covers the sum over all messages of the extra gas
configured for their type, and then consumes exactly that sum. -/
theorem C49_gas_adjustment (p : Params) (limit : Nat) (msgs : List MsgType) (consumed : Nat) (hc : consumed ≤ limit) :
    (consumed + (msgs.map (extraGas p)).sum ≤ limit →
      adjustGas p limit msgs consumed = .ok (consumed + (msgs.map (extraGas p)).sum)) ∧
    (limit < consumed + (msgs.map (extraGas p)).sum → ∃ e, adjustGas p limit msgs consumed = .error e) := by
  induction msgs generalizing consumed with
  | nil =>
    refine ⟨fun _ => rfl, fun h => ?_⟩
    simp at h; omega
  | cons m t ih =>
    unfold adjustGas consumeGas
    rw [adjustmentOf_eq]
    simp only [List.map_cons, List.sum_cons]
    by_cases h : consumed + extraGas p m > limit
    · rw [if_pos h]
      exact ⟨fun h' => by omega, fun _ => ⟨_, rfl⟩⟩
    · rw [if_neg h]
      have := ih (consumed + extraGas p m) (by omega)
      rw [← Nat.add_assoc]
      exact this

example : adjustGas ⟨0, 0, [(1, 5), (2, 7), (1, 100)], []⟩ 20 [1, 3, 2, 1] 3 = .ok 20 := by rfl

/-- C49: a transaction whose adjustments exceed its gas limit changes nothing. -/
theorem C49_out_of_gas (w : World) (tx : Tx) (gas0 : Nat) (exec : World → Except String World) (h0 : gas0 ≤ tx.gas)
    (h : tx.gas < gas0 + (tx.msgs.map (extraGas w.params)).sum) : runTx w tx gas0 exec = w := by
  obtain ⟨e, he⟩ := (C49_gas_adjustment w.params tx.gas tx.msgs gas0 h0).2 h
  unfold runTx
  rw [he]

/-! ## C52 (global parameters) -/

/-- C52: only the governance authority can change the parameters of x/global. -/
theorem C52_global_params (gov : Addr) (w w' : World) (s : Addr) (y : Payload)
    (h : updateParams gov w s y = .ok w') : s = gov := by
  unfold updateParams at h
  split at h
  · cases h
  · split at h
    · cases h
    · rename_i hs
      simpa using hs

example : ∃ w', updateParams 3 exTxWorld 3 ⟨some 5, none, none, none⟩ = .ok w' := ⟨_, by rfl⟩

end Verif.Global
