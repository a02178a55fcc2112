import Verif.Global.Properties

/-!
# C91: the mempool priority of a transaction

The priority is meant to be the lowest price per gas (in whole coins) the fee offers in any of its coins.  It is that as
long as every coin offers at least one whole coin per gas, in particular for fees in one coin.  Otherwise it is not: a
coin that offers less counts as "nothing seen yet", so paying more of one coin can lower the priority.
-/

namespace Verif.Global
open Verif

/-- the price per gas the fee offers in coin `d`, in whole coins, at most the largest `int64` -/
def Spec.price (fee : Coins) (gas : Nat) (d : Denom) : Nat := min (fee.amt d / gas) (2 ^ 63 - 1)

open Spec

theorem coinPriority_eq (fee : Coins) (gas : Nat) (d : Denom) : coinPriority fee gas d = price fee gas d := by
  unfold coinPriority price
  split <;> omega

/-- the loop over coins that all offer something, from a priority that is set -/
theorem loop_pos (fee : Coins) (gas : Nat) (l : List Denom) (hl : ∀ d ∈ l, price fee gas d ≠ 0) :
    ∀ acc, acc ≠ 0 →
      (priorityLoop fee gas l acc ≤ acc ∧ ∀ d ∈ l, priorityLoop fee gas l acc ≤ price fee gas d) ∧
      (priorityLoop fee gas l acc = acc ∨ ∃ d ∈ l, priorityLoop fee gas l acc = price fee gas d) := by
  induction l with
  | nil => intro acc _; exact ⟨⟨Nat.le_refl _, by simp⟩, Or.inl rfl⟩
  | cons d t ih =>
    intro acc ha
    rw [priorityLoop, coinPriority_eq]
    have hd := hl d (List.mem_cons_self ..)
    have ht : ∀ e ∈ t, price fee gas e ≠ 0 := fun e he => hl e (List.mem_cons_of_mem _ he)
    by_cases hc : acc = 0 ∨ price fee gas d < acc
    · rw [if_pos hc]
      obtain ⟨⟨h1, h2⟩, h3⟩ := ih ht (price fee gas d) hd
      have hlt : price fee gas d < acc := by rcases hc with h | h
                                             · exact absurd h ha
                                             · exact h
      refine ⟨⟨by omega, ?_⟩, Or.inr ?_⟩
      · intro e he
        rcases List.mem_cons.1 he with rfl | he
        · exact h1
        · exact h2 e he
      · rcases h3 with h3 | ⟨e, he, h3⟩
        · exact ⟨d, List.mem_cons_self .., h3⟩
        · exact ⟨e, List.mem_cons_of_mem _ he, h3⟩
    · rw [if_neg hc]
      obtain ⟨⟨h1, h2⟩, h3⟩ := ih ht acc ha
      refine ⟨⟨h1, ?_⟩, ?_⟩
      · intro e he
        rcases List.mem_cons.1 he with rfl | he
        · omega
        · exact h2 e he
      · rcases h3 with h3 | ⟨e, he, h3⟩
        · exact Or.inl h3
        · exact Or.inr ⟨e, List.mem_cons_of_mem _ he, h3⟩

/-- C91, partial: if every coin of the fee offers at least one whole coin per gas, the priority is the lowest price
among them.  Missing: fees with a coin that offers less, see `C91_false`. -/
theorem C91_lowest_partial (fee : Coins) (gas : Nat) (hg : 0 < gas) (h0 : ∃ d, fee.amt d ≠ 0)
    (hp : ∀ d, fee.amt d ≠ 0 → gas ≤ fee.amt d) :
    (∀ d, fee.amt d ≠ 0 → txPriority fee gas ≤ price fee gas d) ∧
    ∃ d, fee.amt d ≠ 0 ∧ txPriority fee gas = price fee gas d := by
  have hne : ∀ d ∈ fee.denoms, price fee gas d ≠ 0 := by
    intro d hd
    have h1 := hp d (Coins.mem_denoms.1 hd)
    have h2 : 1 ≤ fee.amt d / gas := (Nat.le_div_iff_mul_le hg).2 (by omega)
    unfold price; omega
  unfold txPriority
  cases hl : fee.denoms with
  | nil =>
    obtain ⟨d, hd⟩ := h0
    have := Coins.mem_denoms.2 hd
    rw [hl] at this; cases this
  | cons d t =>
    have hmem : ∀ e, fee.amt e ≠ 0 ↔ e = d ∨ e ∈ t := by
      intro e; rw [← Coins.mem_denoms, hl, List.mem_cons]
    rw [hl] at hne
    rw [priorityLoop, if_pos (Or.inl rfl), coinPriority_eq]
    obtain ⟨⟨h1, h2⟩, h3⟩ := loop_pos fee gas t (fun e he => hne e (List.mem_cons_of_mem _ he)) _
      (hne d (List.mem_cons_self ..))
    refine ⟨?_, ?_⟩
    · intro e he
      rcases (hmem e).1 he with rfl | he
      · exact h1
      · exact h2 e he
    · rcases h3 with h3 | ⟨e, he, h3⟩
      · exact ⟨d, (hmem d).2 (Or.inl rfl), h3⟩
      · exact ⟨e, (hmem e).2 (Or.inr he), h3⟩

example : (∀ d, (Coins.ofFn [kyve, 3] (fun d => if d = kyve then 500 else 700)).amt d ≠ 0 →
      100 ≤ (Coins.ofFn [kyve, 3] (fun d => if d = kyve then 500 else 700)).amt d) ∧
    txPriority (Coins.ofFn [kyve, 3] (fun d => if d = kyve then 500 else 700)) 100 = 5 := by
  refine ⟨?_, by decide +kernel⟩
  intro d hd
  rw [Coins.amt_ofFn] at hd ⊢
  split at hd
  · rename_i h; rw [if_pos h]; split <;> omega
  · exact absurd rfl hd

/-- C91: a fee in one coin (as almost every fee is) has the price it offers as priority: more fee never lowers it, and
for the same fee a lower gas limit never does. -/
theorem C91_single (d : Denom) (n gas : Nat) :
    txPriority (Coins.single d n) gas = min (n / gas) (2 ^ 63 - 1) := by
  by_cases hn : n = 0
  · subst hn
    have : Coins.single d 0 = Coins.zero := by ext e; simp
    rw [this, Nat.zero_div, Nat.zero_min]
    rfl
  · have ha : ∀ e, (Coins.single d n).amt e ≠ 0 ↔ e = d := by
      intro e; rw [Coins.amt_single]; split
      · rename_i h; exact ⟨fun _ => h, fun _ => hn⟩
      · rename_i h; simp [h]
    have hl : (Coins.single d n).denoms = [d] := by
      unfold Coins.single Coins.put Coins.denoms
      rw [dif_neg hn]
      rfl
    unfold txPriority
    rw [hl, priorityLoop, if_pos (Or.inl rfl), coinPriority_eq, priorityLoop]
    unfold price
    rw [Coins.amt_single, if_pos rfl]

/-- C91: for a fee in one coin the priority grows with the fee and falls with the gas limit -/
theorem C91_monotone (d : Denom) (n n' gas gas' : Nat) (hg : 0 < gas) (hn : n ≤ n') (hgg : gas ≤ gas') :
    txPriority (Coins.single d n) gas' ≤ txPriority (Coins.single d n') gas := by
  rw [C91_single d n gas', C91_single d n' gas]
  have : n / gas' ≤ n' / gas := Nat.div_le_div hn hgg (by omega)
  omega

example : txPriority (Coins.single kyve 4001) 2000 = 2 := by decide +kernel

/-- whatever came before, after a coin that offers less than one whole coin per gas the search starts again -/
theorem loop_reset (fee : Coins) (gas : Nat) (z : Denom) (hz : price fee gas z = 0) (r : List Denom) (l : List Denom) :
    ∀ acc, priorityLoop fee gas (l ++ z :: r) acc = priorityLoop fee gas r 0 := by
  induction l with
  | nil =>
    intro acc
    rw [List.nil_append, priorityLoop, coinPriority_eq, hz]
    split
    · rfl
    · rename_i h
      have : acc = 0 := by omega
      rw [this]
  | cons d t ih => intro acc; rw [List.cons_append, priorityLoop]; exact ih _

/-- C91: the priority only counts the coins after the last one (in the order of the denoms) that offers less than one
whole coin per gas -/
theorem C91_last (fee : Coins) (gas : Nat) (l r : List Denom) (z : Denom) (hl : fee.denoms = l ++ z :: r)
    (hz : fee.amt z < gas) : txPriority fee gas = priorityLoop fee gas r 0 := by
  unfold txPriority
  rw [hl]
  refine loop_reset fee gas z ?_ r l 0
  unfold price
  rw [Nat.div_eq_of_lt hz, Nat.zero_min]

/-- two fees; the second one pays more -/
def feeLow : Coins := Coins.ofFn [kyve, 3] (fun d => if d = kyve then 50 else 700)
/-- the same with 100 kyve instead of 50 -/
def feeHigh : Coins := Coins.ofFn [kyve, 3] (fun d => if d = kyve then 100 else 700)

/-- C91 is false of the code in general: paying more lowers the priority from 7 to 1. -/
theorem C91_false : (∀ d, feeLow.amt d ≤ feeHigh.amt d) ∧ txPriority feeLow 100 = 7 ∧ txPriority feeHigh 100 = 1 := by
  refine ⟨?_, by decide +kernel, by decide +kernel⟩
  intro d
  unfold feeLow feeHigh
  rw [Coins.amt_ofFn, Coins.amt_ofFn]
  split
  · split <;> omega
  · exact Nat.le_refl _

/-- an accepted transaction gets the priority of its fee -/
theorem C91_checker (p : Params) (bond : Denom) (checkTx : Option DecCoins) (tx : Tx) (fee : Coins) (n : Nat)
    (h : feeChecker p bond checkTx tx = .ok (fee, n)) :
    checkFee p bond checkTx tx = .ok tx.fee ∧ fee = tx.fee ∧ n = txPriority tx.fee tx.gas ∧ n < 2 ^ 63 := by
  unfold feeChecker at h
  split at h
  · cases h
  · rename_i f hf
    have e : f = tx.fee := by
      unfold checkFee at hf
      simp only at hf
      split at hf
      · cases hf
      · split at hf <;> cases hf
        rfl
    cases h
    subst e
    refine ⟨hf, rfl, rfl, ?_⟩
    have hb : ∀ (l : List Denom) acc, acc < 2 ^ 63 → priorityLoop tx.fee tx.gas l acc < 2 ^ 63 := by
      intro l
      induction l with
      | nil => intro acc h; exact h
      | cons d t ih =>
        intro acc h
        rw [priorityLoop]
        refine ih _ ?_
        split
        · rw [coinPriority_eq]; unfold price; omega
        · exact h
    exact hb _ 0 (by decide)

example : feeChecker ⟨20000000000000000, 0, [], []⟩ kyve none ⟨[1], Coins.single kyve 400100, 200001, 7, none⟩
    = .ok (Coins.single kyve 400100, 2) := by rfl

/-! ## C46: when a fee is taken -/

/-- C46, the exact criterion: from height 2 on the fee of a transaction is taken exactly if the gas limit is positive,
the fee meets the minimum gas price, whoever pays has the fee, and a foreign payer granted it. -/
theorem C46_accepted (w : World) (tx : Tx) (hh : 1 < w.height) :
    (∃ w', deductFee w tx none = .ok w') ↔
      0 < tx.gas ∧ w.params.minGasPrice * tx.gas ≤ tx.fee.amt w.bond * 10 ^ 18 ∧
      (∀ d, tx.fee.amt d ≤ (w.bank (.user (payerOf tx))).amt d) ∧
      ∀ g, tx.granter = some g → g ≠ tx.payer →
        ∃ limit, w.grants.get? (g, tx.payer) = some limit ∧ ∀ d, tx.fee.amt d ≤ limit.amt d := by
  constructor
  · rintro ⟨w', h⟩
    have hg : 0 < tx.gas := by
      rcases Nat.eq_zero_or_pos tx.gas with hz | hp
      · unfold deductFee at h; rw [if_pos hz] at h; cases h
      · exact hp
    obtain ⟨m, a1, -, -⟩ := C46_deduct w w' tx hh h
    refine ⟨hg, m, fun d => by have := a1 d; omega, ?_⟩
    intro g hgr hne
    unfold deductFee at h
    rw [if_neg hg.ne'] at h
    split at h
    · cases h
    · unfold feeAccount at h
      rw [hgr] at h
      simp only [if_neg hne] at h
      unfold useGrant at h
      cases hl : w.grants.get? (g, tx.payer) with
      | none => rw [hl] at h; cases h
      | some limit =>
        rw [hl] at h
        refine ⟨limit, rfl, ?_⟩
        by_cases hle : tx.fee.le limit = true
        · exact Coins.le_iff.1 hle
        · simp only [if_neg hle] at h; cases h
  · rintro ⟨hg, hm, hb, hgr⟩
    unfold deductFee
    rw [if_neg hg.ne', if_pos hh, (C46_min_fee _ _ tx hg).2 hm]
    simp only
    have hfa : ∃ w1, feeAccount w tx = .ok (payerOf tx, w1) := by
      unfold feeAccount payerOf
      cases hc : tx.granter with
      | none => exact ⟨w, rfl⟩
      | some g =>
        simp only
        by_cases hne : g = tx.payer
        · rw [if_pos hne]; exact ⟨w, by rw [hne]; rfl⟩
        · rw [if_neg hne]
          obtain ⟨limit, h1, h2⟩ := hgr g hc hne
          unfold useGrant
          rw [h1]
          simp only [if_pos (Coins.le_iff.2 h2)]
          exact ⟨_, rfl⟩
    obtain ⟨w1, hw1⟩ := hfa
    obtain ⟨-, e2, -⟩ := feeAccount_ok hw1
    rw [hw1]
    simp only at e2 ⊢
    rw [e2]
    obtain ⟨b, hs⟩ := Bank.send_succeeds (b := w.bank) (s := .user (payerOf tx)) (t := .mod .feeCollector) (c := tx.fee) hb
    rw [hs]
    exact ⟨_, rfl⟩

example : (0 < exTx.gas ∧ exTxWorld.params.minGasPrice * exTx.gas ≤ exTx.fee.amt exTxWorld.bond * 10 ^ 18) ∧
    exTxWorld.grants.get? (9, 7) = some (Coins.single kyve 10000) := by decide +kernel

/-- C46, the first block: up to height 1 there is no consensus minimum; a transaction's fee is taken exactly if the gas
limit is positive, whoever pays has the fee, and a foreign payer granted it.  A node that checks a transaction for its
mempool asks in addition that, if it has any minimum price, one coin of the fee meets its (positive) price. -/
theorem C46_first_block (w : World) (tx : Tx) (checkTx : Option DecCoins) (hh : w.height ≤ 1) :
    (∃ w', deductFee w tx checkTx = .ok w') ↔
      0 < tx.gas ∧
      (∀ prices, checkTx = some prices → (∃ d, prices.amt d ≠ 0) →
        ∃ d, 0 < prices.amt d ∧ prices.amt d * tx.gas ≤ tx.fee.amt d * 10 ^ 18) ∧
      (∀ d, tx.fee.amt d ≤ (w.bank (.user (payerOf tx))).amt d) ∧
      ∀ g, tx.granter = some g → g ≠ tx.payer →
        ∃ limit, w.grants.get? (g, tx.payer) = some limit ∧ ∀ d, tx.fee.amt d ≤ limit.amt d := by
  rcases Nat.eq_zero_or_pos tx.gas with hz | hg
  · unfold deductFee
    rw [if_pos hz]
    constructor
    · rintro ⟨w', h⟩; cases h
    · rintro ⟨h, -⟩; omega
  -- the consensus check of a world without a minimum price, at a later height, decides the rest
  have hfree := C46_accepted { w with params := { w.params with minGasPrice := 0 }, height := 2 } tx (show 1 < 2 by decide)
  have hsame : (∃ w', deductFee { w with params := { w.params with minGasPrice := 0 }, height := 2 } tx none = .ok w') ↔
      ∃ w', deductFee w tx none = .ok w' := by
    have hc : checkFee { w.params with minGasPrice := 0 } w.bond none tx = .ok tx.fee :=
      (C46_min_fee _ _ tx hg).2 (by simp)
    unfold deductFee
    rw [if_neg hg.ne', if_neg hg.ne', if_pos (show 2 > 1 by decide), if_neg (by omega), hc]
    simp only [defaultCheck]
    unfold feeAccount
    cases tx.granter with
    | none =>
      simp only
      cases w.bank.send (.user tx.payer) (.mod .feeCollector) tx.fee <;> simp
    | some g =>
      simp only
      by_cases hne : g = tx.payer
      · rw [if_pos hne, if_pos hne]
        simp only
        cases w.bank.send (.user tx.payer) (.mod .feeCollector) tx.fee <;> simp
      · rw [if_neg hne, if_neg hne]
        cases useGrant w.grants g tx.payer tx.fee with
        | error e => simp
        | ok gs =>
          simp only
          cases w.bank.send (.user g) (.mod .feeCollector) tx.fee <;> simp
  have hnone : (∃ w', deductFee w tx none = .ok w') ↔
      (∀ d, tx.fee.amt d ≤ (w.bank (.user (payerOf tx))).amt d) ∧
      ∀ g, tx.granter = some g → g ≠ tx.payer →
        ∃ limit, w.grants.get? (g, tx.payer) = some limit ∧ ∀ d, tx.fee.amt d ≤ limit.amt d := by
    rw [← hsame, hfree]
    constructor
    · rintro ⟨-, -, h⟩; exact h
    · intro h; exact ⟨hg, by simp, h⟩
  cases checkTx with
  | none =>
    rw [hnone]
    constructor
    · intro h; exact ⟨hg, fun _ e => (nomatch e), h⟩
    · rintro ⟨-, -, h⟩; exact h
  | some prices =>
    have hpos : (∃ d, prices.amt d ≠ 0) →
        ((∃ d, 0 < prices.amt d ∧ prices.amt d * tx.gas ≤ tx.fee.amt d * 10 ^ 18) ↔
          isAnyGTE tx.fee (feesFor prices tx.gas) = true) := by
      intro _
      rw [isAnyGTE_iff]
      constructor
      · rintro ⟨d, h1, h2⟩
        refine ⟨d, ?_, ?_⟩
        · rw [feesFor_amt]
          intro h0
          have := (ceil_le_iff _ _).1 (Nat.le_of_eq h0)
          have := Nat.mul_pos h1 hg
          omega
        · rw [feesFor_amt]; exact (ceil_le_iff _ _).2 h2
      · rintro ⟨d, h1, h2⟩
        rw [feesFor_amt] at h1 h2
        refine ⟨d, ?_, (ceil_le_iff _ _).1 h2⟩
        rcases Nat.eq_zero_or_pos (prices.amt d) with h0 | h0
        · rw [h0, Nat.zero_mul] at h1
          exact absurd rfl h1
        · exact h0
    have hstep : (∃ w', deductFee w tx (some prices) = .ok w') ↔
        ((∃ d, prices.amt d ≠ 0) →
          ∃ d, 0 < prices.amt d ∧ prices.amt d * tx.gas ≤ tx.fee.amt d * 10 ^ 18) ∧
        ∃ w', deductFee w tx none = .ok w' := by
      unfold deductFee
      rw [if_neg hg.ne', if_neg hg.ne', if_neg (by omega), if_neg (by omega)]
      simp only [defaultCheck]
      by_cases hz : prices.isZero = true
      · have hn : ¬ ∃ d, prices.amt d ≠ 0 := by
          rintro ⟨d, hd⟩; exact hd (Coins.isZero_iff.1 hz d)
        rw [hz]
        simp only [Bool.not_true, Bool.false_and]
        exact ⟨fun h => ⟨fun h' => absurd h' hn, h⟩, fun h => h.2⟩
      · have hz' : prices.isZero = false := by simpa using hz
        have hn := Coins.isZero_false_iff.1 hz'
        rw [hz']
        by_cases ha : isAnyGTE tx.fee (feesFor prices tx.gas) = true
        · rw [ha]
          simp only [Bool.not_false, Bool.not_true, Bool.and_false]
          exact ⟨fun h => ⟨fun _ => (hpos hn).2 ha, h⟩, fun h => h.2⟩
        · have ha' : isAnyGTE tx.fee (feesFor prices tx.gas) = false := by simpa using ha
          rw [ha']
          simp only [Bool.not_false, Bool.and_self, if_true]
          constructor
          · rintro ⟨w', h⟩; cases h
          · rintro ⟨h, -⟩; exact absurd ((hpos hn).1 (h hn)) ha
    rw [hstep, hnone]
    constructor
    · rintro ⟨h1, h2⟩
      exact ⟨hg, fun p e => by cases e; exact h1, h2⟩
    · rintro ⟨-, h1, h2⟩
      exact ⟨h1 prices rfl, h2⟩

/-- in the first block the sample fee is taken even at a price no one could pay -/
example : (∃ w', deductFee { exTxWorld with height := 1, params := { exTxWorld.params with minGasPrice := 10 ^ 30 } } exTx
    none = .ok w') := ⟨_, rfl⟩

/-! ## C47 over a whole transaction -/

/-- C47, the whole transaction: with messages that leave the payer, the fee collector and the parameters alone, a
transaction either changes no balance of these two at all (it is refused), or the payer pays exactly the fee (its
messages or the refund failed), or exactly the fee without the refund; the fee collector gets exactly what was paid. -/
theorem C47_run (w : World) (tx : Tx) (gas0 : Nat) (exec : World → Except String World) (hh : 1 < w.height)
    (hv : w.params.validate = true)
    (hex : ∀ x y, exec x = .ok y → y.params = x.params ∧ y.bank (.mod .feeCollector) = x.bank (.mod .feeCollector) ∧
      y.bank (.user (payerOf tx)) = x.bank (.user (payerOf tx))) :
    runTx w tx gas0 exec = w ∨
    ∃ paid : Denom → Nat,
      (∀ d, (w.bank (.user (payerOf tx))).amt d = ((runTx w tx gas0 exec).bank (.user (payerOf tx))).amt d + paid d) ∧
      (∀ d, ((runTx w tx gas0 exec).bank (.mod .feeCollector)).amt d
        = (w.bank (.mod .feeCollector)).amt d + paid d) ∧
      w.params.minGasPrice * tx.gas ≤ tx.fee.amt w.bond * 10 ^ 18 ∧
      ((∀ d, paid d = tx.fee.amt d) ∨ (∀ d, paid d = tx.fee.amt d - refund w.params tx (tx.fee.amt d))) := by
  unfold runTx
  cases h0 : adjustGas w.params tx.gas tx.msgs gas0 with
  | error e => exact Or.inl rfl
  | ok g =>
    simp only
    cases h1 : deductFee w tx none with
    | error e => exact Or.inl rfl
    | ok w1 =>
      simp only
      have hg : 0 < tx.gas := by
        rcases Nat.eq_zero_or_pos tx.gas with hz | hp
        · unfold deductFee at h1; rw [if_pos hz] at h1; cases h1
        · exact hp
      obtain ⟨m, a1, a2, -⟩ := C46_deduct w w1 tx hh h1
      right
      have hpar : w1.params = w.params := by
        unfold deductFee at h1
        rw [if_neg hg.ne'] at h1
        split at h1
        · cases h1
        · split at h1
          · cases h1
          · rename_i aw haw
            obtain ⟨-, -, e3, -⟩ := feeAccount_ok haw
            split at h1
            · cases h1
            · cases h1; exact e3
      cases h2 : exec w1 with
      | error e => exact ⟨fun d => tx.fee.amt d, a1, a2, m, Or.inl fun _ => rfl⟩
      | ok w2 =>
        simp only
        cases h3 : refundFee w2 tx with
        | error e => exact ⟨fun d => tx.fee.amt d, a1, a2, m, Or.inl fun _ => rfl⟩
        | ok w3 =>
          obtain ⟨x1, x2, x3⟩ := hex _ _ h2
          have := C47_tx_net w w1 w2 w3 tx hh hv h1 (x1.trans hpar) x2 x3 h3
          exact ⟨_, fun d => (this d).1, fun d => (this d).2, m, Or.inr fun _ => rfl⟩

example : exTxWorld.params.validate = true ∧ 1 < exTxWorld.height ∧
    ((runTx exTxWorld exTx 0 .ok).bank (.user 9)).amt kyve = 100000 - 4001 + 2000 := by decide +kernel

/-! ## C48 for refundable transactions -/

/-- C48 is false of the code for every refundable transaction that succeeds: its fee is taken from the allowance twice,
although the granter pays it only once. -/
theorem C48_used_twice (w : World) (tx : Tx) (gas0 gas1 : Nat) (exec : World → Except String World)
    (g : Addr) (hg : tx.granter = some g) (hne : g ≠ tx.payer) (m : MsgType) (hm : tx.msgs = [m])
    (hr : refundShare w.params m ≠ 0) (hf : ∃ d, tx.fee.amt d ≠ 0)
    (h0 : adjustGas w.params tx.gas tx.msgs gas0 = .ok gas1)
    (w1 w2 w3 : World) (h1 : deductFee w tx none = .ok w1) (h2 : exec w1 = .ok w2)
    (hex : w2.grants = w1.grants ∧ w2.params = w1.params) (h3 : refundFee w2 tx = .ok w3) (d : Denom) :
    allowance (runTx w tx gas0 exec) g tx.payer d + 2 * tx.fee.amt d = allowance w g tx.payer d := by
  have hd : allowance w1 g tx.payer d + tx.fee.amt d = allowance w g tx.payer d ∧ w1.params = w.params := by
    unfold deductFee at h1
    split at h1
    · cases h1
    split at h1
    · cases h1
    · split at h1
      · cases h1
      · rename_i aw haw
        obtain ⟨-, -, e3, -, -, -, -, e4, -⟩ := feeAccount_ok haw
        split at h1
        · cases h1
        · cases h1
          obtain ⟨a1, a2⟩ := e4 g hg hne
          have b1 := a1 d
          have b2 := a2 d
          refine ⟨?_, e3⟩
          simp only [allowance] at b1 b2 ⊢
          omega
  unfold runTx
  rw [h0, h1]
  simp only
  rw [h2]
  simp only
  rw [h3]
  simp only
  have hz : tx.fee.isZero = false := by
    cases hc : tx.fee.isZero with
    | false => rfl
    | true =>
      obtain ⟨e, he⟩ := hf
      exact absurd (Coins.isZero_iff.1 hc e) he
  unfold refundFee at h3
  rw [hz, hm] at h3
  simp only [Bool.false_eq_true, if_false] at h3
  rw [refundFraction_eq, if_neg (by rw [hex.2, hd.2]; exact hr)] at h3
  split at h3
  · cases h3
  · rename_i aw haw
    obtain ⟨-, -, -, -, -, -, -, e4, -⟩ := feeAccount_ok haw
    split at h3
    · cases h3
    · cases h3
      obtain ⟨a1, a2⟩ := e4 g hg hne
      have b1 := a1 d
      have b2 := a2 d
      have h4 := hd.1
      have e5 : allowance w2 g tx.payer d = allowance w1 g tx.payer d := by unfold allowance; rw [hex.1]
      simp only [allowance] at b1 b2 h4 e5 ⊢
      omega

example : refundShare exTxWorld.params 1 ≠ 0 ∧ (∃ g1, adjustGas exTxWorld.params exTx.gas exTx.msgs 0 = .ok g1) ∧
    (∃ w1, deductFee exTxWorld exTx none = .ok w1 ∧ ∃ w3, refundFee w1 exTx = .ok w3) :=
  ⟨by decide +kernel, ⟨_, by rfl⟩, ⟨_, by rfl, _, by rfl⟩⟩

end Verif.Global
