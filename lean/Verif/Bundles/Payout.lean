import Verif.Bundles.Model

/-!
# C22 The bundle reward is split without creating or losing a coin
-/

namespace Verif.Bundles
open Verif

theorem amt_share (c : Coins) (f : Dec) (d : Denom) : (share c f).amt d = c.amt d * f / Dec.one := by
  unfold share
  rw [Coins.amt_mapAmt]
  · rw [Dec.ofNat_mul]; rfl
  · rw [Dec.ofNat_mul]; unfold Dec.trunc; simp

theorem amt_share_le {c : Coins} {f : Dec} (h : f ≤ Dec.one) (d : Denom) : (share c f).amt d ≤ c.amt d := by
  rw [amt_share]
  apply Nat.div_le_of_le_mul
  calc c.amt d * f ≤ c.amt d * Dec.one := Nat.mul_le_mul_left _ h
    _ = Dec.one * c.amt d := Nat.mul_comm _ _

theorem amt_storage (w : Funders.Params) (cost : Dec) (n : Nat) (rest : Coins) (d : Denom) :
    (storageReward w cost n rest).amt d =
      Nat.min (rest.amt d) (if d ∈ rest.denoms then wantedOf w (costPerCoin cost n rest.denoms.length) d else 0) := by
  unfold storageReward
  rw [Coins.amt_min, Coins.amt_ofFn]

theorem amt_storage_le (w : Funders.Params) (cost : Dec) (n : Nat) (rest : Coins) (d : Denom) :
    (storageReward w cost n rest).amt d ≤ rest.amt d := by
  rw [amt_storage]; exact Nat.min_le_left _ _

/-- C22: whatever is charged for a bundle is paid out, coin by coin: treasury, storage, commission and delegation
payouts sum up to the total. -/
theorem C22_conserved (a : PayoutArgs) (r : Reward) (h : splitPayout a = some r) (d : Denom) :
    r.treasury.amt d + r.storage.amt d + r.commission.amt d + r.delegation.amt d = a.total.amt d ∧
    r.total.amt d = a.total.amt d := by
  have hz : ∀ c : Coins, c.isZero = true → c.amt d = 0 := fun c hc => (Coins.isZero_iff.mp hc) d
  unfold splitPayout at h
  have hs := amt_storage_le a.whitelist a.cost a.dataSize a.rest1 d
  split_ifs at h with h1 h2 h3 h4 h5 h6 h7 <;> simp only [Option.some.injEq] at h
  · subst h; have := hz _ h1; simp only [Reward.none, Coins.amt_zero, and_true]; omega
  · subst h
    have g2 : (share a.total a.fee).amt d ≤ a.total.amt d := Coins.le_iff.mp (by simpa using h2) d
    have h3' := hz _ h3
    simp only [PayoutArgs.rest1, Coins.amt_sub] at h3'
    simp only [Coins.amt_zero, and_true]; omega
  · subst h
    have g2 : (share a.total a.fee).amt d ≤ a.total.amt d := Coins.le_iff.mp (by simpa using h2) d
    have h5' := hz _ h5
    simp only [PayoutArgs.rest2, PayoutArgs.rest1, Coins.amt_sub] at h5' hs ⊢
    simp only [Coins.amt_zero, and_true]; omega
  · subst h
    have g2 : (share a.total a.fee).amt d ≤ a.total.amt d := Coins.le_iff.mp (by simpa using h2) d
    have g6 : (share a.rest2 a.commission).amt d ≤ a.rest2.amt d := Coins.le_iff.mp (by simpa using h6) d
    simp only [PayoutArgs.rest3, PayoutArgs.rest2, PayoutArgs.rest1, Coins.amt_sub, and_true] at g6 hs ⊢
    omega
  · subst h
    have g2 : (share a.total a.fee).amt d ≤ a.total.amt d := Coins.le_iff.mp (by simpa using h2) d
    have g6 : (share a.rest2 a.commission).amt d ≤ a.rest2.amt d := Coins.le_iff.mp (by simpa using h6) d
    simp only [PayoutArgs.rest3, PayoutArgs.rest2, PayoutArgs.rest1, Coins.amt_sub, Coins.amt_add, Coins.amt_zero,
      and_true] at g6 hs ⊢
    omega

/-- C22: the treasury gets the network fee of every coin, rounded down. -/
theorem C22_treasury (a : PayoutArgs) (r : Reward) (h : splitPayout a = some r) (d : Denom) :
    r.treasury.amt d = a.total.amt d * a.fee / Dec.one := by
  rw [← amt_share]
  unfold splitPayout at h
  split_ifs at h with h1 <;> simp only [Option.some.injEq] at h
  · subst h
    rw [amt_share, (Coins.isZero_iff.mp h1) d]; simp [Reward.none]
  all_goals (subst h; rfl)

/-- C22: the storage reward in a coin is at most what is left after the treasury, is zero for a coin without a price,
and is worth at most the coin's part of the storage cost `cost * bytes / number of coins`, up to half a unit of the
decimals (both sides carry 36 decimals). -/
theorem C22_storage (a : PayoutArgs) (r : Reward) (h : splitPayout a = some r) (hd : a.dataSize < 2 ^ 63) (d : Denom) :
    r.storage.amt d ≤ a.total.amt d - r.treasury.amt d ∧
    (r.storage.amt d ≠ 0 → ∃ e, a.whitelist.entry? d = some e ∧ 0 < e.weight ∧
      2 * (r.storage.amt d * e.weight * Dec.one) ≤
        2 * (a.cost * a.dataSize / (a.total.sub r.treasury).denoms.length * 10 ^ e.decimals * Dec.one) + e.weight) := by
  have key : ∀ (rest : Coins), (storageReward a.whitelist a.cost a.dataSize rest).amt d ≤ rest.amt d ∧
      ((storageReward a.whitelist a.cost a.dataSize rest).amt d ≠ 0 → ∃ e, a.whitelist.entry? d = some e ∧
        0 < e.weight ∧ 2 * ((storageReward a.whitelist a.cost a.dataSize rest).amt d * e.weight * Dec.one) ≤
        2 * (a.cost * a.dataSize / rest.denoms.length * 10 ^ e.decimals * Dec.one) + e.weight) := by
    intro rest
    refine ⟨amt_storage_le _ _ _ _ d, fun hne => ?_⟩
    rw [amt_storage] at hne ⊢
    by_cases hm : d ∈ rest.denoms
    · rw [if_pos hm] at hne ⊢
      have hle := Nat.min_le_right (rest.amt d) (wantedOf a.whitelist (costPerCoin a.cost a.dataSize rest.denoms.length) d)
      generalize hmin : Nat.min (rest.amt d) (wantedOf a.whitelist (costPerCoin a.cost a.dataSize rest.denoms.length) d) = m at *
      have hmin' : m ≤ wantedOf a.whitelist (costPerCoin a.cost a.dataSize rest.denoms.length) d := hmin ▸ hle
      unfold wantedOf at hmin'
      split at hmin'
      · omega
      · next e he =>
        split at hmin'
        · omega
        · next hw =>
          refine ⟨e, he, Nat.pos_of_ne_zero hw, ?_⟩
          have hc : costPerCoin a.cost a.dataSize rest.denoms.length = a.cost * a.dataSize / rest.denoms.length := by
            unfold costPerCoin i64abs; rw [if_pos hd]
          rw [hc] at hmin'
          unfold wantedAmount at hmin'
          rw [Dec.mul_ofNat] at hmin'
          generalize a.cost * a.dataSize / rest.denoms.length = x at *
          have hq : 2 * (Dec.quo (x * 10 ^ e.decimals) e.weight * e.weight) ≤
              2 * (x * 10 ^ e.decimals * Dec.one) + e.weight := Dec.quo_upper (x * 10 ^ e.decimals) e.weight
          have ht := Dec.trunc_mul_le (Dec.quo (x * 10 ^ e.decimals) e.weight)
          generalize Dec.quo (x * 10 ^ e.decimals) e.weight = q at *
          have h1 : m * Dec.one ≤ q := le_trans (Nat.mul_le_mul_right _ hmin') ht
          have h2 : m * Dec.one * e.weight ≤ q * e.weight := Nat.mul_le_mul_right _ h1
          have h3 : m * e.weight * Dec.one = m * Dec.one * e.weight := by ac_rfl
          rw [h3]
          exact le_trans (Nat.mul_le_mul_left 2 h2) hq
    · rw [if_neg hm] at hne
      exact absurd (Nat.min_zero _) hne
  have hT : (a.total.sub r.treasury).denoms.length = a.rest1.denoms.length ∨ r.storage.amt d = 0 := by
    unfold splitPayout at h
    split_ifs at h with h1 <;> simp only [Option.some.injEq] at h
    · right; subst h; rfl
    · left; subst h; rfl
    · left; subst h; rfl
    · left; subst h; rfl
    · left; subst h; rfl
  have hS : r.storage.amt d = 0 ∨ r.storage = storageReward a.whitelist a.cost a.dataSize a.rest1 := by
    unfold splitPayout at h
    split_ifs at h with h1 <;> simp only [Option.some.injEq] at h
    · left; subst h; rfl
    · left; subst h; rfl
    · right; subst h; rfl
    · right; subst h; rfl
    · right; subst h; rfl
  rcases hS with hS | hS
  · exact ⟨by rw [hS]; omega, fun h => absurd hS h⟩
  · rcases hT with hT | hT
    · have hk := key a.rest1
      rw [hS, hT]
      refine ⟨?_, hk.2⟩
      have h2 := hk.1
      have : a.rest1.amt d = a.total.amt d - r.treasury.amt d := by
        rw [C22_treasury a r h d, ← amt_share]; unfold PayoutArgs.rest1; rw [Coins.amt_sub]
      omega
    · exact ⟨by rw [hT]; omega, fun h => absurd hT h⟩

/-- C22: of what is left after treasury and storage the uploader gets the commission, rounded down, and the delegators
everything else; without delegation the uploader gets everything. -/
theorem C22_commission (a : PayoutArgs) (r : Reward) (h : splitPayout a = some r) (d : Denom) :
    (a.delegated = true →
      r.commission.amt d = (a.total.amt d - r.treasury.amt d - r.storage.amt d) * a.commission / Dec.one) ∧
    (a.delegated = false → r.delegation.amt d = 0 ∧
      r.commission.amt d = a.total.amt d - r.treasury.amt d - r.storage.amt d) := by
  have hcons := (C22_conserved a r h d).1
  have zc : ∀ {x : Nat}, x = 0 → x * a.commission / Dec.one = 0 := by rintro x rfl; simp
  unfold splitPayout at h
  split_ifs at h with h1 h2 h3 h4 h5 h6 h7 <;> simp only [Option.some.injEq] at h
  · subst h
    have := (Coins.isZero_iff.mp h1) d
    simp only [Reward.none, Coins.amt_zero]
    exact ⟨fun _ => (zc (by omega)).symm, fun _ => ⟨trivial, by omega⟩⟩
  · subst h
    have := (Coins.isZero_iff.mp h3) d
    simp only [PayoutArgs.rest1, Coins.amt_sub] at this
    simp only [Coins.amt_zero]
    exact ⟨fun _ => (zc (by omega)).symm, fun _ => ⟨trivial, by omega⟩⟩
  · subst h
    have := (Coins.isZero_iff.mp h5) d
    simp only [PayoutArgs.rest2, PayoutArgs.rest1, Coins.amt_sub] at this
    simp only [Coins.amt_zero, PayoutArgs.rest1]
    exact ⟨fun _ => (zc (by omega)).symm, fun _ => ⟨trivial, by omega⟩⟩
  · subst h
    refine ⟨fun _ => ?_, fun hf => absurd hf (by rw [h7]; decide)⟩
    rw [amt_share]; simp only [PayoutArgs.rest2, PayoutArgs.rest1, Coins.amt_sub]
  · subst h
    refine ⟨fun hf => absurd hf h7, fun _ => ⟨rfl, ?_⟩⟩
    simp only [Coins.amt_zero] at hcons ⊢
    omega

/-- C22: with valid parameters the split does not fail: fee and commission are at most one, the coins are on the
whitelist (the funders module only accepts such coins) and the claimed size of the data is below 2^63. -/
theorem C22_total_partial (a : PayoutArgs) (hf : a.fee ≤ Dec.one) (hc : a.commission ≤ Dec.one)
    (hw : ∀ d ∈ a.total.denoms, (a.whitelist.entry? d).isSome = true) (hd : a.dataSize < 2 ^ 63) :
    ∃ r, splitPayout a = some r := by
  unfold splitPayout
  have h2 : (share a.total a.fee).le a.total = true := Coins.le_iff.mpr (fun d => amt_share_le hf d)
  have h6 : (share a.rest2 a.commission).le a.rest2 = true := Coins.le_iff.mpr (fun d => amt_share_le hc d)
  have h4 : wantedPanics a.whitelist a.cost a.dataSize a.rest1 = false := by
    unfold wantedPanics
    rw [decide_eq_false (by omega : ¬ 2 ^ 63 ≤ a.dataSize)]
    simp only [Bool.false_and, Bool.or_false, List.any_eq_false]
    intro d hd
    have : d ∈ a.total.denoms := by
      rw [Coins.mem_denoms] at hd ⊢
      unfold PayoutArgs.rest1 at hd
      rw [Coins.amt_sub] at hd
      omega
    have := hw d this
    simp [Option.isNone_iff_eq_none, Option.isSome_iff_ne_none] at this ⊢
    exact this
  rw [h2, h6, h4]
  simp only [Bool.not_true, Bool.false_eq_true, if_false]
  split_ifs <;> exact ⟨_, rfl⟩

/-- an example: 1000 kyve, fee 1%, storage cost, commission 10% -/
def examplePayout : PayoutArgs :=
  ⟨Coins.single kyve 1000, 10000000000000000, 500000000000000000, 100, ⟨[⟨kyve, 6, 1, 1, 2000000000000000000000000⟩], 20⟩,
   100000000000000000, true⟩

example : (splitPayout examplePayout).map (fun r => (r.treasury.amt kyve, r.storage.amt kyve, r.commission.amt kyve,
    r.delegation.amt kyve)) = some (10, 25, 96, 869) := by decide +kernel

/-- C22 is false for a claimed data size of 2^63 bytes or more: the computation panics (`NewCoin` with a negative
amount), although fee, commission and whitelist are fine.  `MsgSubmitBundleProposal` accepts any data size, so an
uploader can make every evaluation of its own bundle panic, in messages and in the end block. -/
theorem C22_panics : splitPayout { examplePayout with dataSize := 2 ^ 63 } = none := by decide +kernel

end Verif.Bundles
