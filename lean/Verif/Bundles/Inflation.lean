import Verif.Bundles.Model
import Mathlib.Algebra.BigOperators.Group.List.Basic
import Mathlib.Tactic.Ring

/-!
# C29 The inflation split

Model of `SplitInflation` (/repo/x/bundles/abci.go) as the list of its transfers, and what can be said about them.
-/

namespace Verif.Bundles
open Verif

/-- what the split reads of a pool; `running` is `AssertPoolCanRun(..) == nil` -/
structure InflPool where
  id : Nat
  running : Bool
  weight : Dec
deriving DecidableEq, Repr

/-- abci.go:28-34 the block provision of the protocol.  `team` is the share of x/team, which is at most the provision
(otherwise x/team has halted the chain in the same block). -/
def protocolProvision (provision team : Nat) (share : Dec) : Nat :=
  Dec.trunc (Dec.mul (Dec.ofNat (provision - team)) share)

/-- abci.go:44-51 the total weight of the pools that can run -/
def totalWeight (l : List InflPool) : Dec := ((l.filter (·.running)).map (·.weight)).sum

/-- abci.go:62-65 the share of a pool -/
def poolAmount (P : Nat) (W w : Dec) : Nat := Dec.trunc (Dec.mul (Dec.quo w W) (Dec.ofNat P))

/-- abci.go:58-75 the transfers to the pools that can run -/
def runningTransfers (l : List InflPool) (P : Nat) : List (Nat × Nat) :=
  (l.filter (·.running)).map (fun p => (p.id, poolAmount P (totalWeight l) p.weight))

/-- the sum of transfers -/
def transferSum (l : List (Nat × Nat)) : Nat := (l.map (·.2)).sum

/-- abci.go:78 the remainder, a `uint64` difference -/
def inflationRemainder (l : List InflPool) (P : Nat) : Nat := u64sub P (transferSum (runningTransfers l P))

/-- abci.go:80-90 the transfers of the remainder: `err != nil` selects the pools that can *not* run, all of them -/
def remainderTransfers (l : List InflPool) (P : Nat) : List (Nat × Nat) :=
  if inflationRemainder l P = 0 then []
  else (l.filter (fun p => !p.running)).map (fun p => (p.id, inflationRemainder l P))

/-- abci.go:36-90 all transfers from the fee collector to pool accounts, in order -/
def inflationTransfers (l : List InflPool) (P : Nat) : List (Nat × Nat) :=
  if P = 0 then [] else if totalWeight l = 0 then [] else runningTransfers l P ++ remainderTransfers l P

theorem poolAmount_upper (P : Nat) (W w : Nat) :
    2 * Dec.one * (poolAmount P W w * W) ≤ 2 * Dec.one * (P * w) + P * W := by
  unfold poolAmount
  rw [Dec.mul_ofNat]
  have h1 : 2 * (Dec.quo w W * W) ≤ 2 * (w * Dec.one) + W := Dec.quo_upper w W
  have h2 : Dec.trunc (Dec.quo w W * P) * Dec.one ≤ Dec.quo w W * P := Dec.trunc_mul_le _
  generalize Dec.trunc (Dec.quo w W * P) = t at *
  generalize hq : Dec.quo w W = q at *
  calc 2 * Dec.one * (t * W) = 2 * (t * Dec.one) * W := by ring
    _ ≤ 2 * (q * P) * W := Nat.mul_le_mul_right _ (Nat.mul_le_mul_left _ h2)
    _ = 2 * (q * W) * P := by ring
    _ ≤ (2 * (w * Dec.one) + W) * P := Nat.mul_le_mul_right _ h1
    _ = 2 * Dec.one * (P * w) + P * W := by ring

theorem quo_lower (a b : Nat) (hb : 0 < b) : 2 * (a * Dec.one) ≤ 2 * (Dec.quo a b * b) + 2 * b := by
  have h1 : Dec.one * Dec.quo a b * 2 + Dec.one ≥ 2 * (a * Dec.one * Dec.one / b) := by
    have := Dec.chop_lower (a * Dec.one * Dec.one / b)
    unfold Dec.quo
    have e : 2 * Dec.one * Dec.chop (a * Dec.one * Dec.one / b) = Dec.one * Dec.chop (a * Dec.one * Dec.one / b) * 2 := by
      ring
    omega
  have h2 : a * Dec.one * Dec.one < (a * Dec.one * Dec.one / b + 1) * b := by
    have := Nat.lt_mul_div_succ (a * Dec.one * Dec.one) hb
    rw [Nat.mul_comm b] at this
    exact this
  generalize a * Dec.one * Dec.one / b = x at *
  generalize Dec.quo a b = q at *
  have h3 : 2 * x + 2 ≤ Dec.one * (2 * q + 2) := by
    have : 2 ≤ Dec.one := by decide
    have e : Dec.one * (2 * q + 2) = Dec.one * q * 2 + Dec.one + Dec.one := by ring
    omega
  have h4 : Dec.one * (2 * (a * Dec.one)) ≤ Dec.one * (2 * (q * b) + 2 * b) := by
    calc Dec.one * (2 * (a * Dec.one)) = 2 * (a * Dec.one * Dec.one) := by ring
      _ ≤ 2 * ((x + 1) * b) := Nat.mul_le_mul_left _ h2.le
      _ = (2 * x + 2) * b := by ring
      _ ≤ Dec.one * (2 * q + 2) * b := Nat.mul_le_mul_right _ h3
      _ = Dec.one * (2 * (q * b) + 2 * b) := by ring
  exact Nat.le_of_mul_le_mul_left h4 Dec.one_pos

theorem poolAmount_lower (P : Nat) (W w : Nat) (hW : 0 < W) :
    Dec.one * (P * w) < Dec.one * ((poolAmount P W w + 1) * W) + P * W + 1 := by
  unfold poolAmount
  rw [Dec.mul_ofNat]
  have h1 := quo_lower w W hW
  have h2 : Dec.quo w W * P < (Dec.trunc (Dec.quo w W * P) + 1) * Dec.one := Dec.lt_trunc_succ_mul _
  generalize Dec.trunc (Dec.quo w W * P) = t at *
  generalize hq : Dec.quo w W = q at *
  have h3 : w * Dec.one ≤ q * W + W := by
    generalize q * W = qw at *
    generalize w * Dec.one = wo at *
    omega
  have h5 : q * P * W ≤ (t + 1) * Dec.one * W := Nat.mul_le_mul_right _ h2.le
  have h6 : Dec.one * (P * w) ≤ Dec.one * ((t + 1) * W) + P * W := by
    calc Dec.one * (P * w) = (w * Dec.one) * P := by ring
      _ ≤ (q * W + W) * P := Nat.mul_le_mul_right _ h3
      _ = q * P * W + P * W := by ring
      _ ≤ (t + 1) * Dec.one * W + P * W := Nat.add_le_add_right h5 _
      _ = Dec.one * ((t + 1) * W) + P * W := by ring
  omega

/-- C29: every pool that can run gets its weighted share `P * weight / total weight`, up to one unit and the error of
18 decimals (`P / 10^18`): the amount times the total weight lies within these bounds of `P * weight`. -/
theorem C29_share (l : List InflPool) (P : Nat) (hP : P ≠ 0) (hW : totalWeight l ≠ 0) (p : InflPool) (hp : p ∈ l)
    (hr : p.running = true) :
    ∃ amount, (p.id, amount) ∈ inflationTransfers l P ∧
      2 * Dec.one * (amount * totalWeight l) ≤ 2 * Dec.one * (P * p.weight) + P * totalWeight l ∧
      Dec.one * (P * p.weight) ≤ Dec.one * ((amount + 1) * totalWeight l) + P * totalWeight l := by
  refine ⟨poolAmount P (totalWeight l) p.weight, ?_, poolAmount_upper _ _ _, ?_⟩
  · unfold inflationTransfers
    rw [if_neg hP, if_neg hW]
    refine List.mem_append_left _ ?_
    unfold runningTransfers
    exact List.mem_map.mpr ⟨p, List.mem_filter.mpr ⟨hp, hr⟩, rfl⟩
  · have := poolAmount_lower P (totalWeight l) p.weight (Nat.pos_of_ne_zero hW)
    omega

theorem running_sum_bound (l : List InflPool) (P W : Nat) :
    2 * Dec.one * (((l.map (fun p => poolAmount P W p.weight)).sum) * W) ≤
      2 * Dec.one * (P * (l.map (·.weight)).sum) + l.length * (P * W) := by
  induction l with
  | nil => simp
  | cons p l ih =>
    have h := poolAmount_upper P W p.weight
    simp only [List.map_cons, List.sum_cons, List.length_cons]
    generalize (l.map (fun p => poolAmount P W p.weight)).sum = s at *
    generalize (l.map (fun p : InflPool => p.weight)).sum = ws at *
    generalize poolAmount P W p.weight = t at *
    calc 2 * Dec.one * ((t + s) * W) = 2 * Dec.one * (t * W) + 2 * Dec.one * (s * W) := by ring
      _ ≤ (2 * Dec.one * (P * p.weight) + P * W) + (2 * Dec.one * (P * ws) + l.length * (P * W)) := Nat.add_le_add h ih
      _ = 2 * Dec.one * (P * (p.weight + ws)) + (l.length + 1) * (P * W) := by
        generalize p.weight = pw
        ring

/-- C29 (partial): the pools that can run together get at most the protocol's provision, as long as the number of
pools times the provision is below 2 * 10^18 (rounding up of a share can otherwise exceed it, `C29_rounding_fails`). -/
theorem C29_running_partial (l : List InflPool) (P : Nat) (hW : totalWeight l ≠ 0)
    (hb : (l.filter (·.running)).length * P < 2 * Dec.one) : transferSum (runningTransfers l P) ≤ P := by
  have h := running_sum_bound (l.filter (·.running)) P (totalWeight l)
  have e : transferSum (runningTransfers l P) =
      ((l.filter (·.running)).map (fun p => poolAmount P (totalWeight l) p.weight)).sum := by
    unfold transferSum runningTransfers
    rw [List.map_map]; rfl
  rw [e]
  have e2 : ((l.filter (·.running)).map (·.weight)).sum = totalWeight l := rfl
  rw [e2] at h
  generalize ((l.filter (·.running)).map (fun p => poolAmount P (totalWeight l) p.weight)).sum = s at *
  generalize (l.filter (·.running)).length = n at *
  have hW' : 0 < totalWeight l := Nat.pos_of_ne_zero hW
  generalize totalWeight l = W at *
  by_contra hc
  have hc' : P + 1 ≤ s := by omega
  have h1 : 2 * Dec.one * ((P + 1) * W) ≤ 2 * Dec.one * (s * W) := Nat.mul_le_mul_left _ (Nat.mul_le_mul_right _ hc')
  have h2 : n * (P * W) < 2 * Dec.one * W := by
    calc n * (P * W) = n * P * W := by ring
      _ < 2 * Dec.one * W := (Nat.mul_lt_mul_right hW').mpr hb
  have h3 : 2 * Dec.one * ((P + 1) * W) = 2 * Dec.one * (P * W) + 2 * Dec.one * W := by ring
  generalize 2 * Dec.one * (P * W) = x at *
  generalize 2 * Dec.one * W = y at *
  omega

theorem transferSum_append (a b : List (Nat × Nat)) : transferSum (a ++ b) = transferSum a + transferSum b := by
  unfold transferSum; rw [List.map_append, List.sum_append]

/-- C29 (partial): if at most one pool cannot run, the transfers of a block never exceed the protocol's provision
(with the bound of `C29_running_partial`). -/
theorem C29_total_partial (l : List InflPool) (P : Nat) (hP : P < twoPow64)
    (hb : (l.filter (·.running)).length * P < 2 * Dec.one)
    (hone : (l.filter (fun p => !p.running)).length ≤ 1) : transferSum (inflationTransfers l P) ≤ P := by
  unfold inflationTransfers
  by_cases h0 : P = 0
  · rw [if_pos h0]; exact Nat.zero_le _
  by_cases hW : totalWeight l = 0
  · rw [if_neg h0, if_pos hW]; exact Nat.zero_le _
  rw [if_neg h0, if_neg hW, transferSum_append]
  have h1 := C29_running_partial l P hW hb
  have hr : inflationRemainder l P = P - transferSum (runningTransfers l P) := u64sub_of_le h1 hP
  unfold remainderTransfers
  by_cases hz : inflationRemainder l P = 0
  · rw [if_pos hz]; simpa [transferSum] using h1
  · rw [if_neg hz, hr]
    generalize l.filter (fun p => !p.running) = r at *
    match r, hone with
    | [], _ => simpa [transferSum] using h1
    | [p], _ =>
      simp only [transferSum, List.map_cons, List.map_nil, List.sum_cons, List.sum_nil] at h1 ⊢
      omega
    | _ :: _ :: _, h => simp at h

/-- C29: if every pool can run, all transfers go to pools that can run and the remainder stays with the chain. -/
theorem C29_all_running (l : List InflPool) (P : Nat) (h : ∀ p ∈ l, p.running = true) :
    remainderTransfers l P = [] := by
  have : l.filter (fun p => !p.running) = [] := by
    rw [List.filter_eq_nil_iff]
    intro p hp; rw [h p hp]; decide
  unfold remainderTransfers
  rw [this]; split <;> rfl

/-- witness of the hypotheses above -/
def exampleInfl : List InflPool := [⟨0, true, Dec.one⟩, ⟨1, true, 2 * Dec.one⟩, ⟨2, false, Dec.one⟩]

example : inflationTransfers exampleInfl 100 = [(0, 33), (1, 66), (2, 1)] := by decide +kernel

/-- C29 is false: the remainder goes to *every* pool that cannot run.  With four disabled pools a provision of 100
leads to transfers of 103. -/
theorem C29_remainder_fails :
    transferSum (inflationTransfers (exampleInfl ++ [⟨3, false, 0⟩, ⟨4, false, 0⟩, ⟨5, false, 0⟩]) 100) = 103 := by
  decide +kernel

/-- C29: the remainder is not given to a running pool: a pool that cannot run receives inflation. -/
theorem C29_nonrunning_gets : ∃ p ∈ exampleInfl, p.running = false ∧ (p.id, 1) ∈ inflationTransfers exampleInfl 100 :=
  ⟨⟨2, false, Dec.one⟩, by decide +kernel, rfl, by decide +kernel⟩

/-- C29 is false without the bound: six equal pools and a provision of 10^18 get two units more than the provision
(the code then computes a wrapped remainder). -/
theorem C29_rounding_fails :
    transferSum (runningTransfers ((List.range 6).map (fun i => ⟨i, true, Dec.one⟩)) (10 ^ 18)) = 10 ^ 18 + 2 := by
  decide +kernel

end Verif.Bundles
