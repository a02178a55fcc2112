import Verif.Stakers.Properties

/-!
# Concrete histories: the hypotheses of the theorems are met, and where the code falls short
-/

namespace Verif.Stakers
open Verif

/-- 10^17 = 10% and 2·10^17 = 20% -/
def tenPercent : Dec := 100000000000000000
def twentyPercent : Dec := 200000000000000000

/-- everybody starts with 1000 kyve -/
def exBank : Bank := fun a => match a with | .user _ => Coins.single kyve 1000 | .mod _ => Coins.single kyve 1000 | .pool _ => Coins.zero

def exInit : Sys := Sys.init Params.default exBank 1000

/-- every staker has as much delegation as its address -/
def exAmt (a : Addr) : Nat := if a < 1000 then a else 1000

theorem exAmt_lt (a : Addr) : exAmt a < 2 ^ 64 - 1 := by
  unfold exAmt; split
  · have : a < 1000 := by assumption
    have e : (1000 : Nat) < 2 ^ 64 - 1 := by norm_num
    exact lt_trans this e
  · norm_num

def exJoin (st pool va : Addr) : Op := .join .enabled exAmt ⟨st, pool, va, .user va, 10⟩

/-- a history is accepted: all delegation amounts in it are small -/
theorem reach {ops : List Op} (h : ∀ o ∈ ops, o.ok) : Reachable 99 (Sys.run 99 exInit ops) :=
  ⟨Params.default, exBank, 1000, ops, h, rfl⟩

/-! ## one staker -/

def exOps : List Op :=
  [.createStaker 1 tenPercent true, exJoin 1 0 101, .updateCommission 1 0, .beginBlock 100,
   .updateCommission 1 twentyPercent, .increaseRewards 1 (Coins.single kyve 300), .leave 1 0]

def exSys : Sys := Sys.run 99 exInit exOps

theorem exSys_reachable : Reachable 99 exSys := by
  apply reach
  intro o ho
  simp only [exOps, List.mem_cons, List.not_mem_nil, or_false] at ho
  rcases ho with rfl | rfl | rfl | rfl | rfl | rfl | rfl <;> first | exact trivial | exact exAmt_lt

-- C13, C15
example : exSys.w.s.stakersOf 0 = [1] ∧ exSys.w.s.count 0 = 1 ∧ exSys.w.s.active.get? 1 = some 1 ∧
    exSys.w.s.vals.get? (0, 1) = some ⟨101, 0, true⟩ := by decide +kernel
-- C16: the second order replaced the first
example : exSys.w.s.pending 1 = some (twentyPercent, 1100) ∧ exSys.w.s.rate 1 = some tenPercent := by decide +kernel
example : exSys.w.s.stakers.has 1 = true ∧ (0 : Dec) ≤ Dec.one := by decide +kernel
-- C17
example : exSys.w.s.announcement 1 0 = some 1100 ∧ exSys.w.s.member 0 1 = true := by decide +kernel
-- C18
example : (exSys.w.s.unclaimed 1).amt kyve = 300 ∧ (exSys.w.b (.mod .stakers)).amt kyve = 300 := by decide +kernel
example : (match claimRewards exSys.w 1 (Coins.single kyve 200) with
    | .ok w => (w.s.unclaimed 1).amt kyve == 100 && (w.b (.user 1)).amt kyve == 1190
    | .error _ => false) = true := by decide +kernel
example : (match claimRewards exSys.w 1 (Coins.single kyve 301) with | .ok _ => false | .error _ => true) = true := by
  decide +kernel
-- C16, C17: one second before the time nothing happens, then both take effect
example : (Sys.step 99 exSys (.beginBlock 431999)).w.s.rate 1 = some tenPercent ∧
    (Sys.step 99 exSys (.beginBlock 431999)).w.s.member 0 1 = true := by decide +kernel
example : (Sys.step 99 exSys (.beginBlock 432000)).w.s.rate 1 = some twentyPercent ∧
    (Sys.step 99 exSys (.beginBlock 432000)).w.s.member 0 1 = false ∧
    (Sys.step 99 exSys (.beginBlock 432000)).w.s.pending 1 = none := by decide +kernel
example : exSys.now + 432000 + exSys.w.s.params.commissionChangeTime < 2 ^ 63 ∧
    exSys.now + 432000 + exSys.w.s.params.leavePoolTime < 2 ^ 63 := by decide +kernel

/-! ## a full pool -/

def fullOps : List Op :=
  ((List.range 51).map (fun i => Op.createStaker (i + 1) tenPercent true)) ++
  ((List.range 50).map (fun i => exJoin (i + 1) 0 (i + 101)))

def fullSys : Sys := Sys.run 99 exInit fullOps

theorem fullSys_reachable : Reachable 99 fullSys := by
  apply reach
  intro o ho
  rcases List.mem_append.1 ho with h | h
  · obtain ⟨i, -, rfl⟩ := List.mem_map.1 h; exact trivial
  · obtain ⟨i, -, rfl⟩ := List.mem_map.1 h; exact exAmt_lt

def fullMsg : JoinMsg := ⟨51, 0, 151, .user 151, 10⟩

-- C14: the pool is full, staker 51 gets in and staker 1 is out
example : (fullSys.w.s.stakersOf 0).length = 50 := by decide +kernel
example : (match joinPool fullSys.w fullSys.now .enabled exAmt fullMsg with
    | .ok w => w.s.member 0 51 && !w.s.member 0 1 && w.s.member 0 2 && w.s.count 0 == 50
    | .error _ => false) = true := by decide +kernel
-- with as much delegation as the smallest member it does not
example : (match joinPool fullSys.w fullSys.now .enabled (fun a => if a = 51 then 1 else exAmt a) fullMsg with
    | .ok _ => false
    | .error _ => true) = true := by decide +kernel

/-! ## where the code falls short -/

/-- What C15 does not promise: two different stakers may use the same protocol-node address in two pools. -/
theorem C15_shared_across_pools : ∃ y, Reachable 99 y ∧ y.w.s.authorized 0 1 101 = true ∧ y.w.s.authorized 1 2 101 = true := by
  refine ⟨Sys.run 99 exInit [.createStaker 1 0 true, .createStaker 2 0 true, exJoin 1 0 101, exJoin 2 1 101], reach ?_, ?_⟩
  · intro o ho
    simp only [List.mem_cons, List.not_mem_nil, or_false] at ho
    rcases ho with rfl | rfl | rfl | rfl <;> first | exact trivial | exact exAmt_lt
  · decide +kernel

def overflowOps : List Op :=
  [.createStaker 1 tenPercent true, .updateParams 99 { commissionChangeTime := some (2 ^ 63) },
   .updateCommission 1 twentyPercent, .beginBlock 0]

/-- C16 needs the bound on times: with a commission change time of 2^63 seconds, which governance may set, a change takes
effect in the same second because `int64` overflows. -/
theorem C16_overflow : ∃ y, Reachable 99 y ∧ y.w.s.params.commissionChangeTime = 2 ^ 63 ∧ y.now = 1000 ∧
    y.w.s.rate 1 = some twentyPercent := by
  refine ⟨Sys.run 99 exInit overflowOps, reach ?_, ?_⟩
  · intro o ho
    simp only [overflowOps, List.mem_cons, List.not_mem_nil, or_false] at ho
    rcases ho with rfl | rfl | rfl | rfl <;> exact trivial
  · decide +kernel

/-- staker 1 announces leaving, is kicked (slashed), joins again ten seconds before the leave time is over, and announces
nothing -/
def staleOps : List Op :=
  [.createStaker 1 0 true, exJoin 1 0 101, .leave 1 0, .kick 0 1, .beginBlock 431990, exJoin 1 0 102]

/-- C17 fails in general: an announcement survives a kick and removes the staker after it joined again without announcing
anything. -/
theorem C17_stale_announcement : ∃ y, Reachable 99 y ∧
    y.w.s.vals.get? (0, 1) = some ⟨102, 0, false⟩ ∧ y.w.s.params.leavePoolTime = 432000 ∧
    (Sys.step 99 y (.beginBlock 10)).w.s.member 0 1 = false ∧
    (∃ e, leavePool y.w.s y.now 0 1 = .error e) := by
  refine ⟨Sys.run 99 exInit staleOps, reach ?_, ?_, ?_, ?_, ?_⟩
  · intro o ho
    simp only [staleOps, List.mem_cons, List.not_mem_nil, or_false] at ho
    rcases ho with rfl | rfl | rfl | rfl | rfl | rfl <;> first | exact trivial | exact exAmt_lt
  · decide +kernel
  · decide +kernel
  · decide +kernel
  · have : (match leavePool (Sys.run 99 exInit staleOps).w.s (Sys.run 99 exInit staleOps).now 0 1 with
        | .ok _ => false | .error _ => true) = true := by decide +kernel
    cases h : leavePool (Sys.run 99 exInit staleOps).w.s (Sys.run 99 exInit staleOps).now 0 1 with
    | ok s => rw [h] at this; cases this
    | error e => exact ⟨e, rfl⟩

end Verif.Stakers
