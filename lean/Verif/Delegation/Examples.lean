import Verif.Delegation.Solvency

/-!
# Concrete histories of x/delegation and falsified strict versions

The histories show that the hypotheses of the theorems of Properties.lean, QueueProps.lean and Solvency.lean are met by
non-trivial states; the last part refutes strict versions of C12, C01 and C08 on concrete histories.
-/

namespace Verif.Delegation
open Verif

/-- `Calm` and the other side conditions along a history, for a given finite list of stakers: the recorded operations
only concern those stakers -/
def dustOk (l : List Event) : Bool :=
  l.all (fun | .f1 a _ => decide ((ledgerOf l a).dust < Dec.one) | _ => true)

theorem ledgerOf_absent {l : List Event} {st : Addr} (h : ∀ op, Event.f1 st op ∉ l) : ledgerOf l st = Ledger.init := by
  induction l with
  | nil => rfl
  | cons e l ih =>
    have h' : ∀ op, Event.f1 st op ∉ l := fun op hm => h op (List.mem_cons_of_mem _ hm)
    cases e with
    | f1 a op =>
      rw [ledgerOf_f1, if_neg, ih h']
      rintro rfl
      exact h op (by simp)
    | request _ _ => exact ih h'
    | paid _ _ _ _ => exact ih h'
    | redelegated _ _ => exact ih h'

theorem calm_of_dustOk {s : State} (h : dustOk s.trace = true) : Calm s := by
  intro st
  by_cases hst : ∃ op, Event.f1 st op ∈ s.trace
  · obtain ⟨op, hop⟩ := hst
    have := List.all_eq_true.1 h _ hop
    simpa using this
  · rw [ledgerOf_absent (fun op ho => hst ⟨op, ho⟩)]
    show 0 < Dec.one
    decide

/-- the side conditions along a history -/
def Sys.okRun (gov : Addr) (y : Sys) : List Act → Bool
  | [] => true
  | a :: l => dustOk (y.step gov a).w.s.trace && (y.step gov a).okRun gov l

theorem Sys.run_reachable {gov : Addr} {y : Sys} (h : Sys.Reachable gov y) (l : List Act) (ho : y.okRun gov l = true) :
    Sys.Reachable gov (y.run gov l) := by
  induction l generalizing y with
  | nil => exact h
  | cons a l ih =>
    simp only [Sys.okRun, Bool.and_eq_true] at ho
    exact ih (.step a h (calm_of_dustOk ho.1)) ho.2

/-- the side conditions of `Sys.Steady` along a history -/
def Sys.okSteady (gov : Addr) (c k : Nat) (y : Sys) : List Act → Bool
  | [] => true
  | a :: l => dustOk (y.step gov a).w.s.trace && decide ((y.step gov a).w.s.params.cooldown = c)
      && decide ((y.step gov a).w.s.params.maxSpells = k) && decide ((y.step gov a).now < 2 ^ 63)
      && (y.step gov a).okSteady gov c k l

theorem Sys.run_steady {gov : Addr} {c k : Nat} {y : Sys} (h : Sys.Steady gov c k y) (l : List Act)
    (ho : y.okSteady gov c k l = true) : Sys.Steady gov c k (y.run gov l) := by
  induction l generalizing y with
  | nil => exact h
  | cons a l ih =>
    simp only [Sys.okSteady, Bool.and_eq_true, decide_eq_true_eq] at ho
    exact ih (.step a h (calm_of_dustOk ho.1.1.1.1) ho.1.1.1.2 ho.1.1.2 ho.1.2) ho.2

/-- users 1, 2, 3 have 100 of the native coin, x/pool has 50 -/
def exampleBank : Bank := fun a =>
  match a with
  | .mod .pool => Coins.single kyve 50
  | .user _ => Coins.single kyve 100
  | _ => Coins.zero

def exampleStart : Sys := Sys.init ⟨10, 20, 2, half, half, half⟩ exampleBank 1000

theorem exampleStart_reachable : Sys.Reachable 99 exampleStart := .init _ _ _ (by decide)
theorem exampleStart_steady : Sys.Steady 99 20 2 exampleStart :=
  .init _ _ _ (by decide) rfl rfl (by decide) (by decide)

/-- Users 1 and 2 delegate to stakers 7 and 8, rewards for 7, user 1 redelegates, staker 7 is slashed, both request
unbondings. -/
def exampleActs : List Act :=
  [.delegate true 1 7 60, .delegate true 2 7 20, .delegate true 2 8 30, .payout 7 (Coins.single kyve 40),
   .redelegate true true ⟨1, 7, 8, 15⟩, .beginBlock 1 false, .slash 7 .vote, .redelegate true true ⟨1, 7, 8, 5⟩,
   .undelegate 1 7 10, .beginBlock 1 true, .undelegate 2 8 30, .undelegate 2 7 10]

def exampleSys : Sys := exampleStart.run 99 exampleActs

theorem exampleSys_reachable : Sys.Reachable 99 exampleSys := Sys.run_reachable exampleStart_reachable _ (by decide +kernel)
theorem exampleSys_steady : Sys.Steady 99 20 2 exampleSys := Sys.run_steady exampleStart_steady _ (by decide +kernel)
theorem exampleSys_cool : Sys.Cool 99 exampleSys := exampleSys_steady.cool

/-- The example is not trivial: three unbonding requests wait, both spells of user 1 are used, the chain runs, the
module account holds 85 for delegations and the last reward. -/
example : exampleSys.w.s.queue.size = 3 ∧ redelegations 1 exampleSys.w.s.trace = [1001, 1000]
    ∧ curDel (exampleSys.w.s.at 7) 1 = 17 ∧ curDel (exampleSys.w.s.at 7) 2 = 10 ∧ exampleSys.w.s.halted = false
    ∧ exampleSys.w.s.amount 7 = 28 ∧ exampleSys.w.s.amount 8 = 50
    ∧ (exampleSys.w.b (.mod .delegation)).amt kyve = 88
    ∧ (exampleSys.w.b (.mod .treasury)).amt kyve = 32 := by decide +kernel

/-- The third redelegation within the window is refused, one after the window is accepted. -/
example : (redelegateMsg exampleSys.w exampleSys.now true true ⟨1, 7, 8, 1⟩).isOk = false
    ∧ (redelegateMsg (exampleSys.step 99 (.beginBlock 20 false)).w 1022 true true ⟨1, 8, 7, 1⟩).isOk = true := by
  decide +kernel

/-- A block after the unbonding time of the first request pays the first one only, a later one all three; the slashed
staker 7 pays what is left. -/
example : paids (exampleSys.step 99 (.beginBlock 9 false)).w.s.trace = [(1, ⟨7, 1, 1001, 10⟩)]
    ∧ (paids (exampleSys.step 99 (.beginBlock 10 false)).w.s.trace).length = 3
    ∧ (exampleSys.step 99 (.beginBlock 10 false)).w.s.queue.size = 0
    ∧ (exampleSys.step 99 (.beginBlock 10 false)).w.s.halted = false := by decide +kernel

/-- The ranking of the example: staker 8 before staker 7. -/
example : exampleSys.w.s.index.keys.map (·.2) = [8, 7] := by decide +kernel

/-! ## Falsified strict versions -/

/-- user 1 has `5 * 10^18` of the native coin, x/pool has 3 -/
def whaleBank : Bank := fun a =>
  match a with
  | .mod .pool => Coins.single kyve 3
  | .user _ => Coins.single kyve (5 * Dec.one)
  | _ => Coins.zero

/-- Delegate `4 * 10^18`, 3 are paid as reward, the delegator withdraws 4. -/
def whaleActs : List Act := [.delegate true 1 7 (4 * Dec.one), .payout 7 (Coins.single kyve 3), .withdraw 1 7]

def whaleStart : Sys := Sys.init ⟨10, 20, 2, half, half, half⟩ whaleBank 1000

theorem whaleStart_reachable : Sys.Reachable 99 whaleStart := .init _ _ _ (by decide)

/-- **C12 is false in the strict form**: the module account can hold less than the delegators own, because rewards are
rounded half up at the 18th decimal. -/
theorem C12_false : ∃ y, Sys.Reachable 99 y ∧ y.w.s.halted = false ∧
    (y.w.b (.mod .delegation)).amt kyve < allDelegations y.w.s := by
  refine ⟨whaleStart.run 99 whaleActs, Sys.run_reachable whaleStart_reachable _ (by decide +kernel), ?_⟩
  decide +kernel

/-- ... and then the last unbonding cannot be paid, and the chain is put into emergency halt. -/
theorem C12_halts : ∃ y, Sys.Reachable 99 y ∧ y.w.s.halted = true := by
  refine ⟨whaleStart.run 99 (whaleActs ++ [.undelegate 1 7 (4 * Dec.one), .beginBlock 10 false]),
    Sys.run_reachable whaleStart_reachable _ (by decide +kernel), ?_⟩
  decide +kernel

/-- **C08, overflow.** Without the hypothesis that block time plus unbonding time fits into 64 bits `C08_block` is
false: the sum wraps around and an undelegation is paid in the next block although the configured unbonding time is
`2^64 - 1000` seconds. -/
theorem C08_overflow_false : ∃ y, Sys.Reachable 99 y ∧ y.w.s.params.unbonding = 2 ^ 64 - 1000 ∧
    y.w.s.queue.toList = [(1, ⟨7, 1, 1000, 60⟩)] ∧
    paids (y.step 99 (.beginBlock 1 false)).w.s.trace = [(1, ⟨7, 1, 1000, 60⟩)] := by
  refine ⟨(Sys.init ⟨2 ^ 64 - 1000, 20, 2, half, half, half⟩ exampleBank 1000).run 99
    [.delegate true 1 7 60, .undelegate 1 7 60],
    Sys.run_reachable (.init _ _ _ (by decide)) _ (by decide +kernel), ?_⟩
  decide +kernel

/-- **C11, phantom entries.** The ranking can also contain addresses that never had a delegator: an undelegation of zero
from any address is accepted, and its processing adds the address with amount zero. -/
theorem C11_phantom : ∃ y, Sys.Reachable 99 y ∧ (y.w.s.at 5).data = none ∧ 5 ∈ y.w.s.index.keys.map (·.2) := by
  refine ⟨exampleStart.run 99 [.undelegate 1 5 0, .beginBlock 10 false],
    Sys.run_reachable exampleStart_reachable _ (by decide +kernel), ?_⟩
  decide +kernel

end Verif.Delegation
