import Mathlib.Algebra.Order.Field.Rat
import Mathlib.Tactic.FieldSimp
import Verif.Delegation.F1

/-!
# What the F1 reward distribution is supposed to compute

`Ideal` is the eager bookkeeping a user has in mind: every slash immediately shrinks every delegator's
decimal stake, and every payout immediately credits every delegator with its exact (rational) share.  It
knows nothing about periods, entries or pruning.  `Ledger` runs the model of the code and the ideal
bookkeeping side by side on the same operations and sums up what was paid in and out.
-/

namespace Verif.Delegation

/-- The operations on one staker: the messages and keeper calls that change its F1 state. -/
inductive Op where
  /-- `MsgDelegate`, or the second half of `MsgRedelegate` -/
  | delegate (who : Addr) (amount : Nat)
  /-- a matured unbonding entry, or the first half of `MsgRedelegate` -/
  | undelegate (who : Addr) (amount : Nat)
  /-- `MsgWithdrawRewards` -/
  | withdraw (who : Addr)
  /-- `SlashDelegators` with the fraction `q` (raw decimal) -/
  | slash (q : Dec)
  /-- `PayoutRewards` -/
  | payout (c : Coins)
deriving Repr

/-- The eager bookkeeping. -/
structure Ideal where
  /-- somebody has delegated to the staker at some time -/
  active : Bool
  /-- total delegation -/
  total : Nat
  /-- decimal stake (raw, i.e. times `10^18`) of every delegator -/
  stake : Addr → Dec
  /-- exact share of all payouts since the delegator's last interaction -/
  fair : Addr → Denom → ℚ
  /-- whole tokens staked at the last interaction -/
  base : Addr → Nat
  /-- number of operations on this staker since the delegator's last interaction -/
  since : Addr → Nat

def Ideal.init : Ideal := ⟨false, 0, fun _ => 0, fun _ _ => 0, fun _ => 0, fun _ => 0⟩

/-- `who` interacts and has `n` whole tokens staked afterwards. -/
def Ideal.touch (i : Ideal) (who : Addr) (n : Nat) : Ideal :=
  { i with
    stake := fun a => if a = who then Dec.ofNat n else i.stake a
    fair := fun a d => if a = who then 0 else i.fair a d
    base := fun a => if a = who then n else i.base a
    since := fun a => if a = who then 0 else i.since a + 1 }

/-- One operation of the eager bookkeeping.  An interaction truncates the interacting delegator's stake
to whole tokens.  A payout while the total delegation is zero credits nobody (division by zero is zero
in Lean). -/
def Ideal.step (i : Ideal) : Op → Ideal
  | .delegate who n =>
    { i.touch who (Dec.trunc (i.stake who) + n) with
      active := i.active || decide (n ≠ 0)
      total := i.total + n }
  | .undelegate who n =>
    { i.touch who (Dec.trunc (i.stake who) - n) with
      total := i.total - min n (Dec.trunc (i.stake who)) }
  | .withdraw who => i.touch who (Dec.trunc (i.stake who))
  | .slash q =>
    { i with
      stake := fun a => i.stake a - i.stake a * q / Dec.one
      total := i.total - i.total * q / Dec.one
      since := fun a => i.since a + 1 }
  | .payout c =>
    { i with
      fair := fun a d =>
        i.fair a d + (c.amt d : ℚ) * ((i.stake a : ℚ) / ((i.total : ℚ) * (Dec.one : ℚ)))
      since := fun a => i.since a + 1 }

/-- The model of the code and the eager bookkeeping side by side, plus running totals. -/
structure Ledger where
  f1 : F1
  ideal : Ideal
  /-- rewards accepted by `PayoutRewards` -/
  paidIn : Denom → Nat
  /-- rewards sent to delegators -/
  paidOut : Denom → Nat
  /-- exact shares of the rewards at the time they were withdrawn -/
  fairPaid : Denom → ℚ
  /-- sum over all slashes of the number of delegators at that time -/
  dust : Nat
  /-- number of operations -/
  ops : Nat
  /-- largest total delegation so far -/
  maxTotal : Nat

def Ledger.init : Ledger :=
  ⟨F1.init, Ideal.init, fun _ => 0, fun _ => 0, fun _ => 0, 0, 0, 0⟩

/-- What the staker's F1 store looks like after an operation of the code. -/
def f1Step (s : F1) : Op → F1
  | .delegate who n => (delegate s who n).1
  | .undelegate who n => (undelegate s who n).1
  | .withdraw who => (withdraw s who).1
  | .slash q => (slash s q).1
  | .payout c => payout s c

/-- The rewards the code sends to the acting delegator during an operation. -/
def f1Reward (s : F1) : Op → Coins
  | .delegate who n => (delegate s who n).2
  | .undelegate who n => (undelegate s who n).2
  | .withdraw who => (withdraw s who).2
  | .slash _ => Coins.zero
  | .payout _ => Coins.zero

/-- Who interacts in an operation. -/
def Op.who : Op → Option Addr
  | .delegate w _ | .undelegate w _ | .withdraw w => some w
  | _ => none

/-- the shares settled by an operation -/
def Ideal.settled (i : Ideal) (op : Op) (d : Denom) : ℚ :=
  match op.who with
  | some w => i.fair w d
  | none => 0

/-- the rewards an operation pays in: `PayoutRewards` refuses a staker that never had a delegator -/
def Ideal.paysIn (i : Ideal) (op : Op) (d : Denom) : Nat :=
  match op with
  | .payout c => if i.active then c.amt d else 0
  | _ => 0

/-- One operation. -/
def Ledger.step (l : Ledger) (op : Op) : Ledger where
  f1 := f1Step l.f1 op
  ideal := l.ideal.step op
  paidIn := fun d => l.paidIn d + l.ideal.paysIn op d
  paidOut := fun d => l.paidOut d + (f1Reward l.f1 op).amt d
  fairPaid := fun d => l.fairPaid d + l.ideal.settled op d
  dust := l.dust + (match op with | .slash _ => l.f1.dels.size | _ => 0)
  ops := l.ops + 1
  maxTotal := max l.maxTotal (l.ideal.step op).total

/-- The histories the properties range over: any sequence of operations, with slash fractions in `[0,1]`
(checked when the parameters are set), as long as the number of (slash, affected delegator) pairs stays
below `10^18`. -/
inductive Ledger.Reachable : Ledger → Prop
  | init : Reachable Ledger.init
  | step {l : Ledger} (op : Op) :
      Reachable l →
      (∀ q, op = .slash q → q ≤ Dec.one) →
      (l.step op).dust < Dec.one →
      Reachable (l.step op)

end Verif.Delegation
