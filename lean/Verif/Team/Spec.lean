import Verif.Team.Model

/-!
# What x/team promises (independent specification)
-/

namespace Verif.Team.Spec
open Verif Verif.Team

/-- one year in seconds -/
def year : Nat := 31536000

/-- Seconds an account has been vesting at time `t`: from its commencement until `t`, or until the clawback
date if one is set and already passed. -/
def elapsed (commencement clawback t : Nat) : Nat :=
  (if clawback = 0 then t else min t clawback) - commencement

/-- Vested amount: nothing in the first year, linear until year three, then everything. -/
def vestedAfter (total d : Nat) : Nat :=
  if d < year then 0 else if d < 3 * year then total * d / (3 * year) else total

/-- Vested amount of an account at time `t`. -/
def vested (a : Account) (t : Nat) : Nat := vestedAfter a.totalAllocation (elapsed a.commencement a.clawback t)

/-- When unlocking starts: one year after the commencement or the token generation event, whichever is later. -/
def unlockStart (a : Account) : Nat := max a.commencement TGE + year

/-- Unlocked amount: linear share of the vested amount during two years, afterwards all that vested. -/
def unlocked (a : Account) (t : Nat) : Nat :=
  if t < unlockStart a then 0
  else if t < unlockStart a + 2 * year then vested a t * (t - unlockStart a) / (2 * year)
  else vested a t

/-- Accounts with in-range numbers: `int64`-positive allocation, commencement that does not overflow, clawback not
before the commencement. -/
structure Sane (a : Account) : Prop where
  total : a.totalAllocation < 2 ^ 63
  comm : a.commencement < 2 ^ 62
  cb : a.clawback = 0 ∨ a.commencement ≤ a.clawback
  cb64 : a.clawback < 2 ^ 64

/-- Create-messages with in-range numbers (all other messages are unrestricted 64-bit values). -/
def SaneOp : Op → Prop
  | .create _ total c => total < 2 ^ 63 ∧ c < 2 ^ 62
  | .clawback _ _ cb => cb < 2 ^ 64
  | _ => True

/-- The true (unbounded) sum of what all accounts can vest at most. -/
def totalIssued (s : State) : Nat := s.accounts.sum (fun _ a => maxAmount a)

/-- The module account balance in the native coin. -/
def balance (w : World) : Nat := (w.bank (.mod .team)).amt kyve

/-- Everything ever credited as rewards (accounts and authority). -/
def credited (s : State) : Nat := s.authTotal + s.accounts.sum (fun _ a => a.totalRewards)

/-- Everything ever paid out (unlocked tokens, account rewards, authority rewards). -/
def paid (s : State) : Nat :=
  s.authClaimed + s.accounts.sum (fun _ a => a.unlockedClaimed + a.rewardsClaimed)

end Verif.Team.Spec
