import Verif.Delegation.Model
import Verif.Delegation.F1Props

/-!
# Histories of x/delegation

`ledgerOf` replays the F1 operations recorded for one staker with the eager bookkeeping of F1Spec.lean.
`Sys.Reachable` are the histories the module-level properties range over.
-/

namespace Verif.Delegation
open Verif

/-- the eager bookkeeping of one staker, replayed from the recorded operations -/
def ledgerOf : List Event → Addr → Ledger
  | [], _ => Ledger.init
  | .f1 a op :: t, st => if a = st then (ledgerOf t st).step op else ledgerOf t st
  | _ :: t, st => ledgerOf t st

/-- all unbonding requests, oldest first -/
def requests : List Event → List (Nat × QEntry)
  | [] => []
  | .request i e :: t => requests t ++ [(i, e)]
  | _ :: t => requests t

/-- all unbonding payments, oldest first -/
def paids : List Event → List (Nat × QEntry)
  | [] => []
  | .paid i e _ _ :: t => paids t ++ [(i, e)]
  | _ :: t => paids t

/-- the times of a delegator's redelegations, newest first -/
def redelegations (who : Addr) : List Event → List Nat
  | [] => []
  | .redelegated w t :: l => if w = who then t :: redelegations who l else redelegations who l
  | _ :: l => redelegations who l

/-- For every staker, the number of (slash, affected delegator) pairs is below `10^18`. -/
def Calm (s : State) : Prop := ∀ st, (ledgerOf s.trace st).dust < Dec.one

/-- The histories: any valid parameters at the start, any sequence of actions. -/
inductive Sys.Reachable (gov : Addr) : Sys → Prop
  | init (p : Params) (b : Bank) (now : Nat) : p.validate = true → Reachable gov (Sys.init p b now)
  | step {y : Sys} (a : Act) : Reachable gov y → Calm (y.step gov a).w.s → Reachable gov (y.step gov a)

end Verif.Delegation
