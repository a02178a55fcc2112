import Verif.Lib.Coins


/-!
# x/bundles: weighted round-robin uploader selection

Model of /repo/x/bundles/keeper/logic_round_robin.go.  The in-memory `RoundRobinValidatorSet` consists of a slice of
(address, power) and a map of progress by address whose keys are exactly the addresses of the slice (they are distinct:
they come from the store of valaccounts), so it is one list of `Val`.  `int64` values are integers;
`C28_no_overflow` shows that they stay in range.
-/

namespace Verif.Bundles
open Verif

/-- `RoundRobinValidatorPower` (logic_round_robin.go:48-51) together with the validator's entry of `Progress` -/
structure Val where
  addr : Addr
  power : Nat
  prog : Int
deriving DecidableEq, Repr

/-- logic_round_robin.go:148-153 `getTotalDelegation` -/
def total (vs : List Val) : Nat := (vs.map (·.power)).sum

/-- logic_round_robin.go:158-163 `getTotalProgress` -/
def totalProgress (vs : List Val) : Int := (vs.map (·.prog)).sum

/-- logic_round_robin.go:167-182 `getMinMaxDifference` -/
def spread : List Val → Int
  | [] => 0
  | v :: l => (l.map (·.prog)).foldl max v.prog - (l.map (·.prog)).foldl min v.prog

/-- logic_round_robin.go:205-206 `NewDec(p).MulInt64(threshold).QuoInt64(diff).TruncateInt64()`; `QuoInt64` and
`TruncateInt64` round towards zero -/
def rescale (threshold diff p : Int) : Int :=
  Int.tdiv (Int.tdiv (p * (Dec.one : Int) * threshold) diff) (Dec.one : Int)

/-- logic_round_robin.go:197-209: scale down if the progress is spread over more than twice the total delegation -/
def scaled (vs : List Val) : List Val :=
  if spread vs > 2 * (total vs : Int) then
    vs.map (fun v => { v with prog := rescale (2 * (total vs : Int)) (spread vs) v.prog })
  else vs

/-- logic_round_robin.go:212 the average that is subtracted -/
def average (vs : List Val) : Int :=
  Int.tdiv (Int.tdiv (totalProgress vs * (Dec.one : Int)) (vs.length : Int)) (Dec.one : Int)

/-- logic_round_robin.go:211-215: center around zero -/
def centered (vs : List Val) : List Val := vs.map (fun v => { v with prog := v.prog - average vs })

/-- logic_round_robin.go:192-216 `normalize` -/
def normalize (vs : List Val) : List Val := if vs.isEmpty then vs else centered (scaled vs)

/-- logic_round_robin.go:108 the progress of a new validator, `Dec("-1.125").MulInt64(total).TruncateInt64()` -/
def startProgress (total : Nat) : Int := Int.tdiv (-1125000000000000000 * (total : Int)) (Dec.one : Int)

/-- logic_round_robin.go:91-110: the progress of a validator: the stored entries of its address, or the start value -/
def loadProgress (stored : List (Addr × Int)) (total : Nat) (a : Addr) : Int :=
  if stored.any (fun e => e.1 == a) then ((stored.filter (fun e => e.1 == a)).map (·.2)).sum else startProgress total

/-- logic_round_robin.go:77-89: the stakers of the pool with a positive delegation -/
def candidates (stakers : List Addr) (amt : Addr → Nat) : List Addr := stakers.filter (fun a => decide (0 < amt a))

/-- logic_round_robin.go:70-110 the set before normalization; `stakers` are the members of the pool in store order,
`amt` their delegation, `stored` the stored progress -/
def loadRaw (stakers : List Addr) (amt : Addr → Nat) (stored : List (Addr × Int)) : List Val :=
  (candidates stakers amt).map (fun a => ⟨a, amt a, loadProgress stored ((candidates stakers amt).map amt).sum a⟩)

/-- logic_round_robin.go:69-114 `LoadRoundRobinValidatorSet` -/
def load (stakers : List Addr) (amt : Addr → Nat) (stored : List (Addr × Int)) : List Val :=
  normalize (loadRaw stakers amt stored)

/-- logic_round_robin.go:117-145 `SaveRoundRobinValidatorSet`: the stored progress, sorted by address.  The validators
come in store order, which is the order of the addresses. -/
def saved (vs : List Val) : List (Addr × Int) := vs.map (fun v => (v.addr, v.prog))

/-- logic_round_robin.go:229-232: excluding as many addresses as there are validators excludes nobody -/
def effective (vs : List Val) (excluded : List Addr) : List Addr :=
  if excluded.length = vs.length then [] else excluded

/-- logic_round_robin.go:239-247: the validators that are not excluded gain their power -/
def advanced (ex : List Addr) (vs : List Val) : List Val :=
  vs.map (fun v => if v.addr ∈ ex then v else { v with prog := v.prog + (v.power : Int) })

/-- logic_round_robin.go:239-247 `excludedPower` -/
def excludedPower (ex : List Addr) (vs : List Val) : Nat := total (vs.filter (fun v => decide (v.addr ∈ ex)))

/-- logic_round_robin.go:251-256 the loop of the selection, `cur` is `currentMaxValidator` -/
def pick (ex : List Addr) : Val → List Val → Val
  | cur, [] => cur
  | cur, v :: l => pick ex (if v.addr ∉ ex ∧ v.prog > cur.prog then v else cur) l

/-- logic_round_robin.go:258: the selected validator pays -/
def charged (a : Addr) (price : Int) (vs : List Val) : List Val :=
  vs.map (fun v => if v.addr = a then { v with prog := v.prog - price } else v)

/-- logic_round_robin.go:234-258 the round after normalization and with the effective exclusions -/
def round (ex : List Addr) (vs : List Val) : Option Addr × List Val :=
  match advanced ex vs with
  | [] => (none, vs)
  | v :: l =>
    (some (pick ex v (v :: l)).addr,
     charged (pick ex v (v :: l)).addr ((total vs : Int) - (excludedPower ex vs : Int)) (v :: l))

/-- logic_round_robin.go:222-261 `NextProposer`: the chosen validator (`none` is the empty string) and the set
afterwards -/
def nextProposer (vs : List Val) (excluded : List Addr) : Option Addr × List Val :=
  if vs.isEmpty then (none, vs) else round (effective vs excluded) (normalize vs)

/-- logic_bundles.go:479-484 `chooseNextUploader`: the chosen staker and the new stored progress -/
def chooseNext (stakers : List Addr) (amt : Addr → Nat) (stored : List (Addr × Int)) (excluded : List Addr) :
    Option Addr × List (Addr × Int) :=
  ((nextProposer (load stakers amt stored) excluded).1, saved (nextProposer (load stakers amt stored) excluded).2)

/-- logic_bundles.go:491-501: the validators that are not in the list -/
def complement (vs : List Val) (included : List Addr) : List Addr :=
  (vs.map (·.addr)).filter (fun a => decide (a ∉ included))

/-- logic_bundles.go:488-506 `chooseNextUploaderFromList` -/
def chooseFromList (stakers : List Addr) (amt : Addr → Nat) (stored : List (Addr × Int)) (included : List Addr) :
    Option Addr × List (Addr × Int) :=
  chooseNext stakers amt stored (complement (load stakers amt stored) included)

end Verif.Bundles
