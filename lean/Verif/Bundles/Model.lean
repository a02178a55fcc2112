import Verif.Bundles.RoundRobin
import Verif.Funders.Model

/-!
# x/bundles: store, votes, payouts and lookup

Model of the store of /repo/x/bundles and of the functions that only compute: vote distribution, payouts, lookup of a
finalized bundle.  The messages and block hooks, which call the other modules, are in `Verif/Chain/Model.lean`.
An absent address (the empty string) is `none`; other strings are numbers and the empty string is `0`.
Not modelled: events, the version map of finalized bundles (read only to format query answers) and block heights.
-/

namespace Verif.Bundles
open Verif

/-- proto `BundleProposal` (types/bundles.pb.go:73-106); the pool id is its key -/
structure Proposal where
  storageId : Nat
  uploader : Option Addr
  nextUploader : Option Addr
  dataSize : Nat
  bundleSize : Nat
  updatedAt : Nat
  valid : List Addr
  invalid : List Addr
  abstain : List Addr
  fromKey : Nat
  toKey : Nat
  summary : Nat
  dataHash : Nat
  storageProviderId : Nat
  compressionId : Nat
deriving DecidableEq, Repr

/-- the zero value of `BundleProposal` with the next uploader and the time set: the proposal after a round without a
bundle, e.g. logic_bundles.go:459-463 and msg_server_skip_uploader_role.go:38-42 -/
def Proposal.blank (next : Option Addr) (now : Nat) : Proposal :=
  ⟨0, none, next, 0, 0, now, [], [], [], 0, 0, 0, 0, 0, 0⟩

/-- proto `FinalizedBundle` (types/bundles.pb.go:255-284); pool id and id are its key, `height` is left out -/
structure FBundle where
  storageId : Nat
  uploader : Option Addr
  fromIndex : Nat
  toIndex : Nat
  finalizedAt : Nat
  fromKey : Nat
  toKey : Nat
  summary : Nat
  dataHash : Nat
  storageProviderId : Nat
  compressionId : Nat
  validPower : Nat
  totalPower : Nat
deriving DecidableEq, Repr

/-- types/params.go:22-34; `storageCosts` are (provider, cost) -/
structure Params where
  uploadTimeout : Nat
  storageCosts : List (Nat × Dec)
  networkFee : Dec
  maxPoints : Nat
deriving DecidableEq, Repr

/-- types/params.go:9-19, 37-44 `DefaultParams` -/
def Params.default : Params := ⟨600, [], 10000000000000000, 24⟩

/-- types/params.go:47-67 `Validate` (decimals of the model are never negative) -/
def Params.validate (p : Params) : Bool :=
  decide (0 < p.uploadTimeout) && decide (p.networkFee ≤ Dec.one) && decide (0 < p.maxPoints)

/-- getters_params.go:24-32 `GetStorageCost`: the first entry of the provider, else zero -/
def Params.storageCost (p : Params) (provider : Nat) : Dec :=
  ((p.storageCosts.find? (fun e => e.1 == provider)).map (·.2)).getD 0

/-- x/bundles store (and memory store) -/
structure State where
  /-- the current proposal by pool -/
  proposals : Map Nat Proposal
  /-- finalized bundles by (pool, id) -/
  finalized : Map (Nat × Nat) FBundle
  /-- in memory: bundle id by (pool, from index), getters_bundles.go:82-88 -/
  index : Map (Nat × Nat) Nat
  /-- round-robin progress by pool -/
  progress : Map Nat (List (Addr × Int))
  params : Params

/-- getters_bundles.go:34-46 `GetBundleProposal`: the zero value if there is none -/
def State.proposal (s : State) (pool : Nat) : Proposal := (s.proposals.get? pool).getD (Proposal.blank none 0)

/-- getters_bundles.go:24-31 `SetBundleProposal` -/
def State.setProposal (s : State) (pool : Nat) (p : Proposal) : State :=
  { s with proposals := s.proposals.set pool p }

/-- getters_bundles.go:68-88 `SetFinalizedBundle` with `SetFinalizedBundleIndexes` -/
def State.setFinalized (s : State) (pool id : Nat) (f : FBundle) : State :=
  { s with finalized := s.finalized.set (pool, id) f, index := s.index.set (pool, f.fromIndex) id }

/-- keeper.go:86-98 `InitMemStore` in the first block after a restart: the memory store is empty and is rebuilt from
all finalized bundles -/
def State.initMemStore (s : State) : State :=
  { s with index := s.finalized.toList.foldl (fun m e => m.set (e.1.1, e.2.fromIndex) e.1.2) ∅ }

/-- getters_round_robin.go:21-32 `GetRoundRobinProgress`: no entries if nothing is stored -/
def State.progressOf (s : State) (pool : Nat) : List (Addr × Int) := (s.progress.get? pool).getD []

/-- getters_bundles.go:291-309 `GetFinalizedBundleByIndex`: the last entry of the pool's index strictly below
`index + 1` (`uint64` addition), if the bundle it points to contains the index.  Answers the bundle id and the bundle. -/
def State.lookup (s : State) (pool i : Nat) : Option (Nat × FBundle) :=
  match ((s.index.toList.filter (fun e => e.1.1 == pool && decide (e.1.2 < u64add i 1))).getLast?) with
  | none => none
  | some e =>
    match s.finalized.get? (pool, e.2) with
    | none => none
    | some f => if f.fromIndex ≤ i ∧ i < f.toIndex then some (e.2, f) else none

/-! ## votes -/

/-- `BundleStatus`; `unspecified` is the zero value -/
inductive Status where
  | unspecified | valid | invalid | noQuorum
deriving DecidableEq, Repr

/-- proto `VoteDistribution` -/
structure VoteDist where
  valid : Nat
  invalid : Nat
  abstain : Nat
  total : Nat
  status : Status
deriving DecidableEq, Repr

/-- the sum of voting powers as `uint64` -/
def power (amt : Addr → Nat) (l : List Addr) : Nat := (l.map amt).sum % twoPow64

/-- logic_bundles.go:549-561 the decision -/
def decideStatus (valid invalid total : Nat) : Status :=
  if total = 0 then .noQuorum
  else if (valid * 2) % twoPow64 > total then .valid
  else if (invalid * 2) % twoPow64 ≥ total then .invalid
  else .noQuorum

/-- logic_bundles.go:510-564 `GetVoteDistribution` for an existing proposal; `member`: does the voter have a valaccount
in the pool, `stakers` the pool's stakers, `amt` their delegation -/
def voteDist (member : Addr → Bool) (amt : Addr → Nat) (stakers : List Addr) (p : Proposal) : VoteDist :=
  ⟨power amt (p.valid.filter member), power amt (p.invalid.filter member), power amt (p.abstain.filter member),
   power amt stakers,
   decideStatus (power amt (p.valid.filter member)) (power amt (p.invalid.filter member)) (power amt stakers)⟩

/-! ## payouts -/

/-- types/types.go `BundleReward` -/
structure Reward where
  total : Coins
  treasury : Coins
  storage : Coins
  commission : Coins
  delegation : Coins
deriving DecidableEq, Repr

/-- the zero value -/
def Reward.none : Reward := ⟨Coins.zero, Coins.zero, Coins.zero, Coins.zero, Coins.zero⟩

/-- the part `fraction` of coins, rounded down: `NewDecCoinsFromCoins(c).MulDec(fraction).TruncateDecimal()` -/
def share (c : Coins) (fraction : Dec) : Coins := c.mapAmt (fun n => Dec.trunc (Dec.mul (Dec.ofNat n) fraction))

/-- the absolute value of `int64(n)` for a `uint64` -/
def i64abs (n : Nat) : Nat := if n < 2 ^ 63 then n else twoPow64 - n

/-- logic_bundles.go:283 the absolute value of `storageCostPerCoin`: `cost.MulInt64(int64(size)).QuoInt64(len)` -/
def costPerCoin (cost : Dec) (dataSize len : Nat) : Dec := cost * i64abs dataSize / len

/-- logic_bundles.go:291-295 the absolute value of the wanted amount of a coin (rounding is symmetric) -/
def wantedAmount (perCoin : Dec) (e : Funders.Entry) : Nat :=
  Dec.trunc (Dec.quo (Dec.mul perCoin (Dec.ofNat (10 ^ e.decimals))) e.weight)

/-- logic_bundles.go:284-297 the wanted amount of a coin; nothing for a coin without weight -/
def wantedOf (w : Funders.Params) (perCoin : Dec) (d : Denom) : Nat :=
  match w.entry? d with
  | none => 0
  | some e => if e.weight = 0 then 0 else wantedAmount perCoin e

/-- does the loop of logic_bundles.go:284-297 panic?  A coin that is not on the whitelist has a nil weight; a negative
amount (the data size is negative as `int64`) is no coin. -/
def wantedPanics (w : Funders.Params) (cost : Dec) (dataSize : Nat) (rest : Coins) : Bool :=
  rest.denoms.any (fun d => (w.entry? d).isNone) ||
  (decide (2 ^ 63 ≤ dataSize) &&
    rest.denoms.any (fun d => wantedOf w (costPerCoin cost dataSize rest.denoms.length) d != 0))

/-- logic_bundles.go:301 the storage reward -/
def storageReward (w : Funders.Params) (cost : Dec) (dataSize : Nat) (rest : Coins) : Coins :=
  rest.min (Coins.ofFn rest.denoms (wantedOf w (costPerCoin cost dataSize rest.denoms.length)))

/-- the arguments of `calculatePayouts` -/
structure PayoutArgs where
  total : Coins
  fee : Dec
  cost : Dec
  dataSize : Nat
  whitelist : Funders.Params
  commission : Dec
  /-- the uploader has delegation -/
  delegated : Bool

/-- what is left after the treasury -/
def PayoutArgs.rest1 (a : PayoutArgs) : Coins := a.total.sub (share a.total a.fee)

/-- what is left after the storage reward -/
def PayoutArgs.rest2 (a : PayoutArgs) : Coins :=
  a.rest1.sub (storageReward a.whitelist a.cost a.dataSize a.rest1)

/-- what is left after the commission -/
def PayoutArgs.rest3 (a : PayoutArgs) : Coins := a.rest2.sub (share a.rest2 a.commission)

/-- logic_bundles.go:251-326: the payouts of an existing uploader; `none` is a panic (`Coins.Sub` with a negative
result if a fraction exceeds one, or `wantedPanics`) -/
def splitPayout (a : PayoutArgs) : Option Reward :=
  if a.total.isZero then some .none
  else if !(share a.total a.fee).le a.total then none
  else if a.rest1.isZero then some ⟨a.total, share a.total a.fee, Coins.zero, Coins.zero, Coins.zero⟩
  else if wantedPanics a.whitelist a.cost a.dataSize a.rest1 then none
  else if a.rest2.isZero then
    some ⟨a.total, share a.total a.fee, storageReward a.whitelist a.cost a.dataSize a.rest1, Coins.zero, Coins.zero⟩
  else if !(share a.rest2 a.commission).le a.rest2 then none
  else if a.delegated then
    some ⟨a.total, share a.total a.fee, storageReward a.whitelist a.cost a.dataSize a.rest1,
      share a.rest2 a.commission, a.rest3⟩
  else
    some ⟨a.total, share a.total a.fee, storageReward a.whitelist a.cost a.dataSize a.rest1,
      (share a.rest2 a.commission).add a.rest3, Coins.zero⟩

/-- logic_bundles.go:238-327 `calculatePayouts`: without a staker as uploader nothing is paid -/
def calculatePayouts (uploaderExists : Bool) (a : PayoutArgs) : Option Reward :=
  if uploaderExists then splitPayout a else some .none

/-! ## parameters -/

/-- the JSON payload of a parameter update (each key at most once, no `null`) -/
structure ParamsPayload where
  uploadTimeout : Option Nat := .none
  /-- provider id and cost; an element without cost is refused by `ValidateBasic`, so it is not represented -/
  storageCosts : Option (List (Option Nat × Dec)) := .none
  networkFee : Option Dec := .none
  maxPoints : Option Nat := .none

/-- `json.Unmarshal` of a list into an existing slice: element `i` is decoded into element `i`, so a missing provider
id is the one that stood there before (or `0`); the result is as long as the payload -/
def mergeCosts : List (Nat × Dec) → List (Option Nat × Dec) → List (Nat × Dec)
  | _, [] => []
  | [], q :: qs => (q.1.getD 0, q.2) :: mergeCosts [] qs
  | e :: es, q :: qs => (q.1.getD e.1, q.2) :: mergeCosts es qs

/-- `json.Unmarshal(payload, &params)` -/
def ParamsPayload.apply (y : ParamsPayload) (p : Params) : Params :=
  ⟨y.uploadTimeout.getD p.uploadTimeout,
   match y.storageCosts with | .none => p.storageCosts | .some l => mergeCosts p.storageCosts l,
   y.networkFee.getD p.networkFee, y.maxPoints.getD p.maxPoints⟩

/-- msg_server_update_params.go:18-37, `ValidateBasic` types/msgs.go:20-37 -/
def updateParams (gov : Addr) (s : State) (authority : Addr) (y : ParamsPayload) : Except String State :=
  if !(y.apply .default).validate then .error "invalid params"
  else if gov ≠ authority then .error "invalid authority"
  else .ok { s with params := y.apply s.params }

/-- the empty store -/
def State.init : State := ⟨∅, ∅, ∅, ∅, .default⟩

end Verif.Bundles
