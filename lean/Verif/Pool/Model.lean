import Verif.Lib.Coins

/-!
# x/pool

Model of /repo/x/pool: pools, runtime upgrades, updates, inflation pool.  Messages that touch other modules
(`CreatePool`, `DisablePool`) are completed in `Verif.Chain`.
Not modelled: events, queries, logos/names/configs are opaque values.  Strings are numbers, the empty string is `0`.
-/

set_option linter.dupNamespace false

namespace Verif.Pool
open Verif

/-- an opaque string; `0` is the empty string -/
abbrev Str := Nat

/-- proto `Protocol` (x/pool/types/pool.pb.go) -/
structure Protocol where
  version : Str
  binaries : Str
  lastUpgrade : Nat
deriving DecidableEq, Repr

/-- proto `UpgradePlan` (x/pool/types/pool.pb.go); `scheduledAt = 0` means no plan -/
structure Plan where
  version : Str
  binaries : Str
  scheduledAt : Nat
  duration : Nat
deriving DecidableEq, Repr

/-- `&types.UpgradePlan{}` -/
def Plan.none : Plan := ⟨0, 0, 0, 0⟩

/-- proto `Pool` (x/pool/types/pool.pb.go).  `logo` and `config` are merged into `name` (never read by the modelled
code). -/
structure Pool where
  id : Nat
  name : Str
  runtime : Str
  startKey : Str
  currentKey : Str
  currentSummary : Str
  currentIndex : Nat
  totalBundles : Nat
  uploadInterval : Nat
  inflationShareWeight : Dec
  minDelegation : Nat
  maxBundleSize : Nat
  disabled : Bool
  protocol : Protocol
  plan : Plan
  storageProviderId : Nat
  compressionId : Nat
  endKey : Str
deriving DecidableEq, Repr

/-- x/pool/types/params.go:18-28 -/
structure Params where
  protocolInflationShare : Dec
  poolInflationPayoutRate : Dec
  maxVotingPowerPerPool : Dec
deriving Repr

/-- x/pool store: pools, counter, parameters -/
structure State where
  pools : Map Nat Pool
  count : Nat
  params : Params

/-- x/pool/keeper/getters_pool.go:55-60 `SetPool` -/
def State.setPool (s : State) (p : Pool) : State := { s with pools := s.pools.set p.id p }

/-- x/pool/keeper/getters_pool.go:38-52 `AppendPool` -/
def State.append (s : State) (p : Pool) : State :=
  { s with pools := s.pools.set s.count { p with id := s.count }, count := s.count + 1 }

/-- the loop `for pool := range GetAllPools { ...; SetPool(pool) }`; an untouched pool is written back unchanged -/
def State.forEach (s : State) (f : Pool → Pool) : State :=
  { s with pools := s.pools.toList.foldl (fun m e => m.set (f e.2).id (f e.2)) s.pools }

/-- x/pool/keeper/logic_end_block_handle_pool_upgrades.go:12-29 for one pool -/
def upgradePool (now : Nat) (p : Pool) : Pool :=
  if p.plan.scheduledAt > 0 ∧ now ≥ p.plan.scheduledAt then
    let p1 :=
      if p.protocol.version ≠ p.plan.version ∨ p.protocol.binaries ≠ p.plan.binaries then
        { p with protocol := ⟨p.plan.version, p.plan.binaries, p.plan.scheduledAt⟩ }
      else p
    if now ≥ u64add p.plan.scheduledAt p.plan.duration then { p1 with plan := Plan.none } else p1
  else p

/-- x/pool/keeper/logic_end_block_handle_pool_upgrades.go:9-31 `HandlePoolUpgrades` (end-block) -/
def handlePoolUpgrades (s : State) (now : Nat) : State := s.forEach (upgradePool now)

/-- `MsgScheduleRuntimeUpgrade` -/
structure ScheduleMsg where
  authority : Addr
  runtime : Str
  version : Str
  binaries : Str
  scheduledAt : Nat
  duration : Nat

/-- x/pool/keeper/msg_server_schedule_runtime_upgrade.go:31-58 for one pool -/
def schedulePool (now : Nat) (m : ScheduleMsg) (p : Pool) : Pool :=
  if p.runtime ≠ m.runtime then p
  else if p.plan.scheduledAt ≠ 0 then p
  else { p with plan := ⟨m.version, m.binaries, if m.scheduledAt < now then now else m.scheduledAt, m.duration⟩ }

/-- x/pool/keeper/msg_server_schedule_runtime_upgrade.go:15-71 -/
def schedule (gov : Addr) (s : State) (now : Nat) (m : ScheduleMsg) : Except String State :=
  if gov ≠ m.authority then .error "invalid authority"
  else if m.version = 0 ∨ m.binaries = 0 then .error "invalid args"
  else .ok (s.forEach (schedulePool now m))

/-- x/pool/keeper/msg_server_cancel_runtime_upgrade.go:25-37 for one pool -/
def cancelPool (runtime : Str) (p : Pool) : Pool :=
  if p.runtime ≠ runtime then p else if p.plan.scheduledAt = 0 then p else { p with plan := Plan.none }

/-- x/pool/keeper/msg_server_cancel_runtime_upgrade.go:15-45 -/
def cancel (gov : Addr) (s : State) (authority : Addr) (runtime : Str) : Except String State :=
  if gov ≠ authority then .error "invalid authority"
  else .ok (s.forEach (cancelPool runtime))

/-- `PoolUpdate` (x/pool/types/msgs.go:63-75) -/
structure Update where
  name : Option Str := none
  runtime : Option Str := none
  uploadInterval : Option Nat := none
  inflationShareWeight : Option Dec := none
  minDelegation : Option Nat := none
  maxBundleSize : Option Nat := none
  storageProviderId : Option Nat := none
  compressionId : Option Nat := none
  endKey : Option Str := none

/-- `ValidateBasic` x/pool/types/msgs.go:78-113: positive upload interval and bundle size -/
def Update.valid (u : Update) : Bool := u.uploadInterval != some 0 && u.maxBundleSize != some 0

/-- x/pool/keeper/msg_server_update_pool.go:32-64 -/
def Update.apply (u : Update) (p : Pool) : Pool :=
  { p with
    name := u.name.getD p.name
    runtime := u.runtime.getD p.runtime
    uploadInterval := u.uploadInterval.getD p.uploadInterval
    inflationShareWeight := u.inflationShareWeight.getD p.inflationShareWeight
    minDelegation := u.minDelegation.getD p.minDelegation
    maxBundleSize := u.maxBundleSize.getD p.maxBundleSize
    storageProviderId := u.storageProviderId.getD p.storageProviderId
    compressionId := u.compressionId.getD p.compressionId
    endKey := u.endKey.getD p.endKey }

/-- x/pool/keeper/msg_server_update_pool.go:16-84 -/
def update (gov : Addr) (s : State) (authority : Addr) (id : Nat) (u : Update) : Except String State :=
  if !u.valid then .error "invalid request"
  else if gov ≠ authority then .error "invalid authority"
  else match s.pools.get? id with
    | none => .error "pool not found"
    | some p => .ok (s.setPool (u.apply p))

/-- x/pool/keeper/msg_server_enable_pool.go:16-37 -/
def enable (gov : Addr) (s : State) (authority : Addr) (id : Nat) : Except String State :=
  if gov ≠ authority then .error "invalid authority"
  else match s.pools.get? id with
    | none => .error "pool not found"
    | some p => if !p.disabled then .error "already enabled" else .ok (s.setPool { p with disabled := false })

/-- x/pool/keeper/msg_server_disable_pool.go:23-39, the part of `DisablePool` inside x/pool -/
def disable (gov : Addr) (s : State) (authority : Addr) (id : Nat) : Except String State :=
  if gov ≠ authority then .error "invalid authority"
  else match s.pools.get? id with
    | none => .error "pool not found"
    | some p => if p.disabled then .error "already disabled" else .ok (s.setPool { p with disabled := true })

/-- `MsgCreatePool` (the fields that end up in the pool) -/
structure CreateMsg where
  authority : Addr
  name : Str
  runtime : Str
  startKey : Str
  endKey : Str
  uploadInterval : Nat
  inflationShareWeight : Dec
  minDelegation : Nat
  maxBundleSize : Nat
  version : Str
  binaries : Str
  /-- `json.Valid(binaries)` -/
  binariesJson : Bool
  storageProviderId : Nat
  compressionId : Nat

/-- x/pool/keeper/msg_server_create_pool.go:29-48, the new pool (`id` is set by `AppendPool`) -/
def CreateMsg.pool (m : CreateMsg) (now : Nat) : Pool :=
  { id := 0, name := m.name, runtime := m.runtime, startKey := m.startKey, currentKey := 0, currentSummary := 0,
    currentIndex := 0, totalBundles := 0, uploadInterval := m.uploadInterval,
    inflationShareWeight := m.inflationShareWeight, minDelegation := m.minDelegation,
    maxBundleSize := m.maxBundleSize, disabled := false, protocol := ⟨m.version, m.binaries, now⟩, plan := Plan.none,
    storageProviderId := m.storageProviderId, compressionId := m.compressionId, endKey := m.endKey }

/-- x/pool/keeper/msg_server_create_pool.go:18-48 (`ValidateBasic`: x/pool/types/msgs.go:32-54), the part of
`CreatePool` inside x/pool -/
def create (gov : Addr) (s : State) (now : Nat) (m : CreateMsg) : Except String State :=
  if m.uploadInterval = 0 ∨ m.maxBundleSize = 0 then .error "invalid request"
  else if gov ≠ m.authority then .error "invalid authority"
  else if !m.binariesJson then .error "invalid json"
  else .ok (s.append (m.pool now))

/-- the JSON payload of x/pool's parameter update -/
structure ParamsPayload where
  protocolInflationShare : Option Dec := none
  poolInflationPayoutRate : Option Dec := none
  maxVotingPowerPerPool : Option Dec := none

/-- `json.Unmarshal(payload, &params)` -/
def ParamsPayload.apply (y : ParamsPayload) (p : Params) : Params :=
  ⟨y.protocolInflationShare.getD p.protocolInflationShare,
   y.poolInflationPayoutRate.getD p.poolInflationPayoutRate,
   y.maxVotingPowerPerPool.getD p.maxVotingPowerPerPool⟩

/-- x/pool/types/params.go:9-15, 31-37 `DefaultParams` -/
def Params.default : Params := ⟨0, 50000000000000000, 500000000000000000⟩

/-- x/pool/types/params.go:40-54 `Params.Validate` (`util.ValidatePercentage`: in [0,1]) -/
def Params.validate (p : Params) : Bool :=
  decide (p.protocolInflationShare ≤ Dec.one) && decide (p.poolInflationPayoutRate ≤ Dec.one)
    && decide (p.maxVotingPowerPerPool ≤ Dec.one)

/-- x/pool/keeper/msg_server_update_params.go:16-35, `ValidateBasic` x/pool/types/msgs.go:182-197 -/
def updateParams (gov : Addr) (s : State) (authority : Addr) (y : ParamsPayload) : Except String State :=
  if !(y.apply .default).validate then .error "invalid params"
  else if gov ≠ authority then .error "invalid authority"
  else .ok { s with params := y.apply s.params }

/-- x/pool/keeper/logic_pool.go:58-73 `IncrementBundleInformation` -/
def incrementBundleInformation (s : State) (id currentIndex : Nat) (currentKey currentSummary : Str) : State :=
  match s.pools.get? id with
  | none => s
  | some p => s.setPool { p with
      currentIndex := currentIndex, totalBundles := p.totalBundles + 1
      currentKey := currentKey, currentSummary := currentSummary }

/-- x/pool/keeper/logic_pool.go:44-47 the payout for a given balance -/
def inflationPayout (s : State) (balance : Nat) : Nat :=
  Dec.trunc (Dec.mul (Dec.ofNat balance) s.params.poolInflationPayoutRate)

/-- x/pool/keeper/logic_pool.go:37-55 `ChargeInflationPool`: payout, new balances, and whether `PanicHalt` was called.
`Amount.Int64()` panics for balances of 2^63 and more. -/
def chargeInflationPool (s : State) (b : Bank) (id : Nat) : Except String (Nat × Bank × Bool) :=
  match s.pools.get? id with
  | none => .error "pool not found"
  | some _ =>
    if (b (.pool id)).amt kyve ≥ 2 ^ 63 then .error "overflow"
    else
      let payout := inflationPayout s ((b (.pool id)).amt kyve)
      let sent := b.send (.pool id) (.mod .pool) (Coins.single kyve payout)
      .ok (payout, b.orKeep sent, Bank.failed sent)

/-- everything that can happen inside x/pool, each at a block time.  `createPool` and `disablePool` are the parts of
these messages inside the module. -/
inductive Op where
  | create (m : CreateMsg)
  | update (authority : Addr) (id : Nat) (u : Update)
  | enable (authority : Addr) (id : Nat)
  | disable (authority : Addr) (id : Nat)
  | schedule (m : ScheduleMsg)
  | cancel (authority : Addr) (runtime : Str)
  | updateParams (authority : Addr) (y : ParamsPayload)
  | bundleFinalized (id currentIndex : Nat) (currentKey currentSummary : Str)
  | endBlock

/-- a failing message changes nothing -/
def orElse (s : State) : Except String State → State
  | .ok s' => s'
  | .error _ => s

/-- one message or end-block at time `now` -/
def step (gov : Addr) (s : State) (now : Nat) : Op → State
  | .create m => orElse s (create gov s now m)
  | .update a id u => orElse s (update gov s a id u)
  | .enable a id => orElse s (enable gov s a id)
  | .disable a id => orElse s (disable gov s a id)
  | .schedule m => orElse s (schedule gov s now m)
  | .cancel a r => orElse s (cancel gov s a r)
  | .updateParams a y => orElse s (updateParams gov s a y)
  | .bundleFinalized id i k sm => incrementBundleInformation s id i k sm
  | .endBlock => handlePoolUpgrades s now

/-- a history: operations with their block times -/
def run (gov : Addr) (s : State) (ops : List (Nat × Op)) : State := ops.foldl (fun s o => step gov s o.1 o.2) s

/-- genesis: no pools -/
def State.init : State := ⟨∅, 0, .default⟩

end Verif.Pool
