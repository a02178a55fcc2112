import Verif.Lib.Coins

/-!
# x/stakers

Model of /repo/x/stakers: stakers, pool memberships (valaccounts), the commission queue, the leave queue and commission
rewards.  Answers of other modules (does the pool exist, delegation amounts, did the self-delegation succeed) are
arguments of the operations, so the theorems hold whatever they are; `Verif.Chain` connects them.
Not modelled: events, queries and the governance hooks.  The metadata of a staker is one opaque value.
-/

namespace Verif.Stakers
open Verif

/-- proto `Staker`; `info` stands for moniker, website, identity, security contact and details -/
structure Staker where
  commission : Dec
  rewards : Coins
  info : Nat
deriving Repr

/-- proto `Valaccount`; pool and staker are its key -/
structure Val where
  valaddress : Addr
  points : Nat
  leaving : Bool
deriving DecidableEq, Repr

/-- proto `CommissionChangeEntry` (the index is its key) -/
structure Change where
  staker : Addr
  commission : Dec
  creation : Nat
deriving DecidableEq, Repr

/-- proto `LeavePoolEntry` (the index is its key) -/
structure Leave where
  staker : Addr
  pool : Nat
  creation : Nat
deriving DecidableEq, Repr

/-- types/params.go:12-27 -/
structure Params where
  commissionChangeTime : Nat
  leavePoolTime : Nat
deriving DecidableEq, Repr

/-- types/params.go:8-13 `DefaultParams`: five days each -/
def Params.default : Params := ⟨432000, 432000⟩

/-- what happened, newest first; history variable, not read by any function of the model -/
inductive Event where
  /-- `UpdateCommission` accepted at a time -/
  | ordered (staker : Addr) (commission : Dec) (time : Nat)
  /-- the commission queue set the commission (`EventUpdateCommission`); `delay` is the parameter at that time -/
  | applied (staker : Addr) (commission : Dec) (time delay : Nat)
  | joined (staker : Addr) (pool : Nat) (time : Nat)
  /-- `LeavePool` message accepted -/
  | announced (staker : Addr) (pool : Nat) (time : Nat)
  /-- the leave queue removed a member -/
  | left (staker : Addr) (pool : Nat) (time delay : Nat)
  /-- the leave queue reached an announcement of somebody who is not a member any more -/
  | expired (staker : Addr) (pool : Nat) (time : Nat)
  /-- a member was removed by anything else (slashed, pool disabled, pool full) -/
  | kicked (staker : Addr) (pool : Nat) (time : Nat)
deriving Repr

/-- x/stakers store -/
structure State where
  stakers : Map Addr Staker
  /-- valaccounts by (pool, staker), getters_valaccount.go:104-121 -/
  vals : Map (Nat × Addr) Val
  /-- secondary index by (staker, pool) -/
  valIdx : Map (Addr × Nat) Unit
  /-- `STAKER_STATS_COUNT` by pool, getters_staker.go:198-231 -/
  counts : Map Nat Nat
  /-- number of pools by active staker, getters_staker.go:238-297 -/
  active : Map Addr Nat
  changes : Map Nat Change
  /-- secondary index of the commission queue: staker to queue index, getters_commission.go -/
  changeIdx : Map Addr Nat
  cLow : Nat
  cHigh : Nat
  leaves : Map Nat Leave
  /-- secondary index of the leave queue: (staker, pool), getters_leave.go; the code stores the byte 1 and reads only
  whether the entry exists -/
  leaveIdx : Map (Addr × Nat) Nat
  lLow : Nat
  lHigh : Nat
  params : Params
  trace : List Event
  /-- history variable: coins the module account received from outside -/
  gifts : Coins

/-- types/keys.go:63 `MaxStakers` -/
def MaxStakers : Nat := 50

/-! ## memberships -/

/-- getters_valaccount.go:40-55 `GetAllValaccountsOfPool` and exported_functions.go:34-41
`GetAllStakerAddressesOfPool`: the stakers of a pool in store order -/
def State.stakersOf (s : State) (pool : Nat) : List Addr := (s.vals.keys.filter (fun k => k.1 == pool)).map (·.2)

/-- getters_valaccount.go:57-74 `GetValaccountsFromStaker` through the secondary index -/
def State.valsOf (s : State) (st : Addr) : List Val :=
  (s.valIdx.keys.filter (fun k => k.1 == st)).filterMap (fun k => s.vals.get? (k.2, k.1))

/-- getters_valaccount.go:104-121 `SetValaccount` -/
def State.setVal (s : State) (pool : Nat) (st : Addr) (v : Val) : State :=
  { s with vals := s.vals.set (pool, st) v, valIdx := s.valIdx.set (st, pool) () }

/-- getters_staker.go:217-225 `getStat`, 198-200 `GetStakerCountOfPool` -/
def State.count (s : State) (pool : Nat) : Nat := (s.counts.get? pool).getD 0

/-- getters_staker.go:249-269 `AddActiveStaker`: the new table -/
def addActive (m : Map Addr Nat) (st : Addr) : Map Addr Nat := m.set st ((m.get? st).getD 0 + 1)

/-- getters_staker.go:275-301 `removeActiveStaker`: the new table -/
def removeActive (m : Map Addr Nat) (st : Addr) : Map Addr Nat :=
  if (m.get? st).getD 0 ≤ 1 then m.del st else m.set st ((m.get? st).getD 0 - 1)

/-- getters_staker.go:62-73 `AddValaccountToPool` (with AddOneToCount 202-205) -/
def State.addVal (s : State) (pool : Nat) (st valaddress : Addr) : State :=
  if !s.stakers.has st then s
  else if s.vals.has (pool, st) then s
  else { s.setVal pool st ⟨valaddress, 0, false⟩ with
    counts := s.counts.set pool (s.count pool + 1)
    active := addActive s.active st }

/-- getters_staker.go:77-88 `RemoveValaccountFromPool` (with subtractOneFromCount 207-210; `uint64` subtraction) -/
def State.removeVal (s : State) (pool : Nat) (st : Addr) : State :=
  if !s.vals.has (pool, st) then s
  else { s with
    vals := s.vals.del (pool, st)
    valIdx := s.valIdx.del (st, pool)
    counts := s.counts.set pool (u64sub (s.count pool) 1)
    active := removeActive s.active st }

/-- exported_functions.go:22-29 `LeavePool` called by other modules or by `ensureFreeSlot` -/
def State.kick (s : State) (now pool : Nat) (st : Addr) : State :=
  if s.vals.has (pool, st) then { s.removeVal pool st with trace := .kicked st pool now :: s.trace } else s

/-- getters_valaccount.go:18-27 `IncrementPoints`: new state and points -/
def State.incrementPoints (s : State) (pool : Nat) (st : Addr) : State × Nat :=
  match s.vals.get? (pool, st) with
  | none => (s, 0)
  | some v => (s.setVal pool st { v with points := v.points + 1 }, v.points + 1)

/-- getters_valaccount.go:31-40 `ResetPoints` -/
def State.resetPoints (s : State) (pool : Nat) (st : Addr) : State :=
  match s.vals.get? (pool, st) with
  | none => s
  | some v => s.setVal pool st { v with points := 0 }

/-- exported_functions.go:52-64 `AssertValaccountAuthorized` -/
def State.authorized (s : State) (pool : Nat) (st valaddress : Addr) : Bool :=
  match s.vals.get? (pool, st) with
  | none => false
  | some v => v.valaddress == valaddress

/-- exported_functions.go:44-47 `GetCommission` (a missing staker has no commission; the callers have checked that the
staker exists) -/
def State.commission (s : State) (st : Addr) : Dec := ((s.stakers.get? st).map (·.commission)).getD 0

/-- logic_stakers.go:40-53 the loop of `getLowestStaker`: `(minAmount, val)` -/
def lowestLoop (amt : Addr → Nat) : Nat × Option Addr → List Addr → Nat × Option Addr
  | r, [] => r
  | r, a :: l => lowestLoop amt (if amt a < r.1 then (amt a, some a) else r) l

/-- logic_stakers.go:40-53 `getLowestStaker`; `amt` is `GetDelegationAmount` of x/delegation -/
def State.lowest (s : State) (amt : Addr → Nat) (pool : Nat) : Option Addr :=
  (lowestLoop amt (2 ^ 64 - 1, none) (s.stakersOf pool)).2

/-- logic_stakers.go:62-81 `ensureFreeSlot`.  Without a lowest staker (all amounts are the largest `uint64`) the code
uses the empty address, whose delegation is zero and which is in no pool. -/
def State.ensureFreeSlot (s : State) (amt : Addr → Nat) (now pool : Nat) (st : Addr) : Except String State :=
  if s.count pool < MaxStakers then .ok s
  else match s.lowest amt pool with
    | none => if amt st > 0 then .ok s else .error "stake too low"
    | some low => if amt st > amt low then .ok (s.kick now pool low) else .error "stake too low"

/-! ## messages -/

/-- `MsgJoinPool`; `dst` is the bank account of the valaddress -/
structure JoinMsg where
  creator : Addr
  pool : Nat
  valaddress : Addr
  dst : Acct
  amount : Nat

/-- the answer of x/pool's `GetPoolWithError` -/
inductive PoolAnswer where
  | missing | disabled | enabled
deriving DecidableEq, Repr

/-- module state and balances -/
structure World where
  s : State
  b : Bank

/-- util/logic_bank.go:9-31 `TransferFromAddressToAddress`: an amount of `2^63` or more is negative as `int64` and
`NewInt64Coin` panics, which fails the transaction -/
def transfer (b : Bank) (src dst : Acct) (n : Nat) : Except String Bank :=
  if n < 2 ^ 63 then b.send src dst (Coins.single kyve n) else .error "panic: negative coin amount"

/-- msg_server_join_pool.go:57-88 after the free slot was ensured -/
def finishJoin (s : State) (b : Bank) (now : Nat) (m : JoinMsg) : Except String World :=
  if (s.valsOf m.creator).any (fun v => v.valaddress == m.valaddress) then .error "valaddress already used"
  else if (s.stakersOf m.pool).any (fun st => ((s.vals.get? (m.pool, st)).map (·.valaddress)) == some m.valaddress) then
    .error "valaddress already used"
  else match transfer b (.user m.creator) m.dst m.amount with
    | .error e => .error e
    | .ok b' => .ok ⟨{ s.addVal m.pool m.creator m.valaddress with
        trace := .joined m.creator m.pool now :: s.trace }, b'⟩

/-- msg_server_join_pool.go:22-98 `JoinPool` -/
def joinPool (w : World) (now : Nat) (ans : PoolAnswer) (amt : Addr → Nat) (m : JoinMsg) : Except String World :=
  if ans = .missing then .error "pool not found"
  else if ans = .disabled then .error "can not join disabled pool"
  else if !w.s.stakers.has m.creator then .error "no staker"
  else if m.creator = m.valaddress then .error "valaddress same as staker"
  else if w.s.vals.has (m.pool, m.creator) then .error "already joined"
  else match w.s.ensureFreeSlot amt now m.pool m.creator with
    | .error e => .error e
    | .ok s => finishJoin s w.b now m

/-- msg_server_create_staker.go:18-53 `CreateStaker` without the self-delegation (`ValidateBasic`
types/message_create_staker.go:38-55: the commission is in [0,1]); `delegated`: the self-delegation succeeded, otherwise
the whole message is reverted -/
def createStaker (s : State) (creator : Addr) (commission : Dec) (delegated : Bool) : Except String State :=
  if commission > Dec.one then .error "invalid commission"
  else if s.stakers.has creator then .error "staker already created"
  else if !delegated then .error "self-delegation failed"
  else .ok { s with stakers := s.stakers.set creator ⟨commission, Coins.zero, 0⟩ }

/-- logic_leave.go:10-28 `orderLeavePool` with getters_leave.go `SetLeavePoolEntry` and logic_queue.go:10-21 -/
def State.orderLeave (s : State) (now pool : Nat) (st : Addr) : Except String State :=
  if s.leaveIdx.has (st, pool) then .error "leave already in progress"
  else .ok { s with
    lHigh := s.lHigh + 1
    leaves := s.leaves.set (s.lHigh + 1) ⟨st, pool, now⟩
    leaveIdx := s.leaveIdx.set (st, pool) (s.lHigh + 1)
    trace := .announced st pool now :: s.trace }

/-- msg_server_leave_pool.go:16-33 `LeavePool` -/
def leavePool (s : State) (now pool : Nat) (st : Addr) : Except String State :=
  match s.vals.get? (pool, st) with
  | none => .error "already left pool"
  | some v => (s.setVal pool st { v with leaving := true }).orderLeave now pool st

/-- logic_commission.go:13-30 `orderNewCommissionChange` (with `RemoveCommissionChangeEntry`,
`SetCommissionChangeEntry` of getters_commission.go) -/
def State.orderChange (s : State) (now : Nat) (st : Addr) (c : Dec) : State :=
  let changes := match s.changeIdx.get? st with | some i => s.changes.del i | none => s.changes
  { s with
    cHigh := s.cHigh + 1
    changes := changes.set (s.cHigh + 1) ⟨st, c, now⟩
    changeIdx := s.changeIdx.set st (s.cHigh + 1)
    trace := .ordered st c now :: s.trace }

/-- msg_server_update_commission.go:16-28 (`ValidateBasic` types/message_update_commission.go:38-48) -/
def updateCommission (s : State) (now : Nat) (st : Addr) (c : Dec) : Except String State :=
  if c > Dec.one then .error "invalid commission"
  else if !s.stakers.has st then .error "no staker"
  else .ok (s.orderChange now st c)

/-- msg_server_update_metadata.go:14-38 with getters_staker.go:21-40; `valid`: `ValidateBasic`
(types/message_update_metadata.go:39-67) accepts the strings -/
def updateMetadata (s : State) (st : Addr) (info : Nat) (valid : Bool) : Except String State :=
  if !valid then .error "invalid metadata"
  else match s.stakers.get? st with
    | none => .error "no staker"
    | some x => .ok { s with stakers := s.stakers.set st { x with info := info } }

/-- msg_server_claim_commission_rewards.go:13-45 (`ValidateBasic` types/message_claim_commission_rewards.go:37-51) -/
def claimRewards (w : World) (st : Addr) (c : Coins) : Except String World :=
  if c.isZero then .error "amount is empty"
  else match w.s.stakers.get? st with
    | none => .error "no staker"
    | some x =>
      if !c.le x.rewards then .error "not enough rewards"
      else match w.b.send (.mod .stakers) (.user st) c with
        | .error e => .error e
        | .ok b => .ok ⟨{ w.s with stakers := w.s.stakers.set st { x with rewards := x.rewards.sub c } }, b⟩

/-- logic_stakers.go:16-34 `IncreaseStakerCommissionRewards` with getters_staker.go:43-49 -/
def increaseRewards (w : World) (payer : Mod) (st : Addr) (c : Coins) : Except String World :=
  if c.isZero then .ok w
  else match w.s.stakers.get? st with
    | none => .error "staker does not exist"
    | some x => match w.b.send (.mod payer) (.mod .stakers) c with
      | .error e => .error e
      | .ok b => .ok ⟨{ w.s with stakers := w.s.stakers.set st { x with rewards := x.rewards.add c } }, b⟩

/-- the JSON payload of a parameter update; `Validate` (types/params.go:33-43) accepts every `uint64` -/
structure ParamsPayload where
  commissionChangeTime : Option Nat := none
  leavePoolTime : Option Nat := none

/-- `json.Unmarshal(payload, &params)` -/
def ParamsPayload.apply (y : ParamsPayload) (p : Params) : Params :=
  ⟨y.commissionChangeTime.getD p.commissionChangeTime, y.leavePoolTime.getD p.leavePoolTime⟩

/-- a `uint64` literal is accepted by `json.Unmarshal` only if it fits -/
def ParamsPayload.fits (y : ParamsPayload) : Bool :=
  decide (y.commissionChangeTime.getD 0 < twoPow64) && decide (y.leavePoolTime.getD 0 < twoPow64)

/-- msg_server_update_params.go:16-35, `ValidateBasic` types/msgs.go:20-35 -/
def updateParams (gov : Addr) (s : State) (authority : Addr) (y : ParamsPayload) : Except String State :=
  if !y.fits then .error "invalid params"
  else if gov ≠ authority then .error "invalid authority"
  else .ok { s with params := y.apply s.params }

/-! ## queues -/

/-- `entry.CreationDate + int64(time) <= blockTime` in `int64` arithmetic, logic_leave.go:39 and
logic_commission.go:43; `x % 2^64 ≥ 2^63` is negative -/
def due (creation delay now : Nat) : Bool :=
  decide (2 ^ 63 ≤ (creation + delay) % twoPow64 ∨ (creation + delay) % twoPow64 ≤ now)

/-- logic_commission.go:35-62, a due entry: remove it and set the commission (getters_staker.go:52-58) -/
def State.applyChange (s : State) (now i : Nat) (e : Change) : State :=
  { s with
    changes := s.changes.del i
    changeIdx := s.changeIdx.del e.staker
    stakers := match s.stakers.get? e.staker with
      | some x => s.stakers.set e.staker { x with commission := e.commission }
      | none => s.stakers
    trace := .applied e.staker e.commission now s.params.commissionChangeTime :: s.trace }

/-- one round of `processQueue` (logic_queue.go:25-47) for the commission queue: the state after the round and whether
the loop goes on.  The code keeps `LowIndex` in a local variable and stores it after the loop; nothing in between reads
it. -/
def changeRound (s : State) (now : Nat) : State × Bool :=
  match s.changes.get? (s.cLow + 1) with
  | none => if s.cLow < s.cHigh then ({ s with cLow := s.cLow + 1 }, true) else (s, false)
  | some e =>
    if due e.creation s.params.commissionChangeTime now then
      if s.cLow < s.cHigh then ({ s.applyChange now (s.cLow + 1) e with cLow := s.cLow + 1 }, true)
      else (s.applyChange now (s.cLow + 1) e, false)
    else (s, false)

/-- the loop of `processQueue` with an explicit bound on the number of rounds -/
def changeLoop (now : Nat) : Nat → State → State
  | 0, s => s
  | fuel + 1, s => if (changeRound s now).2 then changeLoop now fuel (changeRound s now).1 else (changeRound s now).1

/-- logic_commission.go:35-62 `ProcessCommissionChangeQueue`; every round that goes on raises `LowIndex` towards
`HighIndex`, so this many rounds are enough (`changeLoop_spec`) -/
def processChanges (s : State) (now : Nat) : State := changeLoop now (s.cHigh - s.cLow + 1) s

/-- logic_leave.go:39-46, a due entry: remove it, then `LeavePool` -/
def State.applyLeave (s : State) (now i : Nat) (e : Leave) : State :=
  { (s.removeVal e.pool e.staker) with
    leaves := s.leaves.del i
    leaveIdx := s.leaveIdx.del (e.staker, e.pool)
    trace := if s.vals.has (e.pool, e.staker) then .left e.staker e.pool now s.params.leavePoolTime :: s.trace
      else .expired e.staker e.pool now :: s.trace }

/-- one round of `processQueue` for the leave queue -/
def leaveRound (s : State) (now : Nat) : State × Bool :=
  match s.leaves.get? (s.lLow + 1) with
  | none => if s.lLow < s.lHigh then ({ s with lLow := s.lLow + 1 }, true) else (s, false)
  | some e =>
    if due e.creation s.params.leavePoolTime now then
      if s.lLow < s.lHigh then ({ s.applyLeave now (s.lLow + 1) e with lLow := s.lLow + 1 }, true)
      else (s.applyLeave now (s.lLow + 1) e, false)
    else (s, false)

/-- the loop of `processQueue` with an explicit bound on the number of rounds -/
def leaveLoop (now : Nat) : Nat → State → State
  | 0, s => s
  | fuel + 1, s => if (leaveRound s now).2 then leaveLoop now fuel (leaveRound s now).1 else (leaveRound s now).1

/-- logic_leave.go:31-49 `ProcessLeavePoolQueue` -/
def processLeaves (s : State) (now : Nat) : State := leaveLoop now (s.lHigh - s.lLow + 1) s

/-- module.go:159-165 `BeginBlock` -/
def beginBlock (s : State) (now : Nat) : State := processLeaves (processChanges s now) now

/-! ## histories -/

/-- everything that touches x/stakers -/
inductive Op where
  | createStaker (creator : Addr) (commission : Dec) (delegated : Bool)
  | join (ans : PoolAnswer) (amt : Addr → Nat) (m : JoinMsg)
  | leave (creator : Addr) (pool : Nat)
  | updateCommission (creator : Addr) (c : Dec)
  | updateMetadata (creator : Addr) (info : Nat) (valid : Bool)
  | claim (creator : Addr) (c : Coins)
  | updateParams (authority : Addr) (y : ParamsPayload)
  /-- `LeavePool` called by x/bundles (slash) or x/pool (disabled pool) -/
  | kick (pool : Nat) (st : Addr)
  | incrementPoints (pool : Nat) (st : Addr)
  | resetPoints (pool : Nat) (st : Addr)
  /-- called by x/bundles, always with x/pool as the payer -/
  | increaseRewards (st : Addr) (c : Coins)
  /-- a new block, `dt` seconds after the last one -/
  | beginBlock (dt : Nat)
  /-- anything else on the chain: other accounts may change arbitrarily, the stakers module account may receive coins
  (`JoinPool` may name any address as valaddress) -/
  | external (b : Bank) (gift : Coins)

/-- module, balances and block time -/
structure Sys where
  w : World
  now : Nat

/-- a failing message changes nothing -/
def orElse (w : World) : Except String World → World
  | .ok w' => w'
  | .error _ => w

/-- a failing message changes nothing -/
def orElseS (w : World) : Except String State → World
  | .ok s => ⟨s, w.b⟩
  | .error _ => w

/-- a message that pays into the module account on the side (a valaddress that is the stakers module account): the
history variable `gifts` notices -/
def noteGift (m : JoinMsg) (w w' : World) : World :=
  if m.dst = .mod .stakers then ⟨{ w'.s with gifts := w.s.gifts.add (Coins.single kyve m.amount) }, w'.b⟩ else w'

/-- the join message with the history variable -/
def joinStep (w : World) (now : Nat) (ans : PoolAnswer) (amt : Addr → Nat) (m : JoinMsg) : World :=
  match joinPool w now ans amt m with
  | .ok w' => noteGift m w w'
  | .error _ => w

/-- one operation -/
def Sys.step (gov : Addr) (y : Sys) : Op → Sys
  | .createStaker a c d => ⟨orElseS y.w (Stakers.createStaker y.w.s a c d), y.now⟩
  | .join ans amt m => ⟨joinStep y.w y.now ans amt m, y.now⟩
  | .leave a p => ⟨orElseS y.w (leavePool y.w.s y.now p a), y.now⟩
  | .updateCommission a c => ⟨orElseS y.w (Stakers.updateCommission y.w.s y.now a c), y.now⟩
  | .updateMetadata a i v => ⟨orElseS y.w (Stakers.updateMetadata y.w.s a i v), y.now⟩
  | .claim a c => ⟨orElse y.w (claimRewards y.w a c), y.now⟩
  | .updateParams a p => ⟨orElseS y.w (Stakers.updateParams gov y.w.s a p), y.now⟩
  | .kick p st => ⟨⟨y.w.s.kick y.now p st, y.w.b⟩, y.now⟩
  | .incrementPoints p st => ⟨⟨(y.w.s.incrementPoints p st).1, y.w.b⟩, y.now⟩
  | .resetPoints p st => ⟨⟨y.w.s.resetPoints p st, y.w.b⟩, y.now⟩
  | .increaseRewards st c => ⟨orElse y.w (Stakers.increaseRewards y.w .pool st c), y.now⟩
  | .beginBlock dt => ⟨⟨Stakers.beginBlock y.w.s (y.now + dt), y.w.b⟩, y.now + dt⟩
  | .external b g =>
    ⟨⟨{ y.w.s with gifts := y.w.s.gifts.add g }, fun a => if a = .mod .stakers then (y.w.b a).add g else b a⟩, y.now⟩

/-- a history -/
def Sys.run (gov : Addr) (y : Sys) (ops : List Op) : Sys := ops.foldl (Sys.step gov) y

/-- the empty module with some parameters, at some time -/
def Sys.init (p : Params) (b : Bank) (now : Nat) : Sys :=
  ⟨⟨⟨∅, ∅, ∅, ∅, ∅, ∅, ∅, 0, 0, ∅, ∅, 0, 0, p, [], Coins.zero⟩,
    fun a => if a = .mod .stakers then Coins.zero else b a⟩, now⟩

end Verif.Stakers
