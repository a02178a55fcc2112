import Verif.Delegation.F1Spec

/-!
# x/delegation: messages, unbonding queue, redelegation spells, ranking and bank

Model of /repo/x/delegation around the F1 distribution of one staker (`Verif/Delegation/F1.lean`).
Not modelled: events as such (the history variable `trace` records what happened and is read by no function
of the model), paginated queries, gas.
-/

namespace Verif.Delegation
open Verif

/-- proto `UndelegationQueueEntry` (x/delegation/types/delegation.pb.go); its index is its key -/
structure QEntry where
  staker : Addr
  delegator : Addr
  creation : Nat
  amount : Nat
deriving DecidableEq, Repr

/-- x/delegation/types/params.go `Params` -/
structure Params where
  unbonding : Nat
  cooldown : Nat
  maxSpells : Nat
  voteSlash : Dec
  uploadSlash : Dec
  timeoutSlash : Dec
deriving DecidableEq, Repr

/-- x/delegation/types/params.go:8-24, 46-55 `DefaultParams` -/
def Params.default : Params :=
  ⟨432000, 432000, 5, 100000000000000000, 200000000000000000, 20000000000000000⟩

/-- x/delegation/types/params.go:58-84 `Validate` (`util.ValidatePercentage`: in [0,1]; every `uint64` is a valid
number) -/
def Params.validate (p : Params) : Bool :=
  decide (p.voteSlash ≤ Dec.one) && decide (p.uploadSlash ≤ Dec.one) && decide (p.timeoutSlash ≤ Dec.one)

/-- What happened, as recorded by the history variable. -/
inductive Event where
  /-- an operation on a staker's F1 store -/
  | f1 (staker : Addr) (op : Op)
  /-- `EventStartUndelegation` with the queue index -/
  | request (index : Nat) (e : QEntry)
  /-- `EventUndelegate` of the unbonding queue: queue index, entry, amount paid, time -/
  | paid (index : Nat) (e : QEntry) (amount time : Nat)
  /-- `EventRedelegate`: creator and time -/
  | redelegated (who : Addr) (time : Nat)
deriving Repr

/-- x/delegation store (and memory store). -/
structure State where
  /-- the F1 stores by staker -/
  f1 : Map Addr F1
  /-- the unbonding queue by index, getters_undelegation.go -/
  queue : Map Nat QEntry
  /-- `QueueState.LowIndex` -/
  low : Nat
  /-- `QueueState.HighIndex` -/
  high : Nat
  /-- `RedelegationCooldown` entries, getters_redelegation.go -/
  spells : Map (Addr × Nat) Unit
  /-- the in-memory ranking, getters_index_stakers.go: keys `(MaxUint64 - amount, staker)` -/
  index : Map (Nat × Addr) Unit
  params : Params
  /-- `PanicHalt` was called because a transfer failed -/
  halted : Bool
  /-- history variable, newest first; not read by any function of the model -/
  trace : List Event
  /-- history variable: coins received by the module account from outside the module (see `Act.external`) -/
  gifts : Coins

/-- module state and balances -/
structure World where
  s : State
  b : Bank

/-- the staker's F1 store -/
def State.at (s : State) (st : Addr) : F1 := (s.f1.get? st).getD F1.init

/-- exported_functions.go:19-27 `GetDelegationAmount` -/
def State.amount (s : State) (st : Addr) : Nat := ((s.at st).data.getD Data.fresh).total

/-- one operation on a staker's F1 store -/
def State.apply (s : State) (st : Addr) (op : Op) : State :=
  { s with f1 := s.f1.set st (f1Step (s.at st) op), trace := .f1 st op :: s.trace }

/-- `math.MaxUint64` -/
def maxU64 : Nat := 18446744073709551615

/-- getters_index_stakers.go:78-83 `SetStakerIndex` -/
def State.setIndex (s : State) (st : Addr) : State := { s with index := s.index.set (maxU64 - s.amount st, st) () }

/-- getters_index_stakers.go:87-92 `RemoveStakerIndex` -/
def State.removeIndex (s : State) (st : Addr) : State := { s with index := s.index.del (maxU64 - s.amount st, st) }

/-- removing the index entry, an F1 operation, setting the index entry: the frame of `performDelegation`,
`performUndelegation` and `SlashDelegators` -/
def State.applyIndexed (s : State) (st : Addr) (op : Op) : State := ((s.removeIndex st).apply st op).setIndex st

/-- the reward transfer of `performWithdrawal`, logic_delegation.go:62-70 -/
def rewardTransfer (w : World) (st : Addr) (op : Op) (who : Addr) : Except String Bank :=
  w.b.send (.mod .delegation) (.user who) (f1Reward (w.s.at st) op)

/-- an F1 operation with a withdrawal inside, with the ranking update and the reward transfer; a failing transfer
calls `PanicHalt` and goes on: logic_delegation.go:11-31 `performDelegation`, :36-58 `performUndelegation` -/
def performOp (w : World) (st : Addr) (op : Op) (who : Addr) : World :=
  ⟨{ w.s.applyIndexed st op with halted := w.s.halted || Bank.failed (rewardTransfer w st op who) },
   w.b.orKeep (rewardTransfer w st op who)⟩

/-- logic_delegation.go:11-31 `performDelegation` -/
def performDelegation (w : World) (st who : Addr) (n : Nat) : World := performOp w st (.delegate who n) who

/-- logic_delegation.go:36-58 `performUndelegation`; the amount it returns is `undelegated (w.s.at st) who n` -/
def performUndelegation (w : World) (st who : Addr) (n : Nat) : World := performOp w st (.undelegate who n) who

/-- the coins of a `uint64` amount of the native coin; an amount of `2^63` or more is negative as `int64` and
`NewInt64Coin` panics, which fails the transaction (util/logic_bank.go:55) -/
def transferUser (b : Bank) (src dst : Acct) (n : Nat) : Except String Bank :=
  if n < 2 ^ 63 then b.send src dst (Coins.single kyve n) else .error "panic: negative coin amount"

/-- msg_server_delegate.go:17-40 `Delegate`; `stakerExists` is the answer of x/stakers -/
def delegateMsg (w : World) (stakerExists : Bool) (creator st : Addr) (n : Nat) : Except String World :=
  if !stakerExists then .error "staker does not exist"
  else match transferUser (performDelegation w st creator n).b (.user creator) (.mod .delegation) n with
    | .error e => .error e
    | .ok b => .ok ⟨(performDelegation w st creator n).s, b⟩

/-- conversion of a `uint64` to `int64` -/
def i64 (n : Nat) : Int := if n < 2 ^ 63 then (n : Int) else (n : Int) - 2 ^ 64

/-- getters_redelegation.go:27-39 `GetRedelegationCooldownEntries` (ascending) -/
def State.spellsOf (s : State) (who : Addr) : List Nat :=
  (s.spells.keys.filter (fun k => k.1 == who)).map (·.2)

/-- is a cooldown entry over? logic_redelegation.go:18 -/
def expired (s : State) (now t : Nat) : Bool := decide (i64 s.params.cooldown < (now : Int) - i64 t)

/-- logic_redelegation.go:17-23: remove entries from the oldest on, stop at the first that is not over -/
def dropExpired (m : Map (Addr × Nat) Unit) (over : Nat → Bool) (who : Addr) : List Nat → Map (Addr × Nat) Unit
  | [] => m
  | t :: l => if over t then dropExpired (m.del (who, t)) over who l else m

/-- logic_redelegation.go:17-26 the store after the removal of expired entries -/
def cleanSpells (s : State) (now : Nat) (who : Addr) : State :=
  { s with spells := dropExpired s.spells (expired s now) who (s.spellsOf who) }

/-- the part of `consumeRedelegationSpell` after the clean-up, logic_redelegation.go:28-45 -/
def takeSpell (s : State) (now : Nat) (who : Addr) : Except String State :=
  if s.params.maxSpells ≤ (s.spellsOf who).length then .error "all redelegation slots are on cooldown"
  else if (s.spellsOf who).getLast? = some now then .error "only one redelegation per block"
  else .ok { s with spells := s.spells.set (who, now) () }

/-- logic_redelegation.go:14-46 `consumeRedelegationSpell` (`int(max)` is modelled as the number itself) -/
def consumeSpell (s : State) (now : Nat) (who : Addr) : Except String State :=
  takeSpell (cleanSpells s now who) now who

/-- `MsgRedelegate` -/
structure RedelegateMsg where
  creator : Addr
  src : Addr
  dst : Addr
  amount : Nat

/-- msg_server_redelegate.go:45-59: the undelegation and the delegation -/
def finishRedelegate (w : World) (now : Nat) (m : RedelegateMsg) : Except String World :=
  if undelegated (w.s.at m.src) m.creator m.amount ≠ m.amount then .error "not enough delegation"
  else
    .ok ⟨{ (performDelegation (performUndelegation w m.src m.creator m.amount) m.dst m.creator m.amount).s with
            trace := .redelegated m.creator now ::
              (performDelegation (performUndelegation w m.src m.creator m.amount) m.dst m.creator m.amount).s.trace },
         (performDelegation (performUndelegation w m.src m.creator m.amount) m.dst m.creator m.amount).b⟩

/-- msg_server_redelegate.go:18-60 `Redelegate`; `dstExists`, `dstActive` are the answers of x/stakers about the
destination (it exists; it has a valaccount in some pool) -/
def redelegateMsg (w : World) (now : Nat) (dstExists dstActive : Bool) (m : RedelegateMsg) : Except String World :=
  if !(w.s.at m.src).dels.has m.creator then .error "not a delegator"
  else if !dstExists then .error "staker does not exist"
  else if !dstActive then .error "redelegation to inactive staker"
  else if curDel (w.s.at m.src) m.creator < m.amount then .error "not enough delegation"
  else match consumeSpell w.s now m.creator with
    | .error e => .error e
    | .ok s => finishRedelegate ⟨s, w.b⟩ now m

/-- logic_unbonding.go:12-32 `StartUnbondingDelegator` -/
def startUnbonding (s : State) (now : Nat) (st who : Addr) (n : Nat) : State :=
  { s with
    high := s.high + 1
    queue := s.queue.set (s.high + 1) ⟨st, who, now, n⟩
    trace := .request (s.high + 1) ⟨st, who, now, n⟩ :: s.trace }

/-- msg_server_undelegate.go:16-36 `Undelegate` -/
def undelegateMsg (w : World) (now : Nat) (creator st : Addr) (n : Nat) : Except String World :=
  if curDel (w.s.at st) creator < n then .error "not enough delegation"
  else .ok ⟨startUnbonding w.s now st creator n, w.b⟩

/-- msg_server_withdraw_rewards.go:13-31 `WithdrawRewards` -/
def withdrawMsg (w : World) (creator st : Addr) : Except String World :=
  if !(w.s.at st).dels.has creator then .error "not a delegator"
  else match rewardTransfer w st (.withdraw creator) creator with
    | .error e => .error e
    | .ok b => .ok ⟨w.s.apply st (.withdraw creator), b⟩

/-- the amount `performUndelegation` returns for a queue entry -/
def entryPays (s : State) (e : QEntry) : Nat := undelegated (s.at e.staker) e.delegator e.amount

/-- the transfer of logic_unbonding.go:61-69 -/
def entryTransfer (w : World) (e : QEntry) : Except String Bank :=
  (performUndelegation w e.staker e.delegator e.amount).b.send (.mod .delegation) (.user e.delegator)
    (Coins.single kyve (entryPays w.s e))

/-- logic_unbonding.go:57-82: pay a due entry and remove it.  The code keeps `LowIndex` in a local variable that is
written back at the end of the loop; nothing reads the stored value in between. -/
def payEntry (w : World) (now i : Nat) (e : QEntry) : World :=
  ⟨{ (performUndelegation w e.staker e.delegator e.amount).s with
      queue := w.s.queue.del i
      low := w.s.low + 1
      halted := (performUndelegation w e.staker e.delegator e.amount).s.halted || Bank.failed (entryTransfer w e)
      trace := .paid i e (entryPays w.s e) now :: (performUndelegation w e.staker e.delegator e.amount).s.trace },
   (performUndelegation w e.staker e.delegator e.amount).b.orKeep (entryTransfer w e)⟩

/-- is a queue entry due? logic_unbonding.go:55 (the addition is on `uint64`) -/
def due (p : Params) (now : Nat) (e : QEntry) : Bool := decide (u64add e.creation p.unbonding ≤ now)

/-- one round of the loop of logic_unbonding.go:44-84: the next state, or `none` if the loop ends -/
def queueRound (w : World) (now : Nat) : Option World :=
  match w.s.queue.get? (w.s.low + 1) with
  | none => if w.s.low < w.s.high then some ⟨{ w.s with low := w.s.low + 1 }, w.b⟩ else none
  | some e => if due w.s.params now e then some (payEntry w now (w.s.low + 1) e) else none

/-- the loop of logic_unbonding.go:44-84 with an explicit bound on the number of rounds -/
def queueLoop (now : Nat) : Nat → World → World
  | 0, w => w
  | fuel + 1, w => match queueRound w now with
    | none => w
    | some w' => queueLoop now fuel w'

/-- logic_unbonding.go:38-87 `ProcessDelegatorUnbondingQueue`.  Every round either skips an index below `HighIndex`
or removes an entry, so this many rounds are enough (`queueLoop_done` in the proofs). -/
def processQueue (w : World) (now : Nat) : World :=
  queueLoop now (w.s.high - w.s.low + w.s.queue.size) w

/-- keeper.go:71-88 `InitMemStore` after a restart: the ranking is empty and is rebuilt from all delegation data.
(`memStoreInitialized` is a process-wide flag, so this happens once per process.) -/
def initMemStore (s : State) : State :=
  (s.f1.keys.filter (fun st => (s.at st).data.isSome)).foldl State.setIndex { s with index := ∅ }

/-- module.go:159-163 `BeginBlock`; `restarted`: first block after the node was started -/
def beginBlock (w : World) (now : Nat) (restarted : Bool) : World :=
  processQueue (if restarted then ⟨initMemStore w.s, w.b⟩ else w) now

/-- exported_functions.go:66-86 `PayoutRewards` -/
def payoutRewards (w : World) (payer : Mod) (st : Addr) (c : Coins) : Except String World :=
  if c.isZero then .ok w
  else if (w.s.at st).data.isNone then .error "staker has no delegators"
  else match w.b.send (.mod payer) (.mod .delegation) c with
    | .error e => .error e
    | .ok b => .ok ⟨w.s.apply st (.payout c), b⟩

/-- `SlashType` -/
inductive SlashType where
  | timeout | vote | upload
deriving DecidableEq, Repr

/-- getters_params.go:53-64 `getSlashFraction` -/
def Params.slashFraction (p : Params) : SlashType → Dec
  | .timeout => p.timeoutSlash
  | .vote => p.voteSlash
  | .upload => p.uploadSlash

/-- the transfer of exported_functions.go:104 -/
def slashTransfer (w : World) (st : Addr) (q : Dec) : Except String Bank :=
  w.b.send (.mod .delegation) (.mod .treasury) (Coins.single kyve (slash (w.s.at st) q).2)

/-- exported_functions.go:90-114 `SlashDelegators` -/
def slashDelegators (w : World) (st : Addr) (t : SlashType) : World :=
  if (w.s.at st).data.isNone then w
  else
    ⟨{ w.s.applyIndexed st (.slash (w.s.params.slashFraction t)) with
        halted := w.s.halted || Bank.failed (slashTransfer w st (w.s.params.slashFraction t)) },
     w.b.orKeep (slashTransfer w st (w.s.params.slashFraction t))⟩

/-- the JSON payload of the parameter update -/
structure ParamsPayload where
  unbonding : Option Nat := none
  cooldown : Option Nat := none
  maxSpells : Option Nat := none
  voteSlash : Option Dec := none
  uploadSlash : Option Dec := none
  timeoutSlash : Option Dec := none

/-- `json.Unmarshal(payload, &params)` -/
def ParamsPayload.apply (y : ParamsPayload) (p : Params) : Params :=
  ⟨y.unbonding.getD p.unbonding, y.cooldown.getD p.cooldown, y.maxSpells.getD p.maxSpells,
   y.voteSlash.getD p.voteSlash, y.uploadSlash.getD p.uploadSlash, y.timeoutSlash.getD p.timeoutSlash⟩

/-- msg_server_update_params.go:16-35, `ValidateBasic` types/msgs.go:20-35 -/
def updateParams (gov : Addr) (w : World) (authority : Addr) (y : ParamsPayload) : Except String World :=
  if !(y.apply .default).validate then .error "invalid params"
  else if gov ≠ authority then .error "invalid authority"
  else .ok ⟨{ w.s with params := y.apply w.s.params }, w.b⟩

/-! ## Histories -/

/-- everything that touches x/delegation -/
inductive Act where
  | delegate (stakerExists : Bool) (creator st : Addr) (n : Nat)
  | redelegate (dstExists dstActive : Bool) (m : RedelegateMsg)
  | undelegate (creator st : Addr) (n : Nat)
  | withdraw (creator st : Addr)
  | updateParams (authority : Addr) (y : ParamsPayload)
  /-- called by x/bundles, always with x/pool as the payer (x/bundles/keeper/logic_bundles.go) -/
  | payout (st : Addr) (c : Coins)
  /-- called by x/bundles -/
  | slash (st : Addr) (t : SlashType)
  /-- a new block, `dt` seconds after the last one -/
  | beginBlock (dt : Nat) (restarted : Bool)
  /-- anything else on the chain: every account but the delegation module account may change arbitrarily, and the
  delegation module account may receive coins.  (app/app_config.go:190-207 blocks module accounts as recipients of
  `MsgSend` only; `JoinPool` in x/stakers sends coins to an arbitrary address given by the user.) -/
  | external (b : Bank) (gift : Coins)

/-- world and block time -/
structure Sys where
  w : World
  now : Nat

/-- a failing message changes nothing -/
def orElse (w : World) : Except String World → World
  | .ok w' => w'
  | .error _ => w

/-- one action -/
def Sys.step (gov : Addr) (y : Sys) : Act → Sys
  | .delegate ex c st n => ⟨orElse y.w (delegateMsg y.w ex c st n), y.now⟩
  | .redelegate ex ac m => ⟨orElse y.w (redelegateMsg y.w y.now ex ac m), y.now⟩
  | .undelegate c st n => ⟨orElse y.w (undelegateMsg y.w y.now c st n), y.now⟩
  | .withdraw c st => ⟨orElse y.w (withdrawMsg y.w c st), y.now⟩
  | .updateParams a p => ⟨orElse y.w (Delegation.updateParams gov y.w a p), y.now⟩
  | .payout st c => ⟨orElse y.w (payoutRewards y.w .pool st c), y.now⟩
  | .slash st t => ⟨slashDelegators y.w st t, y.now⟩
  | .beginBlock dt r => ⟨Delegation.beginBlock y.w (y.now + dt) r, y.now + dt⟩
  | .external b g =>
    ⟨⟨{ y.w.s with gifts := y.w.s.gifts.add g },
      fun a => if a = .mod .delegation then (y.w.b a).add g else b a⟩, y.now⟩

/-- a history -/
def Sys.run (gov : Addr) (y : Sys) (acts : List Act) : Sys := acts.foldl (Sys.step gov) y

/-- the empty module with some valid parameters, at some time -/
def Sys.init (p : Params) (b : Bank) (now : Nat) : Sys :=
  ⟨⟨⟨∅, ∅, 0, 0, ∅, ∅, p, false, [], Coins.zero⟩, fun a => if a = .mod .delegation then Coins.zero else b a⟩, now⟩

end Verif.Delegation
