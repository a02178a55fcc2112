import Verif.Chain.Crash
import Verif.Chain.Queues
import Verif.Chain.SampleReach

/-!
# The events of the protocol

Somebody who follows a pool (an indexer, the web app, a node operator's monitoring) reads the events of x/bundles, x/stakers
and x/delegation.  This file is the model of these events: which are emitted by which operation, with which contents and in
which order.  The properties are in `Chain/Follow.lean`.
-/

set_option linter.dupNamespace false
namespace Verif.Chain
open Verif
open Verif.Bundles (Proposal VoteDist Reward FBundle Status)

/-- the payments of `EventBundleFinalized`: `FundersPayout`, `InflationPayout` and the four parts of the reward
(/repo/x/bundles/keeper/logic_bundles.go:414-433) -/
structure Bill where
  funders : Coins
  inflation : Nat
  reward : Reward

/-- no payments, logic_bundles.go:447-457 -/
def Bill.empty : Bill := ⟨Coins.zero, 0, Reward.none⟩

/-- the contents of `EventBundleProposed` (logic_bundles.go:354-369); `ProposedAt` is left out -/
structure Offer where
  storageId : Nat
  uploader : Option Addr
  dataSize : Nat
  fromIndex : Nat
  bundleSize : Nat
  fromKey : Nat
  toKey : Nat
  summary : Nat
  dataHash : Nat
  storageProviderId : Nat
  compressionId : Nat
deriving DecidableEq, Repr

/-- the events -/
inductive Log where
  /-- `EventJoinPool` of x/stakers (valaddress and amount are in `Event.joined`) -/
  | joined (pool : Nat) (staker : Addr)
  /-- `EventLeavePool` of x/stakers -/
  | left (pool : Nat) (staker : Addr)
  /-- `EventPointIncreased` of x/bundles -/
  | point (pool : Nat) (staker : Addr) (current : Nat)
  /-- `EventPointsReset` of x/bundles -/
  | reset (pool : Nat) (staker : Addr)
  /-- `EventDelegate` of x/delegation -/
  | delegated (who staker : Addr) (amount : Nat)
  /-- `EventUndelegate` of x/delegation -/
  | undelegated (who staker : Addr) (amount : Nat)
  /-- `EventRedelegate` of x/delegation -/
  | redelegated (who src dst : Addr) (amount : Nat)
  /-- `EventSlash` of x/delegation -/
  | slashed (pool : Nat) (staker : Addr) (amount : Nat) (t : Delegation.SlashType)
  /-- `EventBundleProposed` of x/bundles -/
  | proposed (pool bundle : Nat) (o : Offer)
  /-- `EventBundleVote` of x/bundles -/
  | voted (pool : Nat) (staker : Addr) (storageId : Nat) (vote : Chain.Vote)
  /-- `EventBundleFinalized` of x/bundles, also for bundles that are dropped: the status tells -/
  | finalized (pool bundle : Nat) (v : VoteDist) (bill : Bill) (time : Nat) (uploader : Option Addr)
  /-- `EventClaimCommissionRewards` of x/stakers -/
  | claimed (staker : Addr) (amounts : Coins)

namespace Chain

/-! ## slashes and points -/

/-- /repo/x/delegation/keeper/exported_functions.go:89-114 `SlashDelegators`: an event only if somebody delegates -/
def logSlash (c : Chain) (id : Nat) (a : Addr) (t : Delegation.SlashType) : List Log :=
  if (c.del.at a).data.isNone then []
  else [.slashed id a (Delegation.slash (c.del.at a) (c.del.params.slashFraction t)).2 t]

/-- /repo/x/bundles/keeper/logic_bundles.go:172-175 `slashDelegatorsAndRemoveStaker`; `EventLeavePool` is emitted even if the
staker is not in the pool (x/stakers/keeper/exported_functions.go:22-29) -/
def logRemove (c : Chain) (id : Nat) (a : Addr) (t : Delegation.SlashType) : List Log := c.logSlash id a t ++ [.left id a]

/-- logic_bundles.go:178-188 `resetPoints`: an event only if there were points -/
def logReset (c : Chain) (id : Nat) (a : Addr) : List Log :=
  match c.st.vals.get? (id, a) with
  | none => []
  | some v => if v.points > 0 then [.reset id a] else []

/-- logic_bundles.go:192-207 `addPoint` -/
def logPoint (c : Chain) (id : Nat) (a : Addr) : List Log :=
  .point id a (c.st.incrementPoints id a).2 ::
    (if (c.st.incrementPoints id a).2 ≥ c.bun.params.maxPoints then (c.incPoints id a).logRemove id a .timeout else [])

/-- logic_bundles.go:229-233 the loop of `handleNonVoters`, as `pointLoop` -/
def logPoints (id : Nat) (vs : List Addr) : List Addr → Chain → List Log
  | [], _ => []
  | a :: l, c => (if a ∈ vs then [] else c.logPoint id a) ++ logPoints id vs l (if a ∈ vs then c else c.addPoint id a)

/-- logic_bundles.go:213-234 `handleNonVoters` -/
def logNonVoters (c : Chain) (id : Nat) : List Log := logPoints id (voters (c.proposal id)) (c.members id) c

/-! ## tally -/

/-- logic_bundles.go:590-591 the rewards, as `tallyPay` -/
def billPay (c : Chain) (id : Nat) (f : Coins) (i : Nat) : Option (Bill × Chain) :=
  match c.payouts id (f.add (Coins.single kyve i)) with
  | none => none
  | some w => some (⟨f, i, w⟩, c)

/-- logic_bundles.go:583-587 the inflation, as `tallyInflation` -/
def billInflation (c : Chain) (id : Nat) (f : Coins) : Option (Bill × Chain) :=
  match Pool.chargeInflationPool c.pool c.b id with
  | .error _ => none
  | .ok r => billPay { c with b := r.2.1, halted := c.halted || r.2.2 } id f r.1

/-- logic_bundles.go:577-591: what a valid bundle is paid, and the state in which it is paid out, as `tallyValid` -/
def bill (c : Chain) (id : Nat) : Option (Bill × Chain) :=
  match Funders.chargeFundersOfPool c.fund c.b id with
  | .error _ => none
  | .ok r => (c.withFund ⟨r.2.1, r.2.2⟩).billInflation id r.1

/-- logic_bundles.go:609-612, as `slashInvalid` -/
def logInvalid (id : Nat) : List Addr → Chain → List Log
  | [], _ => []
  | a :: l, c => c.logRemove id a .vote ++ logInvalid id l (c.slashAndRemove id a .vote)

/-- logic_bundles.go:630-636, as `slashValid` -/
def logValid (id : Nat) (u : Option Addr) : List Addr → Chain → List Log
  | [], _ => []
  | a :: l, c => c.logRemove id a (if u = some a then .upload else .vote) ++
      logValid id u l (c.slashAndRemove id a (if u = some a then .upload else .vote))

/-- the slashes after the payments of a valid bundle; none if the payments fail -/
def logPaid (id : Nat) (p : Proposal) : Option (Bill × Chain) → List Log
  | none => []
  | some x => match x.2.payReward p.uploader x.1.reward with
    | .error _ => []
    | .ok d => logInvalid id p.invalid d

/-- logic_bundles.go:575-660 the switch, as `tallyOutcome` -/
def logOutcome (c : Chain) (id : Nat) (p : Proposal) (v : VoteDist) : List Log :=
  match v.status with
  | .valid => logPaid id p (c.bill id)
  | .invalid => logValid id p.uploader p.valid c
  | _ => []

/-- logic_bundles.go:567-660 `tallyBundleProposal` -/
def logTally (c : Chain) (id : Nat) (p : Proposal) : List Log :=
  c.logNonVoters id ++ (c.nonVoters id).logOutcome id p ((c.nonVoters id).dist id)

/-- logic_bundles.go:598-604, 626-641: the payments of `TallyResult` -/
def tallyBill (c : Chain) (id : Nat) (s : Status) : Bill :=
  match s with
  | .valid => (((c.nonVoters id).bill id).map (·.1)).getD Bill.empty
  | _ => Bill.empty

/-! ## finalize, drop, register -/

/-- logic_bundles.go:414-433 the event of `finalizeCurrentBundleProposal` -/
def logFinalize (c : Chain) (id : Nat) (v : VoteDist) (x : Bill) : List Log :=
  match c.pool.pools.get? id with
  | none => []
  | some pl => [.finalized id pl.totalBundles v x c.now (c.proposal id).uploader]

/-- logic_bundles.go:447-457 the event of `dropCurrentBundleProposal` -/
def logDrop (c : Chain) (id : Nat) (v : VoteDist) : List Log := c.logFinalize id v Bill.empty

/-- the contents of the event of a new proposal -/
def SubmitMsg.offer (m : SubmitMsg) (pl : Pool.Pool) : Offer :=
  { storageId := m.storageId, uploader := some m.staker, dataSize := m.dataSize, fromIndex := pl.currentIndex
    bundleSize := m.bundleSize, fromKey := m.fromKey, toKey := m.toKey, summary := m.summary, dataHash := m.dataHash
    storageProviderId := pl.storageProviderId, compressionId := pl.compressionId }

/-- logic_bundles.go:354-377 the events of `registerBundleProposalFromUploader` -/
def logRegister (c : Chain) (m : SubmitMsg) : List Log :=
  match c.pool.pools.get? m.pool with
  | none => []
  | some pl => [.proposed m.pool pl.totalBundles (m.offer pl), .voted m.pool m.staker m.storageId .valid]

/-! ## messages of x/bundles -/

/-- msg_server_submit_bundle_proposal.go:46-63; `x` are the payments of the tally -/
def logSubmitTallied (m : SubmitMsg) (p : Proposal) (x : Bill) : Out → List Log
  | .panicked => []
  | .failed _ => []
  | .done c v => match v.status with
    | .valid => (c.setProgress m.pool (c.choiceFrom m.pool p.valid).2).logFinalize m.pool v x ++
        ((c.setProgress m.pool (c.choiceFrom m.pool p.valid).2).finalize m.pool v).logRegister m
    | .invalid => c.logDrop m.pool v
    | _ => []

/-- msg_server_submit_bundle_proposal.go:11-65 -/
def logSubmit (c : Chain) (m : SubmitMsg) : List Log :=
  c.logReset m.pool m.staker ++
    (if (c.proposal m.pool).storageId = 0 then
      ((c.resetPoints m.pool m.staker).setProgress m.pool ((c.resetPoints m.pool m.staker).choice m.pool []).2).logRegister m
    else (c.resetPoints m.pool m.staker).logTally m.pool (c.proposal m.pool) ++
      logSubmitTallied m (c.proposal m.pool)
        ((c.resetPoints m.pool m.staker).tallyBill m.pool (((c.resetPoints m.pool m.staker).nonVoters m.pool).dist m.pool).status)
        ((c.resetPoints m.pool m.staker).tally m.pool (c.proposal m.pool)))

/-- msg_server_vote_bundle_proposal.go:50-58 -/
def logVote (c : Chain) (m : VoteMsg) : List Log :=
  c.logReset m.pool m.staker ++ [.voted m.pool m.staker m.storageId m.vote]

/-- msg_server_skip_uploader_role.go:33-54; `EventSkippedUploaderRole` is left out -/
def logSkipTallied (m : SkipMsg) (x : Bill) : Out → List Log
  | .panicked => []
  | .failed _ => []
  | .done c v => match v.status with
    | .valid => (c.setProgress m.pool (c.choice m.pool [m.staker]).2).logFinalize m.pool v x
    | .invalid => (c.setProgress m.pool (c.choice m.pool [m.staker]).2).logDrop m.pool v
    | _ => []

/-- msg_server_skip_uploader_role.go:11-64 -/
def logSkip (c : Chain) (m : SkipMsg) : List Log :=
  c.logReset m.pool m.staker ++ (c.resetPoints m.pool m.staker).logTally m.pool (c.proposal m.pool) ++
    logSkipTallied m
      ((c.resetPoints m.pool m.staker).tallyBill m.pool (((c.resetPoints m.pool m.staker).nonVoters m.pool).dist m.pool).status)
      ((c.resetPoints m.pool m.staker).tally m.pool (c.proposal m.pool))

/-! ## end block -/

/-- logic_end_block_handle_upload_timeout.go:25-33: the status of the event is `BUNDLE_STATUS_DISABLED`, which is
`unspecified` in the model -/
def logStopped (c : Chain) (id : Nat) (e : RunErr) : List Log :=
  if e = .disabled ∧ (c.proposal id).storageId ≠ 0 then c.logDrop id ⟨0, 0, 0, 0, .unspecified⟩ else []

/-- logic_end_block_handle_upload_timeout.go:54-64 -/
def logNoQuorum (c : Chain) (id : Nat) : List Log :=
  c.logNonVoters id ++ ((c.nonVoters id).setProgress id ((c.nonVoters id).choice id []).2).logDrop id (c.dist id)

/-- logic_end_block_handle_upload_timeout.go:114-118 -/
def logLate (c : Chain) (id : Nat) (late : Option Addr) : List Log :=
  match late with
  | none => []
  | some a => if c.member id a then c.logPoint id a else []

/-- logic_end_block_handle_upload_timeout.go:79-118 after the tally, as `visitTallied` -/
def logVisitTallied (id : Nat) (p : Proposal) (x : Bill) : Out → List Log
  | .panicked => []
  | .failed _ => []
  | .done c v => (if v.status = .valid then (c.setProgress id (c.choiceFrom id p.valid).2).logFinalize id v x
      else (c.setProgress id (c.choice id []).2).logDrop id v) ++
      (if v.status = .valid then c.visitValid id p v else c.visitOther id).logLate id p.nextUploader

/-- logic_end_block_handle_upload_timeout.go:109-118, as `visitEmpty` -/
def logEmpty (c : Chain) (id : Nat) : List Log :=
  ((c.setProgress id (c.choice id []).2).setProposal id
    { c.proposal id with nextUploader := (c.choice id []).1, updatedAt := c.now }).logLate id (c.proposal id).nextUploader

/-- logic_end_block_handle_upload_timeout.go:66-118, as `visitTimeout` -/
def logTimeout (c : Chain) (id interval : Nat) : List Log :=
  if c.now < u64add (u64add (c.proposal id).updatedAt interval) c.bun.params.uploadTimeout then []
  else if (c.proposal id).storageId ≠ 0 then
    c.logTally id (c.proposal id) ++ logVisitTallied id (c.proposal id)
      (c.tallyBill id ((c.nonVoters id).dist id).status) (c.tally id (c.proposal id))
  else c.logEmpty id

/-- logic_end_block_handle_upload_timeout.go:43-118, as `visitRunning` -/
def logRunning (c : Chain) (id interval : Nat) : List Log :=
  if c.now < u64add (c.proposal id).updatedAt interval then []
  else if (c.proposal id).storageId ≠ 0 ∧ (c.dist id).status = .noQuorum then c.logNoQuorum id
  else c.logTimeout id interval

/-- logic_end_block_handle_upload_timeout.go:15-118: one pool -/
def logVisit (c : Chain) (id interval : Nat) : List Log :=
  match c.runError id with
  | some e => c.logStopped id e
  | none => c.logRunning id interval

/-- logic_end_block_handle_upload_timeout.go:15: the loop; none after a panic -/
def logVisits : List (Nat × Pool.Pool) → Chain → List Log
  | [], _ => []
  | e :: l, c => match c.visit e.1 e.2.uploadInterval with
    | none => []
    | some c' => c.logVisit e.1 e.2.uploadInterval ++ logVisits l c'

/-- the end block of x/bundles; a block that panics leaves no events -/
def logEndBlock (c : Chain) : List Log :=
  match visits (c.upgradePools.pool.pools.toList) c.upgradePools with
  | none => []
  | some _ => logVisits (c.upgradePools.pool.pools.toList) c.upgradePools

/-! ## the queues -/

/-- /repo/x/delegation/keeper/logic_unbonding.go:44-84, as `Delegation.queueLoop` -/
def logUnbond (now : Nat) : Nat → Delegation.World → List Log
  | 0, _ => []
  | fuel + 1, w => match Delegation.queueRound w now with
    | none => []
    | some w' => (match w.s.queue.get? (w.s.low + 1) with
        | none => []
        | some e => [.undelegated e.delegator e.staker (Delegation.entryPays w.s e)]) ++ logUnbond now fuel w'

/-- the queue of x/delegation, as `Delegation.beginBlock` -/
def logQueue (w : Delegation.World) (now : Nat) (restarted : Bool) : List Log :=
  logUnbond now
    ((if restarted then (⟨Delegation.initMemStore w.s, w.b⟩ : Delegation.World) else w).s.high -
      (if restarted then (⟨Delegation.initMemStore w.s, w.b⟩ : Delegation.World) else w).s.low +
      (if restarted then (⟨Delegation.initMemStore w.s, w.b⟩ : Delegation.World) else w).s.queue.size)
    (if restarted then ⟨Delegation.initMemStore w.s, w.b⟩ else w)

/-- /repo/x/stakers/keeper/logic_leave.go:31-49: one round, as `Stakers.leaveRound` -/
def logLeave (s : Stakers.State) (now : Nat) : List Log :=
  match s.leaves.get? (s.lLow + 1) with
  | none => []
  | some e => if Stakers.due e.creation s.params.leavePoolTime now then [.left e.pool e.staker] else []

/-- logic_leave.go:31-49 `ProcessLeavePoolQueue`, as `Stakers.leaveLoop` -/
def logLeaves (now : Nat) : Nat → Stakers.State → List Log
  | 0, _ => []
  | fuel + 1, s => logLeave s now ++
      (if (Stakers.leaveRound s now).2 then logLeaves now fuel (Stakers.leaveRound s now).1 else [])

/-- the begin block of x/stakers; `EventUpdateCommission` is left out -/
def logStakers (s : Stakers.State) (now : Nat) : List Log :=
  logLeaves now ((Stakers.processChanges s now).lHigh - (Stakers.processChanges s now).lLow + 1) (Stakers.processChanges s now)

/-- the events of a begin block after `SplitInflation`; none, if it panics -/
def logBlock (restarted : Bool) : Option Chain → List Log
  | none => []
  | some x => logQueue x.dw x.now restarted ++ logStakers x.st x.now

/-! ## the other messages -/

/-- /repo/x/stakers/keeper/logic_stakers.go:62-81 `ensureFreeSlot`: the staker that loses its place -/
def logEvict (s : Stakers.State) (amt : Addr → Nat) (id : Nat) (a : Addr) : List Log :=
  if s.count id < Stakers.MaxStakers then []
  else match s.lowest amt id with
    | none => []
    | some low => if amt a > amt low then [.left id low] else []

/-- the events of an operation that succeeds: x/bundles as above, x/stakers/keeper/msg_server_join_pool.go:80-85,
msg_server_claim_commission_rewards.go:38-41, x/delegation/keeper/msg_server_delegate.go:33-37 (also for the self-delegation
of a new staker), msg_server_redelegate.go:52-57, x/pool/keeper/msg_server_disable_pool.go:41-45 -/
def logged (c : Chain) : Op → List Log
  | .submit m => c.logSubmit m
  | .vote m => c.logVote m
  | .skip m => c.logSkip m
  | .createStaker a _ n => [.delegated a a n]
  | .join m => logEvict c.st c.del.amount m.pool m.creator ++ [.joined m.pool m.creator]
  | .claimRewards a x => [.claimed a x]
  | .delegate a st n => [.delegated a st n]
  | .redelegate m => [.redelegated m.creator m.src m.dst m.amount]
  | .disablePool _ id => (c.members id).map (Log.left id)
  | .beginBlock dt pr te r => logBlock r ((c.newBlock dt r).splitInflation pr te)
  | .endBlock => c.logEndBlock
  | _ => []

/-- the events of an operation; the events of a failing message are dropped with it -/
def logs (gov : Addr) (c : Chain) (op : Op) : List Log :=
  if c.crashed then []
  else match exec gov c op with
    | .error _ => []
    | .ok _ => c.logged op

end Chain
end Verif.Chain
