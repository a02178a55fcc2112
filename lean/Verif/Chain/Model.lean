import Verif.Bundles.Model
import Verif.Bundles.Inflation
import Verif.Delegation.Model
import Verif.Stakers.Model
import Verif.Pool.Model

/-!
# The protocol: x/bundles on top of x/pool, x/stakers, x/delegation and x/funders

Model of the messages and block hooks that connect the modules.  A message that fails, or that panics (the SDK recovers
panics of transactions), changes nothing.  A panic in a block hook stops the node: `crashed`, after which nothing
happens.  `PanicHalt` (util/logic_panic.go) schedules an upgrade for the next block and goes on; it sets `halted`.
Times are Unix seconds.  Not modelled: events, gas, authz/feegrant, the ante handler (see `Verif.Global`).
-/

set_option linter.dupNamespace false

namespace Verif.Chain
open Verif
open Verif.Bundles (Proposal FBundle VoteDist Status Reward)

/-- all modules, the bank and the block time -/
structure Chain where
  b : Bank
  now : Nat
  pool : Pool.State
  st : Stakers.State
  del : Delegation.State
  fund : Funders.State
  bun : Bundles.State
  /-- x/pool or x/bundles called `PanicHalt` (x/delegation has its own flag `del.halted`) -/
  halted : Bool
  /-- a block hook panicked -/
  crashed : Bool

namespace Chain

/-- x/delegation with the bank -/
def dw (c : Chain) : Delegation.World := ⟨c.del, c.b⟩
/-- x/stakers with the bank -/
def sw (c : Chain) : Stakers.World := ⟨c.st, c.b⟩
/-- x/funders with the bank -/
def fw (c : Chain) : Funders.World := ⟨c.fund, c.b⟩
/-- write back -/
def withDel (c : Chain) (w : Delegation.World) : Chain := { c with del := w.s, b := w.b }
/-- write back -/
def withSt (c : Chain) (w : Stakers.World) : Chain := { c with st := w.s, b := w.b }
/-- write back -/
def withFund (c : Chain) (w : Funders.World) : Chain := { c with fund := w.s, b := w.b }
/-- write the current proposal of a pool -/
def setProposal (c : Chain) (id : Nat) (p : Proposal) : Chain := { c with bun := c.bun.setProposal id p }
/-- the current proposal of a pool -/
def proposal (c : Chain) (id : Nat) : Proposal := c.bun.proposal id
/-- the members of a pool in store order -/
def members (c : Chain) (id : Nat) : List Addr := c.st.stakersOf id
/-- does the staker have a valaccount in the pool?  x/stakers exported_functions.go:32-35 `DoesValaccountExist` -/
def member (c : Chain) (id : Nat) (a : Addr) : Bool := c.st.vals.has (id, a)

/-! ## can a pool run? -/

/-- the errors of `AssertPoolCanRun` -/
inductive RunErr where
  | notFound | upgrading | disabled | endKey | minDelegation | votingPower
deriving DecidableEq, Repr

/-- x/delegation/keeper/exported_functions.go:47-60 `GetTotalAndHighestDelegationOfPool`, the total -/
def totalOf (c : Chain) (id : Nat) : Nat := Bundles.power c.del.amount (c.members id)

/-- x/delegation/keeper/exported_functions.go:47-60 `GetTotalAndHighestDelegationOfPool`, the highest -/
def highestOf (c : Chain) (id : Nat) : Nat := ((c.members id).map c.del.amount).foldl max 0

/-- logic_bundles.go:49-50; the conversion to `int64` is left out: the total is below `2^63` in every state the
theorems range over (`Sane`) -/
def maxDelegation (c : Chain) (id : Nat) : Nat := Dec.trunc (c.pool.params.maxVotingPowerPerPool * c.totalOf id)

/-- logic_bundles.go:18-58 `AssertPoolCanRun` -/
def runError (c : Chain) (id : Nat) : Option RunErr :=
  match c.pool.pools.get? id with
  | none => some .notFound
  | some p =>
    if p.plan.scheduledAt > 0 ∧ c.now ≥ p.plan.scheduledAt then some .upgrading
    else if p.disabled then some .disabled
    else if p.endKey ≠ 0 ∧ p.currentKey = p.endKey then some .endKey
    else if c.totalOf id < p.minDelegation then some .minDelegation
    else if c.highestOf id > c.maxDelegation id then some .votingPower
    else none

/-- `PoolStatus` -/
inductive PoolStatus where
  | active | disabled | noFunds | notEnoughDelegation | upgrading | votingPowerTooHigh | endKeyReached
deriving DecidableEq, Repr

/-- x/query/keeper/helper.go:83-108 `GetPoolStatus` of an existing pool -/
def poolStatus (c : Chain) (p : Pool.Pool) : PoolStatus :=
  if p.plan.scheduledAt > 0 ∧ c.now ≥ p.plan.scheduledAt then .upgrading
  else if p.disabled then .disabled
  else if p.endKey ≠ 0 ∧ p.endKey = p.currentKey then .endKeyReached
  else if c.totalOf p.id < p.minDelegation then .notEnoughDelegation
  else if c.highestOf p.id > c.maxDelegation p.id then .votingPowerTooHigh
  else if (Funders.totalActiveFunding c.fund p.id).isZero then .noFunds
  else .active

/-- logic_bundles.go:62-98 `AssertCanVote` -/
def canVote (c : Chain) (id : Nat) (staker voter : Addr) (storageId : Nat) : Option String :=
  if (c.runError id).isSome then some "pool can not run"
  else if !c.st.authorized id staker voter then some "valaccount unauthorized"
  else if (c.proposal id).storageId = 0 then some "bundle dropped"
  else if storageId ≠ (c.proposal id).storageId then some "invalid storage id"
  else if staker ∈ (c.proposal id).valid then some "already voted valid"
  else if staker ∈ (c.proposal id).invalid then some "already voted invalid"
  else none

/-- logic_bundles.go:102-132 `AssertCanPropose` -/
def canPropose (c : Chain) (id : Nat) (staker proposer : Addr) (fromIndex : Nat) : Option String :=
  if (c.runError id).isSome then some "pool can not run"
  else if !c.st.authorized id staker proposer then some "valaccount unauthorized"
  else match c.pool.pools.get? id with
    | none => some "pool not found"
    | some p =>
      if (c.proposal id).nextUploader ≠ some staker then some "not designated uploader"
      else if c.now < u64add (c.proposal id).updatedAt p.uploadInterval then some "upload interval not surpassed"
      else if u64add p.currentIndex (c.proposal id).bundleSize ≠ fromIndex then some "from index"
      else none

/-- `MsgSubmitBundleProposal` -/
structure SubmitMsg where
  creator : Addr
  staker : Addr
  pool : Nat
  storageId : Nat
  dataSize : Nat
  dataHash : Nat
  fromIndex : Nat
  bundleSize : Nat
  fromKey : Nat
  toKey : Nat
  summary : Nat

/-- logic_bundles.go:136-168 `validateSubmitBundleArgs` -/
def submitArgs (c : Chain) (m : SubmitMsg) : Option String :=
  match c.pool.pools.get? m.pool with
  | none => some "pool not found"
  | some p =>
    if m.storageId = 0 then some "invalid args"
    else if u64add p.currentIndex (c.proposal m.pool).bundleSize ≠ m.fromIndex then some "from index"
    else if m.bundleSize = 0 then some "invalid args"
    else if m.bundleSize > p.maxBundleSize then some "max bundle size"
    else if m.fromKey = 0 ∨ m.toKey = 0 then some "invalid args"
    else none

/-! ## slashes, points -/

/-- `SlashDelegators` of x/delegation -/
def slash (c : Chain) (a : Addr) (t : Delegation.SlashType) : Chain :=
  c.withDel (Delegation.slashDelegators c.dw a t)

/-- `LeavePool` of x/stakers -/
def kick (c : Chain) (id : Nat) (a : Addr) : Chain := { c with st := c.st.kick c.now id a }

/-- logic_bundles.go:172-175 `slashDelegatorsAndRemoveStaker` -/
def slashAndRemove (c : Chain) (id : Nat) (a : Addr) (t : Delegation.SlashType) : Chain := (c.slash a t).kick id a

/-- logic_bundles.go:178-188 `resetPoints` -/
def resetPoints (c : Chain) (id : Nat) (a : Addr) : Chain := { c with st := c.st.resetPoints id a }

/-- `IncrementPoints` of x/stakers -/
def incPoints (c : Chain) (id : Nat) (a : Addr) : Chain := { c with st := (c.st.incrementPoints id a).1 }

/-- logic_bundles.go:192-207 `addPoint` -/
def addPoint (c : Chain) (id : Nat) (a : Addr) : Chain :=
  if (c.st.incrementPoints id a).2 ≥ c.bun.params.maxPoints then (c.incPoints id a).slashAndRemove id a .timeout
  else c.incPoints id a

/-- everybody in one of the vote lists -/
def voters (p : Proposal) : List Addr := p.valid ++ p.invalid ++ p.abstain

/-- logic_bundles.go:229-233 the loop of `handleNonVoters` -/
def pointLoop (id : Nat) (vs : List Addr) : List Addr → Chain → Chain
  | [], c => c
  | a :: l, c => pointLoop id vs l (if a ∈ vs then c else c.addPoint id a)

/-- logic_bundles.go:213-234 `handleNonVoters` -/
def nonVoters (c : Chain) (id : Nat) : Chain := pointLoop id (voters (c.proposal id)) (c.members id) c

/-! ## tally -/

/-- logic_bundles.go:510-564 `GetVoteDistribution` -/
def dist (c : Chain) (id : Nat) : VoteDist :=
  match c.bun.proposals.get? id with
  | none => ⟨0, 0, 0, 0, .unspecified⟩
  | some p => Bundles.voteDist (c.member id) c.del.amount (c.members id) p

/-- what `tallyBundleProposal` answers: the state and the vote distribution; or an error (with the state reached so far:
end-block does not revert it); or a panic -/
inductive Out where
  | done (c : Chain) (v : VoteDist)
  | failed (c : Chain)
  | panicked

/-- the arguments of `calculatePayouts` that are read from the store -/
def payoutArgs (c : Chain) (id : Nat) (u : Addr) (total : Coins) : Bundles.PayoutArgs :=
  { total := total
    fee := c.bun.params.networkFee
    cost := c.bun.params.storageCost (c.proposal id).storageProviderId
    dataSize := (c.proposal id).dataSize
    whitelist := c.fund.params
    commission := c.st.commission u
    delegated := decide (0 < c.del.amount u) }

/-- logic_bundles.go:238-327 `calculatePayouts`: nothing without an uploader that is a staker -/
def payouts (c : Chain) (id : Nat) (total : Coins) : Option Reward :=
  match (c.proposal id).uploader with
  | none => some .none
  | some u => Bundles.calculatePayouts (c.st.stakers.has u) (c.payoutArgs id u total)

/-- logic_bundles.go:604-607: the delegation reward; an error carries the state -/
def payDelegators (c : Chain) (u : Addr) (r : Reward) : Except Chain Chain :=
  match Delegation.payoutRewards c.dw .pool u r.delegation with
  | .error _ => .error c
  | .ok w => .ok (c.withDel w)

/-- logic_bundles.go:598-602: the uploader's reward -/
def payUploader (c : Chain) (u : Addr) (r : Reward) : Except Chain Chain :=
  match Stakers.increaseRewards c.sw .pool u (r.commission.add r.storage) with
  | .error _ => .error c
  | .ok w => (c.withSt w).payDelegators u r

/-- logic_bundles.go:593-607: pay out.  Without an uploader the reward is zero (`payouts`), and so nothing is paid. -/
def payReward (c : Chain) (u : Option Addr) (r : Reward) : Except Chain Chain :=
  match c.b.send (.mod .pool) (.mod .treasury) r.treasury with
  | .error _ => .error c
  | .ok b => match u with
    | none => .ok { c with b := b }
    | some u => payUploader { c with b := b } u r

/-- logic_bundles.go:609-612: slash everybody who voted `invalid` -/
def slashInvalid (id : Nat) : List Addr → Chain → Chain
  | [], c => c
  | a :: l, c => slashInvalid id l (c.slashAndRemove id a .vote)

/-- logic_bundles.go:630-636: slash everybody who voted `valid`, the uploader more -/
def slashValid (id : Nat) (u : Option Addr) : List Addr → Chain → Chain
  | [], c => c
  | a :: l, c => slashValid id u l (c.slashAndRemove id a (if u = some a then .upload else .vote))

/-- logic_bundles.go:590-621 from the payouts on -/
def tallyPay (c : Chain) (id : Nat) (p : Proposal) (v : VoteDist) (total : Coins) : Out :=
  match c.payouts id total with
  | none => .panicked
  | some r => match c.payReward p.uploader r with
    | .error c' => .failed c'
    | .ok c' => .done (slashInvalid id p.invalid c') v

/-- logic_bundles.go:583-589: charge the inflation pool (the pool exists, so the only failure is the panic of
`Amount.Int64`) -/
def tallyInflation (c : Chain) (id : Nat) (p : Proposal) (v : VoteDist) (charged : Coins) : Out :=
  match Pool.chargeInflationPool c.pool c.b id with
  | .error _ => .panicked
  | .ok r => tallyPay { c with b := r.2.1, halted := c.halted || r.2.2 } id p v (charged.add (Coins.single kyve r.1))

/-- logic_bundles.go:577-621: a valid bundle.  (If the transfer of `ChargeFundersOfPool` failed it would have written
the fundings already; `Funders.C34_charge` shows that it does not fail.) -/
def tallyValid (c : Chain) (id : Nat) (p : Proposal) (v : VoteDist) : Out :=
  match Funders.chargeFundersOfPool c.fund c.b id with
  | .error _ => .failed c
  | .ok r => (c.withFund ⟨r.2.1, r.2.2⟩).tallyInflation id p v r.1

/-- logic_bundles.go:575-660 the switch -/
def tallyOutcome (c : Chain) (id : Nat) (p : Proposal) (v : VoteDist) : Out :=
  match v.status with
  | .valid => c.tallyValid id p v
  | .invalid => .done (slashValid id p.uploader p.valid c) v
  | _ => .done c v

/-- logic_bundles.go:567-660 `tallyBundleProposal`; `p` is the proposal the caller has read -/
def tally (c : Chain) (id : Nat) (p : Proposal) : Out :=
  (c.nonVoters id).tallyOutcome id p ((c.nonVoters id).dist id)

/-! ## finalize, drop, choose, register -/

/-- logic_bundles.go:389-413 the finalized bundle -/
def bundleOf (c : Chain) (pl : Pool.Pool) (p : Proposal) (v : VoteDist) : FBundle :=
  { storageId := p.storageId, uploader := p.uploader
    fromIndex := pl.currentIndex, toIndex := u64add pl.currentIndex p.bundleSize
    finalizedAt := c.now
    fromKey := p.fromKey, toKey := p.toKey, summary := p.summary, dataHash := p.dataHash
    storageProviderId := p.storageProviderId, compressionId := p.compressionId
    validPower := v.valid, totalPower := v.total }

/-- logic_bundles.go:383-437 `finalizeCurrentBundleProposal` (the pool exists whenever it is called) -/
def finalize (c : Chain) (id : Nat) (v : VoteDist) : Chain :=
  match c.pool.pools.get? id with
  | none => c
  | some pl =>
    { c with
      bun := c.bun.setFinalized id pl.totalBundles (c.bundleOf pl (c.proposal id) v)
      pool := Pool.incrementBundleInformation c.pool id (u64add pl.currentIndex (c.proposal id).bundleSize)
        (c.proposal id).toKey (c.proposal id).summary }

/-- logic_bundles.go:443-466 `dropCurrentBundleProposal` -/
def drop (c : Chain) (id : Nat) (next : Option Addr) : Chain := c.setProposal id (Proposal.blank next c.now)

/-- `SaveRoundRobinValidatorSet` -/
def setProgress (c : Chain) (id : Nat) (l : List (Addr × Int)) : Chain :=
  { c with bun := { c.bun with progress := c.bun.progress.set id l } }

/-- logic_bundles.go:479-484 `chooseNextUploader` -/
def choice (c : Chain) (id : Nat) (excluded : List Addr) : Option Addr × List (Addr × Int) :=
  Bundles.chooseNext (c.members id) c.del.amount (c.bun.progressOf id) excluded

/-- logic_bundles.go:488-506 `chooseNextUploaderFromList` -/
def choiceFrom (c : Chain) (id : Nat) (included : List Addr) : Option Addr × List (Addr × Int) :=
  Bundles.chooseFromList (c.members id) c.del.amount (c.bun.progressOf id) included

/-- logic_bundles.go:335-350 the new proposal -/
def SubmitMsg.proposal (m : SubmitMsg) (now : Nat) (storageProviderId compressionId : Nat) (next : Option Addr) :
    Proposal :=
  { storageId := m.storageId, uploader := some m.staker, nextUploader := next
    dataSize := m.dataSize, bundleSize := m.bundleSize, updatedAt := now
    valid := [m.staker], invalid := [], abstain := []
    fromKey := m.fromKey, toKey := m.toKey, summary := m.summary, dataHash := m.dataHash
    storageProviderId := storageProviderId, compressionId := compressionId }

/-- logic_bundles.go:332-378 `registerBundleProposalFromUploader` (the pool exists whenever it is called) -/
def register (c : Chain) (m : SubmitMsg) (next : Option Addr) : Chain :=
  match c.pool.pools.get? m.pool with
  | none => c
  | some pl => c.setProposal m.pool (m.proposal c.now pl.storageProviderId pl.compressionId next)

/-! ## messages of x/bundles -/

/-- msg_server_submit_bundle_proposal.go:32-37: no previous bundle -/
def submitFirst (c : Chain) (m : SubmitMsg) : Chain :=
  (c.setProgress m.pool (c.choice m.pool []).2).register m (c.choice m.pool []).1

/-- msg_server_submit_bundle_proposal.go:46-56: the previous bundle is valid -/
def submitNext (c : Chain) (m : SubmitMsg) (p : Proposal) (v : VoteDist) : Chain :=
  ((c.setProgress m.pool (c.choiceFrom m.pool p.valid).2).finalize m.pool v).register m
    (c.choiceFrom m.pool p.valid).1

/-- msg_server_submit_bundle_proposal.go:40-63 -/
def submitTallied (m : SubmitMsg) (p : Proposal) : Out → Except String Chain
  | .panicked => .error "panic"
  | .failed _ => .error "tally failed"
  | .done c v => match v.status with
    | .valid => .ok (c.submitNext m p v)
    | .invalid => .ok (c.drop m.pool p.nextUploader)
    | _ => .error "quorum not reached"

/-- msg_server_submit_bundle_proposal.go:27-63 after the checks -/
def submitGo (c : Chain) (m : SubmitMsg) : Except String Chain :=
  if (c.proposal m.pool).storageId = 0 then .ok (c.submitFirst m)
  else submitTallied m (c.proposal m.pool) (c.tally m.pool (c.proposal m.pool))

/-- msg_server_submit_bundle_proposal.go:11-65 `SubmitBundleProposal` -/
def submit (c : Chain) (m : SubmitMsg) : Except String Chain :=
  match c.canPropose m.pool m.staker m.creator m.fromIndex with
  | some e => .error e
  | none => match c.submitArgs m with
    | some e => .error e
    | none => (c.resetPoints m.pool m.staker).submitGo m

/-- `VoteType`; anything that is not valid, invalid or abstain is rejected -/
inductive Vote where
  | unspecified | valid | invalid | abstain
deriving DecidableEq, Repr

/-- `MsgVoteBundleProposal` -/
structure VoteMsg where
  creator : Addr
  staker : Addr
  pool : Nat
  storageId : Nat
  vote : Vote

/-- msg_server_vote_bundle_proposal.go:27-48: the new vote lists.  util/arrays.go:15-22
`RemoveFromStringArrayStable` removes the first occurrence. -/
def castVote (p : Proposal) (a : Addr) : Vote → Except String Proposal
  | .unspecified => .error "invalid vote"
  | .valid => .ok { p with abstain := p.abstain.erase a, valid := p.valid ++ [a] }
  | .invalid => .ok { p with abstain := p.abstain.erase a, invalid := p.invalid ++ [a] }
  | .abstain => if a ∈ p.abstain then .error "already voted abstain" else .ok { p with abstain := p.abstain ++ [a] }

/-- msg_server_vote_bundle_proposal.go:14-60 `VoteBundleProposal` -/
def vote (c : Chain) (m : VoteMsg) : Except String Chain :=
  match c.canVote m.pool m.staker m.creator m.storageId with
  | some e => .error e
  | none => match castVote (c.proposal m.pool) m.staker m.vote with
    | .error e => .error e
    | .ok p => .ok ((c.setProposal m.pool p).resetPoints m.pool m.staker)

/-- `MsgSkipUploaderRole` -/
structure SkipMsg where
  creator : Addr
  staker : Addr
  pool : Nat
  fromIndex : Nat

/-- msg_server_skip_uploader_role.go:33-54 the switch; `next` is the chosen uploader -/
def skipOutcome (c : Chain) (id : Nat) (p : Proposal) (v : VoteDist) (next : Option Addr) : Chain :=
  match v.status with
  | .valid => (c.finalize id v).setProposal id (Proposal.blank next c.now)
  | .invalid => c.drop id next
  | _ => c.setProposal id { p with nextUploader := next, updatedAt := c.now }

/-- msg_server_skip_uploader_role.go:24-54 -/
def skipTallied (m : SkipMsg) (p : Proposal) : Out → Except String Chain
  | .panicked => .error "panic"
  | .failed _ => .error "tally failed"
  | .done c v => .ok ((c.setProgress m.pool (c.choice m.pool [m.staker]).2).skipOutcome m.pool p v
      (c.choice m.pool [m.staker]).1)

/-- msg_server_skip_uploader_role.go:11-64 `SkipUploaderRole` -/
def skip (c : Chain) (m : SkipMsg) : Except String Chain :=
  match c.canPropose m.pool m.staker m.creator m.fromIndex with
  | some e => .error e
  | none => skipTallied m (c.proposal m.pool)
      ((c.resetPoints m.pool m.staker).tally m.pool (c.proposal m.pool))

/-- msg_server_claim_uploader_role.go:16-61 `ClaimUploaderRole` -/
def claim (c : Chain) (creator staker : Addr) (id : Nat) : Except String Chain :=
  if (c.runError id).isSome then .error "pool can not run"
  else if !c.st.authorized id staker creator then .error "valaccount unauthorized"
  else if (c.proposal id).nextUploader.isSome then .error "uploader role already claimed"
  else .ok (c.setProposal id { c.proposal id with nextUploader := some staker, updatedAt := c.now })

/-! ## end block -/

/-- logic_end_block_handle_upload_timeout.go:22-40: a pool that can not run -/
def visitStopped (c : Chain) (id : Nat) (e : RunErr) : Chain :=
  if e = .disabled ∧ (c.proposal id).storageId ≠ 0 then c.drop id none
  else if (c.proposal id).nextUploader.isSome then c.setProposal id { c.proposal id with nextUploader := none }
  else c

/-- logic_end_block_handle_upload_timeout.go:54-64: no quorum within the upload interval -/
def visitNoQuorum (c : Chain) (id : Nat) : Chain :=
  ((c.nonVoters id).setProgress id ((c.nonVoters id).choice id []).2).drop id ((c.nonVoters id).choice id []).1

/-- logic_end_block_handle_upload_timeout.go:114-118: the point of the uploader that timed out -/
def pointLate (c : Chain) (id : Nat) (late : Option Addr) : Chain :=
  match late with
  | none => c
  | some a => if c.member id a then c.addPoint id a else c

/-- logic_end_block_handle_upload_timeout.go:87-99: the overdue bundle is valid -/
def visitValid (c : Chain) (id : Nat) (p : Proposal) (v : VoteDist) : Chain :=
  ((c.setProgress id (c.choiceFrom id p.valid).2).finalize id v).setProposal id
    (Proposal.blank (c.choiceFrom id p.valid).1 c.now)

/-- logic_end_block_handle_upload_timeout.go:100-108: the overdue bundle is not valid -/
def visitOther (c : Chain) (id : Nat) : Chain :=
  (c.setProgress id (c.choice id []).2).drop id (c.choice id []).1

/-- logic_end_block_handle_upload_timeout.go:79-108: tally the overdue bundle; `none` is a panic -/
def visitTallied (id : Nat) (p : Proposal) : Out → Option Chain
  | .panicked => none
  | .failed c => some c
  | .done c v => some ((if v.status = .valid then c.visitValid id p v else c.visitOther id).pointLate id p.nextUploader)

/-- logic_end_block_handle_upload_timeout.go:109-113: nothing was proposed -/
def visitEmpty (c : Chain) (id : Nat) : Chain :=
  ((c.setProgress id (c.choice id []).2).setProposal id
    { c.proposal id with nextUploader := (c.choice id []).1, updatedAt := c.now }).pointLate id
      (c.proposal id).nextUploader

/-- logic_end_block_handle_upload_timeout.go:66-118: the upload timeout -/
def visitTimeout (c : Chain) (id interval : Nat) : Option Chain :=
  if c.now < u64add (u64add (c.proposal id).updatedAt interval) c.bun.params.uploadTimeout then some c
  else if (c.proposal id).storageId ≠ 0 then visitTallied id (c.proposal id) (c.tally id (c.proposal id))
  else some (c.visitEmpty id)

/-- logic_end_block_handle_upload_timeout.go:43-118: a pool that can run -/
def visitRunning (c : Chain) (id interval : Nat) : Option Chain :=
  if c.now < u64add (c.proposal id).updatedAt interval then some c
  else if (c.proposal id).storageId ≠ 0 ∧ (c.dist id).status = .noQuorum then some (c.visitNoQuorum id)
  else c.visitTimeout id interval

/-- logic_end_block_handle_upload_timeout.go:15-118: one pool -/
def visit (c : Chain) (id interval : Nat) : Option Chain :=
  match c.runError id with
  | some e => some (c.visitStopped id e)
  | none => c.visitRunning id interval

/-- logic_end_block_handle_upload_timeout.go:15: the loop; the list of pools is read before -/
def visits : List (Nat × Pool.Pool) → Chain → Option Chain
  | [], c => some c
  | e :: l, c => match c.visit e.1 e.2.uploadInterval with
    | none => none
    | some c' => visits l c'

/-- x/pool's end block, `HandlePoolUpgrades` -/
def upgradePools (c : Chain) : Chain := { c with pool := Pool.handlePoolUpgrades c.pool c.now }

/-- the end block of x/pool and x/bundles (app/app_config.go:140-160).  After a panic the node stops with the state of
the last block, here the state before. -/
def endBlock (c : Chain) : Chain :=
  match visits (c.upgradePools.pool.pools.toList) c.upgradePools with
  | some c' => c'
  | none => { c with crashed := true }

/-! ## begin block -/

/-- what `SplitInflation` reads -/
def inflPools (c : Chain) : List Bundles.InflPool :=
  c.pool.pools.toList.map (fun e => ⟨e.1, (c.runError e.1).isNone, e.2.inflationShareWeight⟩)

/-- one transfer of `SplitInflation`; an amount of `2^63` or more is negative as `int64` and panics -/
def inflTransfer (c : Chain) (t : Nat × Nat) : Option Chain :=
  if t.2 < 2 ^ 63 then
    some { c with
      b := c.b.orKeep (c.b.send (.mod .feeCollector) (.pool t.1) (Coins.single kyve t.2))
      halted := c.halted || Bank.failed (c.b.send (.mod .feeCollector) (.pool t.1) (Coins.single kyve t.2)) }
  else none

/-- the transfers of `SplitInflation` in order.  They do not touch what `AssertPoolCanRun` reads, so the pools that can
run are the same throughout. -/
def inflTransfers : List (Nat × Nat) → Chain → Option Chain
  | [], c => some c
  | t :: l, c => match c.inflTransfer t with
    | none => none
    | some c' => inflTransfers l c'

/-- x/bundles/abci.go:18-94 `SplitInflation`; `provision` is the block provision of x/mint, `team` x/team's share -/
def splitInflation (c : Chain) (provision team : Nat) : Option Chain :=
  inflTransfers (Bundles.inflationTransfers c.inflPools
    (Bundles.protocolProvision provision team c.pool.params.protocolInflationShare)) c

/-- a later block time, and the memory store of x/bundles after a restart (module.go:176-181) -/
def newBlock (c : Chain) (dt : Nat) (restarted : Bool) : Chain :=
  { c with now := c.now + dt, bun := if restarted then c.bun.initMemStore else c.bun }

/-- the queues of x/delegation and x/stakers (app/app_config.go:116-138) -/
def queues (c : Chain) (restarted : Bool) : Chain :=
  { c.withDel (Delegation.beginBlock c.dw c.now restarted) with st := Stakers.beginBlock c.st c.now }

/-- after x/bundles' begin block: the other two modules, unless it panicked -/
def afterSplit (c : Chain) (restarted : Bool) : Option Chain → Chain
  | some c' => c'.queues restarted
  | none => { c with crashed := true }

/-- the begin block of x/bundles, x/delegation and x/stakers; x/mint and x/team come before it and are part of
`Op.external` -/
def beginBlock (c : Chain) (dt provision team : Nat) (restarted : Bool) : Chain :=
  c.afterSplit restarted ((c.newBlock dt restarted).splitInflation provision team)

/-! ## messages of the other modules -/

/-- x/stakers/keeper/msg_server_create_staker.go:18-53: the staker is stored, then the self-delegation is a
`MsgDelegate` -/
def createStaker (c : Chain) (creator : Addr) (commission : Dec) (amount : Nat) : Except String Chain :=
  match Stakers.createStaker c.st creator commission true with
  | .error e => .error e
  | .ok s => match Delegation.delegateMsg c.dw true creator creator amount with
    | .error e => .error e
    | .ok w => .ok { c.withDel w with st := s }

/-- x/delegation's `MsgDelegate` with the answer of x/stakers -/
def delegate (c : Chain) (creator st : Addr) (n : Nat) : Except String Chain :=
  (Delegation.delegateMsg c.dw (c.st.stakers.has st) creator st n).map c.withDel

/-- x/delegation's `MsgRedelegate` with the answers of x/stakers -/
def redelegate (c : Chain) (m : Delegation.RedelegateMsg) : Except String Chain :=
  (Delegation.redelegateMsg c.dw c.now (c.st.stakers.has m.dst) (!(c.st.valsOf m.dst).isEmpty) m).map c.withDel

/-- x/pool's answer to x/stakers -/
def poolAnswer (c : Chain) (id : Nat) : Stakers.PoolAnswer :=
  match c.pool.pools.get? id with
  | none => .missing
  | some p => if p.disabled then .disabled else .enabled

/-- the coins an account receives by a join message; only used for the history variables -/
def gift (m : Stakers.JoinMsg) (a : Acct) : Coins := if m.dst = a then Coins.single kyve m.amount else Coins.zero

/-- the history variables of x/delegation and x/funders after a join message -/
def noteGifts (c : Chain) (m : Stakers.JoinMsg) : Chain :=
  { c with
    del := { c.del with gifts := c.del.gifts.add (gift m (.mod .delegation)) }
    fund := { c.fund with gifts := c.fund.gifts.add (gift m (.mod .funders)) } }

/-- x/stakers' `MsgJoinPool` with the answers of x/pool and x/delegation -/
def join (c : Chain) (m : Stakers.JoinMsg) : Except String Chain :=
  match Stakers.joinPool c.sw c.now (c.poolAnswer m.pool) c.del.amount m with
  | .error e => .error e
  | .ok w => .ok ((c.withSt (Stakers.noteGift m c.sw w)).noteGifts m)

/-- x/pool's `MsgCreatePool`, with the funding state (x/pool/keeper/msg_server_create_pool.go:18-75) -/
def createPool (gov : Addr) (c : Chain) (m : Pool.CreateMsg) : Except String Chain :=
  match Pool.create gov c.pool c.now m with
  | .error e => .error e
  | .ok s => .ok { c with pool := s, fund := c.fund.createFundingState c.pool.count }

/-- x/pool/keeper/msg_server_disable_pool.go:41-45 remove all stakers -/
def kickAll (id : Nat) : List Addr → Chain → Chain
  | [], c => c
  | a :: l, c => kickAll id l (c.kick id a)

/-- x/pool/keeper/msg_server_disable_pool.go:48-52 the pool's account to the treasury.  `Amount.Uint64` panics from
`2^64` on, the conversion to `int64` from `2^63` on. -/
def drain (c : Chain) (id : Nat) : Except String Chain :=
  if (c.b (.pool id)).amt kyve = 0 then .ok c
  else if 2 ^ 63 ≤ (c.b (.pool id)).amt kyve then .error "panic"
  else match c.b.send (.pool id) (.mod .treasury) (Coins.single kyve ((c.b (.pool id)).amt kyve)) with
    | .error e => .error e
    | .ok b => .ok { c with b := b }

/-- x/pool/keeper/msg_server_disable_pool.go:19-57 `DisablePool` -/
def disablePool (gov : Addr) (c : Chain) (authority : Addr) (id : Nat) : Except String Chain :=
  match Pool.disable gov c.pool authority id with
  | .error e => .error e
  | .ok s => (kickAll id (c.members id) { c with pool := s }).drain id

/-- everything that can happen -/
inductive Op where
  | submit (m : SubmitMsg)
  | vote (m : VoteMsg)
  | skip (m : SkipMsg)
  | claim (creator staker : Addr) (pool : Nat)
  | createStaker (creator : Addr) (commission : Dec) (amount : Nat)
  | join (m : Stakers.JoinMsg)
  | leave (creator : Addr) (pool : Nat)
  | updateCommission (creator : Addr) (commission : Dec)
  | updateMetadata (creator : Addr) (info : Nat) (valid : Bool)
  | claimRewards (creator : Addr) (amounts : Coins)
  | delegate (creator st : Addr) (n : Nat)
  | redelegate (m : Delegation.RedelegateMsg)
  | undelegate (creator st : Addr) (n : Nat)
  | withdraw (creator st : Addr)
  | createFunder (a : Addr)
  | fund (m : Funders.FundMsg)
  | defund (m : Funders.DefundMsg)
  | createPool (m : Pool.CreateMsg)
  | updatePool (authority : Addr) (id : Nat) (u : Pool.Update)
  | enablePool (authority : Addr) (id : Nat)
  | disablePool (authority : Addr) (id : Nat)
  | scheduleUpgrade (m : Pool.ScheduleMsg)
  | cancelUpgrade (authority : Addr) (runtime : Pool.Str)
  | bundlesParams (authority : Addr) (y : Bundles.ParamsPayload)
  | delegationParams (authority : Addr) (y : Delegation.ParamsPayload)
  | stakersParams (authority : Addr) (y : Stakers.ParamsPayload)
  | poolParams (authority : Addr) (y : Pool.ParamsPayload)
  | fundersParams (authority : Addr) (y : Funders.ParamsPayload)
  | beginBlock (dt provision team : Nat) (restarted : Bool)
  | endBlock
  /-- anything else (other modules, x/mint, x/team, transfers): all balances may change arbitrarily, except that the
  accounts of x/delegation, x/stakers and x/funders can only receive coins (nobody else can spend from them) -/
  | external (b : Bank) (gd gs gf : Coins)

/-- a failing message changes nothing -/
def orElse (c : Chain) : Except String Chain → Chain
  | .ok c' => c'
  | .error _ => c

/-- balances change outside the modelled modules -/
def external (c : Chain) (b : Bank) (gd gs gf : Coins) : Chain :=
  { c with
    b := fun a =>
      if a = .mod .delegation then (c.b a).add gd
      else if a = .mod .stakers then (c.b a).add gs
      else if a = .mod .funders then (c.b a).add gf
      else b a
    del := { c.del with gifts := c.del.gifts.add gd }
    st := { c.st with gifts := c.st.gifts.add gs }
    fund := { c.fund with gifts := c.fund.gifts.add gf } }

/-- what an operation answers: a new state, or an error -/
def exec (gov : Addr) (c : Chain) : Op → Except String Chain
  | .submit m => c.submit m
  | .vote m => c.vote m
  | .skip m => c.skip m
  | .claim cr st id => c.claim cr st id
  | .createStaker a k n => c.createStaker a k n
  | .join m => c.join m
  | .leave a id => (Stakers.leavePool c.st c.now id a).map (fun s => { c with st := s })
  | .updateCommission a k => (Stakers.updateCommission c.st c.now a k).map (fun s => { c with st := s })
  | .updateMetadata a i v => (Stakers.updateMetadata c.st a i v).map (fun s => { c with st := s })
  | .claimRewards a x => (Stakers.claimRewards c.sw a x).map c.withSt
  | .delegate a st n => c.delegate a st n
  | .redelegate m => c.redelegate m
  | .undelegate a st n => (Delegation.undelegateMsg c.dw c.now a st n).map c.withDel
  | .withdraw a st => (Delegation.withdrawMsg c.dw a st).map c.withDel
  | .createFunder a => (Funders.createFunder c.fund a).map (fun s => { c with fund := s })
  | .fund m => (Funders.fundPool c.fund c.b (c.pool.pools.has m.pool) m).map (fun r => { c with fund := r.1, b := r.2 })
  | .defund m => (Funders.defundPool c.fund c.b m).map (fun r => { c with fund := r.1, b := r.2 })
  | .createPool m => createPool gov c m
  | .updatePool a id u => (Pool.update gov c.pool a id u).map (fun s => { c with pool := s })
  | .enablePool a id => (Pool.enable gov c.pool a id).map (fun s => { c with pool := s })
  | .disablePool a id => disablePool gov c a id
  | .scheduleUpgrade m => (Pool.schedule gov c.pool c.now m).map (fun s => { c with pool := s })
  | .cancelUpgrade a r => (Pool.cancel gov c.pool a r).map (fun s => { c with pool := s })
  | .bundlesParams a y => (Bundles.updateParams gov c.bun a y).map (fun s => { c with bun := s })
  | .delegationParams a y => (Delegation.updateParams gov c.dw a y).map c.withDel
  | .stakersParams a y => (Stakers.updateParams gov c.st a y).map (fun s => { c with st := s })
  | .poolParams a y => (Pool.updateParams gov c.pool a y).map (fun s => { c with pool := s })
  | .fundersParams a p => (Funders.updateParams gov c.fund a p).map (fun s => { c with fund := s })
  | .beginBlock dt pr te r => .ok (c.beginBlock dt pr te r)
  | .endBlock => .ok c.endBlock
  | .external b gd gs gf => .ok (c.external b gd gs gf)

/-- one operation; nothing happens after a crash -/
def step (gov : Addr) (c : Chain) (op : Op) : Chain := if c.crashed then c else c.orElse (exec gov c op)

/-- an empty chain with some parameters: no pools, stakers, delegations, funders, bundles; the three module accounts are
empty -/
def init (dp : Delegation.Params) (sp : Stakers.Params) (bp : Bundles.Params) (b : Bank) (now : Nat) : Chain :=
  { b := fun a => if a = .mod .delegation ∨ a = .mod .stakers ∨ a = .mod .funders then Coins.zero else b a
    now := now
    pool := Pool.State.init
    st := (Stakers.Sys.init sp b now).w.s
    del := (Delegation.Sys.init dp b now).w.s
    fund := (Funders.World.init b).s
    bun := { Bundles.State.init with params := bp }
    halted := false
    crashed := false }

end Chain
end Verif.Chain
