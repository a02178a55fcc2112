{"id": "C01", "title": "Reward bookkeeping never hits a missing period entry", "statement": "However delegators delegate, undelegate, redelegate, withdraw, get slashed and get paid, the reward distribution never looks up a period entry that has been pruned, so the chain is never put into emergency halt by the delegation module.", "quantifier": "every finite history of delegation-module operations on a staker, from an empty store", "why_tests_cant": "pruning correctness depends on the interleaving of undelegations, slashes and withdrawals of arbitrarily many delegators", "anchors": ["x/delegation/keeper/logic_f1distribution.go:f1StartNewPeriod,f1RemoveDelegator,f1Slash,f1WithdrawRewards,f1GetEntryDifference"]}
{"id": "C02", "title": "Total delegation covers every delegator", "statement": "The total delegation of a staker is never smaller than the sum of what its delegators currently own, the delegator counter equals the number of delegators, and removing a delegator never underflows the total.", "quantifier": "every history of delegation operations including any number of slashes with any fractions in [0,1], while the accumulated decimal dust stays below one base unit", "why_tests_cant": "the rounding of every slash accumulates over unbounded histories and different delegators are slashed lazily", "anchors": ["x/delegation/keeper/logic_f1distribution.go:f1Slash,f1RemoveDelegator,f1GetCurrentDelegation"]}
{"id": "C03", "title": "Reward payouts are covered by rewards paid in", "statement": "The sum of everything delegators of a staker ever withdraw as rewards is never more than what was ever paid in for that staker (up to an explicit rounding dust bound).", "quantifier": "every history of payouts and delegation operations, every coin", "why_tests_cant": "rounding errors of the per-period quotients accumulate over unboundedly many periods and delegators", "anchors": ["x/delegation/keeper/logic_f1distribution.go:f1StartNewPeriod,f1WithdrawRewards", "x/delegation/keeper/exported_functions.go:PayoutRewards"]}
{"id": "C04", "title": "Rewards are proportional to stake, no matter who else interacts when", "statement": "A delegator receives, for every payout made while it delegates, its stake's share of the payout (stake divided by total delegation at that time), up to decimal rounding; the number and order of other delegators' transactions between two withdrawals does not matter.", "quantifier": "every delegator and every history", "why_tests_cant": "the lazy period bookkeeping has to agree with the eager definition for every history, not for sampled ones", "anchors": ["x/delegation/keeper/logic_f1distribution.go:f1WithdrawRewards,f1StartNewPeriod"]}
{"id": "C05", "title": "A slash hits every delegator by exactly the slash fraction", "statement": "After a slash with fraction q every delegator's current delegation is the old decimal balance minus q times it (truncated), no matter when the delegator interacts next; nobody who delegates after the slash is affected by it.", "quantifier": "every delegator, every sequence of slashes and other operations", "why_tests_cant": "slashes are applied lazily at the delegator's next interaction", "anchors": ["x/delegation/keeper/logic_f1distribution.go:f1Slash,f1IterateConstantDelegationPeriods,f1GetCurrentDelegation"]}
{"id": "C06", "title": "The outstanding-rewards query tells the truth", "statement": "The outstanding rewards reported by the query are what a withdrawal in the same block pays out (exactly for a delegator that was not slashed since its last interaction, within rounding otherwise), and querying changes nothing.", "quantifier": "every reachable delegation state and delegator", "why_tests_cant": "the query uses a different computation path than the withdrawal", "anchors": ["x/delegation/keeper/logic_f1distribution.go:f1GetOutstandingRewards,f1WithdrawRewards"]}
{"id": "C07", "title": "Delegating, undelegating and redelegating conserve tokens", "statement": "Delegating x moves exactly x from the delegator to the module and raises its delegation to floor(old)+x; redelegating x lowers one delegation by x and raises the other by x without moving tokens; unbonding pays out exactly what the delegation shrinks by.", "quantifier": "every state, delegator, staker and amount", "why_tests_cant": "holds for all amounts and interleavings incl. slashed delegators, full and partial undelegation", "anchors": ["x/delegation/keeper/logic_delegation.go:performDelegation,performUndelegation", "x/delegation/keeper/msg_server_redelegate.go"]}
{"id": "C08", "title": "Unbonding queue: never early, in order, exactly once, never too much", "statement": "An undelegation is paid only after the unbonding time has passed, entries are processed in the order they were created, each exactly once, a due entry at the head never waits, and the payout is at most the requested amount and at most what the delegator still owns.", "quantifier": "every sequence of undelegate messages and blocks with non-decreasing block time", "why_tests_cant": "the queue is unbounded and interleaves with block times, slashes and redelegations", "anchors": ["x/delegation/keeper/logic_unbonding.go:StartUnbondingDelegator,ProcessDelegatorUnbondingQueue", "x/delegation/keeper/getters_undelegation.go"]}
{"id": "C09", "title": "Redelegation spells are limited per cooldown window", "statement": "A delegator can never have more than the allowed number of redelegations inside any cooldown window, and at most one per block time.", "quantifier": "every sequence of redelegations at non-decreasing times", "why_tests_cant": "a sliding window over an unbounded history", "anchors": ["x/delegation/keeper/logic_redelegation.go:consumeRedelegationSpell", "x/delegation/keeper/getters_redelegation.go"]}
{"id": "C10", "title": "Rewards paid to a staker reach its delegators", "statement": "Rewards that are accepted for a staker are never lost: they are eventually withdrawable by its delegators (up to rounding).", "quantifier": "every payout in every reachable state", "why_tests_cant": "needs states where the last delegator has left; false of the code (see DESIGN.md)", "anchors": ["x/delegation/keeper/exported_functions.go:PayoutRewards", "x/delegation/keeper/logic_f1distribution.go:f1StartNewPeriod"]}
{"id": "C11", "title": "Staker ranking index agrees with delegations", "statement": "The staker ranking used by queries contains every staker that ever received a delegation exactly once, with its current total delegation, in descending order.", "quantifier": "every history of delegation operations", "why_tests_cant": "index maintained by paired remove/insert around every change", "anchors": ["x/delegation/keeper/getters_index_stakers.go", "x/delegation/keeper/logic_delegation.go"]}
{"id": "C12", "title": "The delegation module is always solvent for delegations", "statement": "The delegation module account always holds at least the sum of all delegators' current delegations; slashing sends exactly the removed amount to the treasury.", "quantifier": "every history of messages, blocks and slashes", "why_tests_cant": "cross-module invariant over unbounded histories", "anchors": ["x/delegation/keeper/exported_functions.go:SlashDelegators", "x/delegation/keeper/logic_unbonding.go", "x/delegation/keeper/msg_server_delegate.go"]}
{"id": "C13", "title": "Pool membership counters and caps", "statement": "The number of stakers in a pool never exceeds 50, the stored per-pool and active-staker counters always equal the real number of memberships.", "quantifier": "every history of join, leave, kick and disable operations", "why_tests_cant": "counters are updated incrementally in many code paths", "anchors": ["x/stakers/keeper/getters_staker.go", "x/stakers/keeper/getters_valaccount.go", "x/stakers/keeper/logic_stakers.go", "x/stakers/keeper/keeper.go"]}
{"id": "C14", "title": "Joining a full pool evicts only a strictly smaller staker", "statement": "When a pool is full a new staker only gets in if its delegation is strictly larger than the lowest one in the pool; exactly that lowest staker is removed; nobody else is affected.", "quantifier": "every pool membership and delegation distribution", "why_tests_cant": "ranges over all distributions including ties", "anchors": ["x/stakers/keeper/logic_stakers.go:ensureFreeSlot", "x/stakers/keeper/msg_server_join_pool.go"]}
{"id": "C15", "title": "A protocol-node address serves one pool membership only", "statement": "Within a pool no two stakers share a protocol-node address (valaddress), no staker uses its own address or reuses the same valaddress in several pools.", "quantifier": "every history of joins and leaves", "why_tests_cant": "uniqueness over all histories", "anchors": ["x/stakers/keeper/msg_server_join_pool.go", "x/stakers/keeper/getters_valaccount.go"]}
{"id": "C16", "title": "Commission changes are delayed and the latest one wins", "statement": "A commission change takes effect only after the commission change time has passed since it was ordered, there is at most one pending change per staker, and ordering another replaces the pending one.", "quantifier": "every sequence of commission updates and blocks", "why_tests_cant": "unbounded queue with time", "anchors": ["x/stakers/keeper/logic_commission.go", "x/stakers/keeper/logic_queue.go", "x/stakers/keeper/getters_commission.go"]}
{"id": "C17", "title": "A staker leaves a pool only after the announced leave time", "statement": "A staker who announced leaving stays in the pool until the leave time has passed after that announcement, then is removed at the next block; the leave queue removes nobody without an announcement, and no other message removes a member except a kick.", "quantifier": "every sequence of join, leave, kick and block operations", "why_tests_cant": "depends on the order of queue entries over all histories", "anchors": ["x/stakers/keeper/logic_leave.go", "x/stakers/keeper/logic_stakers.go", "x/stakers/keeper/getters_leave.go"]}
{"id": "C18", "title": "Commission rewards are fully backed", "statement": "The stakers module account always holds at least the sum of all unclaimed commission rewards; a claim pays exactly the claimed amount and never more than available.", "quantifier": "every history of rewards and claims in every coin", "why_tests_cant": "cross-module accounting over unbounded histories", "anchors": ["x/stakers/keeper/logic_stakers.go:IncreaseStakerCommissionRewards", "x/stakers/keeper/msg_server_claim_commission_rewards.go"]}
{"id": "C19", "title": "Only an authorised protocol node can act for a staker in a pool", "statement": "Voting, uploading, claiming or skipping the uploader role succeeds only if the signer is the valaddress the staker registered for that pool.", "quantifier": "every message and state", "why_tests_cant": "all handlers, all states", "anchors": ["x/stakers/keeper/exported_functions.go:AssertValaccountAuthorized", "x/bundles/keeper/logic_bundles.go:AssertCanVote,AssertCanPropose"]}
{"id": "C20", "title": "One staker, one vote", "statement": "For every bundle proposal a staker appears in at most one of the valid, invalid and abstain lists and only once; valid and invalid votes are final, abstain can be changed once to valid or invalid.", "quantifier": "every sequence of votes on a proposal", "why_tests_cant": "ranges over all vote sequences", "anchors": ["x/bundles/keeper/msg_server_vote_bundle_proposal.go", "x/bundles/keeper/logic_bundles.go:AssertCanVote"]}
{"id": "C21", "title": "Quorum is a true majority of stake", "statement": "A proposal is valid iff stakers owning strictly more than half of the pool's delegation voted valid; it is invalid iff it is not valid and at least half voted invalid; both can never be claimed; otherwise there is no quorum.", "quantifier": "every vote configuration and delegation distribution", "why_tests_cant": "ranges over all distributions", "anchors": ["x/bundles/keeper/logic_bundles.go:GetVoteDistribution"]}
{"id": "C22", "title": "The bundle reward is split without creating or losing a coin", "statement": "For every finalized bundle and every coin, treasury + storage + commission + delegation payouts sum exactly to the amount charged; every share is within its cap.", "quantifier": "every payout amount, fee, storage cost, commission and coin", "why_tests_cant": "ranges over all amounts with decimal truncation", "anchors": ["x/bundles/keeper/logic_bundles.go:calculatePayouts"]}
{"id": "C23", "title": "Finalized bundles form a gap-free chain", "statement": "Bundle ids of a pool are 0,1,2,... and every bundle starts at the index where the previous one ended; the pool's current index and total bundle counter agree with them; finalized bundles are never changed.", "quantifier": "every history of submissions, votes, timeouts and skips", "why_tests_cant": "invariant over unbounded history and several code paths that finalize", "anchors": ["x/bundles/keeper/logic_bundles.go:finalizeCurrentBundleProposal", "x/pool/keeper/logic_pool.go:IncrementBundleInformation"]}
{"id": "C24", "title": "Only wrong voters are slashed, all of them, once", "statement": "When a bundle is decided, exactly the voters on the losing side are slashed and removed from the pool (the uploader with the upload slash) and nobody else is slashed for voting; abstainers are never slashed.", "quantifier": "every vote configuration", "why_tests_cant": "ranges over all vote configurations", "anchors": ["x/bundles/keeper/logic_bundles.go:tallyBundleProposal,slashDelegatorsAndRemoveStaker"]}
{"id": "C25", "title": "Inactivity points", "statement": "A staker that did not vote on a decided proposal gets exactly one point, a staker that voted gets reset, a staker reaching the maximum is slashed and removed; no other message changes points.", "quantifier": "every vote configuration and state", "why_tests_cant": "ranges over all states", "anchors": ["x/bundles/keeper/logic_bundles.go:handleNonVoters,addPoint,resetPoints", "x/bundles/keeper/msg_server_skip_uploader_role.go"]}
{"id": "C26", "title": "Only the designated uploader can propose, on time and in order", "statement": "A bundle submission is accepted only from the pool's current next uploader, not before the upload interval has passed, and only if it starts exactly at the end of the current proposal.", "quantifier": "every message and state", "why_tests_cant": "all states and times", "anchors": ["x/bundles/keeper/logic_bundles.go:AssertCanPropose,validateSubmitBundleArgs", "x/bundles/keeper/msg_server_submit_bundle_proposal.go"]}
{"id": "C27", "title": "The uploader rotation honours exclusions", "statement": "When the next uploader is chosen while excluding some stakers (e.g. the one who just skipped), an excluded staker is not chosen as long as another candidate exists.", "quantifier": "every validator set, progress and exclusion list; false of the code (see DESIGN.md)", "why_tests_cant": "depends on the relative progress values", "anchors": ["x/bundles/keeper/logic_round_robin.go:NextProposer"]}
{"id": "C28", "title": "The uploader rotation is fair", "statement": "Round-robin progress is a zero-sum game: a selection does not change the sum, progress stays bounded, and over any run of selections with a constant validator set every validator is selected in proportion to its stake up to a constant.", "quantifier": "every validator set with positive stakes and every number of selections", "why_tests_cant": "a liveness/fairness statement over unboundedly many rounds", "anchors": ["x/bundles/keeper/logic_round_robin.go"]}
{"id": "C29", "title": "Inflation split conserves the block provision", "statement": "The inflation distributed to pools in a block never exceeds the share of the block provision reserved for the protocol, and every running pool gets its weighted share.", "quantifier": "every set of pools, weights and provisions; the remainder handling is false of the code (see DESIGN.md)", "why_tests_cant": "ranges over all pool sets and weights", "anchors": ["x/bundles/abci.go:SplitInflation"]}
{"id": "C30", "title": "Looking up a finalized bundle by data index is exact", "statement": "Querying the bundle for a data index returns the unique finalized bundle whose index range contains it, and nothing if it is not finalized yet.", "quantifier": "every pool history and index", "why_tests_cant": "depends on the shape of the whole history", "anchors": ["x/bundles/keeper/getters_bundles.go:GetFinalizedBundleByIndex"]}
{"id": "C31", "title": "The uploader timeout unblocks a pool", "statement": "When the end of a block handles a pool that cannot run, the pool loses its next uploader (and, if disabled, its proposal); a runnable pool whose upload turn is overdue, or whose due bundle found no quorum, gets a new turn starting now, with a next uploader unless no member has delegation. After every block no upload turn is overdue, and a disabled or upgrading pool has no next uploader. (A pool that stops being able to run only through the decision of the same end-block may keep a next uploader until the next end-block.)", "quantifier": "every state of pools and proposals", "why_tests_cant": "end-block logic over all states", "anchors": ["x/bundles/keeper/logic_end_block_handle_upload_timeout.go"]}
{"id": "C32", "title": "Funds of funders are fully backed", "statement": "The funders module account always holds exactly the sum of all remaining fundings of all funders in every coin.", "quantifier": "every history of fund, defund, charge and eviction operations", "why_tests_cant": "cross-operation accounting over unbounded histories", "anchors": ["x/funders/keeper/logic_funders.go", "x/funders/keeper/msg_server_fund_pool.go", "x/funders/keeper/msg_server_defund_pool.go"]}
{"id": "C33", "title": "Active funders are those with money", "statement": "A pool's active-funder list has no duplicates, never exceeds 50 entries and lists every funder with coins left in the pool.", "quantifier": "every history of funding operations", "why_tests_cant": "invariant over unbounded histories", "anchors": ["x/funders/types/funders.go:SetActive,SetInactive", "x/funders/keeper/logic_funders.go"]}
{"id": "C34", "title": "A bundle never charges a funder more than promised", "statement": "For every bundle every funder is charged per coin at most its amount per bundle and at most what it has left, only in whitelisted coins; its remaining funds plus its total charged funds are conserved.", "quantifier": "every funding state and whitelist", "why_tests_cant": "all amounts and coins", "anchors": ["x/funders/types/funders.go:ChargeOneBundle", "x/funders/keeper/logic_funders.go:ChargeFundersOfPool"]}
{"id": "C35", "title": "A funder is evicted only to make room for a better one", "statement": "A funder's funding is only kicked out of a pool when all slots are taken and a new funder with a strictly higher score needs the slot.", "quantifier": "every funding state and message; false of the code (see DESIGN.md)", "why_tests_cant": "depends on the full list of funders", "anchors": ["x/funders/keeper/logic_funders.go:ensureFreeSlot"]}
{"id": "C36", "title": "Defunding pays back at most the own funding", "statement": "A defund message pays the funder exactly the lesser of the requested and the remaining amount per coin, and lowers the remaining funding by the same.", "quantifier": "every funding state and message", "why_tests_cant": "all amounts and coins", "anchors": ["x/funders/keeper/msg_server_defund_pool.go"]}
{"id": "C37", "title": "Runtime upgrades of pools happen on schedule", "statement": "A scheduled runtime upgrade is applied not before its scheduled time, at the first end-block at or after it, the pool does not run between scheduled time and the end of the upgrade, and afterwards the plan is cleared.", "quantifier": "every schedule, cancellation and block time sequence", "why_tests_cant": "timed state machine", "anchors": ["x/pool/keeper/logic_end_block_handle_pool_upgrades.go", "x/pool/keeper/msg_server_schedule_runtime_upgrade.go", "x/pool/keeper/msg_server_cancel_runtime_upgrade.go"]}
{"id": "C38", "title": "Disabling a pool removes its members and drains its account", "statement": "After a pool is disabled it has no stakers, the native-coin balance of its inflation account was moved to the treasury completely, and no staker can join it until governance enables it; in every reachable state a disabled pool has no stakers.", "quantifier": "every state", "why_tests_cant": "iterates over a list that is modified during iteration", "anchors": ["x/pool/keeper/msg_server_disable_pool.go", "x/stakers/keeper/msg_server_join_pool.go"]}
{"id": "C39", "title": "The inflation pool pays at most the configured fraction", "statement": "Charging the inflation pool for a bundle takes exactly floor(balance x rate) of the native coin, never more than the pool account holds.", "quantifier": "every balance and rate in [0,1]", "why_tests_cant": "decimal arithmetic for all values", "anchors": ["x/pool/keeper/logic_pool.go:ChargeInflationPool"]}
{"id": "C40", "title": "Pool ids are sequential and permanent", "statement": "Every created pool gets the next unused id, existing pools are not touched by the creation, and every pool has a funding state.", "quantifier": "every history of create messages", "why_tests_cant": "invariant over histories", "anchors": ["x/pool/keeper/getters_pool.go:AppendPool", "x/pool/keeper/msg_server_create_pool.go"]}
{"id": "C41", "title": "Team vesting curve", "statement": "The vested amount of a team account is zero before one year, exactly floor(allocation x time / 3 years) until three years and the full allocation afterwards; unlocked never exceeds vested, both never decrease over time and are frozen by a clawback.", "quantifier": "every account and time", "why_tests_cant": "all times and allocations with decimal arithmetic", "anchors": ["x/team/keeper/logic_team.go"]}
{"id": "C42", "title": "Team claims never exceed what is unlocked; clawback never takes back claimed coins", "statement": "For every team account the claimed amount never exceeds the unlocked amount at the time of the claim nor ever the vested amount at any later time, whatever clawbacks happen.", "quantifier": "every history of claims and clawbacks with non-decreasing block time", "why_tests_cant": "history-dependent: clawback can be set, moved and removed", "anchors": ["x/team/keeper/msg_server_claim_unlocked.go", "x/team/keeper/msg_server_clawback.go"]}
{"id": "C43", "title": "The team never issues more than its allocation", "statement": "The sum of the maximum vesting amounts of all team accounts never exceeds the team allocation.", "quantifier": "every history of create and clawback messages; false of the code (see DESIGN.md)", "why_tests_cant": "depends on the order of clawbacks and creations and on uint64 wrap-around", "anchors": ["x/team/keeper/msg_server_create_team_vesting_account.go", "x/team/keeper/msg_server_clawback.go"]}
{"id": "C44", "title": "Team module account is exactly backed", "statement": "The team module account always holds at least allocation minus claimed plus all unclaimed rewards; each claim pays exactly the claimed amount and never more than what is available.", "quantifier": "every history of team messages and blocks", "why_tests_cant": "accounting over unbounded histories", "anchors": ["x/team/keeper/logic_team.go:GetTeamInfo", "x/team/abci.go", "x/team/keeper/msg_server_claim_account_rewards.go", "x/team/keeper/msg_server_claim_authority_rewards.go"]}
{"id": "C45", "title": "Team inflation is fully distributed and never halts the chain", "statement": "In every block the accounts' and the authority's new rewards sum to exactly what the team module receives, and the accounts never get more than the total.", "quantifier": "every reachable state whose issued amounts are within the allocation, with fewer than 2*10^18 / reward accounts (false otherwise, see DESIGN.md)", "why_tests_cant": "decimal rounding over arbitrarily many accounts", "anchors": ["x/team/abci.go:DistributeTeamInflation"]}
{"id": "C46", "title": "Consensus minimum fee", "statement": "From the second block on a transaction is accepted by the fee check only if it pays at least ceil(min gas price x gas limit) of the bond coin; before there is no consensus minimum, only the prices of the single node.", "quantifier": "every fee, gas limit, gas price and height", "why_tests_cant": "decimal rounding for all values", "anchors": ["x/global/utils.go:BuildTxFeeChecker"]}
{"id": "C47", "title": "Fee burning and refunds are bounded", "statement": "At the end of a block exactly floor(ratio x collected fees) per coin is burned; the refund of a transaction is at most the fee paid and only for single-message transactions of a configured type.", "quantifier": "every fee, ratio in [0,1] and message list", "why_tests_cant": "decimal arithmetic for all values", "anchors": ["x/global/abci.go:EndBlocker", "x/global/post.go:RefundFeeDecorator"]}
{"id": "C48", "title": "A fee grant is used once per transaction", "statement": "A transaction paid by a fee granter uses up the granted allowance by exactly the fee once.", "quantifier": "every transaction; false of the code for refundable messages (see DESIGN.md)", "why_tests_cant": "interaction of ante and post handlers", "anchors": ["x/global/post.go", "x/global/utils.go:GetFeeAccount"]}
{"id": "C49", "title": "Gas adjustments are charged per message", "statement": "For every message of a transaction the extra gas of the first matching configured adjustment is charged, nothing for the others.", "quantifier": "every message list and adjustment list", "why_tests_cant": "all lists", "anchors": ["x/global/ante.go:GasAdjustmentDecorator"]}
{"id": "C50", "title": "Store keys never collide and iterate in the intended order", "statement": "Two different logical keys never map to the same store key, and byte order of the numeric part is numeric order.", "quantifier": "all 64-bit numbers and all fixed-length addresses", "why_tests_cant": "all key values", "anchors": ["util/logic.go:GetByteKey", "x/delegation/types/keys.go", "x/stakers/types/keys.go", "x/bundles/types/keys.go", "x/funders/types/keys.go"]}
{"id": "C51", "title": "Genesis validation rejects duplicate and dangling entries", "statement": "Genesis validation refuses two pools with the same id, two vesting accounts with the same id, two current proposals of a pool, two finalized bundles of a pool with the same id, a gap in the bundle ids of a pool, two delegations, periods or slashes with the same key, two memberships of a staker in a pool, two commission changes or unbonding requests with the same index, ids or indices outside the counters, slashes without their period, and invalid parameters.", "quantifier": "every genesis state (see C67 for the lists that are not checked)", "why_tests_cant": "all genesis files", "anchors": ["x/delegation/types/genesis.go", "x/stakers/types/genesis.go", "x/pool/types/genesis.go", "x/team/types/genesis.go", "x/bundles/types/genesis.go"]}
{"id": "C52", "title": "Only governance can change parameters and pools", "statement": "Parameter updates and pool create/update/enable/disable/upgrade messages from anyone but the governance authority fail and change nothing; nothing but such a message changes parameters or the settings of a pool; team messages from others than the configured team authorities fail and change nothing.", "quantifier": "every message and state", "why_tests_cant": "all senders and states", "anchors": ["x/pool/keeper/msg_server_cancel_runtime_upgrade.go", "x/pool/keeper/msg_server_create_pool.go", "x/pool/keeper/msg_server_disable_pool.go", "x/pool/keeper/msg_server_enable_pool.go", "x/pool/keeper/msg_server_schedule_runtime_upgrade.go", "x/pool/keeper/msg_server_update_pool.go", "x/bundles/keeper/msg_server_update_params.go", "x/delegation/keeper/msg_server_update_params.go", "x/funders/keeper/msg_server_update_params.go", "x/global/keeper/msg_server_update_params.go", "x/pool/keeper/msg_server_update_params.go", "x/stakers/keeper/msg_server_update_params.go", "x/team/keeper/msg_server_claim_account_rewards.go", "x/team/keeper/msg_server_claim_authority_rewards.go", "x/team/keeper/msg_server_claim_unlocked.go", "x/team/keeper/msg_server_clawback.go", "x/team/keeper/msg_server_create_team_vesting_account.go"]}
{"id": "C53", "title": "The active staker list shows every active staker on exactly one page", "statement": "Reading all pages of the Stakers query (by offset) or of any query paginated by store keys (by following the next key) returns every matching entry exactly once, in order; the reported next key is empty exactly on the last page.", "quantifier": "every list of stakers, every filter and every page size", "why_tests_cant": "all list lengths and page sizes", "anchors": ["x/delegation/keeper/getters_index_stakers.go:arrayPaginationAccumulator", "x/query/keeper/grpc_query_staker.go", "x/query/keeper/grpc_query_pool.go", "x/query/keeper/grpc_query_funders.go"]}
{"id": "C54", "title": "The pool status shown to users is the truth", "statement": "The pool status query reports a pool as active (or without funds) exactly if the pool can currently run, i.e. protocol nodes may upload and vote, and otherwise gives the first reason why not.", "quantifier": "every pool state, delegation distribution and block time", "why_tests_cant": "two independent implementations of the same conditions have to agree on every state", "anchors": ["x/query/keeper/helper.go:GetPoolStatus", "x/bundles/keeper/logic_bundles.go:AssertPoolCanRun"]}
{"id": "C55", "title": "A chain exported to genesis restarts in the same state", "statement": "A chain started from the genesis exported from any reachable state has the same pools, proposals, finalized bundles, upload turns, stakers, memberships, queues, delegations, rewards, slashes, unbondings, cooldowns, fundings, vesting accounts and parameters, and lookups that agree with them.", "quantifier": "every reachable state, every time of the restart (data indices below 2^64)", "why_tests_cant": "secondary indices and in-memory stores are not exported; whether they are rebuilt correctly depends on the whole history", "anchors": ["x/delegation/genesis.go", "x/stakers/genesis.go", "x/pool/genesis.go", "x/funders/genesis.go", "x/team/genesis.go", "x/bundles/genesis.go"]}
{"id": "C56", "title": "A protocol node is told the one staker it works for", "statement": "The CanValidate query answers yes exactly if some member of the pool authorised the asking node address, and then names a staker that the submit and vote messages of this node accept.", "quantifier": "every reachable state, pool and node address", "why_tests_cant": "needs the uniqueness of node addresses per pool over all histories", "anchors": ["x/query/keeper/grpc_query_can_validate.go", "x/stakers/keeper/getters_valaccount.go:DoesValaccountExist"]}
{"id": "C57", "title": "The CanVote and CanPropose queries predict the messages", "statement": "CanVote answers yes exactly if a vote message with the same arguments would succeed. CanPropose answering no means that a bundle or skip message from this node fails; answering yes means that every well-formed bundle (and every skip) starting at that index is accepted, unless the pending bundle is undecided or its payout panics.", "quantifier": "every reachable state and every message", "why_tests_cant": "two code paths have to agree on every state", "anchors": ["x/query/keeper/grpc_query_can_propose.go", "x/query/keeper/grpc_query_can_vote.go", "x/bundles/keeper/logic_bundles.go:AssertCanPropose,AssertCanVote"]}
{"id": "C58", "title": "Protocol stakers vote in governance with exactly their delegation", "statement": "The bonded protocol tokens handed to the governance tally are the sum of the delegation of every active staker, each counted once; a delegator that overrides its staker's vote deducts what it delegates, and all such deductions together never exceed the staker's bonded tokens; delegations to inactive stakers carry no weight.", "quantifier": "every reachable state and every set of delegators", "why_tests_cant": "needs membership counters, the delegation index and the F1 balances to agree over all histories", "anchors": ["x/stakers/keeper/exported_functions.go:GetActiveValidators,TotalBondedTokens,GetDelegations"]}
{"id": "C59", "title": "The by-pool-count staker query shows every staker on exactly one page", "statement": "Reading all pages of the StakersByPoolCount query returns every staker exactly once and never fails for a valid page request.", "quantifier": "every list of stakers and every page size; false of the code (see DESIGN.md)", "why_tests_cant": "all list lengths and page sizes", "anchors": ["x/delegation/keeper/getters_index_stakers.go:arrayPagination,GetPaginatedActiveStakersByPoolCountAndDelegation"]}
{"id": "C60", "title": "The redelegation query tells when one can redelegate", "statement": "The AccountRedelegation query lists exactly the account's redelegations that still occupy a slot, with the time each frees it; the available slots plus the used ones are the allowed number, and a redelegation is possible exactly if a slot is available.", "quantifier": "every account and every history in which the cooldown is never raised and the allowed number is not lowered below what is in use (false otherwise, see C65)", "why_tests_cant": "depends on the lazily pruned entries over all histories", "anchors": ["x/query/keeper/grpc_account_redelegation.go", "x/delegation/keeper/logic_redelegation.go"]}
{"id": "C61", "title": "The account overview shows what the account owns", "statement": "AccountAssets shows exactly the account's balance, its delegation with all stakers together, its unpaid unbonding requests, its outstanding rewards (up to one base unit per staker) and its remaining fundings; AccountFundedList never fails and lists exactly the pools in which the account has coins left; all accounts together are never shown more delegation or funding than exists.", "quantifier": "every reachable state and every account", "why_tests_cant": "secondary indices, lazily computed balances and queues have to agree over all histories", "anchors": ["x/query/keeper/grpc_account_assets.go", "x/query/keeper/grpc_account_delegation_unbondings.go", "x/query/keeper/grpc_account_funded.go"]}
{"id": "C62", "title": "An announcement to leave ends with the membership it was made for", "statement": "A staker who did not announce leaving since it last joined the pool is not removed from it by the leave queue.", "quantifier": "every sequence of join, leave, kick and block operations; false of the code (see DESIGN.md)", "why_tests_cant": "needs histories in which a kick, a rejoin and the queue interleave", "anchors": ["x/stakers/keeper/logic_leave.go", "x/stakers/keeper/logic_stakers.go", "x/stakers/keeper/getters_leave.go"]}
{"id": "C63", "title": "Points are for missed duties", "statement": "A staker only gets an inactivity point when it did not vote on a proposed bundle or missed its turn to upload.", "quantifier": "every state and message; false of the code (see DESIGN.md)", "why_tests_cant": "ranges over all states", "anchors": ["x/bundles/keeper/logic_bundles.go:handleNonVoters,addPoint", "x/bundles/keeper/msg_server_skip_uploader_role.go"]}
{"id": "C64", "title": "A listed active funder has coins left", "statement": "Every funder listed as active in a pool has coins left in it.", "quantifier": "every history of funding operations; false of the code (see DESIGN.md)", "why_tests_cant": "invariant over unbounded histories", "anchors": ["x/funders/types/funders.go:SetActive", "x/funders/keeper/msg_server_fund_pool.go"]}
{"id": "C65", "title": "The number of available redelegation slots is never overstated", "statement": "The available slots shown by the AccountRedelegation query are never more than the allowed number.", "quantifier": "every account and every history of parameter changes; false of the code (see DESIGN.md)", "why_tests_cant": "depends on uint64 wrap-around after a parameter change", "anchors": ["x/query/keeper/grpc_account_redelegation.go"]}
{"id": "C66", "title": "The native coin stays on the funding whitelist", "statement": "No accepted parameter update takes the native coin off the whitelist of coins pools can be funded with.", "quantifier": "every history of parameter updates; false of the code (see DESIGN.md), true when every update names the coins it lists", "why_tests_cant": "the payload is decoded into the current parameters, so the effect of one update depends on all earlier ones", "anchors": ["x/funders/keeper/msg_server_update_params.go:UpdateParams", "x/funders/types/params.go:Validate", "x/funders/types/msgs.go:ValidateBasic"]}
{"id": "C67", "title": "Genesis validation rejects duplicate entries in every list", "statement": "A genesis file with two entries for the same key in any list of any module is rejected by validation.", "quantifier": "every genesis state; false of funders, fundings and funding states, of stakers and leave announcements, and of round-robin states (see DESIGN.md)", "why_tests_cant": "all genesis files", "anchors": ["x/funders/types/genesis.go", "x/stakers/types/genesis.go", "x/bundles/types/genesis.go"]}
{"id": "C68", "title": "An exported genesis is accepted", "statement": "The genesis exported from any reachable state passes validation.", "quantifier": "every reachable state; false after a stale leave announcement (C62) or after the native coin was dropped from the whitelist (C66), true otherwise", "why_tests_cant": "depends on every reachable state satisfying the cross-references that validation checks", "anchors": ["x/delegation/types/genesis.go", "x/stakers/types/genesis.go", "x/pool/types/genesis.go", "x/funders/types/genesis.go", "x/team/types/genesis.go", "x/bundles/types/genesis.go"]}
{"id": "C69", "title": "Team status queries show what can be claimed", "statement": "At any time the amounts shown for a team vesting account add up (locked + unlocked = vested, vested + remaining = maximum, maximum + clawed back = allocation, claimed + claimable = unlocked), the plan dates are those of the vesting schedule, a claim of an authority is accepted exactly up to the amount shown as claimable (also for rewards and authority rewards), and the info query's required balance is allocation plus rewards ever credited minus everything ever paid, which the module account holds.", "quantifier": "every history of team messages and blocks starting with the allocation in the module account, every account, every time from now on, every claim; at most the allocation issued (C43)", "why_tests_cant": "quantifies over all histories and times; a claim shown as available could fail because the module account was emptied by other claims", "anchors": ["x/team/keeper/logic_team.go:GetVestingStatus", "x/team/keeper/logic_team.go:GetVestingPlan", "x/team/keeper/logic_team.go:GetTeamInfo", "x/team/keeper/msg_server_claim_unlocked.go", "x/team/keeper/grpc_query_vesting_status_by_time.go"]}
{"id": "C70", "title": "Delegator lists are complete and agree", "statement": "Reading all pages of the delegators of a staker gives every delegator of that staker exactly once with the amount and rewards the single query shows, as many as the shown count, in sum at most the shown total; reading all pages of the stakers of a delegator gives every staker it has delegated to exactly once, in sum the delegation shown among its assets; both lists agree, reading ends, and whoever has delegators is a registered staker.", "quantifier": "every reachable chain state, every account, every page size", "why_tests_cant": "quantifies over all reachable states and all page sizes; the two lists come from two separately maintained indexes", "anchors": ["x/query/keeper/grpc_delegation_delegators_by_staker.go", "x/query/keeper/grpc_delegation_stakers_by_delegator.go", "x/query/keeper/grpc_delegation_delegator.go"]}
{"id": "C71", "title": "The list of stakers is the ranking", "statement": "Reading all pages of the stakers query shows every registered staker exactly once and nobody else, ordered by descending delegation; with the status or search filter exactly those who match.", "quantifier": "every reachable chain state, every page size, status filter and search text", "why_tests_cant": "the list is read from an in-memory index that is maintained by seven message handlers and rebuilt at restart", "anchors": ["x/query/keeper/grpc_query_staker.go Stakers", "x/delegation/keeper/getters_index_stakers.go"]}
{"id": "C72", "title": "A staker's page shows its true state", "statement": "For a registered staker the query shows its record, the pending commission change it ordered last, its total delegation and number of delegators, its self-delegation (at most the total) and exactly the pools it is a member of, each once, with the data of the membership; the stakers shown of a pool are exactly its members, at most 50.", "quantifier": "every reachable chain state, every staker, every pool", "why_tests_cant": "combines five stores written by different modules; must agree in every reachable state", "anchors": ["x/query/keeper/helper.go GetFullStaker", "x/query/keeper/grpc_query_staker.go Staker", "x/query/keeper/grpc_query_stakers_by_pool.go"]}
{"id": "C73", "title": "A pool's page shows its true state", "statement": "The pool query shows the pool's record, the proposal in progress, its members each once, their total delegation and own part of it, its balance, its fundings one per funder, and a status that is the reason why it cannot run; reading all pages of the pools shows exactly the pools that pass the filter, by ascending id.", "quantifier": "every reachable chain state, every pool, every filter and page size", "why_tests_cant": "combines four modules; must agree in every reachable state", "anchors": ["x/query/keeper/grpc_query_pool.go"]}
{"id": "C74", "title": "Funding queries show all fundings with true amounts", "statement": "Reading all pages of the fundings of a funder or of a pool shows exactly the fundings with the asked status, one per pair of funder and pool; the totals shown for a funder are the sums over its fundings, and the shown score of a funding is the weighted value of what is left.", "quantifier": "every reachable chain state, every funder, pool, status and page size", "why_tests_cant": "the two lists are read from two separately written stores", "anchors": ["x/query/keeper/grpc_query_funders.go", "x/query/keeper/grpc_query_fundings.go", "x/funders/keeper/getters_funding.go"]}
{"id": "C75", "title": "The vote status shows the stake behind the votes", "statement": "For every existing pool the vote status shows the delegation of the present members who voted valid, invalid and abstain on the proposal in progress, and of all members; the first three never exceed the last.", "quantifier": "every reachable chain state, every pool", "why_tests_cant": "depends on the history of votes, joins, kicks, delegations and slashes since the proposal was submitted", "anchors": ["x/query/keeper/grpc_current_vote_status.go", "x/bundles/keeper/logic_bundles.go GetVoteDistribution"]}
{"id": "C76", "title": "The archive can be read page by page", "statement": "Reading all pages of a pool's finalized bundles by key gives every finalized bundle exactly once, in order of the ids or backwards, and ends; a page by offset starts that many bundles after the first (before the last) and Total is the number of finalized bundles.", "quantifier": "every reachable chain state, every pool, page size, offset and direction", "why_tests_cant": "relies on ids being dense in every reachable state, and on a hand-written pagination", "anchors": ["x/bundles/keeper/getters_bundles.go GetPaginatedFinalizedBundleQuery", "x/query/keeper/grpc_query_finalized_bundles.go"]}
{"id": "C77", "title": "The unbonding query shows the open requests", "statement": "Reading all pages of an account's unbondings shows its undelegation requests that have not been paid out, oldest first, each exactly once, with amount, time and staker.", "quantifier": "every reachable chain state and history, every account and page size", "why_tests_cant": "quantifies over all histories of requests and payouts", "anchors": ["x/query/keeper/grpc_account_delegation_unbondings.go", "x/delegation/keeper/getters_undelegation.go"]}
{"id": "C78", "title": "The v1.5 upgrade keeps everybody's position", "statement": "The upgrade to v1.5 moves no coins and keeps every funding, staker, commission, delegation, reward, slash, unbonding, membership and bundle, with all amounts read as amounts of the native coin; the state afterwards is one the chain could have reached by itself with governance messages. Exactly the pools with one of the three runtimes and no upgrade plan get one. It panics only if some amount is 2^63 or more.", "quantifier": "every state before the upgrade (any number of pools, stakers, delegations, fundings)", "why_tests_cant": "the handler runs once on the one real state, which no test has; it must be right for every state", "anchors": ["app/upgrades/v1_5/upgrade.go CreateUpgradeHandler", "app/upgrades/v1_5/upgrade.go migrateFundersModule", "app/upgrades/v1_5/upgrade.go migrateDelegationModule", "app/upgrades/v1_5/upgrade.go migrateStakersModule", "app/upgrades/v1_5/upgrade.go migrateBundlesModule", "app/upgrades/v1_5/upgrade.go migratePoolModule", "app/upgrades/v1_5/upgrade.go upgradeRuntimes"]}
{"id": "C79", "title": "Pending proposals mean the same after the v1.5 upgrade", "statement": "A proposal that is pending during the upgrade is kept with all its messages, and a pool it creates afterwards has the settings it asked for and, compared to the other pools, the weight it asked for.", "quantifier": "every set of proposals, every message", "why_tests_cant": "proposals that are open at the upgrade are executed later by code of the new version", "anchors": ["app/upgrades/v1_5/upgrade.go migrateOldGovProposals", "x/pool/keeper/msg_server_create_pool.go"]}
{"id": "C80", "title": "Upload turns", "statement": "An accepted submission puts exactly the submitted bundle up for vote, with no vote but the uploader's, and starts a new upload turn; after an invalid bundle nothing is up for vote and it is the sender's turn again. An accepted skip starts a new turn at the time of the block. Nothing but submissions, skips, claims of that pool and block ends changes whose turn it is.", "quantifier": "every reachable chain state, every message and block", "why_tests_cant": "must hold after every history of submissions, skips, votes and membership changes", "anchors": ["x/bundles/keeper/msg_server_submit_bundle_proposal.go", "x/bundles/keeper/msg_server_skip_uploader_role.go", "x/bundles/keeper/logic_bundles.go registerBundleProposalFromUploader"]}
{"id": "C81", "title": "Nobody else can spend my coins", "statement": "The coins in the account of a user never become less by a message the user did not sign, nor by a block; a message the user signed takes no more than the amount it names (self delegation, valaddress funding, delegation, pool funding), and every other message of the protocol takes nothing.", "quantifier": "every reachable chain state, every message and block, every user and denomination", "why_tests_cant": "must hold for all messages by all other users in all states, including evictions, slashes and block processing", "anchors": ["x/delegation/keeper/msg_server_delegate.go", "x/stakers/keeper/msg_server_create_staker.go", "x/stakers/keeper/msg_server_join_pool.go", "x/funders/keeper/msg_server_fund_pool.go", "util/logic_bank.go"]}
{"id": "C82", "title": "Nobody else can change my delegation", "statement": "What a user has delegated to a staker changes only by messages the user signed, when a request of that user to undelegate from that staker matures, and by slashes of that staker; each slash takes exactly its fraction of the decimal stake. Messages of other users, votes, bundles, joins, leaves and blocks change nothing.", "quantifier": "every reachable chain state, every message and block, every staker and delegator", "why_tests_cant": "the lazy bookkeeping of a delegator is stored between periods that other delegators start and prune; must hold for all interleavings", "anchors": ["x/delegation/keeper/logic_f1distribution.go:f1RemoveDelegator,f1Slash,f1GetCurrentDelegation", "x/delegation/keeper/logic_unbonding.go:ProcessDelegatorUnbondingQueue", "x/delegation/keeper/exported_functions.go:SlashDelegators"]}
{"id": "C83", "title": "Earned rewards cannot be taken by others", "statement": "What a delegator could withdraw now is not changed by delegations, undelegations, redelegations or withdrawals of other users, nor by slashes; it is never lowered by anything the delegator did not sign except that a matured undelegation of the delegator itself pays it out.", "quantifier": "every reachable chain state, every message and block, every staker, delegator and coin", "why_tests_cant": "rewards are the difference of two stored period entries, and other users' transactions create, prune and share those entries", "anchors": ["x/delegation/keeper/logic_f1distribution.go:f1StartNewPeriod,f1WithdrawRewards,f1Slash,f1RemoveDelegator"]}
{"id": "C84", "title": "Nobody else can use my funding", "statement": "The coins a funder has left in a pool change only by messages of the funder itself; or because a bundle of that pool became final, and then the funder, if it is one of the active ones, pays exactly the promised amount per bundle, or what it has left of a coin if that is less, in whitelisted coins only, and nothing else; or because another funder takes its place, and then everything it had left is on its account.", "quantifier": "every reachable chain state, every message and block, every funder, pool and coin", "why_tests_cant": "must hold for all messages of all other users, bundles and blocks in all states", "anchors": ["x/funders/keeper/logic_funders.go:ChargeFundersOfPool,ensureFreeSlot", "x/funders/keeper/msg_server_fund_pool.go", "x/funders/keeper/msg_server_defund_pool.go"]}
{"id": "C85", "title": "Commission rewards are safe", "statement": "The rewards a staker has earned for its bundles and not yet claimed become less only by the staker's own claims, which pay exactly the claimed coins to it; they become more only when a bundle it uploaded becomes final. A claim is accepted exactly from a staker that claims something and no more than it has of any coin.", "quantifier": "every reachable chain state, every message and block, every staker and coin", "why_tests_cant": "must hold for all messages of all other users and all blocks in all states", "anchors": ["x/stakers/keeper/msg_server_claim_commission_rewards.go", "x/stakers/keeper/logic_stakers.go:IncreaseStakerCommissionRewards", "x/bundles/keeper/logic_bundles.go"]}
{"id": "C86", "title": "A staker keeps its place in a pool", "statement": "A member of a pool stays a member until one of these happens: an announcement to leave that it made itself has become as old as the leave time; somebody with more delegation joins the full pool of 50 members, none of which has less delegation than it; governance disables the pool; it voted against a bundle that became final; it voted for or uploaded a bundle that was thrown away; or it reaches the maximum of points by not voting or not uploading.", "quantifier": "every reachable chain state, every message and block, every pool and member", "why_tests_cant": "members are removed in six places of three modules; must hold in all states", "anchors": ["x/stakers/keeper/logic_leave.go", "x/stakers/keeper/logic_stakers.go", "x/stakers/keeper/exported_functions.go:LeavePool", "x/pool/keeper/msg_server_disable_pool.go", "x/bundles/keeper/logic_bundles.go:handleNonVoters,addPoint"]}
{"id": "C87", "title": "Requests one is entitled to are accepted and paid", "statement": "Withdrawing rewards is accepted exactly from a delegator (while the module account can pay) and pays it exactly what it has earned, after which it has earned nothing and nobody else is affected; the query shows that amount up to one base unit. Undelegating is accepted exactly up to what the delegator owns, leaving a pool exactly from a member that has not announced it already, a commission change exactly from a staker for a commission of at most 1. A funder can always take back everything it has left and is paid exactly that.", "quantifier": "every reachable chain state, every delegator, staker, funder, pool, amount and coin", "why_tests_cant": "no hidden condition may stand between a user and its own coins in any state the chain can reach", "anchors": ["x/delegation/keeper/msg_server_withdraw_rewards.go", "x/delegation/keeper/msg_server_undelegate.go", "x/stakers/keeper/msg_server_leave_pool.go", "x/stakers/keeper/msg_server_update_commission.go", "x/funders/keeper/msg_server_defund_pool.go"]}
{"id": "C88", "title": "Funding terms", "statement": "A funding is accepted exactly from a registered funder for an existing pool, if the message carries something, the account has the coins, the funder's whole position afterwards meets the terms (whitelisted coins only, at least the minimum amount, at least the minimum per bundle, at least the minimum number of bundles for every coin) and there is a free slot or the lowest funder has less; a defunding exactly if it pays something and what remains meets the terms or is nothing. After either the position is exactly the old one plus or minus the coins of the message and meets the terms.", "quantifier": "every reachable chain state, every funder, pool, message and coin", "why_tests_cant": "the checks are loops over lists of coins of the message, the position and the whitelist; must be exact for every combination", "anchors": ["x/funders/keeper/msg_server_fund_pool.go", "x/funders/keeper/msg_server_defund_pool.go", "x/funders/keeper/logic_funders.go"]}
{"id": "C89", "title": "Conservation of coins", "statement": "No operation of the protocol modules creates or destroys coins: summed over all accounts (users, module accounts, pool accounts), the amount of every denom is the same before and after every message, begin block and end block of these modules, however long the history; coins only move. In particular slashed coins, unclaimed rewards, network fees and storage rewards all end up in some account.", "quantifier": "every reachable chain state, every operation except those of other modules, every history of them, every denom, any set of accounts that holds everything", "why_tests_cant": "a sum over all accounts after any history with rounding, slashes and payouts in between", "anchors": ["x/delegation/keeper/logic_delegation.go", "x/bundles/keeper/logic_bundles.go", "x/bundles/keeper/logic_end_block_handle_upload_timeout.go", "x/stakers/keeper/msg_server_claim_commission_rewards.go", "x/funders/keeper/logic_funders.go", "util/logic_bank.go"]}
{"id": "C90", "title": "What can stop the chain", "statement": "No message can stop the chain. An end block stops it only if some existing pool has a proposed bundle that claims 2^63 bytes or more, or whose pool account has 2^63 native coins or more, or while the native coin is not whitelisted for funding. A begin block does not stop it as long as the number of running pools times the coins reserved for the pools is below 2*10^18.", "quantifier": "every reachable chain state, every message, end block and begin block (every provision, duration)", "why_tests_cant": "a panic in a block hook stops every node; unit tests only see chosen states", "anchors": ["x/bundles/abci.go", "x/bundles/keeper/logic_bundles.go", "x/bundles/keeper/logic_end_block_handle_upload_timeout.go", "x/pool/keeper/logic_end_block_handle_pool_upgrades.go", "x/pool/keeper/logic_pool.go"]}
{"id": "C91", "title": "Mempool priority follows the gas price", "statement": "An accepted transaction gets as mempool priority the lowest price per gas its fee offers in any of its coins (whole coins, capped at 2^63-1); paying more of a coin for the same gas never lowers the priority.", "quantifier": "every fee, every gas limit a transaction can have, every parameter set", "why_tests_cant": "a fold over the coins of the fee with a special case for zero; monotonicity is a statement about pairs of fees", "anchors": ["x/global/utils.go:getTxPriority,BuildTxFeeChecker", "x/global/ante.go"]}
{"id": "C92", "title": "Only the right accounts pay", "statement": "A transaction takes coins only from the account that pays its fee, from the signers of its messages (also of messages wrapped in MsgExec), from the accounts of x/delegation, x/stakers, x/funders, x/pool and the pools if it contains messages of the protocol, and from x/team's account if it contains messages of x/team signed by the foundation or BCP. Begin and end blocks never take coins from a user or from x/team.", "quantifier": "every state of the whole application (any history of transactions with several messages, proposals, blocks and actions of other modules), every operation", "why_tests_cant": "one wrong account in any handler, in any order of messages, fees and blocks, is enough to break it", "anchors": ["app/app_config.go", "app/ante.go", "x/global/ante.go", "x/global/post.go:RefundFeeDecorator", "x/team/keeper/msg_server_claim_unlocked.go"]}
{"id": "C93", "title": "The balances add up to the supply", "statement": "Finitely many accounts hold coins and together they hold exactly the supply. The supply grows only by the provision minted in a begin block and shrinks only by what x/global burns in an end block: the configured part of the coins in the fee collector, rounded down; nothing in the first block.", "quantifier": "every state of the whole application, every operation, every coin", "why_tests_cant": "a statement about the sum over all accounts after every possible history", "anchors": ["app/app_config.go", "x/global/abci.go:EndBlocker", "x/global/keeper/keeper.go", "x/team/abci.go:DistributeTeamInflation", "x/bundles/abci.go:SplitInflation"]}
{"id": "C94", "title": "Nobody else can spend a user's coins", "statement": "A transaction costs a user at most the fee, if it pays it, and the coins named in the messages it signed. Who neither signed a transaction nor authorised one of its signers loses nothing by it, except for fees covered by an allowance it granted. Proposals cost nobody but x/gov anything, and blocks cost no user anything.", "quantifier": "every state of the whole application, every transaction, proposal and block, every user, every coin", "why_tests_cant": "quantifies over every user, combination of messages and history", "anchors": ["app/ante.go", "x/global/ante.go", "x/global/post.go", "x/stakers/keeper/msg_server_create_staker.go", "x/funders/keeper/msg_server_fund_pool.go", "x/delegation/keeper/msg_server_delegate.go"]}
{"id": "C95", "title": "The begin block distributes what was minted", "statement": "The begin block mints the provision into the fee collector; x/team and the pools together get at most the provision, and the fee collector keeps exactly the rest; no panic and no halt. The balance x/team says it requires is its allocation plus its rewards minus what it paid, and its account always holds it.", "quantifier": "every history of the whole application in which x/team and x/pool were not halted and the amounts stay in range; at most one pool cannot run (otherwise: C29)", "why_tests_cant": "x/team's share is computed twice, before and after its own rewards are credited; that the two shares and the pools' parts fit into the provision needs the invariants of both modules", "anchors": ["x/team/abci.go:DistributeTeamInflation", "x/team/keeper/logic_team.go", "x/bundles/abci.go:SplitInflation", "app/app_config.go"]}
{"id": "C96", "title": "Transactions are all or nothing", "statement": "A transaction has one of three effects: none; only its fee is paid; or its fee is paid, all its messages are executed in order, and the configured part of the fee is paid back. It has an effect only if the payer signed it and the signers of all messages signed it or authorised a signer. If it is signed, its gas and fee suffice and its messages succeed, it takes effect (unless the fee is paid by an allowance, see C48). x/global never halts the chain.", "quantifier": "every state of the whole application, every transaction", "why_tests_cant": "the ante handler, the messages and the post handler can each fail at any point", "anchors": ["app/ante.go", "x/global/ante.go", "x/global/post.go:RefundFeeDecorator", "x/global/utils.go:BuildTxFeeChecker", "x/global/abci.go"]}
{"id": "C97", "title": "x/team keeps its promises inside the application", "statement": "Whatever the other modules do, what an account of x/team claimed is unlocked and vested at every present and future time, and x/team's account holds at least its genesis balance plus all credited rewards minus what was paid out, unless it halted the chain.", "quantifier": "every history of the whole application, every team account, every later time", "why_tests_cant": "x/team shares the bank and the fee collector with all other modules", "anchors": ["x/team/keeper/logic_team.go", "x/team/abci.go:DistributeTeamInflation", "x/team/keeper/msg_server_claim_unlocked.go", "x/team/keeper/msg_server_claim_account_rewards.go"]}
{"id": "C98", "title": "Restarting a node makes no difference", "statement": "Two nodes that start from the same state and see the same blocks and messages, but are restarted before different blocks (so that the in-memory indices are rebuilt at different times), answer every message alike and store the same on disk. They find the same bundle for every data index, and rank every staker that was ever delegated to at the same place.", "quantifier": "every state, every history of messages and blocks, every choice of restarts for the two nodes", "why_tests_cant": "a consensus failure by a diverging in-memory index shows only in the one history and restart pattern that triggers it", "anchors": ["x/delegation/keeper/keeper.go:InitMemStore", "x/delegation/keeper/getters_index_stakers.go:SetStakerIndex,RemoveStakerIndex", "x/delegation/module.go:BeginBlock", "x/bundles/keeper/keeper.go:InitMemStore", "x/bundles/keeper/getters_bundles.go:SetFinalizedBundleIndexes"]}
{"id": "C99", "title": "The order of the votes makes no difference", "statement": "Votes of different stakers (or for different pools) may come in any order: each vote is accepted or refused as if it were alone, the chain stores the same up to the order of the vote lists, and everything that happens later - tallies, slashes, points, rewards, all balances, all answers - is the same, until the end or until both chains reach an emergency stop in the same step.", "quantifier": "every state, every list of votes of different stakers, every permutation of it, every later history", "why_tests_cant": "the number of orders and later histories is unbounded; tests fix one order", "anchors": ["x/bundles/keeper/msg_server_vote_bundle_proposal.go:VoteBundleProposal", "x/bundles/keeper/logic_bundles.go:tallyBundleProposal,GetVoteDistribution,handleNonVoters", "x/delegation/keeper/exported_functions.go:SlashDelegators"]}
{"id": "C100", "title": "Pools do not touch each other", "statement": "A message that is not about a pool (and is no upgrade message) changes nothing about it: not its record, not the current proposal and votes, not its final bundles, not the rotation of its uploaders, not its members with their node accounts, points and whether they are about to leave, not its fundings and active funders, and not the balance of its account, except for the coins a staker that joins it sends along. The stake of the members is shared by all pools: a slash in one pool is felt in all.", "quantifier": "every reachable state, every two different pools, every message", "why_tests_cant": "the handlers loop over all pools of a staker and all members of a pool; a wrong id in one of them shows only with certain members and pools", "anchors": ["x/bundles/keeper/logic_bundles.go", "x/bundles/keeper/msg_server_submit_bundle_proposal.go", "x/funders/keeper/logic_funders.go", "x/stakers/keeper/logic_stakers.go", "x/pool/keeper/msg_server_disable_pool.go"]}
{"id": "C101", "title": "The choice of the next uploader is the same on every node", "statement": "The next uploader and the stored progress of a pool do not depend on the order in which a node iterates over Go's maps, nor on how its sort orders equal elements: every node computes the same choice and stores the same bytes. On a chain where never more than 2^54 coins (18 billion KYVE) were delegated, no 64-bit computation of the rotation overflows and none panics.", "quantifier": "every history, every pool, every selection within it, every order of every map iteration of every node", "why_tests_cant": "Go randomises map iteration; a test sees a few of the orders, and the machine ranges are reached only by long histories or large stakes", "anchors": ["x/bundles/keeper/logic_round_robin.go", "x/bundles/keeper/logic_bundles.go:chooseNextUploader,chooseNextUploaderFromList"]}
{"id": "C102", "title": "An honest majority keeps the archive good", "statement": "Whatever makes data good or bad: if honest stakers (what their nodes submit is good, they vote valid on good data only and invalid on bad data only) have more than half of the pool's stake whenever a bundle may be decided, and are not close to being removed for inactivity, then every bundle ever finalized, in every pool, holds good data, with the storage id, hash, keys, summary and size that were judged.", "quantifier": "every notion of good data, every set of honest stakers, every history of all modules with an honest majority at every decision", "why_tests_cant": "it is a statement about all behaviours of all other participants over a whole history", "anchors": ["x/bundles/keeper/logic_bundles.go:tallyBundleProposal,finalizeCurrentBundleProposal,GetVoteDistribution", "x/bundles/keeper/msg_server_submit_bundle_proposal.go", "x/bundles/keeper/msg_server_vote_bundle_proposal.go", "x/bundles/keeper/abci.go"]}
{"id": "C103", "title": "Honest stakers are not punished", "statement": "In the same histories, an honest staker that is not about to be removed for inactivity is never slashed, whatever the others do; and no submission, skip or end of a block takes any delegation from it or removes it from a pool.", "quantifier": "every notion of good data, every history with an honest majority, every operation, every honest staker", "why_tests_cant": "it is a statement about all behaviours of all other participants over a whole history", "anchors": ["x/bundles/keeper/logic_bundles.go:tallyBundleProposal,handleNonVoters,slashDelegatorsAndRemoveStaker", "x/bundles/keeper/msg_server_skip_uploader_role.go", "x/bundles/keeper/abci.go", "x/delegation/keeper/exported_functions.go:SlashDelegators"]}
{"id": "C104", "title": "A vote counts for the bundle that the voter saw", "statement": "A vote is counted only for the data that was up for vote when it was signed: if it is accepted later, the same data is still up for vote.", "quantifier": "every history, every vote, every delay between signing and execution", "why_tests_cant": "the delay and what happens in it are unbounded", "anchors": ["x/bundles/keeper/msg_server_vote_bundle_proposal.go:VoteBundleProposal", "x/bundles/keeper/logic_bundles.go:AssertCanVote"]}
{"id": "C105", "title": "A running pool makes progress", "statement": "In a pool that can run, nothing but its members decides whether data is archived: while nobody has the turn every registered node can claim it; the one whose turn it is can propose any well-formed data that continues the pool once the upload interval is over; every registered node can vote, and all of them in any order; as soon as more than half of the stake voted valid, the next proposal is accepted and finalizes the bundle before, as the next bundle of the pool with exactly the proposed data, and it is again the turn of a member with stake; as soon as half of the stake voted invalid, the next proposal drops the bundle, finalizes nothing and leaves the turn with the sender.", "quantifier": "every reachable state, every pool that can run, every well-formed message, every list of voters", "why_tests_cant": "acceptance in every reachable state is a universal statement; a test shows single rounds", "anchors": ["x/bundles/keeper/msg_server_submit_bundle_proposal.go", "x/bundles/keeper/msg_server_vote_bundle_proposal.go", "x/bundles/keeper/msg_server_claim_uploader_role.go", "x/bundles/keeper/logic_bundles.go:AssertPoolCanRun,AssertCanVote,AssertCanPropose,tallyBundleProposal"]}
{"id": "C106", "title": "The turn is given to a member", "statement": "When a message or the end of a block gives or leaves the turn of a pool to a staker, that staker is a member of the pool afterwards.", "quantifier": "every reachable state, every pool, every message and end block", "why_tests_cant": "whether the chosen staker is removed by the same message depends on the votes and points at that moment", "anchors": ["x/bundles/keeper/msg_server_submit_bundle_proposal.go", "x/bundles/keeper/msg_server_skip_uploader_role.go", "x/bundles/keeper/logic_end_block_handle_upload_timeout.go:HandleUploadTimeout"]}
{"id": "C107", "title": "Messages are not accepted twice", "statement": "Proposing a bundle, voting, claiming a turn, registering as staker or funder, joining or leaving a pool, enabling or disabling a pool: the same message sent again right after it was accepted is refused. A registration is refused at any later time. A turn can not be skipped twice in a block. Withdrawing rewards twice in a row pays nothing the second time.", "quantifier": "every reachable chain state, every such message, every later history (for registrations)", "why_tests_cant": "a replayed or duplicated message can meet any state: the same sender may be chosen again as uploader, dropped bundles reset the expected index, and the reward bookkeeping starts a new period at every withdrawal", "anchors": ["x/bundles/keeper/logic_bundles.go:AssertCanVote,AssertCanPropose", "x/bundles/keeper/msg_server_claim_uploader_role.go", "x/stakers/keeper/msg_server_join_pool.go", "x/stakers/keeper/logic_leave.go", "x/stakers/keeper/msg_server_create_staker.go", "x/funders/keeper/msg_server_create_funder.go", "x/pool/keeper/msg_server_enable_pool.go", "x/pool/keeper/msg_server_disable_pool.go", "x/delegation/keeper/msg_server_withdraw_rewards.go"]}
{"id": "C108", "title": "Extra gas and refunds follow the executed messages", "statement": "A transaction that has an effect pays the configured extra gas of every message that it executes, and a transaction that executes a single message gets the refund configured for this message, whether the messages stand in the transaction or are wrapped in another message.", "quantifier": "every reachable application state, every transaction with any messages and wrappers, every configuration of x/global", "why_tests_cant": "there are arbitrarily many ways to nest messages; a test of the decorators shows plain messages only", "anchors": ["x/global/ante.go:GasAdjustmentDecorator", "x/global/post.go:RefundFeeDecorator", "app/ante.go"]}
{"id": "C109", "title": "The events account for every change of a balance", "statement": "For every user account and every coin, what the emitted events say the account paid and received (funding, defunding, delegating, undelegating, withdrawing and claiming rewards, joining a pool) is exactly the change of its balance, for every message and for the begin and end of every block.", "quantifier": "every reachable state, every message and block, every account and coin", "why_tests_cant": "somebody who follows balances by events must be right about every message in every state, including the payments that happen as a side effect of other messages", "anchors": ["x/funders/keeper/logic_funders.go:ensureFreeSlot", "x/funders/keeper/msg_server_fund_pool.go", "x/funders/keeper/msg_server_defund_pool.go", "x/delegation/keeper/logic_delegation.go:performWithdrawal", "x/delegation/keeper/logic_unbonding.go", "x/delegation/keeper/msg_server_delegate.go", "x/stakers/keeper/msg_server_join_pool.go", "x/stakers/keeper/msg_server_claim_commission_rewards.go"]}
{"id": "C110", "title": "Delegated coins come back", "statement": "After an accepted request to undelegate n coins from a staker (with no other request of the same delegator for that staker waiting), if the delegator signs nothing more: until a block finds the unbonding time over, the request waits unchanged, the delegation only shrinks by the fractions of slashes of the staker, and neither the claimable rewards nor the account of the delegator become less. From the first block that finds the unbonding time over, the account has, on top of what it had when asking, the rewards it had when asking and n coins (or, if slashes left less than n, the whole part of what they left), whatever everybody else does, votes, governs or funds in the meantime and afterwards.", "quantifier": "all reachable states, all delegators, stakers and amounts, all histories of other people's messages, blocks, slashes and parameter changes between the request and the observation", "why_tests_cant": "a test has one history; the claim is that no history of other actors can delay, shrink or cancel the payment", "anchors": ["x/delegation/keeper/msg_server_undelegate.go:Undelegate", "x/delegation/keeper/logic_unbonding.go:StartUnbondingDelegator,ProcessDelegatorUnbondingQueue", "x/delegation/keeper/logic_delegation.go:performUndelegation", "x/delegation/keeper/logic_f1distribution.go:f1RemoveDelegator"]}
{"id": "C111", "title": "A funding pays the promised price per bundle until it is used up", "statement": "While a funder signs nothing, of every coin that stays on the whitelist it has left in a pool exactly what it had minus the promised amount per bundle times the number of bundles of that pool that became final (nothing, if that is more than it had), with the same promise for the next bundles; or another funder has taken its place, and then what was left at that time is back on its account. No message of anybody else makes it pay more, for other pools or for bundles that did not become final.", "quantifier": "all reachable states, pools, funders and coins, all histories of messages of others and blocks", "why_tests_cant": "the price of a history is a sum over all its bundles; tests charge a funder for one or two bundles with chosen amounts", "anchors": ["x/funders/keeper/logic_funders.go:ChargeFundersOfPool,ensureFreeSlot", "x/funders/types/funders.go:ChargeOneBundle,CleanAmountsPerBundle", "x/funders/keeper/msg_server_fund_pool.go:FundPool", "x/bundles/keeper/logic_bundles.go:tallyBundleProposal"]}
{"id": "C112", "title": "A profile says what its owner said last", "statement": "The texts shown of a funder (moniker, identity, website, contact, description) are those of the last accepted MsgCreateFunder or MsgUpdateFunder of that funder, and the texts of a staker those of its last accepted MsgUpdateMetadata (none since MsgCreateStaker: empty); no message of anybody else, no bundle, slash, commission change, claim or block changes them. Exactly the registered funders have a profile, with a moniker. An update is accepted exactly from a registered funder with a moniker, and from a staker with texts of at most 255 bytes and an identity that is empty or 16 hexadecimal digits; it changes nothing else. A search through all pages of the Funders query shows exactly the funders whose moniker contains the text regardless of case, each once.", "quantifier": "all histories, accounts and texts, all search texts, page sizes and notions of lower case", "why_tests_cant": "the record of a staker is read, changed and written back by every reward, commission change and claim: that the texts survive all of them is a statement about every history", "anchors": ["x/funders/keeper/msg_server_update_funder.go:UpdateFunder", "x/funders/keeper/msg_server_create_funder.go:CreateFunder", "x/funders/keeper/getters_funder.go:SetFunder,GetPaginatedFundersQuery", "x/stakers/keeper/msg_server_update_metadata.go:UpdateMetadata", "x/stakers/keeper/getters_staker.go:UpdateStakerMetadata,updateStakerCommissionRewards,UpdateStakerCommission", "x/stakers/types/message_update_metadata.go:ValidateBasic", "x/query/keeper/grpc_query_funders.go:Funders"]}
{"id": "C113", "title": "The events tell who works for a pool", "statement": "Somebody who knows which stakers are members of a pool and how many points they have, and from then on only reads the events (EventJoinPool, EventLeavePool, EventPointIncreased, EventPointsReset), knows the members and their points at any later time: no message, block, eviction, slash, disabled pool or expired leave request changes them without an event, and no event says something that is not in the store afterwards.", "quantifier": "all reachable states, all histories after it, all pools and stakers", "why_tests_cant": "points and members are changed in a dozen places, several of them side effects of messages of others or of blocks; that every path emits the right event in the right order is a statement about all of them", "anchors": ["x/bundles/keeper/logic_bundles.go:addPoint,resetPoints,slashDelegatorsAndRemoveStaker,handleNonVoters", "x/stakers/keeper/exported_functions.go:LeavePool", "x/stakers/keeper/logic_stakers.go:ensureFreeSlot", "x/stakers/keeper/logic_leave.go:ProcessLeavePoolQueue", "x/stakers/keeper/msg_server_join_pool.go:JoinPool", "x/pool/keeper/msg_server_disable_pool.go:DisablePool", "x/bundles/keeper/logic_end_block_handle_upload_timeout.go:HandleUploadTimeout"]}
{"id": "C114", "title": "The events tell the stake of every staker", "statement": "The stake behind a staker (which is its voting power) changes from any time to any later time by exactly the sum of what the events in between say: plus EventDelegate, minus EventUndelegate, plus or minus EventRedelegate, minus EventSlash.", "quantifier": "all reachable states, all histories after it, all stakers", "why_tests_cant": "the slashed amount of the event is computed apart from the new stake, the undelegated amount depends on slashes during the unbonding time; equality must hold for every fraction, rounding and order of events", "anchors": ["x/delegation/keeper/exported_functions.go:SlashDelegators", "x/delegation/keeper/logic_f1distribution.go:f1Slash", "x/delegation/keeper/logic_unbonding.go:ProcessDelegatorUnbondingQueue", "x/delegation/keeper/msg_server_delegate.go:Delegate", "x/delegation/keeper/msg_server_redelegate.go:Redelegate", "x/stakers/keeper/msg_server_create_staker.go:CreateStaker"]}
{"id": "C115", "title": "The events are enough to keep a copy of the archive", "statement": "Somebody who reads EventBundleProposed, EventBundleVote and EventBundleFinalized knows at any time which bundle is proposed in a pool and with which contents, who has voted what on it, and every archived bundle in full: the archived bundle has the contents of the proposal, the index range of the proposal, the voting powers and the time of the event that finalizes it, and the id of that event; nothing is archived, replaced or dropped without an event.", "quantifier": "all reachable states, all histories after it, all pools and bundles", "why_tests_cant": "a copy kept by events is wrong for ever after one missing or wrong event; tests look at the events of single messages", "anchors": ["x/bundles/keeper/logic_bundles.go:registerBundleProposalFromUploader,finalizeCurrentBundleProposal,dropCurrentBundleProposal", "x/bundles/keeper/msg_server_vote_bundle_proposal.go:VoteBundleProposal", "x/bundles/keeper/msg_server_submit_bundle_proposal.go:SubmitBundleProposal", "x/bundles/keeper/msg_server_skip_uploader_role.go:SkipUploaderRole", "x/bundles/keeper/logic_end_block_handle_upload_timeout.go:HandleUploadTimeout"]}
{"id": "C116", "title": "The events tell what every staker has earned", "statement": "The rewards a staker can claim change from any time to any later time by exactly what the events in between say: plus the storage cost and the commission of every EventBundleFinalized that names the staker as the uploader, minus every EventClaimCommissionRewards of the staker; nothing else changes them.", "quantifier": "all reachable states, all histories after it, all stakers and coins", "why_tests_cant": "the event is written from values computed before the tally, the payment happens inside; equality must hold for every bundle, commission, whitelist and funding", "anchors": ["x/bundles/keeper/logic_bundles.go:tallyBundleProposal,calculatePayouts,finalizeCurrentBundleProposal,dropCurrentBundleProposal", "x/stakers/keeper/logic_stakers.go:IncreaseStakerCommissionRewards", "x/stakers/keeper/msg_server_claim_commission_rewards.go:ClaimCommissionRewards", "x/bundles/keeper/logic_end_block_handle_upload_timeout.go:HandleUploadTimeout"]}
{"id": "C117", "title": "Doing nothing is safe", "statement": "A user who signs nothing, and who has no undelegation from staker S open, keeps what it has over any stretch of history, whatever everybody else does: no coin leaves its account, its delegation to S is reduced only by the slashes of S, each by its fraction and in their order, the rewards it can withdraw from S and the commission it can claim never become less. While S is not slashed the delegation shown is the same to the last coin.", "quantifier": "all reachable states, all histories of other people's operations of any length, all users, stakers and coins", "why_tests_cant": "a single step says nothing about a history; every one of the operations and blocks in between must preserve it", "anchors": ["x/delegation/keeper/logic_f1distribution.go:f1Slash,f1GetCurrentDelegation", "x/delegation/keeper/logic_delegation.go:performDelegation,performUndelegation", "x/stakers/keeper/logic_stakers.go:IncreaseStakerCommissionRewards", "x/bundles/keeper/logic_bundles.go:tallyBundleProposal"]}
