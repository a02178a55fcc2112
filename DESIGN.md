# Formal model of KYVENetwork/chain in Lean 4

`properties.jsonl` lists the properties, `MANIFEST.json` the theorems for each of them, `seeded/LOG.jsonl` the wrong
programs the theorems were tested against. The Lean project is in `lean/`; every definition of the model carries the
file and lines of /repo it models.

## 1. Trusted base

* Lean 4.33.0's kernel. Every theorem named in `MANIFEST.json` depends on no axioms other than `propext`,
  `Classical.choice` and `Quot.sound` (`tools/checknames.sh` runs `#print axioms` on each of them). No axioms of our
  own, no compiled-code tactics. Concrete witnesses are checked with `decide`, `decide +kernel` or `rfl`, that is by
  the kernel.
* The faithfulness of the model. The code was read, not run. The only tie to the code is the citation at each
  definition.
* What is assumed of the dependencies, none of which is in /repo (cosmos-sdk v0.50, Go's standard library):
  * `LegacyDec`: 18 decimals, `Mul` and `Quo` round half to even (`Dec.chop`), `MulTruncate`, `QuoTruncate`,
    `TruncateInt` truncate. The limit of 315 bits, beyond which `LegacyDec` panics, is not modelled.
  * `Coins`: for every denom an amount, finitely many of them not zero. Zero amounts are dropped, as `sdk.NewCoins` does.
  * bank: `SendCoins` fails if and only if the sender has too little, otherwise moves exactly the coins. Blocked
    addresses, send-disabled denoms and vesting accounts of x/auth are not modelled.
  * A message that returns an error or panics changes nothing (the SDK writes the cached store only on success). Begin
    and end block code is not reverted on an error; a panic in it stops the chain.
  * x/params, x/gov, x/mint, x/distribution, x/staking, IBC do anything to balances, but can not spend from the accounts of
    x/delegation, x/stakers and x/funders (`Op.external`).
  * `query.ParsePagination`, `query.FilteredPaginate` as in cosmos-sdk v0.50 (without `Reverse`).
  * `json.Unmarshal` of parameter payloads into an existing struct: absent keys keep their value, present keys replace it;
    a list is decoded element by element into the old elements. Each key occurs once, and no value is `null`.

## 2. Conventions

* `Addr := Nat` (an address), `Denom := Nat` (`0` is `ukyve`). Strings that are only compared or stored are `Nat`, `0` is
  the empty string. Times are Unix seconds.
* A KV store is a finite map with sorted keys (`Lib/Map.lean`), iterated in key order. Keys are structured values; that
  the byte keys of `GetByteKey` are injective and ordered in the intended way is C50. That addresses are 20 bytes, i.e. 43
  characters in bech32, is assumed there.
* `uint64` arithmetic wraps where the code could overflow (`u64add`, `u64sub`), conversions to `int64` too, unless said
  otherwise at the definition. Not wrapped: `totalBundles` (one per bundle), numbers of accounts and of pools, totals of
  x/team (bounded by the supply in the histories its theorems range over).
* Go maps: those that are only looked up are functions or lists. Maps that consensus code iterates over occur in
  `logic_round_robin.go` only; that their order does not matter is C101.
* Handlers are functions to `Except String`. `util.PanicHalt` schedules a halt of the chain for the next block and
  goes on; it sets the flag `halted`. A panic in a block hook sets `crashed`, after which nothing happens.
* Secondary indices that the code writes and deletes together with the entries they point to are derived from those
  entries. Exceptions, modelled as separate stores because they can differ: the staker ranking of x/delegation (memory
  store), the index of finalized bundles (memory store), the valaccount counters of x/stakers, the active
  staker index, the active-funder lists.
* Theorems about histories quantify over every finite sequence of operations, with arbitrary arguments, signers and block
  times: `Reachable`. Some stores carry history variables (a trace of what happened) that no function of the model reads.

## 3. What is modelled

| code | model | left out |
|------|-------|----------|
| x/delegation: `logic_f1distribution.go`, `logic_delegation.go`, `logic_unbonding.go`, `logic_redelegation.go`, `getters_index_stakers.go`, messages, `exported_functions.go`, genesis | `Delegation/F1.lean`, `Delegation/Model.lean`, `Delegation/Genesis.lean`, `Query/Pagination.lean` | events (those with coins of users: `Chain/Events.lean`), gRPC plumbing |
| x/stakers: staker, valaccount, commission queue, leave queue, join/leave, kick, points, rewards, params, genesis | `Stakers/Model.lean`, `Stakers/Genesis.lean` | the texts of the metadata are one number and their `ValidateBasic` a flag there; with texts and lengths: `Chain/Profiles.lean` |
| x/funders: create, fund, defund, charge, active list, eviction, scores, params (exact JSON merge), genesis | `Funders/Model.lean`, `Funders/Genesis.lean` | the texts of a funder and `MsgUpdateFunder` are in `Chain/Profiles.lean`, on top of the chain |
| x/pool: create, update, enable, disable, runtime upgrades, inflation charge, params, genesis | `Pool/Model.lean`, `Pool/Genesis.lean`, `Chain/Model.lean` (disable) | JSON syntax of the update payload |
| x/bundles: submit, vote, skip, claim, tally, payout, finalize, timeouts, round robin, inflation split, lookup, params, genesis | `Bundles/*.lean`, `Chain/Model.lean` | bundle version map |
| x/team: accounts, vesting, claims, clawback, rewards, begin block, queries, genesis | `Team/*.lean` | |
| x/global: fee check, fee deduction, refund, gas adjustment, burning, params | `Global/*.lean` | list-valued params of `MsgUpdateParams` (replaced as a whole), the other ante decorators |
| x/query | `Query/*.lean`, `Chain/Access.lean` (pool status) | see the properties |
| store keys of all modules, `util.GetByteKey` | `Keys/*.lean` | |
| app: module order of the blocks, ante and post handlers, transactions with several messages, `MsgExec`, proposals, blocked accounts (`app_config.go`, `ante.go`) | `App/*.lean` | x/mint's formula (the provision is an argument), x/gov's voting (a proposal is a list of messages), nested `MsgExec` (flattened), signatures and authorisations (sets in the transaction), gas used by messages |
| app/upgrades/v1_5 | `Upgrade/*.lean` | the migration of x/gov (params, texts of proposals) and of the SDK modules |

Not modelled at all: protobuf encoding, CLI, REST, events other than those in `Chain/Events.lean` and `Chain/Log.lean`, logging, IBC, simulation, `app/export.go` (SDK modules
only), other upgrade handlers.

The modules are first modelled and proved apart, with the answers of the other modules as arguments. `Chain/Model.lean`
puts x/pool, x/stakers, x/delegation, x/funders and x/bundles with the bank into one state machine (`Chain.Op`,
`Chain.step`), in which the answers are computed. `Chain/Project.lean` shows that every step of the chain is a sequence of
steps of each module, so that the theorems of the modules hold on every reachable chain. x/team and x/global share
nothing with these but the bank; `App/Model.lean` puts all seven modules, x/mint's provision, transactions and blocks into
one state machine (`App.Op`, `App.step`), `App/Project.lean` shows that its histories are histories of the chain, and
`App/TeamView.lean` that they are histories of x/team. What is left to the SDK and other modules is the operation
`outside`.

## 4. Plan per property

How each property is modelled and proved. "inv" is an invariant by induction over operations.

| id | where | how |
|----|-------|-----|
| C01 C02 | Delegation/F1Inv, F1Bal | inv of the F1 store (reference counts of periods, sum of balances); potential argument for the rounding of slashes |
| C03 C04 C10 | Delegation/F1Ledger, F1Fair | inv relating the lazy store to an eager ledger of every payout and withdrawal |
| C05 C06 | Delegation/F1Props | functional: balance as a fold over slashes; query against withdrawal |
| C07 C12 | Delegation/Ops, Solvency, Chain/Delegating | functional specs of messages; inv: account = delegations + unpaid rewards + gifts +- rounding |
| C08 C09 | Delegation/Queue*, Spells, Matured, Chain/Queues | inv over the trace of requests, payments and redelegations; the whole queue of a block by composing `Settled` |
| C11 | Delegation/Properties | inv of the ranking store |
| C13 C14 C15 | Stakers/Mem, Properties | inv of memberships, counters, valaddresses |
| C16 C17 C62 | Stakers/Queue, Leaves, Chain/Queues | inv over the trace of orders |
| C18 | Stakers/Inv | inv: account = unclaimed rewards + gifts |
| C19 C20 C26 C57 | Chain/Access, Voting, Query/Answers | case analysis of messages; inv of the proposal |
| C21 C22 | Bundles/Votes, Payout, Chain/Money, Bills | arithmetic; refinement of a tally to the bill it pays |
| C23 C30 | Chain/History, Bundles/Lookup | inv of finalized bundles and index |
| C24 C25 C63 | Chain/Points, Judge, Slashing | exact list of slashes and of points of every step |
| C27 C28 | Bundles/RR* | potential argument on the progress |
| C29 | Bundles/Inflation, Chain/Inflation | arithmetic of rounding |
| C31 | Chain/Rounds, Uploaders | case analysis of a turn, then inv over the pools of an end block |
| C32 C33 C34 C35 C36 C64 | Funders/* | inv; functional specs |
| C37 C38 C40 C52 | Pool/*, Chain/Pools, Governance | timed state machine; inv |
| C39 | Pool/Properties | arithmetic |
| C41 C42 C43 C44 C45 | Team/* | arithmetic; inv over messages and blocks |
| C46 C47 C48 C49 | Global/* | functional |
| C50 | Keys/* | injectivity and order of byte strings |
| C51 C55 C67 C68 | */Genesis | round trip of export and import; exact condition of validation |
| C53 C59 | Query/Pagination | pages partition a list |
| C54 | Chain/Access, Chain/Running | case analysis against `AssertPoolCanRun`; `C54_conditions` spells out every condition (disabled, upgrading, end key, stake of the members, the strongest member, funds) without the model's helpers |
| C56 C58 C60 C61 C65 | Query/Answers, Account | queries against the state or against messages |
| C69 | Team/Query | functional specs of the answers; inv of the module account |
| C70 | Query/Client, Delegators | reading page after page gives a list; the list against the state |
| C71 C72 | Query/Stakers, Chain/Placed | rows against the state; inv: membership only of existing pools |
| C73 C74 | Query/Pools, Query/Funders, Funders/Totals | rows against the state, sums over fundings |
| C75 C76 C77 | Query/Bundles | inv (dense ids, clean votes, queue order); pages of the archive by induction |
| C78 | Upgrade/V15, Properties, Examples | the migrated state equals the old state read in the native coin after a list of governance messages (loops by induction); hence reachable |
| C79 | Upgrade/Proposals | loop over the proposals; weights keep the old scale: witness against the full claim |
| C80 | Chain/Turns | exact effect of accepted submit/skip on the proposal; frame over all other messages |
| C81 | Chain/Own | bound on what an account loses, case over every message; steps of the protocol keep user accounts |
| C82 | Chain/Holdings | relation `Holds` between delegation states, closed under every operation of somebody else and every small step of the protocol |
| C83 | Delegation/Earned, Chain/Holdings | the payable amount as a function of the period entries; equal under operations of others and slashes, monotone under payouts; lifted with `Holds` |
| C84 | Chain/Fundings | `Paid` says for every funder what it is charged; end block by induction over the visited pools (`Settled`), other messages by the module lemmas `fund_ok`, `defund_ok`, `ensureFreeSlot_ok` |
| C85 | Chain/Commission | `Paid.uploader` for tallies (`Handled` in the end block), `Stakers.C18_only` for all other messages via `st_exec` |
| C86 | Chain/Places | `Judged` and `Turns` of C24/C25 for tallies, `Stakers.C17_block` and `C17_other` for the rest via `st_exec` |
| C87 | Chain/Exits, Chain/Delegating | handlers unfolded to an iff; effects through `payable_self` and `transfers_of_send` |
| C88 | Funders/Terms, Chain/Terms | the coin-list checks equal pointwise conditions (`ensureParams_iff`, `lowestFunding_iff`, `ensureFreeSlot_iff`); lifted by `Modules.fund` |
| C89 | Lib/Supply, Chain/Supply | `Conserved b b'`: a finite set of accounts outside of which nothing changed and whose sums agree (so the sum over any larger set agrees); every send conserves, every micro-step is a chain of sends (`Micro.Kept.sum`) |
| C90 | Chain/Crash | the end block panics only in a tally; a payable proposal does not panic (`tally`), and stays payable while other pools are visited (`Settles`); begin block by the size of the transfers; messages by cases |
| C91 | Global/Priority | induction over the coins; false in general (`C91_false`: the loop takes priority 0 for "nothing seen yet"), exact for one coin and for coins that all offer at least 1 per gas |
| C92 | App/Accounts, App/Properties | messages by cases, using the frame theorems of the modules (`spend_exec`); fees by `deduct_fee`/`refund_fee` (the refund is at most the fee just paid, so the collector loses nothing); blocks by their transfers |
| C93 | App/Project, App/Properties | `Books` is an invariant: every bank operation conserves the sum, x/mint and x/global change supply and balances by the same amount |
| C94 | App/Properties | induction over the messages with C81 for each; who signs is read off `Tx.signed` |
| C95 | App/Begin, Team/Required | `RequiredModuleBalance` without wrap-around from the invariants of x/team; the share is monotone in it, so the second share covers the first; then C29 |
| C96 | App/Properties | `runTx` by cases; the refund cannot fail because the collector still holds the fee |
| C97 | App/TeamView | simulation: every history of the application is one of x/team's own histories, in which everything else is `external`; then C42, C44 |
| C98 | Chain/Erase, Alike, AlikeOps, AlikeRun, Order | a relation between two chains (same store, any memory indices) is kept by every operation with any restart flags; the indices are then determined by the store through their invariants |
| C99 | Chain/Votes, Order | votes commute up to the order of the lists; the same relation, with lists up to permutation, is kept by every operation, slashes of different stakers commute, or both chains stop |
| C100 | Chain/Isolated | frame: every branch of every handler, loop by loop, leaves the nine parts of another pool alone; disabling a pool by C38 |
| C101 | Bundles/GoMaps, Chain/Rotation | second model of `logic_round_robin.go` with Go maps (each `range` in an order chosen by the runtime), `int64`, panics; proved equal to the first for every runtime, for inputs in range; on the chain inputs are in range by an invariant of the stored progress |
| C102 | Chain/Honest | invariant: the votes of honest stakers on the current proposal are right (`Right`, kept by every `Round`); with the verdicts of C24 a valid outcome needs an honest valid vote, so the data is good; at the end of a block the majority of each pool survives the decisions of the other pools (induction on `Turns`) |
| C103 | Chain/Honest | same invariant: an honest staker is on the wrong side of no verdict; the slashes are exactly those of C24, the delegation by `C24_stake` |
| C104 | Chain/Ballot | induction over the later history: the data up for vote is the old one or of a submission in between; the full statement is refuted by a history |
| C105 | Chain/Progress | each check of the messages is met by the hypotheses; the verdict (C24) is computed after non-voters lost points, which can only help a majority of voters; payment by `tally_cases` (C22, C90); the next turn by C80 |
| C106 | Chain/Progress | the choice is made among the members after the slashes; refuted for refused submissions and timeouts by histories |
| C107 | Chain/Repeat | the state after the accepted message fails one of the checks (vote lists, index of the next bundle, membership, queue entry, flag); registrations are never removed (micro steps); the second withdrawal spans one empty period |
| C108 | App/Gas | partial: false of the code (witness: a submission wrapped in `MsgExec` by its own sender); for transactions without wrapped messages from C49 and C96 |
| C109 | Chain/Events | a model of the events that carry coins of users; per message and for the loop of the unbonding queue; partial: false of the code for evicted funders (witness with 50 funders) |
| C110 | Chain/RoundTrip, Chain/Several, App/Asleep | history `Without` of other people's operations (and of changes from outside that take nothing from the user) after an accepted request; invariant `Waits ∨ Returned`, step by C08_block, C81, C82, C83; in the application through `asleep_without` |
| C111 | Chain/Lasting, App/Resting | history `Idle` of other people's operations; invariant `PaidAll ∨ PaidBack`, step by C84 (now with the promise and with `idle`), C33, C23; in the application through `resting_idle` |
| C112 | Chain/Profiles | the chain with the texts of the funders (`Registry`), refines the chain; `LastSaid` by induction on the history; texts of stakers: every write of a staker keeps them (`Stakers.info_step`, `info_steps` for tallies); search: `C53_keys` |
| C113, C114, C115 | Chain/Log (model), Chain/Follow, Chain/Told | the events of x/bundles, x/stakers and x/delegation as a list per operation, mirroring the control flow; a reader is a fold over events; `Tells l c c'` says that the folds of `l` lead from what is stored in `c` to what is stored in `c'`, composes, and is proved for every part of every operation; histories by induction (`Heard`) |
| C116 | Chain/Earned | the same events; `Earns l c c'` for the unclaimed rewards: `earn_tally` (what a tally adds is the bill of the event that follows), `Silent` for all other events, `C18_only` for the other operations |
| C117 | Chain/Asleep, App/Asleep | history `Without`; the relation `Keeps` is reflexive and transitive, step by C81, C82, C83, C85; in the application: `asleep_without`, every message, transaction, proposal and block the user takes no part in moves the chain inside along a history `Without` |
| C66 | Chain/Whitelist | inv over parameter updates |

## 5. Where the code disagrees with a property

Each of these is proved: the negation of the property, or the behaviour described, on a concrete reachable state or
history, next to a `_partial` theorem or a weaker property that does hold. The model follows the code.

x/delegation
* C03, C12: `Quo` rounds half to even, so a period entry can be rounded up and delegators are paid more than came in. If
  the module account is empty by then, the last unbonding fails and halts the chain (`C12_halts`).
* C10: rewards are lost by slashes, and by payouts to a staker whose last delegator has left.
* C08: `now + unbonding time` wraps around; unbondings are then paid at once (`C08_overflow_false`).
* C11: `SetStakerIndex` and `RemoveStakerIndex` list addresses that are no stakers (`C11_phantom`).
* C61: an account can request the unbonding of the same coins several times; the query shows the sum (`C61_twice`).
* C65: the available redelegation slots are a `uint64` difference that wraps when the maximum was lowered.
* C71: an `MsgUndelegate` of nothing from any valid address is accepted and puts a row without a staker on the list of
  stakers (`C71_phantom`; with an address shorter than 43 characters the code would even panic in the slice of the key, the
  model has no such addresses). Stakers without delegation vanish from the list when the node restarts (`C71_vanishes`).
* C76: read backwards, an offset beyond the number of bundles wraps around and shows the newest bundles (`C76_wraps`).
* C59: `arrayPagination` counts pages from 1 but indexes them from 0: the first page is never shown, short lists panic.

x/stakers
* C62: a leave announcement survives a kick; after joining again the old one removes the staker early, and a new
  announcement is refused.
* C16: `int64(creation date + commission change time)` overflows: changes then apply at once.
* C15: two stakers can use one valaddress in different pools.
* C18, C32: `MsgJoinPool` sends coins to the valaddress, which can be a module account; such gifts are accounted for in the
  theorems.
* The pool cap of 50 relies on every delegation being below `2^64 - 1`, the start value of the search for the lowest.

x/funders
* C35: in a full pool a top-up of a listed funder evicts the lowest funder; so does a funder with an equal score.
* C64: a fund message without coins makes an active funder without coins.
* C66: the payload of a parameter update is validated against the default parameters but merged into the current ones;
  two accepted updates drop the native coin from the whitelist. Payouts of a pool with inflation then panic, and the
  exported genesis is invalid (C68).
* C67: genesis validation never records what it has seen, so it finds no duplicates.

x/bundles
* C27: `NextProposer` starts its search with the first candidate even if that one is excluded.
* C28: progress is rescaled also with a constant set of stakers.
* C29: the remainder of the inflation split goes to pools that can *not* run, and to each of them in full; if rounding up
  exceeds the provision, the remainder wraps and the conversion panics in the begin block.
* C63: `SkipUploaderRole` with nothing proposed gives every member a point, the skipper included.
* C22: a claimed data size of `2^63` or more panics in the payout: the submit message fails, and the end block of an overdue
  bundle stops the chain.
* C31: a pool that stops being able to run by the decision of an end block keeps its next uploader for one block.
* C24: voters on the losing side are slashed although they have left the pool already. After an invalid bundle the
  submitter stays next uploader even if it was slashed in the same message.
* C67: genesis validation does not look at the round-robin entries.

x/funders
* C88: a whitelisted coin whose minimum amount or minimum per bundle is 0 drops out of the minimum coin lists, and the subset
  checks then refuse every funding in it.
* C109: the `EventDefundPool` of a funder that loses its slot reports no coins, as its amounts are set to zero before the event
  is written (`C109_eviction_false`).

x/pool
* C38: `DisablePool` moves only the native coin of the pool account; a balance of `2^63` or more makes it fail.

votes
* C106: after an invalid bundle the sender keeps the turn even if it voted valid and is removed for it; after a timeout the late
  uploader may be chosen again and then be removed by its point. The pool then waits for the next timeout.
* C104: `MsgVoteBundleProposal` names the storage id only. The next uploader can submit the same storage id with another hash,
  other keys or another summary, and votes in flight count for it (`C104_carried_over`).
* C102: the quorum is measured after the members that are due for removal for inactivity were removed, so the majority must
  consist of members that are not (`Awake`).

node restarts
* C98: a row of the ranking of stakers for an account that nobody ever delegated to (which anybody can create by
  undelegating 0, C11) is there until the node restarts and then vanishes; queries of differently restarted nodes differ.

v1.5 upgrade
* C79: `MsgCreatePool` in pending proposals keeps its weight as a number (1000000), while the pools that exist get the weight
  one (`C79_scale_counterexample`).

x/team
* C43: removing a clawback after the allocation was used again, or a wrapping `uint64` sum, issues more than the
  allocation.
* C45: with more issued than the supply, or with many accounts and a large provision, the accounts' rewards exceed the team's
  and the chain is halted.

x/global
* C46: in `CheckTx` any denom of the validator's minimum gas prices is enough; the consensus minimum is not checked there.
* C48: the refund uses the fee grant a second time.
* C96, C108: gas adjustments and refunds look at the outer messages of a transaction only; a message wrapped in `MsgExec` is
  executed without its gas adjustment and without refund (`C108_gas_false`, `C108_refund_false`).
