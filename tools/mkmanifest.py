#!/usr/bin/env python3
"""Writes MANIFEST.json.  Run after editing CLAIMS."""
import json, os
CLAIMS = []
def claim(p, status, theorems, note=""):
    CLAIMS.append({"property": p, "status": status, "theorems": theorems, "note": note})
T = "Verif.Team."
claim("C41", "proved", [T+x for x in ["C41_vested_exact","C41_unlocked_exact","C41_bounds","C41_monotone","C41_clawback_freezes","C41_endpoints"]],
  "For accounts with in-range numbers (allocation < 2^63, commencement < 2^62).")
claim("C42", "proved", [T+"C42_claimed_is_unlocked", T+"C42_claim_pays"], "All histories with in-range create messages.")
claim("C43", "partial", [T+"C43_issued_bounded_partial", T+"C43_false_unclawback", T+"C43_false_overflow"],
  "False of the code in general (removing a clawback, uint64 overflow: both witnessed); proved when clawback dates only move earlier.")
claim("C44", "proved", [T+"C44_solvent", T+"C44_claim_account_rewards", T+"C44_claim_authority_rewards"])
claim("C45", "proved", [T+"C45_split_exact", T+"C45_tightened", T+"C45_false_rounding", T+"C45_false_issued"],
  "The team owns at most the supply, (number of accounts x provision) < 2*10^18; without the bounds the chain halts (both witnessed).")
G = "Verif.Global."
claim("C46", "proved", [G+"C46_min_fee", G+"C46_deduct", G+"C46_checktx", G+"C46_checktx_bond_only", G+"C46_checktx_is_weaker", G+"C46_accepted", G+"C46_first_block"], "Exact criterion in FinalizeBlock.")
claim("C47", "proved", [G+x for x in ["C47_burn","C47_refund","C47_refund_le_fee","C47_params_stay_valid","C47_tx_net","C47_run"]])
claim("C48", "partial", [G+"C48_grant_used_once_partial", G+"C48_used_twice", G+"C48_false_double_use", G+"C48_false_fails"],
  "False of the code for refundable messages (witnessed); proved for all other transactions.")
claim("C49", "proved", [G+"C49_gas_adjustment", G+"C49_out_of_gas"])
K = "Verif.Keys."
claim("C50", "proved", [K+"C50_"+x for x in ["delegation_keys","stakers_keys","bundles_keys","funders_keys","pool_keys","team_keys","numeric_order","finalized_order","ranking_order","slash_range","prefix_iteration","pool_prefix"]])
P = "Verif.Pool."
claim("C39", "proved", [P+"C39_charge_inflation", P+"C39_params_valid"])
F = "Verif.Funders."
claim("C32", "proved", [F+"C32_backed", F+"C32_exact", F+"C32_gifts"], "Exact up to coins given to the module account from outside (possible through JoinPool).")
claim("C33", "proved", [F+"C33_active", "Verif.Chain.Chain.C33_every_pool"])
claim("C64", "partial", [F+"C33_exact_partial", F+"C33_false_empty_active"],
  "False of the code: a fund message without coins is accepted (witnessed); proved for histories whose fund messages carry coins.")
claim("C34", "proved", [F+"C34_charge"])
claim("C35", "partial", [F+"C35_eviction_partial", F+"C35_score", F+"C35_no_score", F+"C35_false_equal_score", F+"C35_false_topup"],
  "Only a lowest-score funder of a full pool is evicted, by someone with at least its score, fully paid back. 'Strictly higher' and 'needs the slot' are false of the code (both witnessed).")
claim("C36", "proved", [F+"C36_defund", F+"C36_withdraw_all"])
claim("C52", "proved", ["Verif.Chain.Chain."+"C52_refused", "Verif.Chain.Chain."+"C52_params", "Verif.Chain.Chain."+"C52_pools", P+"C52_pool_authority", "Verif.Team.C52_team_authority", "Verif.Team.C52_team_foundation", "Verif.Global.C52_global_params", F+"C52_funders_params", "Verif.Delegation.C52_delegation", "Verif.Delegation.C52_delegation_only", "Verif.Stakers.C52_stakers_params", "Verif.Stakers.C52_stakers_effect"], "On every reachable chain, plus x/team and x/global (modelled apart).")
D = "Verif.Delegation."
claim("C01", "proved", [D+"C01_no_halt", D+"C01_module"], "Slash fractions in [0,1]; fewer than 10^18 (slash, affected delegator) pairs per staker.")
claim("C02", "proved", [D+"C02_total", D+"C02_module"], "Same histories as C01.")
claim("C03", "proved", [D+"C03_covered", D+"C03_false", D+"module_ledgers"], "Explicit rounding bound; the bound-free version is false of the code (witnessed).")
claim("C04", "proved", [D+"C04_fair", D+"module_ledgers"], "Explicit rounding bound.")
claim("C05", "proved", [D+"C05_eager", D+"C05_slash", D+"C05_module"])
claim("C06", "proved", [D+"C06_query", D+"module_ledgers"])
claim("C10", "partial", [D+"C10_partial", D+"C10_false"], "False of the code after slashes (witnessed); proved for histories without slashes and without payouts to an empty staker.")
claim("C07", "proved", [D+"C07_"+x for x in ["delegate","redelegate","request","unbond"]]+["Verif.Chain.Chain.C07_"+x for x in ["delegate","redelegate","create"]], "All histories of the module; balances as long as no transfer failed.")
claim("C08", "proved", [D+"C08_"+x for x in ["once_in_order","block","only_blocks","amount","overflow_false"]]+["Verif.Chain.Chain.C08_block"], "Block time plus unbonding time below 2^64 (without it: overflow witnessed).")
claim("C09", "proved", [D+"C09_"+x for x in ["window","every_window","available"]], "Histories in which the cooldown is not raised (C09_window, C09_available) or constant (C09_every_window); times below 2^63.")
claim("C11", "proved", [D+"C11_ranking", D+"C11_phantom"], "Totals fit into uint64. Addresses without delegation can be listed as well (witnessed).")
claim("C12", "partial", [D+"C12_"+x for x in ["exact","gifts","partial","covered","slash","false","halts"]], "Exact accounting equation and the explicit rounding bound are proved; the strict version is false of the code (witnessed: rewards rounded up, last unbonding halts the chain).")
claim("C51", "proved", [D+"C51_delegation", "Verif.Stakers.C51_stakers", P+"C51_pool", "Verif.Team.C51_team", "Verif.Bundles.C51_bundles"], "The lists validation checks; those it does not check are in C67.")
claim("C55", "proved", ["Verif.Chain.Chain.C55_chain", "Verif.Chain.Chain.C55_overflow", D+"C55_delegation", "Verif.Stakers.C55_stakers_roundtrip", P+"C55_pool", "Verif.Bundles.C55_bundles", "Verif.Bundles.C55_bundles_restart", F+"C55_funders", "Verif.Team.C55_team"], "Five modules together on every reachable chain; x/team apart.")
S = "Verif.Stakers."
claim("C13", "proved", [S+x for x in ["C13_pool_count","C13_active","C13_index"]], "Delegation amounts of joining stakers below 2^64-1.")
claim("C14", "proved", [S+x for x in ["C14_full","C14_reject","C14_not_full","C14_accepts","C14_accepts_full"]])
claim("C15", "proved", [S+x for x in ["C15_valaddress","C15_authorized","C15_shared_across_pools"]])
claim("C16", "proved", [S+x for x in ["C16_one_pending","C16_order","C16_block","C16_only_block","C16_history","C16_rate_bound","C16_overflow"]]+["Verif.Chain.Chain.C16_block"], "Times without int64 overflow; false with overflow (witnessed).")
claim("C17", "proved", [S+x for x in ["C17_announce","C17_block","C17_other"]]+["Verif.Chain.Chain.C17_block"])
claim("C62", "partial", [S+x for x in ["C17_history_partial","C17_stale_announcement"]], "False of the code for a staker kicked after its announcement that joins again (witnessed); every removal by the queue follows an announcement that the leave time has passed.")
claim("C18", "proved", [S+x for x in ["C18_exact","C18_backed","C18_claim_accepted","C18_claim","C18_payout","C18_only"]])
B = "Verif.Bundles."
K = "Verif.Chain.Chain."
claim("C27", "partial", [B+x for x in ["C27_member","C27_exclusion_partial","C27_skip_partial","C27_list_partial","C27_fails","C27_list_fails"]]+[K+"C27_chain_skip_partial",K+"C27_chain_false"], "False of the code: the first candidate is chosen although excluded (witnessed for a skip and for the choice among the valid voters); proved for every other candidate.")
claim("C28", "partial", [B+x for x in ["C28_zero_sum","C28_bounded","C28_fair_partial","C28_rescale_happens","C28_no_overflow","C28_round","C28_behind","C28_newcomer"]], "Zero sum, bounds and absence of overflow proved; fairness up to five selections per rescaling of the run. Missing: a bound on the number of rescalings with a constant set (they do happen: witnessed).")
claim("C21", "proved", [B+x for x in ["C21_counts","C21_bounded","C21_majority","C21_exclusive"]]+[K+"C21_reachable"], "Total delegation of a pool below 2^63.")
claim("C22", "proved", [B+x for x in ["C22_conserved","C22_treasury","C22_storage","C22_commission","C22_total_partial","C22_panics"]]+[K+x for x in ["C22_finalized","C22_unpaid","C22_endBlock"]], "Split exact for every input; on the chain: paid in full if and only if finalized, for messages and for every pool of an end block that does not panic (a claimed data size of 2^63 panics: witnessed).")
claim("C29", "partial", [B+x for x in ["C29_share","C29_running_partial","C29_total_partial","C29_all_running","C29_remainder_fails","C29_nonrunning_gets","C29_rounding_fails"]]+[K+"C29_chain",K+"C29_covered"], "False of the code: the remainder is sent to every pool that cannot run (witnessed); proved if at most one pool cannot run and pools * provision < 2*10^18.")
claim("C30", "proved", [K+x for x in ["C30_exact","C30_all","C30_small"]]+[B+x for x in ["C30_lookup","C30_found","C30_unique"]], "Indices of the pool below 2^64 (C30_small: kept as long as no bundle passes 2^64).")
claim("C19", "proved", [K+"C19_authorized", K+"C19_others"])
claim("C26", "proved", [K+"C26_submit", K+"C26_skip", K+"C26_claim"], "Times and indices add as uint64, as in the code.")
claim("C20", "proved", [K+x for x in ["C20_one_vote","C20_final","C20_history","C20_accepted"]])
claim("C23", "proved", [K+x for x in ["C23_chain","C23_new","C23_one","C23_immutable","C23_sound","C23_last"]], "Indices add as uint64, as in the code.")
claim("C24", "proved", [K+x for x in ["C24_submit","C24_skip","C24_endBlock","C24_only","C24_abstain","C24_stake"]], "Every judgement of every message and end block, with the exact list of slashes.")
claim("C25", "proved", [K+x for x in ["C24_submit","C24_skip","C24_endBlock","C25_vote","C24_only"]])
claim("C63", "partial", [K+x for x in ["C24_only","C25_skip_empty"]], "False of the code: a skip with nothing proposed gives every member a point (C25_skip_empty); all other points are for missed duties (C25).")
claim("C31", "proved", [K+x for x in ["C31_endBlock","C31_unblocked","C31_stopped","C31_late"]], "Every pool of every end block that does not panic. Witness: a pool stopped by the same end block keeps a next uploader for one block.")
claim("C37", "proved", [K+x for x in ["C37_blocked","C37_endBlock","C37_never_early_chain","C37_plan"]]+["Verif.Pool.C37_"+x for x in ["end_block","after_every_block","never_early","plan_origin","schedule_effect","cancel_effect"]], "On the chain: every message and every end block that does not panic; scheduled time plus duration below 2^64.")
claim("C38", "proved", [K+x for x in ["C38_disable","C38_accepted","C38_empty","C38_no_join","C38_until_enabled"]], "Native coins; coins of other denoms stay in the pool account (C38_disable says so). A balance of 2^63 or more makes the message fail.")
claim("C40", "proved", [K+x for x in ["C40_chain","C40_create_chain","C40_permanent_chain","C40_create_accepted","C40_created"]]+["Verif.Pool.C40_"+x for x in ["ids_dense","create_effect","permanent","update_effect","progress","bundle_counted"]])
claim("C54", "proved", [K+"C54_reachable", K+"C54_status", K+"C54_conditions", K+"C54_reason"])
Q = "Verif.Query."
claim("C53", "proved", [Q+"C53_page", Q+"C53_all_pages", Q+"C53_default", Q+"C53_keys", Q+"C53_keys_end", K+"C53_active_stakers"], "Fewer than 2^62 entries and page windows below 2^63; key pagination follows cosmos-sdk FilteredPaginate.")
claim("C56", "proved", [K+"C56_can_validate"])
claim("C57", "proved", [K+x for x in ["C57_can_vote","C57_cannot_submit","C57_cannot_skip","C57_can_propose_first","C57_can_propose","C57_can_skip"]])
claim("C58", "proved", [K+"C58_bonded", K+"C58_deductions", K+"C58_inactive"])
claim("C59", "partial", [Q+"array_page", Q+"C59_hides", Q+"C59_panics"], "False of the code: the first element of the list is on no page after the first request, and short lists make the query panic (both proved for every list).")
claim("C60", "proved", [D+"C60_entries", D+"C60_available"], "While no more slots are used than allowed; see C65.")
claim("C65", "partial", [D+"C60_wraps"], "False of the code when the allowed number was lowered below the used one (the uint64 difference wraps: witnessed).")
claim("C61", "proved", [K+x for x in ["C61_delegation","C61_unbonding","C61_rewards","C61_funding","C61_funded","C61_twice"]], "Unbonding amounts add as uint64. C61_twice: the same coins can be requested several times, so the unbonding shown can exceed the delegation.")
claim("C66", "partial", [K+"C66_partial", K+"C66_false"], "False of the code: two accepted updates drop the native coin (C66_false), after which a pool with inflation cannot finalize; holds when every update names the coins it lists.")
claim("C67", "partial", ["Verif.Stakers.C51_stakers", "Verif.Bundles.C51_bundles", F+"C67_funders", F+"C67_false_funders", "Verif.Stakers.C67_false_stakers", "Verif.Bundles.C67_false_bundles"], "False of the code (witnesses); what is checked is in C51.")
claim("C68", "partial", [K+"C68_partial", K+"C68_false", D+"C68_delegation", "Verif.Stakers.C68_stakers_partial", "Verif.Stakers.C68_false_stakers", P+"C68_pool", "Verif.Bundles.C68_bundles", F+"C68_funders", "Verif.Team.C68_team"], "Exact condition proved; false of the code without it (witnesses).")
claim("C69", "proved", ["Verif.Team."+x for x in ["C69_status","C69_claim","C69_rewards","C69_authority","C69_info","C69_info_rewards"]], "Claimed rewards below 2^63 (the code panics above, failing the message).")
claim("C70", "proved", [K+x for x in ["C70_delegators","C70_stakers","C70_rewards","C70_agree","C70_ends"]], "Page sizes from 1; reading page after page by the returned key.")
claim("C71", "partial", [K+"C71_list_partial", K+"C71_phantom", K+"C71_vanishes"], "Order, no duplicates, filters and every staker with a delegator proved. False of the code beyond that (witnesses): rows without a staker, and stakers without delegation vanish at a restart.")
claim("C72", "proved", [K+"C72_staker", K+"C72_answers", K+"C72_by_pool"], "The query fails if a node account has 2^64 coins or more (exact condition proved).")
claim("C73", "proved", [K+"C73_pool", K+"C73_answers", K+"C73_list"], "The query fails if the pool account has 2^64 coins or more (exact condition proved).")
claim("C74", "proved", [K+"C74_by_funder", K+"C74_by_pool", K+"C74_funder"], "")
claim("C75", "proved", [K+"C75_votes"], "")
claim("C76", "proved", [K+"C76_page", K+"C76_read", K+"C76_ends", K+"C76_wraps"], "Backwards an offset beyond the number of bundles wraps around and shows the newest bundles again (C76_wraps).")
claim("C77", "proved", [K+"C77_unbondings"], "")
claim("C78", "proved", ["Verif.Upgrade."+x for x in ["C78_migrate","C78_reachable","C78_kept","C78_params","C78_pools","C78_panics"]], "Protobuf, events, the migrations of the cosmos modules and the x/gov parameters are not modelled.")
claim("C79", "partial", ["Verif.Upgrade."+x for x in ["C79_kept","C79_create_partial","C79_scale_counterexample"]], "False of the code: pending proposals keep the old scale of the weight (1000000), existing pools get the weight 1, so the new pool weighs a million times as much.")
claim("C80", "proved", [K+"C80_submit", K+"C80_skip", K+"C80_only"], "A lone voter valid as the first member is made the next uploader as in C27.")
claim("C81", "proved", [K+"C81_coins"], "Messages of modules outside the model (bank sends, governance deposits, ...) are the operation external and are excluded.")
claim("C82", "proved", [K+"C82_delegation", K+"C82_kept"])
claim("C83", "proved", [D+"C83_earned", K+"C83_rewards"])
claim("C84", "proved", [K+"C84_fundings"], "The state after the step is one the chain reaches (`Sane`, as everywhere).")
claim("C85", "proved", [K+"C85_commission", K+"C85_claim", K+"C85_accepted"], "How much a final bundle adds: C22.")
claim("C86", "proved", [K+"C86_place"], "Block time plus leave time below 2^63 (without it: C16_overflow, C17).")
claim("C87", "proved", [K+x for x in ["C87_withdraw_accepted","C87_withdraw","C87_shown","C87_undelegate_accepted","C87_undelegate","C87_leave_accepted","C87_commission_accepted","C87_defund","C87_delegate_accepted","C87_create_accepted"]], "That the module account can pay is C03/C12 (kyve); it may lack a unit of other coins.")
claim("C88", "proved", [F+x for x in ["C88_fund_accepted","C88_defund_accepted","C88_fund","C88_defund"]]+[K+x for x in ["C88_fund_accepted","C88_fund","C88_defund_accepted","C88_defund"]], "Finding: a whitelisted coin with a minimum of 0 cannot be funded at all.")
claim("C89", "proved", [K+x for x in ["C89_exec","C89_step","C89_history","C89_total"]], "Minting (x/mint, x/team inflation) and burning (x/global) are other modules here (operation external); their sums are C29, C41-C45, C46.")
claim("C90", "proved", [K+x for x in ["C90_end_block","C90_begin_block","C90_messages"]]+["Verif.Chain.Sample.C90_reason"], "C90_reason: any uploader can stop the chain with a bundle that claims 2^63 bytes, once storage costs are set and nobody uploads the next one in time.")
claim("C91", "partial", [G+x for x in ["C91_single","C91_monotone","C91_lowest_partial","C91_last","C91_checker","C91_false"]], "Proved for fees in one coin and for fees whose coins all offer at least one whole coin per gas. False of the code otherwise (C91_false): paying more can lower the priority; C91_last says which coins count.")
A = "Verif.App.App."
claim("C92", "proved", [A+"C92_accounts", A+"C92_team"], "What other modules (x/staking, x/distribution, IBC, ...) do is the operation outside, which may change any balance but cannot take from the accounts of x/delegation, x/stakers, x/funders and x/team.")
claim("C93", "proved", [A+"C93_books", A+"C93_account", A+"C93_supply"], "Other modules are assumed to keep the books.")
claim("C94", "proved", [A+"C94_transaction", A+"C94_strangers", A+"C94_blocks"], "Signature verification and x/authz are dependencies: a transaction carries the set of its signers and of the authorisations.")
claim("C95", "proved", [A+"C95_required", A+"C95_begin_block", A+"C95_height"], "At most one pool cannot run; with more the code gives the remainder to each of them (C29).")
claim("C96", "proved", [A+x for x in ["C96_all_or_nothing","C96_signed","C96_takes_effect","C96_never_halts","C96_transfer"]], "Fees paid by an allowance: C48. Gas metering of the messages themselves is the SDK's.")
claim("C97", "proved", [A+"C97_claimed_is_unlocked", A+"C97_solvent"], "")
claim("C98", "proved", [K+"C98_restarts", K+"C98_lookup", K+"C98_ranking", "Verif.Chain.Sample.C98_ranking_false"], "The lookup needs that no data index overflowed (C30). Rows of the ranking for accounts nobody ever delegated to (C11_phantom) do vanish with a restart: C98_ranking_false.")
claim("C99", "proved", [K+"C99_answers", K+"C99_order", K+"C99_later"], "Gas is not modelled.")
claim("C101", "proved", ["Verif.Bundles.Go.C101_rotation", "Verif.Bundles.Go.C101_rotation_list", K+"C101_selection"], "A second model of the rotation, statement by statement, with Go's maps, int64 and panics, agrees with the one of the chain for every iteration order.")
claim("C100", "proved", [K+"C100_isolated"], "Stake is shared by all pools, so a slash in one pool is felt in all (C24).")
claim("C102", "proved", ["Verif.Chain.C102_archive"], "The notion of good data and the set of honest stakers are arbitrary. Honest: `Honesty.Follows`; majority: `Honesty.Majority`, needed only where an operation may decide a bundle.")
claim("C103", "proved", ["Verif.Chain.C103_spared"], "Stakers within two points of the maximum of inactivity points may be removed (C24, C25).")
claim("C104", "partial", ["Verif.Chain.C104_vote_partial", "Verif.Chain.C104_carried_over"], "False of the code: a vote names only the storage id, so it counts for a later proposal with the same storage id and other data (C104_carried_over). Proved: it counts only for the named storage id, and for the same data unless a submission with that storage id was accepted in between.")
claim("C105", "proved", ["Verif.Chain.C105_"+x for x in ["claim","first","vote","all_vote","finalized","refused"]], "The bundle must be payable (see C90) for `C105_finalized`. That a turn does not last for ever is C31.")
claim("C106", "partial", ["Verif.Chain.C106_"+x for x in ["member_partial","refused_false","timeout_false"]], "False of the code: a submission that drops an invalid bundle leaves the turn with its sender even if it removes the sender for its own vote (C106_refused_false), and the end block adds the point of the late uploader after the choice (C106_timeout_false). Proved for claims, skips and all other submissions.")
claim("C107", "proved", ["Verif.Chain.C107_"+x for x in ["once","registered","skip","withdraw"]], "For proposals the sizes must be 64-bit numbers, as their types say; for skipping the upload interval must be positive and the clock must not overflow. Redelegating twice in a block is refused by C09.")
claim("C108", "partial", ["Verif.App.App.C108_"+x for x in ["gas_partial","refund_partial","gas_false","refund_false"]], "False of the code: x/global looks only at the outer messages of a transaction, so a message wrapped in x/authz's MsgExec (which everybody can do with his own messages) pays no extra gas (C108_gas_false) and gets no refund (C108_refund_false). Proved for transactions without wrapped messages.")
claim("C109", "partial", [K+"C109_events_partial", K+"C109_eviction_false"], "False of the code: the event of a funder that loses its slot is written after its amounts were set to zero, so it reports nothing although the funder is paid back (C109_eviction_false). Proved for all other accounts, as long as x/delegation did not halt the chain (C12).")
claim("C110","proved",[K+"C110_waits",K+"C110_returns",K+"C110_full",K+"C110_pending",K+"C110_several",K+"C110_due",A+"C110_application",A+"C110_block",A+"C110_requests"],
"histories in which no block panics (such a block stops the chain) and the clock stays inside 64 bits; the exact amount under slashes is for the only request of this delegator to this staker; several requests: `C110_several`, `C110_due`, `C110_requests` (the exact amount if the staker is not slashed meanwhile; with slashes, block by block: C08_block)")
claim("C111","proved",[K+"C111_lasts",K+"C111_price",A+"C111_application"],
"`C111_application`: the same with transactions, fees, governance, x/team and inflation; the number of final bundles is the pool's counter (C23_chain: the bundles are numbered up to it)")
claim("C112","proved",["Verif.Chain.Registry."+x for x in ["C112_funder","C112_funder_keeps","C112_staker","C112_staker_keeps","C112_registered","C112_update","C112_metadata","C112_search"]],
"The texts of a staker are one number in the chain model, any coding of texts into numbers is allowed; lower case is any function on texts")
claim("C113","proved",[K+x for x in ["C113_members","C113_step"]],"the reader is `Log.place`")
claim("C114","proved",[K+x for x in ["C114_stake","C113_step"]],"the reader is `Log.change`")
claim("C115","proved",[K+x for x in ["C115_bundles","C113_step"]],"the reader is `Log.book`; ProposedAt, the pool name and the bundle version are not modelled; the status of a bundle dropped because the pool is disabled is `unspecified` in the model")
claim("C116","proved",[K+"C116_earned"],"the reader is `Log.earned`")
claim("C117","proved",[K+"C117_keeps",K+"C117_whole",A+"C117_application"],
"histories in which no block panics (such a block stops the chain) and the clock stays inside 64 bits; funders: C111, C84; an open undelegation: C110. `C117_application`: the same with transactions, fees, governance, x/team and inflation")
here = os.path.dirname(os.path.dirname(os.path.abspath(__file__)))
CLAIMS.sort(key=lambda c: int(c["property"][1:]))
json.dump({"claims": CLAIMS}, open(os.path.join(here, "MANIFEST.json"), "w"), indent=1)
