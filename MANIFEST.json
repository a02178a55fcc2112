{
 "claims": [
  {
   "property": "C01",
   "status": "proved",
   "theorems": [
    "Verif.Delegation.C01_no_halt",
    "Verif.Delegation.C01_module"
   ],
   "note": "Slash fractions in [0,1]; fewer than 10^18 (slash, affected delegator) pairs per staker."
  },
  {
   "property": "C02",
   "status": "proved",
   "theorems": [
    "Verif.Delegation.C02_total",
    "Verif.Delegation.C02_module"
   ],
   "note": "Same histories as C01."
  },
  {
   "property": "C03",
   "status": "proved",
   "theorems": [
    "Verif.Delegation.C03_covered",
    "Verif.Delegation.C03_false",
    "Verif.Delegation.module_ledgers"
   ],
   "note": "Explicit rounding bound; the bound-free version is false of the code (witnessed)."
  },
  {
   "property": "C04",
   "status": "proved",
   "theorems": [
    "Verif.Delegation.C04_fair",
    "Verif.Delegation.module_ledgers"
   ],
   "note": "Explicit rounding bound."
  },
  {
   "property": "C05",
   "status": "proved",
   "theorems": [
    "Verif.Delegation.C05_eager",
    "Verif.Delegation.C05_slash",
    "Verif.Delegation.C05_module"
   ],
   "note": ""
  },
  {
   "property": "C06",
   "status": "proved",
   "theorems": [
    "Verif.Delegation.C06_query",
    "Verif.Delegation.module_ledgers"
   ],
   "note": ""
  },
  {
   "property": "C07",
   "status": "proved",
   "theorems": [
    "Verif.Delegation.C07_delegate",
    "Verif.Delegation.C07_redelegate",
    "Verif.Delegation.C07_request",
    "Verif.Delegation.C07_unbond",
    "Verif.Chain.Chain.C07_delegate",
    "Verif.Chain.Chain.C07_redelegate",
    "Verif.Chain.Chain.C07_create"
   ],
   "note": "All histories of the module; balances as long as no transfer failed."
  },
  {
   "property": "C08",
   "status": "proved",
   "theorems": [
    "Verif.Delegation.C08_once_in_order",
    "Verif.Delegation.C08_block",
    "Verif.Delegation.C08_only_blocks",
    "Verif.Delegation.C08_amount",
    "Verif.Delegation.C08_overflow_false",
    "Verif.Chain.Chain.C08_block"
   ],
   "note": "Block time plus unbonding time below 2^64 (without it: overflow witnessed)."
  },
  {
   "property": "C09",
   "status": "proved",
   "theorems": [
    "Verif.Delegation.C09_window",
    "Verif.Delegation.C09_every_window",
    "Verif.Delegation.C09_available"
   ],
   "note": "Histories in which the cooldown is not raised (C09_window, C09_available) or constant (C09_every_window); times below 2^63."
  },
  {
   "property": "C10",
   "status": "partial",
   "theorems": [
    "Verif.Delegation.C10_partial",
    "Verif.Delegation.C10_false"
   ],
   "note": "False of the code after slashes (witnessed); proved for histories without slashes and without payouts to an empty staker."
  },
  {
   "property": "C11",
   "status": "proved",
   "theorems": [
    "Verif.Delegation.C11_ranking",
    "Verif.Delegation.C11_phantom"
   ],
   "note": "Totals fit into uint64. Addresses without delegation can be listed as well (witnessed)."
  },
  {
   "property": "C12",
   "status": "partial",
   "theorems": [
    "Verif.Delegation.C12_exact",
    "Verif.Delegation.C12_gifts",
    "Verif.Delegation.C12_partial",
    "Verif.Delegation.C12_covered",
    "Verif.Delegation.C12_slash",
    "Verif.Delegation.C12_false",
    "Verif.Delegation.C12_halts"
   ],
   "note": "Exact accounting equation and the explicit rounding bound are proved; the strict version is false of the code (witnessed: rewards rounded up, last unbonding halts the chain)."
  },
  {
   "property": "C13",
   "status": "proved",
   "theorems": [
    "Verif.Stakers.C13_pool_count",
    "Verif.Stakers.C13_active",
    "Verif.Stakers.C13_index"
   ],
   "note": "Delegation amounts of joining stakers below 2^64-1."
  },
  {
   "property": "C14",
   "status": "proved",
   "theorems": [
    "Verif.Stakers.C14_full",
    "Verif.Stakers.C14_reject",
    "Verif.Stakers.C14_not_full",
    "Verif.Stakers.C14_accepts",
    "Verif.Stakers.C14_accepts_full"
   ],
   "note": ""
  },
  {
   "property": "C15",
   "status": "proved",
   "theorems": [
    "Verif.Stakers.C15_valaddress",
    "Verif.Stakers.C15_authorized",
    "Verif.Stakers.C15_shared_across_pools"
   ],
   "note": ""
  },
  {
   "property": "C16",
   "status": "proved",
   "theorems": [
    "Verif.Stakers.C16_one_pending",
    "Verif.Stakers.C16_order",
    "Verif.Stakers.C16_block",
    "Verif.Stakers.C16_only_block",
    "Verif.Stakers.C16_history",
    "Verif.Stakers.C16_rate_bound",
    "Verif.Stakers.C16_overflow",
    "Verif.Chain.Chain.C16_block"
   ],
   "note": "Times without int64 overflow; false with overflow (witnessed)."
  },
  {
   "property": "C17",
   "status": "proved",
   "theorems": [
    "Verif.Stakers.C17_announce",
    "Verif.Stakers.C17_block",
    "Verif.Stakers.C17_other",
    "Verif.Chain.Chain.C17_block"
   ],
   "note": ""
  },
  {
   "property": "C18",
   "status": "proved",
   "theorems": [
    "Verif.Stakers.C18_exact",
    "Verif.Stakers.C18_backed",
    "Verif.Stakers.C18_claim_accepted",
    "Verif.Stakers.C18_claim",
    "Verif.Stakers.C18_payout",
    "Verif.Stakers.C18_only"
   ],
   "note": ""
  },
  {
   "property": "C19",
   "status": "proved",
   "theorems": [
    "Verif.Chain.Chain.C19_authorized",
    "Verif.Chain.Chain.C19_others"
   ],
   "note": ""
  },
  {
   "property": "C20",
   "status": "proved",
   "theorems": [
    "Verif.Chain.Chain.C20_one_vote",
    "Verif.Chain.Chain.C20_final",
    "Verif.Chain.Chain.C20_history",
    "Verif.Chain.Chain.C20_accepted"
   ],
   "note": ""
  },
  {
   "property": "C21",
   "status": "proved",
   "theorems": [
    "Verif.Bundles.C21_counts",
    "Verif.Bundles.C21_bounded",
    "Verif.Bundles.C21_majority",
    "Verif.Bundles.C21_exclusive",
    "Verif.Chain.Chain.C21_reachable"
   ],
   "note": "Total delegation of a pool below 2^63."
  },
  {
   "property": "C22",
   "status": "proved",
   "theorems": [
    "Verif.Bundles.C22_conserved",
    "Verif.Bundles.C22_treasury",
    "Verif.Bundles.C22_storage",
    "Verif.Bundles.C22_commission",
    "Verif.Bundles.C22_total_partial",
    "Verif.Bundles.C22_panics",
    "Verif.Chain.Chain.C22_finalized",
    "Verif.Chain.Chain.C22_unpaid",
    "Verif.Chain.Chain.C22_endBlock"
   ],
   "note": "Split exact for every input; on the chain: paid in full if and only if finalized, for messages and for every pool of an end block that does not panic (a claimed data size of 2^63 panics: witnessed)."
  },
  {
   "property": "C23",
   "status": "proved",
   "theorems": [
    "Verif.Chain.Chain.C23_chain",
    "Verif.Chain.Chain.C23_new",
    "Verif.Chain.Chain.C23_one",
    "Verif.Chain.Chain.C23_immutable",
    "Verif.Chain.Chain.C23_sound",
    "Verif.Chain.Chain.C23_last"
   ],
   "note": "Indices add as uint64, as in the code."
  },
  {
   "property": "C24",
   "status": "proved",
   "theorems": [
    "Verif.Chain.Chain.C24_submit",
    "Verif.Chain.Chain.C24_skip",
    "Verif.Chain.Chain.C24_endBlock",
    "Verif.Chain.Chain.C24_only",
    "Verif.Chain.Chain.C24_abstain",
    "Verif.Chain.Chain.C24_stake"
   ],
   "note": "Every judgement of every message and end block, with the exact list of slashes."
  },
  {
   "property": "C25",
   "status": "proved",
   "theorems": [
    "Verif.Chain.Chain.C24_submit",
    "Verif.Chain.Chain.C24_skip",
    "Verif.Chain.Chain.C24_endBlock",
    "Verif.Chain.Chain.C25_vote",
    "Verif.Chain.Chain.C24_only"
   ],
   "note": ""
  },
  {
   "property": "C26",
   "status": "proved",
   "theorems": [
    "Verif.Chain.Chain.C26_submit",
    "Verif.Chain.Chain.C26_skip",
    "Verif.Chain.Chain.C26_claim"
   ],
   "note": "Times and indices add as uint64, as in the code."
  },
  {
   "property": "C27",
   "status": "partial",
   "theorems": [
    "Verif.Bundles.C27_member",
    "Verif.Bundles.C27_exclusion_partial",
    "Verif.Bundles.C27_skip_partial",
    "Verif.Bundles.C27_list_partial",
    "Verif.Bundles.C27_fails",
    "Verif.Bundles.C27_list_fails",
    "Verif.Chain.Chain.C27_chain_skip_partial",
    "Verif.Chain.Chain.C27_chain_false"
   ],
   "note": "False of the code: the first candidate is chosen although excluded (witnessed for a skip and for the choice among the valid voters); proved for every other candidate."
  },
  {
   "property": "C28",
   "status": "partial",
   "theorems": [
    "Verif.Bundles.C28_zero_sum",
    "Verif.Bundles.C28_bounded",
    "Verif.Bundles.C28_fair_partial",
    "Verif.Bundles.C28_rescale_happens",
    "Verif.Bundles.C28_no_overflow",
    "Verif.Bundles.C28_round",
    "Verif.Bundles.C28_behind",
    "Verif.Bundles.C28_newcomer"
   ],
   "note": "Zero sum, bounds and absence of overflow proved; fairness up to five selections per rescaling of the run. Missing: a bound on the number of rescalings with a constant set (they do happen: witnessed)."
  },
  {
   "property": "C29",
   "status": "partial",
   "theorems": [
    "Verif.Bundles.C29_share",
    "Verif.Bundles.C29_running_partial",
    "Verif.Bundles.C29_total_partial",
    "Verif.Bundles.C29_all_running",
    "Verif.Bundles.C29_remainder_fails",
    "Verif.Bundles.C29_nonrunning_gets",
    "Verif.Bundles.C29_rounding_fails",
    "Verif.Chain.Chain.C29_chain",
    "Verif.Chain.Chain.C29_covered"
   ],
   "note": "False of the code: the remainder is sent to every pool that cannot run (witnessed); proved if at most one pool cannot run and pools * provision < 2*10^18."
  },
  {
   "property": "C30",
   "status": "proved",
   "theorems": [
    "Verif.Chain.Chain.C30_exact",
    "Verif.Chain.Chain.C30_all",
    "Verif.Chain.Chain.C30_small",
    "Verif.Bundles.C30_lookup",
    "Verif.Bundles.C30_found",
    "Verif.Bundles.C30_unique"
   ],
   "note": "Indices of the pool below 2^64 (C30_small: kept as long as no bundle passes 2^64)."
  },
  {
   "property": "C31",
   "status": "proved",
   "theorems": [
    "Verif.Chain.Chain.C31_endBlock",
    "Verif.Chain.Chain.C31_unblocked",
    "Verif.Chain.Chain.C31_stopped",
    "Verif.Chain.Chain.C31_late"
   ],
   "note": "Every pool of every end block that does not panic. Witness: a pool stopped by the same end block keeps a next uploader for one block."
  },
  {
   "property": "C32",
   "status": "proved",
   "theorems": [
    "Verif.Funders.C32_backed",
    "Verif.Funders.C32_exact",
    "Verif.Funders.C32_gifts"
   ],
   "note": "Exact up to coins given to the module account from outside (possible through JoinPool)."
  },
  {
   "property": "C33",
   "status": "proved",
   "theorems": [
    "Verif.Funders.C33_active",
    "Verif.Chain.Chain.C33_every_pool"
   ],
   "note": ""
  },
  {
   "property": "C34",
   "status": "proved",
   "theorems": [
    "Verif.Funders.C34_charge"
   ],
   "note": ""
  },
  {
   "property": "C35",
   "status": "partial",
   "theorems": [
    "Verif.Funders.C35_eviction_partial",
    "Verif.Funders.C35_score",
    "Verif.Funders.C35_no_score",
    "Verif.Funders.C35_false_equal_score",
    "Verif.Funders.C35_false_topup"
   ],
   "note": "Only a lowest-score funder of a full pool is evicted, by someone with at least its score, fully paid back. 'Strictly higher' and 'needs the slot' are false of the code (both witnessed)."
  },
  {
   "property": "C36",
   "status": "proved",
   "theorems": [
    "Verif.Funders.C36_defund",
    "Verif.Funders.C36_withdraw_all"
   ],
   "note": ""
  },
  {
   "property": "C37",
   "status": "proved",
   "theorems": [
    "Verif.Chain.Chain.C37_blocked",
    "Verif.Chain.Chain.C37_endBlock",
    "Verif.Chain.Chain.C37_never_early_chain",
    "Verif.Chain.Chain.C37_plan",
    "Verif.Pool.C37_end_block",
    "Verif.Pool.C37_after_every_block",
    "Verif.Pool.C37_never_early",
    "Verif.Pool.C37_plan_origin",
    "Verif.Pool.C37_schedule_effect",
    "Verif.Pool.C37_cancel_effect"
   ],
   "note": "On the chain: every message and every end block that does not panic; scheduled time plus duration below 2^64."
  },
  {
   "property": "C38",
   "status": "proved",
   "theorems": [
    "Verif.Chain.Chain.C38_disable",
    "Verif.Chain.Chain.C38_accepted",
    "Verif.Chain.Chain.C38_empty",
    "Verif.Chain.Chain.C38_no_join",
    "Verif.Chain.Chain.C38_until_enabled"
   ],
   "note": "Native coins; coins of other denoms stay in the pool account (C38_disable says so). A balance of 2^63 or more makes the message fail."
  },
  {
   "property": "C39",
   "status": "proved",
   "theorems": [
    "Verif.Pool.C39_charge_inflation",
    "Verif.Pool.C39_params_valid"
   ],
   "note": ""
  },
  {
   "property": "C40",
   "status": "proved",
   "theorems": [
    "Verif.Chain.Chain.C40_chain",
    "Verif.Chain.Chain.C40_create_chain",
    "Verif.Chain.Chain.C40_permanent_chain",
    "Verif.Chain.Chain.C40_create_accepted",
    "Verif.Chain.Chain.C40_created",
    "Verif.Pool.C40_ids_dense",
    "Verif.Pool.C40_create_effect",
    "Verif.Pool.C40_permanent",
    "Verif.Pool.C40_update_effect",
    "Verif.Pool.C40_progress",
    "Verif.Pool.C40_bundle_counted"
   ],
   "note": ""
  },
  {
   "property": "C41",
   "status": "proved",
   "theorems": [
    "Verif.Team.C41_vested_exact",
    "Verif.Team.C41_unlocked_exact",
    "Verif.Team.C41_bounds",
    "Verif.Team.C41_monotone",
    "Verif.Team.C41_clawback_freezes",
    "Verif.Team.C41_endpoints"
   ],
   "note": "For accounts with in-range numbers (allocation < 2^63, commencement < 2^62)."
  },
  {
   "property": "C42",
   "status": "proved",
   "theorems": [
    "Verif.Team.C42_claimed_is_unlocked",
    "Verif.Team.C42_claim_pays"
   ],
   "note": "All histories with in-range create messages."
  },
  {
   "property": "C43",
   "status": "partial",
   "theorems": [
    "Verif.Team.C43_issued_bounded_partial",
    "Verif.Team.C43_false_unclawback",
    "Verif.Team.C43_false_overflow"
   ],
   "note": "False of the code in general (removing a clawback, uint64 overflow: both witnessed); proved when clawback dates only move earlier."
  },
  {
   "property": "C44",
   "status": "proved",
   "theorems": [
    "Verif.Team.C44_solvent",
    "Verif.Team.C44_claim_account_rewards",
    "Verif.Team.C44_claim_authority_rewards"
   ],
   "note": ""
  },
  {
   "property": "C45",
   "status": "proved",
   "theorems": [
    "Verif.Team.C45_split_exact",
    "Verif.Team.C45_tightened",
    "Verif.Team.C45_false_rounding",
    "Verif.Team.C45_false_issued"
   ],
   "note": "The team owns at most the supply, (number of accounts x provision) < 2*10^18; without the bounds the chain halts (both witnessed)."
  },
  {
   "property": "C46",
   "status": "proved",
   "theorems": [
    "Verif.Global.C46_min_fee",
    "Verif.Global.C46_deduct",
    "Verif.Global.C46_checktx",
    "Verif.Global.C46_checktx_bond_only",
    "Verif.Global.C46_checktx_is_weaker",
    "Verif.Global.C46_accepted",
    "Verif.Global.C46_first_block"
   ],
   "note": "Exact criterion in FinalizeBlock."
  },
  {
   "property": "C47",
   "status": "proved",
   "theorems": [
    "Verif.Global.C47_burn",
    "Verif.Global.C47_refund",
    "Verif.Global.C47_refund_le_fee",
    "Verif.Global.C47_params_stay_valid",
    "Verif.Global.C47_tx_net",
    "Verif.Global.C47_run"
   ],
   "note": ""
  },
  {
   "property": "C48",
   "status": "partial",
   "theorems": [
    "Verif.Global.C48_grant_used_once_partial",
    "Verif.Global.C48_used_twice",
    "Verif.Global.C48_false_double_use",
    "Verif.Global.C48_false_fails"
   ],
   "note": "False of the code for refundable messages (witnessed); proved for all other transactions."
  },
  {
   "property": "C49",
   "status": "proved",
   "theorems": [
    "Verif.Global.C49_gas_adjustment",
    "Verif.Global.C49_out_of_gas"
   ],
   "note": ""
  },
  {
   "property": "C50",
   "status": "proved",
   "theorems": [
    "Verif.Keys.C50_delegation_keys",
    "Verif.Keys.C50_stakers_keys",
    "Verif.Keys.C50_bundles_keys",
    "Verif.Keys.C50_funders_keys",
    "Verif.Keys.C50_pool_keys",
    "Verif.Keys.C50_team_keys",
    "Verif.Keys.C50_numeric_order",
    "Verif.Keys.C50_finalized_order",
    "Verif.Keys.C50_ranking_order",
    "Verif.Keys.C50_slash_range",
    "Verif.Keys.C50_prefix_iteration",
    "Verif.Keys.C50_pool_prefix"
   ],
   "note": ""
  },
  {
   "property": "C51",
   "status": "proved",
   "theorems": [
    "Verif.Delegation.C51_delegation",
    "Verif.Stakers.C51_stakers",
    "Verif.Pool.C51_pool",
    "Verif.Team.C51_team",
    "Verif.Bundles.C51_bundles"
   ],
   "note": "The lists validation checks; those it does not check are in C67."
  },
  {
   "property": "C52",
   "status": "proved",
   "theorems": [
    "Verif.Chain.Chain.C52_refused",
    "Verif.Chain.Chain.C52_params",
    "Verif.Chain.Chain.C52_pools",
    "Verif.Pool.C52_pool_authority",
    "Verif.Team.C52_team_authority",
    "Verif.Team.C52_team_foundation",
    "Verif.Global.C52_global_params",
    "Verif.Funders.C52_funders_params",
    "Verif.Delegation.C52_delegation",
    "Verif.Delegation.C52_delegation_only",
    "Verif.Stakers.C52_stakers_params",
    "Verif.Stakers.C52_stakers_effect"
   ],
   "note": "On every reachable chain, plus x/team and x/global (modelled apart)."
  },
  {
   "property": "C53",
   "status": "proved",
   "theorems": [
    "Verif.Query.C53_page",
    "Verif.Query.C53_all_pages",
    "Verif.Query.C53_default",
    "Verif.Query.C53_keys",
    "Verif.Query.C53_keys_end",
    "Verif.Chain.Chain.C53_active_stakers"
   ],
   "note": "Fewer than 2^62 entries and page windows below 2^63; key pagination follows cosmos-sdk FilteredPaginate."
  },
  {
   "property": "C54",
   "status": "proved",
   "theorems": [
    "Verif.Chain.Chain.C54_reachable",
    "Verif.Chain.Chain.C54_status",
    "Verif.Chain.Chain.C54_conditions",
    "Verif.Chain.Chain.C54_reason"
   ],
   "note": ""
  },
  {
   "property": "C55",
   "status": "proved",
   "theorems": [
    "Verif.Chain.Chain.C55_chain",
    "Verif.Chain.Chain.C55_overflow",
    "Verif.Delegation.C55_delegation",
    "Verif.Stakers.C55_stakers_roundtrip",
    "Verif.Pool.C55_pool",
    "Verif.Bundles.C55_bundles",
    "Verif.Bundles.C55_bundles_restart",
    "Verif.Funders.C55_funders",
    "Verif.Team.C55_team"
   ],
   "note": "Five modules together on every reachable chain; x/team apart."
  },
  {
   "property": "C56",
   "status": "proved",
   "theorems": [
    "Verif.Chain.Chain.C56_can_validate"
   ],
   "note": ""
  },
  {
   "property": "C57",
   "status": "proved",
   "theorems": [
    "Verif.Chain.Chain.C57_can_vote",
    "Verif.Chain.Chain.C57_cannot_submit",
    "Verif.Chain.Chain.C57_cannot_skip",
    "Verif.Chain.Chain.C57_can_propose_first",
    "Verif.Chain.Chain.C57_can_propose",
    "Verif.Chain.Chain.C57_can_skip"
   ],
   "note": ""
  },
  {
   "property": "C58",
   "status": "proved",
   "theorems": [
    "Verif.Chain.Chain.C58_bonded",
    "Verif.Chain.Chain.C58_deductions",
    "Verif.Chain.Chain.C58_inactive"
   ],
   "note": ""
  },
  {
   "property": "C59",
   "status": "partial",
   "theorems": [
    "Verif.Query.array_page",
    "Verif.Query.C59_hides",
    "Verif.Query.C59_panics"
   ],
   "note": "False of the code: the first element of the list is on no page after the first request, and short lists make the query panic (both proved for every list)."
  },
  {
   "property": "C60",
   "status": "proved",
   "theorems": [
    "Verif.Delegation.C60_entries",
    "Verif.Delegation.C60_available"
   ],
   "note": "While no more slots are used than allowed; see C65."
  },
  {
   "property": "C61",
   "status": "proved",
   "theorems": [
    "Verif.Chain.Chain.C61_delegation",
    "Verif.Chain.Chain.C61_unbonding",
    "Verif.Chain.Chain.C61_rewards",
    "Verif.Chain.Chain.C61_funding",
    "Verif.Chain.Chain.C61_funded",
    "Verif.Chain.Chain.C61_twice"
   ],
   "note": "Unbonding amounts add as uint64. C61_twice: the same coins can be requested several times, so the unbonding shown can exceed the delegation."
  },
  {
   "property": "C62",
   "status": "partial",
   "theorems": [
    "Verif.Stakers.C17_history_partial",
    "Verif.Stakers.C17_stale_announcement"
   ],
   "note": "False of the code for a staker kicked after its announcement that joins again (witnessed); every removal by the queue follows an announcement that the leave time has passed."
  },
  {
   "property": "C63",
   "status": "partial",
   "theorems": [
    "Verif.Chain.Chain.C24_only",
    "Verif.Chain.Chain.C25_skip_empty"
   ],
   "note": "False of the code: a skip with nothing proposed gives every member a point (C25_skip_empty); all other points are for missed duties (C25)."
  },
  {
   "property": "C64",
   "status": "partial",
   "theorems": [
    "Verif.Funders.C33_exact_partial",
    "Verif.Funders.C33_false_empty_active"
   ],
   "note": "False of the code: a fund message without coins is accepted (witnessed); proved for histories whose fund messages carry coins."
  },
  {
   "property": "C65",
   "status": "partial",
   "theorems": [
    "Verif.Delegation.C60_wraps"
   ],
   "note": "False of the code when the allowed number was lowered below the used one (the uint64 difference wraps: witnessed)."
  },
  {
   "property": "C66",
   "status": "partial",
   "theorems": [
    "Verif.Chain.Chain.C66_partial",
    "Verif.Chain.Chain.C66_false"
   ],
   "note": "False of the code: two accepted updates drop the native coin (C66_false), after which a pool with inflation cannot finalize; holds when every update names the coins it lists."
  },
  {
   "property": "C67",
   "status": "partial",
   "theorems": [
    "Verif.Stakers.C51_stakers",
    "Verif.Bundles.C51_bundles",
    "Verif.Funders.C67_funders",
    "Verif.Funders.C67_false_funders",
    "Verif.Stakers.C67_false_stakers",
    "Verif.Bundles.C67_false_bundles"
   ],
   "note": "False of the code (witnesses); what is checked is in C51."
  },
  {
   "property": "C68",
   "status": "partial",
   "theorems": [
    "Verif.Chain.Chain.C68_partial",
    "Verif.Chain.Chain.C68_false",
    "Verif.Delegation.C68_delegation",
    "Verif.Stakers.C68_stakers_partial",
    "Verif.Stakers.C68_false_stakers",
    "Verif.Pool.C68_pool",
    "Verif.Bundles.C68_bundles",
    "Verif.Funders.C68_funders",
    "Verif.Team.C68_team"
   ],
   "note": "Exact condition proved; false of the code without it (witnesses)."
  },
  {
   "property": "C69",
   "status": "proved",
   "theorems": [
    "Verif.Team.C69_status",
    "Verif.Team.C69_claim",
    "Verif.Team.C69_rewards",
    "Verif.Team.C69_authority",
    "Verif.Team.C69_info",
    "Verif.Team.C69_info_rewards"
   ],
   "note": "Claimed rewards below 2^63 (the code panics above, failing the message)."
  },
  {
   "property": "C70",
   "status": "proved",
   "theorems": [
    "Verif.Chain.Chain.C70_delegators",
    "Verif.Chain.Chain.C70_stakers",
    "Verif.Chain.Chain.C70_rewards",
    "Verif.Chain.Chain.C70_agree",
    "Verif.Chain.Chain.C70_ends"
   ],
   "note": "Page sizes from 1; reading page after page by the returned key."
  },
  {
   "property": "C71",
   "status": "partial",
   "theorems": [
    "Verif.Chain.Chain.C71_list_partial",
    "Verif.Chain.Chain.C71_phantom",
    "Verif.Chain.Chain.C71_vanishes"
   ],
   "note": "Order, no duplicates, filters and every staker with a delegator proved. False of the code beyond that (witnesses): rows without a staker, and stakers without delegation vanish at a restart."
  },
  {
   "property": "C72",
   "status": "proved",
   "theorems": [
    "Verif.Chain.Chain.C72_staker",
    "Verif.Chain.Chain.C72_answers",
    "Verif.Chain.Chain.C72_by_pool"
   ],
   "note": "The query fails if a node account has 2^64 coins or more (exact condition proved)."
  },
  {
   "property": "C73",
   "status": "proved",
   "theorems": [
    "Verif.Chain.Chain.C73_pool",
    "Verif.Chain.Chain.C73_answers",
    "Verif.Chain.Chain.C73_list"
   ],
   "note": "The query fails if the pool account has 2^64 coins or more (exact condition proved)."
  },
  {
   "property": "C74",
   "status": "proved",
   "theorems": [
    "Verif.Chain.Chain.C74_by_funder",
    "Verif.Chain.Chain.C74_by_pool",
    "Verif.Chain.Chain.C74_funder"
   ],
   "note": ""
  },
  {
   "property": "C75",
   "status": "proved",
   "theorems": [
    "Verif.Chain.Chain.C75_votes"
   ],
   "note": ""
  },
  {
   "property": "C76",
   "status": "proved",
   "theorems": [
    "Verif.Chain.Chain.C76_page",
    "Verif.Chain.Chain.C76_read",
    "Verif.Chain.Chain.C76_ends",
    "Verif.Chain.Chain.C76_wraps"
   ],
   "note": "Backwards an offset beyond the number of bundles wraps around and shows the newest bundles again (C76_wraps)."
  },
  {
   "property": "C77",
   "status": "proved",
   "theorems": [
    "Verif.Chain.Chain.C77_unbondings"
   ],
   "note": ""
  },
  {
   "property": "C78",
   "status": "proved",
   "theorems": [
    "Verif.Upgrade.C78_migrate",
    "Verif.Upgrade.C78_reachable",
    "Verif.Upgrade.C78_kept",
    "Verif.Upgrade.C78_params",
    "Verif.Upgrade.C78_pools",
    "Verif.Upgrade.C78_panics"
   ],
   "note": "Protobuf, events, the migrations of the cosmos modules and the x/gov parameters are not modelled."
  },
  {
   "property": "C79",
   "status": "partial",
   "theorems": [
    "Verif.Upgrade.C79_kept",
    "Verif.Upgrade.C79_create_partial",
    "Verif.Upgrade.C79_scale_counterexample"
   ],
   "note": "False of the code: pending proposals keep the old scale of the weight (1000000), existing pools get the weight 1, so the new pool weighs a million times as much."
  },
  {
   "property": "C80",
   "status": "proved",
   "theorems": [
    "Verif.Chain.Chain.C80_submit",
    "Verif.Chain.Chain.C80_skip",
    "Verif.Chain.Chain.C80_only"
   ],
   "note": "A lone voter valid as the first member is made the next uploader as in C27."
  },
  {
   "property": "C81",
   "status": "proved",
   "theorems": [
    "Verif.Chain.Chain.C81_coins"
   ],
   "note": "Messages of modules outside the model (bank sends, governance deposits, ...) are the operation external and are excluded."
  },
  {
   "property": "C82",
   "status": "proved",
   "theorems": [
    "Verif.Chain.Chain.C82_delegation",
    "Verif.Chain.Chain.C82_kept"
   ],
   "note": ""
  },
  {
   "property": "C83",
   "status": "proved",
   "theorems": [
    "Verif.Delegation.C83_earned",
    "Verif.Chain.Chain.C83_rewards"
   ],
   "note": ""
  },
  {
   "property": "C84",
   "status": "proved",
   "theorems": [
    "Verif.Chain.Chain.C84_fundings"
   ],
   "note": "The state after the step is one the chain reaches (`Sane`, as everywhere)."
  },
  {
   "property": "C85",
   "status": "proved",
   "theorems": [
    "Verif.Chain.Chain.C85_commission",
    "Verif.Chain.Chain.C85_claim",
    "Verif.Chain.Chain.C85_accepted"
   ],
   "note": "How much a final bundle adds: C22."
  },
  {
   "property": "C86",
   "status": "proved",
   "theorems": [
    "Verif.Chain.Chain.C86_place"
   ],
   "note": "Block time plus leave time below 2^63 (without it: C16_overflow, C17)."
  },
  {
   "property": "C87",
   "status": "proved",
   "theorems": [
    "Verif.Chain.Chain.C87_withdraw_accepted",
    "Verif.Chain.Chain.C87_withdraw",
    "Verif.Chain.Chain.C87_shown",
    "Verif.Chain.Chain.C87_undelegate_accepted",
    "Verif.Chain.Chain.C87_undelegate",
    "Verif.Chain.Chain.C87_leave_accepted",
    "Verif.Chain.Chain.C87_commission_accepted",
    "Verif.Chain.Chain.C87_defund",
    "Verif.Chain.Chain.C87_delegate_accepted",
    "Verif.Chain.Chain.C87_create_accepted"
   ],
   "note": "That the module account can pay is C03/C12 (kyve); it may lack a unit of other coins."
  },
  {
   "property": "C88",
   "status": "proved",
   "theorems": [
    "Verif.Funders.C88_fund_accepted",
    "Verif.Funders.C88_defund_accepted",
    "Verif.Funders.C88_fund",
    "Verif.Funders.C88_defund",
    "Verif.Chain.Chain.C88_fund_accepted",
    "Verif.Chain.Chain.C88_fund",
    "Verif.Chain.Chain.C88_defund_accepted",
    "Verif.Chain.Chain.C88_defund"
   ],
   "note": "Finding: a whitelisted coin with a minimum of 0 cannot be funded at all."
  },
  {
   "property": "C89",
   "status": "proved",
   "theorems": [
    "Verif.Chain.Chain.C89_exec",
    "Verif.Chain.Chain.C89_step",
    "Verif.Chain.Chain.C89_history",
    "Verif.Chain.Chain.C89_total"
   ],
   "note": "Minting (x/mint, x/team inflation) and burning (x/global) are other modules here (operation external); their sums are C29, C41-C45, C46."
  },
  {
   "property": "C90",
   "status": "proved",
   "theorems": [
    "Verif.Chain.Chain.C90_end_block",
    "Verif.Chain.Chain.C90_begin_block",
    "Verif.Chain.Chain.C90_messages",
    "Verif.Chain.Sample.C90_reason"
   ],
   "note": "C90_reason: any uploader can stop the chain with a bundle that claims 2^63 bytes, once storage costs are set and nobody uploads the next one in time."
  },
  {
   "property": "C91",
   "status": "partial",
   "theorems": [
    "Verif.Global.C91_single",
    "Verif.Global.C91_monotone",
    "Verif.Global.C91_lowest_partial",
    "Verif.Global.C91_last",
    "Verif.Global.C91_checker",
    "Verif.Global.C91_false"
   ],
   "note": "Proved for fees in one coin and for fees whose coins all offer at least one whole coin per gas. False of the code otherwise (C91_false): paying more can lower the priority; C91_last says which coins count."
  },
  {
   "property": "C92",
   "status": "proved",
   "theorems": [
    "Verif.App.App.C92_accounts",
    "Verif.App.App.C92_team"
   ],
   "note": "What other modules (x/staking, x/distribution, IBC, ...) do is the operation outside, which may change any balance but cannot take from the accounts of x/delegation, x/stakers, x/funders and x/team."
  },
  {
   "property": "C93",
   "status": "proved",
   "theorems": [
    "Verif.App.App.C93_books",
    "Verif.App.App.C93_account",
    "Verif.App.App.C93_supply"
   ],
   "note": "Other modules are assumed to keep the books."
  },
  {
   "property": "C94",
   "status": "proved",
   "theorems": [
    "Verif.App.App.C94_transaction",
    "Verif.App.App.C94_strangers",
    "Verif.App.App.C94_blocks"
   ],
   "note": "Signature verification and x/authz are dependencies: a transaction carries the set of its signers and of the authorisations."
  },
  {
   "property": "C95",
   "status": "proved",
   "theorems": [
    "Verif.App.App.C95_required",
    "Verif.App.App.C95_begin_block",
    "Verif.App.App.C95_height"
   ],
   "note": "At most one pool cannot run; with more the code gives the remainder to each of them (C29)."
  },
  {
   "property": "C96",
   "status": "proved",
   "theorems": [
    "Verif.App.App.C96_all_or_nothing",
    "Verif.App.App.C96_signed",
    "Verif.App.App.C96_takes_effect",
    "Verif.App.App.C96_never_halts",
    "Verif.App.App.C96_transfer"
   ],
   "note": "Fees paid by an allowance: C48. Gas metering of the messages themselves is the SDK's."
  },
  {
   "property": "C97",
   "status": "proved",
   "theorems": [
    "Verif.App.App.C97_claimed_is_unlocked",
    "Verif.App.App.C97_solvent"
   ],
   "note": ""
  },
  {
   "property": "C98",
   "status": "proved",
   "theorems": [
    "Verif.Chain.Chain.C98_restarts",
    "Verif.Chain.Chain.C98_lookup",
    "Verif.Chain.Chain.C98_ranking",
    "Verif.Chain.Sample.C98_ranking_false"
   ],
   "note": "The lookup needs that no data index overflowed (C30). Rows of the ranking for accounts nobody ever delegated to (C11_phantom) do vanish with a restart: C98_ranking_false."
  },
  {
   "property": "C99",
   "status": "proved",
   "theorems": [
    "Verif.Chain.Chain.C99_answers",
    "Verif.Chain.Chain.C99_order",
    "Verif.Chain.Chain.C99_later"
   ],
   "note": "Gas is not modelled."
  },
  {
   "property": "C100",
   "status": "proved",
   "theorems": [
    "Verif.Chain.Chain.C100_isolated"
   ],
   "note": "Stake is shared by all pools, so a slash in one pool is felt in all (C24)."
  },
  {
   "property": "C101",
   "status": "proved",
   "theorems": [
    "Verif.Bundles.Go.C101_rotation",
    "Verif.Bundles.Go.C101_rotation_list",
    "Verif.Chain.Chain.C101_selection"
   ],
   "note": "A second model of the rotation, statement by statement, with Go's maps, int64 and panics, agrees with the one of the chain for every iteration order."
  },
  {
   "property": "C102",
   "status": "proved",
   "theorems": [
    "Verif.Chain.C102_archive"
   ],
   "note": "The notion of good data and the set of honest stakers are arbitrary. Honest: `Honesty.Follows`; majority: `Honesty.Majority`, needed only where an operation may decide a bundle."
  },
  {
   "property": "C103",
   "status": "proved",
   "theorems": [
    "Verif.Chain.C103_spared"
   ],
   "note": "Stakers within two points of the maximum of inactivity points may be removed (C24, C25)."
  },
  {
   "property": "C104",
   "status": "partial",
   "theorems": [
    "Verif.Chain.C104_vote_partial",
    "Verif.Chain.C104_carried_over"
   ],
   "note": "False of the code: a vote names only the storage id, so it counts for a later proposal with the same storage id and other data (C104_carried_over). Proved: it counts only for the named storage id, and for the same data unless a submission with that storage id was accepted in between."
  },
  {
   "property": "C105",
   "status": "proved",
   "theorems": [
    "Verif.Chain.C105_claim",
    "Verif.Chain.C105_first",
    "Verif.Chain.C105_vote",
    "Verif.Chain.C105_all_vote",
    "Verif.Chain.C105_finalized",
    "Verif.Chain.C105_refused"
   ],
   "note": "The bundle must be payable (see C90) for `C105_finalized`. That a turn does not last for ever is C31."
  },
  {
   "property": "C106",
   "status": "partial",
   "theorems": [
    "Verif.Chain.C106_member_partial",
    "Verif.Chain.C106_refused_false",
    "Verif.Chain.C106_timeout_false"
   ],
   "note": "False of the code: a submission that drops an invalid bundle leaves the turn with its sender even if it removes the sender for its own vote (C106_refused_false), and the end block adds the point of the late uploader after the choice (C106_timeout_false). Proved for claims, skips and all other submissions."
  },
  {
   "property": "C107",
   "status": "proved",
   "theorems": [
    "Verif.Chain.C107_once",
    "Verif.Chain.C107_registered",
    "Verif.Chain.C107_skip",
    "Verif.Chain.C107_withdraw"
   ],
   "note": "For proposals the sizes must be 64-bit numbers, as their types say; for skipping the upload interval must be positive and the clock must not overflow. Redelegating twice in a block is refused by C09."
  },
  {
   "property": "C108",
   "status": "partial",
   "theorems": [
    "Verif.App.App.C108_gas_partial",
    "Verif.App.App.C108_refund_partial",
    "Verif.App.App.C108_gas_false",
    "Verif.App.App.C108_refund_false"
   ],
   "note": "False of the code: x/global looks only at the outer messages of a transaction, so a message wrapped in x/authz's MsgExec (which everybody can do with his own messages) pays no extra gas (C108_gas_false) and gets no refund (C108_refund_false). Proved for transactions without wrapped messages."
  },
  {
   "property": "C109",
   "status": "partial",
   "theorems": [
    "Verif.Chain.Chain.C109_events_partial",
    "Verif.Chain.Chain.C109_eviction_false"
   ],
   "note": "False of the code: the event of a funder that loses its slot is written after its amounts were set to zero, so it reports nothing although the funder is paid back (C109_eviction_false). Proved for all other accounts, as long as x/delegation did not halt the chain (C12)."
  },
  {
   "property": "C110",
   "status": "proved",
   "theorems": [
    "Verif.Chain.Chain.C110_waits",
    "Verif.Chain.Chain.C110_returns",
    "Verif.Chain.Chain.C110_full",
    "Verif.Chain.Chain.C110_pending",
    "Verif.Chain.Chain.C110_several",
    "Verif.Chain.Chain.C110_due",
    "Verif.App.App.C110_application",
    "Verif.App.App.C110_block",
    "Verif.App.App.C110_requests"
   ],
   "note": "histories in which no block panics (such a block stops the chain) and the clock stays inside 64 bits; the exact amount under slashes is for the only request of this delegator to this staker; several requests: `C110_several`, `C110_due`, `C110_requests` (the exact amount if the staker is not slashed meanwhile; with slashes, block by block: C08_block)"
  },
  {
   "property": "C111",
   "status": "proved",
   "theorems": [
    "Verif.Chain.Chain.C111_lasts",
    "Verif.Chain.Chain.C111_price",
    "Verif.App.App.C111_application"
   ],
   "note": "`C111_application`: the same with transactions, fees, governance, x/team and inflation; the number of final bundles is the pool's counter (C23_chain: the bundles are numbered up to it)"
  },
  {
   "property": "C112",
   "status": "proved",
   "theorems": [
    "Verif.Chain.Registry.C112_funder",
    "Verif.Chain.Registry.C112_funder_keeps",
    "Verif.Chain.Registry.C112_staker",
    "Verif.Chain.Registry.C112_staker_keeps",
    "Verif.Chain.Registry.C112_registered",
    "Verif.Chain.Registry.C112_update",
    "Verif.Chain.Registry.C112_metadata",
    "Verif.Chain.Registry.C112_search"
   ],
   "note": "The texts of a staker are one number in the chain model, any coding of texts into numbers is allowed; lower case is any function on texts"
  },
  {
   "property": "C113",
   "status": "proved",
   "theorems": [
    "Verif.Chain.Chain.C113_members",
    "Verif.Chain.Chain.C113_step"
   ],
   "note": "the reader is `Log.place`"
  },
  {
   "property": "C114",
   "status": "proved",
   "theorems": [
    "Verif.Chain.Chain.C114_stake",
    "Verif.Chain.Chain.C113_step"
   ],
   "note": "the reader is `Log.change`"
  },
  {
   "property": "C115",
   "status": "proved",
   "theorems": [
    "Verif.Chain.Chain.C115_bundles",
    "Verif.Chain.Chain.C113_step"
   ],
   "note": "the reader is `Log.book`; ProposedAt, the pool name and the bundle version are not modelled; the status of a bundle dropped because the pool is disabled is `unspecified` in the model"
  },
  {
   "property": "C116",
   "status": "proved",
   "theorems": [
    "Verif.Chain.Chain.C116_earned"
   ],
   "note": "the reader is `Log.earned`"
  },
  {
   "property": "C117",
   "status": "proved",
   "theorems": [
    "Verif.Chain.Chain.C117_keeps",
    "Verif.Chain.Chain.C117_whole",
    "Verif.App.App.C117_application"
   ],
   "note": "histories in which no block panics (such a block stops the chain) and the clock stays inside 64 bits; funders: C111, C84; an open undelegation: C110. `C117_application`: the same with transactions, fees, governance, x/team and inflation"
  }
 ]
}