{
 "claims": [
  {
   "property": "C01",
   "status": "proved",
   "theorems": [
    "Verif.C01_listed_iff_owned",
    "Verif.C01_listed_of_iff_owned",
    "Verif.C01_one_owner"
   ],
   "note": "With the page size configured to 0 every listing is empty, so C01_listed_iff_owned and C01_listed_of_iff_owned take page sizes of at least one; C01_one_owner holds without."
  },
  {
   "property": "C02",
   "status": "partial",
   "theorems": [
    "Verif.C02_balance_partial",
    "Verif.C02_balance_unburned_partial",
    "Verif.C02_violated"
   ],
   "note": "Proved for accounts none of whose tokens was burned, and in general as balance = listed + burned from that account; the full statement is false after a burn (C02_violated)."
  },
  {
   "property": "C03",
   "status": "proved",
   "theorems": [
    "Verif.C03_supply_counts",
    "Verif.C03_mint",
    "Verif.C03_burn",
    "Verif.C03_others"
   ],
   "note": ""
  },
  {
   "property": "C04",
   "status": "proved",
   "theorems": [
    "Verif.C04_mint_ids",
    "Verif.C04_fresh",
    "Verif.C04_start",
    "Verif.C04_never_again"
   ],
   "note": ""
  },
  {
   "property": "C05",
   "status": "proved",
   "theorems": [
    "Verif.C05_refused",
    "Verif.C05_bound",
    "Verif.C05_bound_from_init"
   ],
   "note": ""
  },
  {
   "property": "C06",
   "status": "proved",
   "theorems": [
    "Verif.C06_holder_only"
   ],
   "note": "Stated per item (one-item message); C25_transfer_singles reduces a batch to its one-item messages."
  },
  {
   "property": "C07",
   "status": "proved",
   "theorems": [
    "Verif.C07_live_authority"
   ],
   "note": "Stated per item; C25_transfer_from_singles reduces a batch to its items."
  },
  {
   "property": "C08",
   "status": "proved",
   "theorems": [
    "Verif.C08_owner_change",
    "Verif.C08_failed"
   ],
   "note": ""
  },
  {
   "property": "C09",
   "status": "proved",
   "theorems": [
    "Verif.C09_owner_only",
    "Verif.C09_final"
   ],
   "note": ""
  },
  {
   "property": "C10",
   "status": "proved",
   "theorems": [
    "Verif.C10_transfer",
    "Verif.C10_approve_tokens",
    "Verif.C10_approve_collection",
    "Verif.C10_revoke_tokens",
    "Verif.C10_revoke_tokens_whole",
    "Verif.C10_revoke_collection",
    "Verif.C10_burn",
    "Verif.C10_management",
    "Verif.C10_rejected",
    "Verif.C10_transfer_from"
   ],
   "note": ""
  },
  {
   "property": "C11",
   "status": "proved",
   "theorems": [
    "Verif.C11_transfer",
    "Verif.C11_transfer_from"
   ],
   "note": "Balances relative to the reachable-state invariant."
  },
  {
   "property": "C12",
   "status": "partial",
   "theorems": [
    "Verif.C12_append_only",
    "Verif.C12_replay_partial",
    "Verif.C12_replay_uncut_partial",
    "Verif.C12_violated"
   ],
   "note": "Append-only and the replay for histories in which no mint is cut short by a ledger refusal; the full statement is false otherwise (C12_violated)."
  },
  {
   "property": "C13",
   "status": "proved",
   "theorems": [
    "Verif.C13_not_moved",
    "Verif.C13_answer"
   ],
   "note": ""
  },
  {
   "property": "C14",
   "status": "partial",
   "theorems": [
    "Verif.C14_anonymous_caller",
    "Verif.C14_transfer",
    "Verif.C14_transfer_from_partial",
    "Verif.C14_violated"
   ],
   "note": "Full for icrc7_transfer. icrc37_transfer_from only refuses the default account of the anonymous principal (C14_violated)."
  },
  {
   "property": "C15",
   "status": "partial",
   "theorems": [
    "Verif.C15_transfer_from_partial",
    "Verif.C15_transfer_partial",
    "Verif.C15_violated"
   ],
   "note": "Full for icrc37_transfer_from: all approvals of the token are gone and none returns without a new grant. For icrc7_transfer only spenders approved before the sale stay authorised (C15_transfer_partial), and they do (C15_violated: the old owner's spender takes the token from the buyer)."
  },
  {
   "property": "C16",
   "status": "proved",
   "theorems": [
    "Verif.C16_expired_never_authorise",
    "Verif.C16_expired_dropped"
   ],
   "note": ""
  },
  {
   "property": "C17",
   "status": "proved",
   "theorems": [
    "Verif.C17_revoked",
    "Verif.C17_revoked_cannot_move"
   ],
   "note": ""
  },
  {
   "property": "C18",
   "status": "proved",
   "theorems": [
    "Verif.C18_granted_by_owner",
    "Verif.C18_removed_by_owner"
   ],
   "note": "Both directions: who can add a token approval and what can remove one."
  },
  {
   "property": "C19",
   "status": "proved",
   "theorems": [
    "Verif.C19_granted_by_holder",
    "Verif.C19_removed"
   ],
   "note": ""
  },
  {
   "property": "C20",
   "status": "proved",
   "theorems": [
    "Verif.C20_token",
    "Verif.C20_collection"
   ],
   "note": "For every reachable state: the limit is positive by installation and no call changes it."
  },
  {
   "property": "C21",
   "status": "partial",
   "theorems": [
    "Verif.C21_unrelated_partial",
    "Verif.C21_violated"
   ],
   "note": "Token approvals of other tokens and collection approvals of other accounts are untouched. All collection approvals of the account `from` are wiped (C21_violated)."
  },
  {
   "property": "C22",
   "status": "partial",
   "theorems": [
    "Verif.C22_is_approved_partial",
    "Verif.C22_confirmed_partial",
    "Verif.C22_complete_partial",
    "Verif.C22_batch",
    "Verif.C22_violated_denied",
    "Verif.C22_violated_confirmed",
    "Verif.C22_violated_burned"
   ],
   "note": "Agreement proved when no collection approval is involved and from_subaccount is the spender's; C22_confirmed_partial says what a true answer means in every state, C22_complete_partial who is confirmed. False in both directions otherwise (C22_violated_denied, C22_violated_confirmed, C22_violated_burned)."
  },
  {
   "property": "C23",
   "status": "proved",
   "theorems": [
    "Verif.C23_transfer",
    "Verif.C23_transfer_outside",
    "Verif.C23_unrepresentable",
    "Verif.C23_approve_unrepresentable",
    "Verif.C23_approve_tokens",
    "Verif.C23_approve_collection",
    "Verif.C23_revoke_tokens",
    "Verif.C23_revoke_collection",
    "Verif.C23_transfer_from"
   ],
   "note": "icrc7_transfer both ways, with the error answered; ICRC-37 methods: acceptance only inside their window. All under no-wrap conditions; C23_unrepresentable: a window or drift of 2^64 or more lets no icrc7_transfer through (the call traps)."
  },
  {
   "property": "C24",
   "status": "proved",
   "theorems": [
    "Verif.C24_at_most_five",
    "Verif.C24_limiter",
    "Verif.C24_refused_only_after_five",
    "Verif.C24_refused",
    "Verif.C24_remembered",
    "Verif.C24_quiet_token_moves"
   ],
   "note": "For every history with non-decreasing call times: at most five accepted calls per token in any [t, t+60ms). Refusals only after five admitted calls (limiter level)."
  },
  {
   "property": "C25",
   "status": "proved",
   "theorems": [
    "Verif.C25_transfer_singles",
    "Verif.C25_transfer_oversized",
    "Verif.C25_transfer_empty",
    "Verif.C25_transfer_from_singles",
    "Verif.C25_approve_tokens_singles",
    "Verif.C25_approve_collection_singles",
    "Verif.C25_revoke_tokens_each",
    "Verif.C25_revoke_collection_singles",
    "Verif.C25_empty_revoke_violated"
   ],
   "note": "Order, limit and replies proved for all batch methods (revocations: limits below 2^32; token revocations up to the memory of the rate limiter, which a whole batch is charged to once); the empty-batch clause holds for icrc7_transfer and fails (traps) for icrc37_revoke_token_approvals (C25_empty_revoke_violated)."
  },
  {
   "property": "C26",
   "status": "partial",
   "theorems": [
    "Verif.C26_atomic_partial",
    "Verif.C26_flag_ignored",
    "Verif.C26_violated"
   ],
   "note": "False as stated (C26_violated); proved for every batch whose replies do not mix successes and errors (one item, over the limit, trapping and so on). C26_flag_ignored: within the limit the setting makes no difference to any batch in any state."
  },
  {
   "property": "C27",
   "status": "proved",
   "theorems": [
    "Verif.C27_tokens_page",
    "Verif.C27_tokens_of_page",
    "Verif.C27_tokens_complete",
    "Verif.C27_tokens_of_complete",
    "Verif.C27_tokens_crawl",
    "Verif.C27_tokens_of_crawl"
   ],
   "note": "The crawls take page sizes from one up to the configured maximum; a larger one is refused (C28). Completeness of a single page is for sizes below 2^32, the width of usize in the canister."
  },
  {
   "property": "C28",
   "status": "partial",
   "theorems": [
    "Verif.C28_owner_of_partial",
    "Verif.C28_balance_of_partial",
    "Verif.C28_token_metadata_partial",
    "Verif.C28_violated_wide",
    "Verif.C28_take"
   ],
   "note": "For configured limits below 2^32. Larger ones are replaced by the default of 100 (C28_violated_wide)."
  },
  {
   "property": "C29",
   "status": "proved",
   "theorems": [
    "Verif.C29_rejected",
    "Verif.C29_suspended",
    "Verif.C29_resume"
   ],
   "note": "Per method, for every state; suspended calls are traced back to an authorised caller in the history; a resumed call touches only uploads, storage canisters and redirections."
  },
  {
   "property": "C30",
   "status": "proved",
   "theorems": [
    "Verif.C30_gained",
    "Verif.C30_lost",
    "Verif.C30_history"
   ],
   "note": "For every message of every kind, and over histories."
  },
  {
   "property": "C31",
   "status": "proved",
   "theorems": [
    "Verif.C31_revoked",
    "Verif.C31_granted",
    "Verif.C31_accepted"
   ],
   "note": "For every permission table; acceptance shown when no management call is in progress."
  },
  {
   "property": "C32",
   "status": "partial",
   "theorems": [
    "Verif.C32_one",
    "Verif.C32_excluded",
    "Verif.C32_released",
    "Verif.C32_admitted_partial",
    "Verif.C32_stuck_after_upgrade",
    "Verif.C32_violated"
   ],
   "note": "Exclusion and release hold for every reachable state and outcome. After an upgrade during a suspension the guard stays taken for ever (C32_violated), so admission is proved for histories without such an upgrade."
  },
  {
   "property": "C33",
   "status": "proved",
   "theorems": [
    "Verif.C33_transition",
    "Verif.C33_finalized_forever",
    "Verif.C33_placement_stays",
    "Verif.C33_paths_differ",
    "Verif.C33_refused",
    "Verif.C33_proceeds"
   ],
   "note": "Every reachable state, every message; finalized uploads over all continuations; refusals and successful progress."
  },
  {
   "property": "C34",
   "status": "partial",
   "theorems": [
    "Verif.C34_minted",
    "Verif.C34_metadata_partial",
    "Verif.C34_refused_partial",
    "Verif.C34_accepting_ledger_partial",
    "Verif.C34_violated"
   ],
   "note": "Accepted mints create everything, with the metadata requested (C34_metadata_partial; metadata left under an id by a cut mint is shown besides); mints refused by anything but the ledger change nothing. A refusal by the ledger in mid-batch leaves metadata and recorded transactions behind: C34_violated."
  },
  {
   "property": "C35",
   "status": "partial",
   "theorems": [
    "Verif.C35_query",
    "Verif.C35_update",
    "Verif.C35_frame",
    "Verif.C35_refused_partial",
    "Verif.C35_history_partial",
    "Verif.C35_violated_refused",
    "Verif.C35_violated_reused"
   ],
   "note": "Proved for all histories in which the ledger refuses no mint and no update; frame and refusal theorems without that restriction. Violated for refused updates (new metadata stays) and for ids reused after a cut mint (stale metadata): witnesses."
  },
  {
   "property": "C36",
   "status": "proved",
   "theorems": [
    "Verif.C36_encodes",
    "Verif.C36_roundtrip",
    "Verif.C36_from_bytes",
    "Verif.C36_injective",
    "Verif.C36_depth",
    "Verif.C36_row",
    "Verif.C36_reachable"
   ],
   "note": "Byte-level codec, round trip by structural induction; for reachable states every stored row encodes and decodes. Map entries are taken without repeated keys (a BTreeMap cannot repeat them) and encodings shorter than 2^64 bytes."
  },
  {
   "property": "C37",
   "status": "proved",
   "theorems": [
    "Verif.C37_nat",
    "Verif.C37_account",
    "Verif.C37_account_valid",
    "Verif.C37_approval",
    "Verif.C37_approvals",
    "Verif.C37_reachable",
    "Verif.C37_index_key",
    "Verif.C37_index_value",
    "Verif.C37_cache"
   ],
   "note": "Byte-level round trips. Principals of at most 29 bytes, subaccounts of 32, times of 64 bits (all by type in the code). C37_reachable: in every history of typed messages every approval table, written in any order of its entries, is read back with the same approvals."
  },
  {
   "property": "C38",
   "status": "proved",
   "theorems": [
    "Verif.C38_upgrade"
   ],
   "note": "Every modelled query, the redirections and the log, for every reachable state. That the external serializer restores the saved state is assumed. The effect of an upgrade on suspended calls is C32."
  },
  {
   "property": "C39",
   "status": "partial",
   "theorems": [
    "Verif.C39_config_partial",
    "Verif.C39_drift",
    "Verif.C39_violated",
    "Verif.C39_violated_metadata",
    "Verif.C39_permissions",
    "Verif.C39_accepted"
   ],
   "note": "Everything but permitted_drift, which is swapped with max_canister_storage_threshold (C39_violated), and collection_metadata, which is not read (C39_violated_metadata)."
  },
  {
   "property": "C40",
   "status": "partial",
   "theorems": [
    "Verif.C40_exact_partial",
    "Verif.C40_accepted",
    "Verif.C40_metadata_ignored",
    "Verif.C40_violated"
   ],
   "note": "Fourteen of the fifteen fields, and equality of the rest of the state (C40_exact_partial). The fifteenth, collection_metadata, is accepted and ignored (C40_metadata_ignored, C40_violated)."
  },
  {
   "property": "C41",
   "status": "partial",
   "theorems": [
    "Verif.C41_transfer_long",
    "Verif.C41_transfer_short_partial",
    "Verif.C41_mint_long",
    "Verif.C41_mint_short_partial",
    "Verif.C41_violated_wide"
   ],
   "note": "Refusal of long memos for every state. Acceptance of short ones for limits below 2^32; with a larger limit every memo traps (C41_violated_wide)."
  },
  {
   "property": "C42",
   "status": "partial",
   "theorems": [
    "Verif.C42_sound",
    "Verif.C42_range",
    "Verif.C42_type",
    "Verif.C42_token_partial",
    "Verif.C42_account_partial",
    "Verif.C42_exact",
    "Verif.C42_chain_partial",
    "Verif.C42_subaccount",
    "Verif.C42_violated_token",
    "Verif.C42_violated_repeat",
    "Verif.C42_violated_spender"
   ],
   "note": "Soundness, number ranges and block types in full, for every history including dishonest answers; accounts and tokens when the blocks naming the key satisfy PlainParties/PlainToken; C42_exact says, without condition, what the entry of any key is. The full statement is false: 37xfer blocks are not listed under their token, an account named twice is listed twice, the spender of a collection approval is not listed (C42_violated_*)."
  },
  {
   "property": "C43",
   "status": "partial",
   "theorems": [
    "Verif.C43_once_partial",
    "Verif.C43_status",
    "Verif.C43_genuine",
    "Verif.C43_progress",
    "Verif.C43_stuck",
    "Verif.C43_violated_overlap"
   ],
   "note": "Full for all honest histories in which the job does not overlap with itself (failures, upgrades, growing chain allowed). False for overlapping runs (C43_violated_overlap). C43_stuck: a block of unknown type stops the index for good."
  },
  {
   "property": "C44",
   "status": "partial",
   "theorems": [
    "Verif.C44_filtered_partial",
    "Verif.C44_pages",
    "Verif.C44_total",
    "Verif.C44_violated_start",
    "Verif.C44_violated_order",
    "Verif.C44_violated_trap",
    "Verif.C44_violated_truncated",
    "Verif.C44_violated_repeat"
   ],
   "note": "Intersection, paging and order within a page for every honest history and start + length < 2^32. False beyond: wrap-around traps, lengths of 2^32 are cut to zero, descending pages are not in order across pages, unfiltered descending queries ignore start, repeated entries are returned twice (C44_violated_*)."
  },
  {
   "property": "C45",
   "status": "partial",
   "theorems": [
    "Verif.C45_range_partial",
    "Verif.C45_latest",
    "Verif.C45_violated_wrap",
    "Verif.C45_grouping"
   ],
   "note": "For every honest history, hence every cache content that can arise, every archive split, and a chain growing during the call. Ranges that run to 2^64 or beyond are answered with no block (C45_violated_wrap); C45_range_partial is about all others, C45_latest about every length."
  },
  {
   "property": "C46",
   "status": "partial",
   "theorems": [
    "Verif.C46_names",
    "Verif.C46_distinct",
    "Verif.C46_unsupported",
    "Verif.C46_quotes",
    "Verif.C46_undecodable",
    "Verif.C46_count_partial",
    "Verif.C46_action",
    "Verif.C46_number",
    "Verif.C46_spender",
    "Verif.C46_trap",
    "Verif.C46_violated_empty",
    "Verif.C46_violated_several",
    "Verif.C46_violated_revoke",
    "Verif.C46_violated_none"
   ],
   "note": "Method, action word, metadata and UnsupportedCanisterCall in full, for arbitrary argument decoders; the number of tokens for the four counted methods (C46_number), the first spender for collection approvals (C46_spender). One item and several are told apart for the four counted methods only; the collection methods show the first item (C46_violated_several, C46_violated_revoke), an empty collection approval traps (C46_violated_empty) and an empty batch is described as one item (C46_violated_none)."
  },
  {
   "property": "C47",
   "status": "partial",
   "theorems": [
    "Verif.C47_default_partial",
    "Verif.C47_subaccount_stuck",
    "Verif.C47_violated"
   ],
   "note": "Proved for the default account; approvals granted from a subaccount can never be revoked (C47_subaccount_stuck, C47_violated)."
  },
  {
   "property": "C48",
   "status": "partial",
   "theorems": [
    "Verif.C48_token_pages",
    "Verif.C48_collection_pages",
    "Verif.C48_token_resume_partial",
    "Verif.C48_collection_resume_partial",
    "Verif.C48_token_any_walk_partial",
    "Verif.C48_collection_any_walk_partial",
    "Verif.C48_violated"
   ],
   "note": "Size, soundness and order for every walk; resumption for a fixed walk, or any walks if creation times differ. With equal times and different walks a row can be skipped (C48_violated)."
  },
  {
   "property": "C49",
   "status": "partial",
   "theorems": [
    "Verif.C49_selects",
    "Verif.C49_harmless_partial",
    "Verif.C49_violated_stale",
    "Verif.C49_violated_fresh"
   ],
   "note": "What the job selects is proved exactly; the stated property fails in both directions (C49_violated_stale, C49_violated_fresh)."
  },
  {
   "property": "C50",
   "status": "partial",
   "theorems": [
    "Verif.C50_placement_partial",
    "Verif.C50_installed",
    "Verif.C50_violated_wrap",
    "Verif.C50_threshold_ignored",
    "Verif.C50_violated_threshold"
   ],
   "note": "For every table order and every pattern of answers whose reported sizes leave the 128-bit sum below 2^128 (C50_violated_wrap otherwise). Room is counted against 500 GiB; the setting max_canister_storage_threshold is read by nothing (C50_threshold_ignored, C50_violated_threshold)."
  },
  {
   "property": "C51",
   "status": "partial",
   "theorems": [
    "Verif.C51_redirected_partial",
    "Verif.C51_no_other_redirect",
    "Verif.C51_returned",
    "Verif.C51_violated_reserved",
    "Verif.C51_violated_shared"
   ],
   "note": "Every reachable state; excluded are the paths /logs, /traces, /metrics and two uploads served under one path (C51_violated_reserved, C51_violated_shared)."
  },
  {
   "property": "C52",
   "status": "partial",
   "theorems": [
    "Verif.C52_reassemble_partial",
    "Verif.C52_prefix",
    "Verif.C52_violated_short"
   ],
   "note": "Full statement when every read fills the buffer or reaches the end of the file (and size + chunk size below 2^64). For arbitrary reads: numbering, sizes and a prefix of the file; C52_violated_short shows that a short read loses the end of the file, because the number of reads is fixed beforehand."
  },
  {
   "property": "C53",
   "status": "proved",
   "theorems": [
    "Verif.C53_round_trip",
    "Verif.C53_distinct",
    "Verif.C53_case",
    "Verif.C53_exact",
    "Verif.C53_rejected",
    "Verif.C53_block_type",
    "Verif.C53_block_rejected"
   ],
   "note": "All permissions and all strings; block type names of the indexer too (their lower-casing maps the Kelvin sign to k, as Unicode does)."
  },
  {
   "property": "C54",
   "status": "proved",
   "theorems": [
    "Verif.C54_exact",
    "Verif.C54_created"
   ],
   "note": "Decision theorem against an independent predicate, and every document the client creates is accepted."
  },
  {
   "property": "C55",
   "status": "proved",
   "theorems": [
    "Verif.C55_transfer_succeeds"
   ],
   "note": "Stated for single-item calls, over a ledger that takes the record; SaneLimits: limits of the widths the code converts them to."
  },
  {
   "property": "C56",
   "status": "proved",
   "theorems": [
    "Verif.C56_transfer_from_succeeds"
   ],
   "note": ""
  },
  {
   "property": "C57",
   "status": "proved",
   "theorems": [
    "Verif.C57_approve_succeeds",
    "Verif.C57_approve_collection_succeeds"
   ],
   "note": "Stated for single-item calls, over a ledger that takes the record. Token ids below 2^64 and approval limits below 2^32, the widths the code converts them to (beyond, the call traps, see C89)."
  },
  {
   "property": "C58",
   "status": "partial",
   "theorems": [
    "Verif.C58_rows_show_spender_subaccount",
    "Verif.C58_same_subaccount_partial",
    "Verif.C58_violated"
   ],
   "note": "False in general (C58_violated); holds when granter and spender use the same subaccount."
  },
  {
   "property": "C59",
   "status": "proved",
   "theorems": [
    "Verif.C59_entries",
    "Verif.C59_sorted"
   ],
   "note": "All fourteen keys."
  },
  {
   "property": "C60",
   "status": "proved",
   "theorems": [
    "Verif.C60_accepted"
   ],
   "note": "Equivalence over a ledger that does not refuse. With a memo limit of 2^32 or more any memo traps, see C41_violated_wide."
  },
  {
   "property": "C61",
   "status": "proved",
   "theorems": [
    "Verif.C61_recorded"
   ],
   "note": "The recorded transaction is given field by field."
  },
  {
   "property": "C62",
   "status": "partial",
   "theorems": [
    "Verif.C62_entry_partial",
    "Verif.C62_order",
    "Verif.C62_violated_colon",
    "Verif.C62_violated_dropped",
    "Verif.C62_entries_partial"
   ],
   "note": "Proved for entries with exactly one colon, for every value (C62_entries_partial: numbers with sign or leading zeros, integers, text). Values containing a colon are cut (C62_violated_colon) and entries without one are dropped silently (C62_violated_dropped)."
  },
  {
   "property": "C63",
   "status": "partial",
   "theorems": [
    "Verif.C63_approve_tokens",
    "Verif.C63_approve_collection",
    "Verif.C63_revoke_tokens",
    "Verif.C63_revoke_tokens_call",
    "Verif.C63_revoke_collection",
    "Verif.C63_transfer_from_partial",
    "Verif.C63_transfer_partial",
    "Verif.C63_violated",
    "Verif.C63_duplicate_violated",
    "Verif.C63_mint",
    "Verif.C63_update_nft_metadata",
    "Verif.C63_burn"
   ],
   "note": "Every error value of nine methods is tied to what it says (Spec/Errors). Fails for two replies: icrc7_transfer answers InvalidRecipient to a caller who is not the owner (C63_violated), and icrc37_transfer_from answers Duplicate with the constant index 2 (C63_duplicate_violated); mint's supply cap error also stands for a batch that is too long. Those readings are spelled out in the specification."
  },
  {
   "property": "C64",
   "status": "proved",
   "theorems": [
    "Verif.C64_transfer_from",
    "Verif.C64_approve_tokens",
    "Verif.C64_approve_collection",
    "Verif.C64_revoke_tokens",
    "Verif.C64_revoke_collection",
    "Verif.C64_transfer",
    "Verif.C64_transfer_batch",
    "Verif.C64_transfer_refused",
    "Verif.C64_burn",
    "Verif.C64_index",
    "Verif.C64_no_other"
   ],
   "note": "The log after each batch is the old log followed by the records of the accepted items, field by field (Spec/Errors). icrc7_transfer is stated per item (C64_transfer) and per batch (C64_transfer_batch). Mint and update records are in C03/C12 and C61."
  },
  {
   "property": "C65",
   "status": "partial",
   "theorems": [
    "Verif.C65_approve_tokens_partial",
    "Verif.C65_approve_collection_partial",
    "Verif.C65_approve_tokens_batch_partial",
    "Verif.C65_approve_collection_batch_partial",
    "Verif.C65_revoke_tokens",
    "Verif.C65_revoke_collection",
    "Verif.C65_violated"
   ],
   "note": "Both tables are determined exactly after each accepted item, and after whole batches of approvals and of revocations. The full property fails for the creation time: the call's time is stored instead of the one given (C65_violated)."
  },
  {
   "property": "C66",
   "status": "proved",
   "theorems": [
    "Verif.C66_revoke_succeeds",
    "Verif.C66_revoke_collection_succeeds"
   ],
   "note": "Stated for single-item calls by the owner below the rate limit and over a ledger that takes the record. Collection approvals of subaccounts cannot be revoked at all, see C47."
  },
  {
   "property": "C67",
   "status": "proved",
   "theorems": [
    "Verif.C67_refused",
    "Verif.C67_upload_status",
    "Verif.C67_permissions",
    "Verif.C67_storage",
    "Verif.C67_uploads_true",
    "Verif.C67_uploads_default",
    "Verif.C67_uploads_pages"
   ],
   "note": "Hash-map orders are arbitrary permutations; pages are complete if the order stays the same between calls."
  },
  {
   "property": "C68",
   "status": "proved",
   "theorems": [
    "Verif.C68_storage_refuses",
    "Verif.C68_storage_accepts",
    "Verif.C68_init_proceeds"
   ],
   "note": "The error values passed on unchanged are listed in Spec.passedOn; the others become StorageCanisterError."
  },
  {
   "property": "C69",
   "status": "partial",
   "theorems": [
    "Verif.C69_redirects",
    "Verif.C69_metrics_partial",
    "Verif.C69_violated_logs",
    "Verif.C69_violated_upgrade"
   ],
   "note": "Holds for media redirections always and for /metrics until the first upgrade. C69_violated_logs: /logs and /traces are answered with the witness of another path. C69_violated_upgrade: after an upgrade nothing certifies the pages again. The certified data are assumed to survive upgrades and the root hash to stand for the contents of the tree."
  },
  {
   "property": "C70",
   "status": "partial",
   "theorems": [
    "Verif.C70_methods_partial",
    "Verif.C70_violated",
    "Verif.C70_other_pages"
   ],
   "note": "The two guarded methods and the other pages do not depend on the permission table for strangers; C70_violated: the public metrics page lists every principal with its permissions."
  },
  {
   "property": "C71",
   "status": "partial",
   "theorems": [
    "Verif.C71_installed",
    "Verif.C71_unchanged_partial",
    "Verif.C71_violated_granted",
    "Verif.C71_violated_revoked",
    "Verif.C71_violated_test_mode"
   ],
   "note": "The list is the one computed at installation; C71_violated_granted, C71_violated_revoked and C71_violated_test_mode show that it does not follow later grants and revocations and is not what test mode installs for."
  },
  {
   "property": "C72",
   "status": "proved",
   "theorems": [
    "Verif.C72_announced",
    "Verif.C72_progress"
   ],
   "note": "bity_ic_icrc3, which turns transactions into blocks, is not in the repository: Spec.Publishes states what is assumed of the blocks (type, and the fields of the transaction under tx)."
  },
  {
   "property": "C73",
   "status": "partial",
   "theorems": [
    "Verif.C73_account_partial",
    "Verif.C73_token_partial",
    "Verif.C73_type",
    "Verif.C73_owner",
    "Verif.C73_violated"
   ],
   "note": "Accounts and tokens up to the exceptions in the statements; C73_violated: a record of transfer_from is not found under its token. Collection approvals are not found under the spender, and subaccounts are shown under their owner."
  },
  {
   "property": "C74",
   "status": "partial",
   "theorems": [
    "Verif.C74_document_partial",
    "Verif.C74_required",
    "Verif.C74_violated_colon",
    "Verif.C74_violated_dropped",
    "Verif.C74_violated_null"
   ],
   "note": "Arguments whose parts contain no colon and whose values are not words for infinity or NaN; C74_violated_colon (an address as value is cut), C74_violated_dropped (an argument without colon is ignored), C74_violated_null (inf becomes null). The printing of doubles is a parameter."
  },
  {
   "property": "C75",
   "status": "partial",
   "theorems": [
    "Verif.C75_answered_partial",
    "Verif.C75_finalized",
    "Verif.C75_completes",
    "Verif.C75_violated_refused",
    "Verif.C75_violated_empty",
    "Verif.C75_no_overwrite",
    "Verif.C75_served_partial"
   ],
   "note": "C75_finalized: success means the collection has the upload finalised; C75_served_partial: the address reported leads to its storage canister for good (up to the exceptions of C51); C75_no_overwrite: a finished file is never replaced; C75_completes: the command succeeds when nothing interferes. C75_violated_refused: refusals of the announcement and of chunks are never read; C75_violated_empty: an empty file cannot be uploaded. SHA-256 and Url::parse are parameters."
  },
  {
   "property": "C76",
   "status": "partial",
   "theorems": [
    "Verif.C76_document_partial",
    "Verif.C76_entries",
    "Verif.C76_unreadable",
    "Verif.C76_required",
    "Verif.C76_violated_end"
   ],
   "note": "Documents up to the exceptions of C74 about numbers; entries exactly, unreadable values refused. Answers may be surrounded by white space (Unicode, Spec.Typed), spelled in any case and repeated until understood. C76_violated_end: at the end of the input the yes/no question is repeated forever."
  },
  {
   "property": "C77",
   "status": "partial",
   "theorems": [
    "Verif.C77_request_partial",
    "Verif.C77_refused",
    "Verif.C77_violated_name",
    "Verif.C77_violated_ignored"
   ],
   "note": "Owner, subaccount, memo and metadata; C77_violated_name: the required --name is ignored; C77_violated_ignored: --metadata together with --icrc97_url or --interactive is ignored. Principal::from_text is a parameter."
  },
  {
   "property": "C78",
   "status": "proved",
   "theorems": [
    "Verif.C78_refused",
    "Verif.C78_history",
    "Verif.C78_invisible"
   ],
   "note": "All methods and all histories of strangers' calls. The rate limiter's table, which no query shows, is the only thing that changes; its effect on others is C80."
  },
  {
   "property": "C79",
   "status": "partial",
   "theorems": [
    "Verif.C79_frozen",
    "Verif.C79_kept_partial",
    "Verif.C79_violated",
    "Verif.C79_unmanaged_install"
   ],
   "note": "C79_kept_partial: administrability is lost only by revoking the permission from its last holder; C79_frozen: once lost, no permission ever changes again. C79_violated: the last authority may revoke itself and is told Ok; C79_unmanaged_install: an installation without permissions is accepted."
  },
  {
   "property": "C80",
   "status": "partial",
   "theorems": [
    "Verif.C80_holder_moves_partial",
    "Verif.C80_violated",
    "Verif.C80_collection_violated",
    "Verif.C80_growth_violated"
   ],
   "note": "C80_holder_moves_partial: strangers hold up a transfer only by naming that very token five times in 60 ms. C80_violated: one refused message does that on every collection; C80_collection_violated: one refused message blocks everybody's collection approvals and revocations; C80_growth_violated: the limiter keeps an entry for any id anybody names."
  },
  {
   "property": "C81",
   "status": "partial",
   "theorems": [
    "Verif.C81_minted_partial",
    "Verif.C81_failed",
    "Verif.C81_succeeds",
    "Verif.C81_violated_lost"
   ],
   "note": "C81_minted_partial assumes that the ledger refused no earlier mint or metadata update (else C35_violated_reused); C81_failed, C81_succeeds in full. C81_violated_lost: if the reply is lost, the error is reported although the token was minted, and running the command again mints a second one."
  },
  {
   "property": "C82",
   "status": "partial",
   "theorems": [
    "Verif.C82_grant",
    "Verif.C82_revoke",
    "Verif.C82_accepted",
    "Verif.C82_list_partial",
    "Verif.C82_has",
    "Verif.C82_violated_unknown"
   ],
   "note": "C82_grant, C82_revoke, C82_accepted, C82_has in full; C82_list_partial for principals the collection has an entry for (and the exact shape of the output); C82_violated_unknown: for others list reports an error instead of no permissions."
  },
  {
   "property": "C83",
   "status": "partial",
   "theorems": [
    "Verif.C83_published_partial"
   ],
   "note": "C83_published_partial excludes that somebody finishes an upload to the same path without its slash (C51_violated_*). What the storage canister holds is outside the model; SHA-256, serde_json and Url::parse are parameters."
  },
  {
   "property": "C84",
   "status": "proved",
   "theorems": [
    "Verif.C84_standards",
    "Verif.C84_block_types"
   ],
   "note": "The announced lists are constants of the code; that no record of any history has another type is C72_announced, that each type occurs is witnessed."
  },
  {
   "property": "C85",
   "status": "proved",
   "theorems": [
    "Verif.C85_reason",
    "Verif.C85_faulty"
   ],
   "note": "The texts of the messages are part of the specification (Spec.MetadataFault); C54 says that exactly the well-formed documents are accepted."
  },
  {
   "property": "C86",
   "status": "partial",
   "theorems": [
    "Verif.C86_violated_exclusive",
    "Verif.C86_violated_pages",
    "Verif.C86_violated_tip",
    "Verif.C86_tip_partial",
    "Verif.C86_redirects_partial"
   ],
   "note": "When the library stores the root of its tree is left open (an event that may happen at any time). C86_violated_exclusive: the two never verify together; C86_violated_pages, C86_violated_tip: each write spoils the other until the next write of the same kind. Partial theorems: redirections verify as long as the library writes nothing; a certified tip verifies until the next block or finalized upload."
  },
  {
   "property": "C87",
   "status": "proved",
   "theorems": [
    "Verif.C87_forwarded",
    "Verif.C87_placed",
    "Verif.C87_room",
    "Verif.C87_file"
   ],
   "note": "The model is refined to single attempts of single requests (Model/Traffic); every summary used elsewhere comes from such attempts (answer_onto). retry_async is an external function, taken to repeat until answered and at most the given number of times. C87_file assumes that nobody asks to cancel the upload meanwhile and that a new canister has a new name; C87_room that reported sizes are below 2^127."
  },
  {
   "property": "C88",
   "status": "proved",
   "theorems": [
    "Verif.C88_logged",
    "Verif.C88_held",
    "Verif.C88_unique",
    "Verif.C88_movers",
    "Verif.C88_clock",
    "Verif.C88_standard_rules_differ"
   ],
   "note": "The rules are those the code follows. C88_standard_rules_differ proves that reading the log by the rules of ICRC-37 gives wrong answers both ways (causes: C15, C21). C88_clock shows why the time bound is needed."
  },
  {
   "property": "C89",
   "status": "proved",
   "theorems": [
    "Verif.C89_traps_only",
    "Verif.C89_transfer_iff",
    "Verif.C89_revoke_iff",
    "Verif.C89_mint_iff",
    "Verif.C89_update_iff"
   ],
   "note": "C89_traps_only is the list, the _iff theorems the exact conditions. Queries are not part of the claim (C28). Out-of-memory and instruction-limit traps are not modelled."
  },
  {
   "property": "C90",
   "status": "partial",
   "theorems": [
    "Verif.C90_untouched",
    "Verif.C90_same_answer_partial",
    "Verif.C90_spender_partial",
    "Verif.C90_burn_partial",
    "Verif.C90_violated_transfer_from",
    "Verif.C90_violated_burn"
   ],
   "note": "Owner, approvals and rate limit: in full (C90_untouched). Answers: in full for transfers and token approvals and revocations, over whole interleaved histories (C90_same_answer_partial); for icrc37_transfer_from only if the other messages leave collection approvals alone, and for burn_nft only if no management call is under way, both limits being real (C90_violated_transfer_from, C90_violated_burn)."
  },
  {
   "property": "C91",
   "status": "partial",
   "theorems": [
    "Verif.C91_versions_partial",
    "Verif.C91_fresh",
    "Verif.C91_last_partial",
    "Verif.C91_violated_refused",
    "Verif.C91_violated_mint"
   ],
   "note": "C91_versions_partial and C91_last_partial for histories in which the ledger refuses no update of the token; otherwise the chain breaks (C91_violated_refused). Mint records carry no metadata (C91_violated_mint), so the log alone gives the original metadata only of tokens that were updated."
  },
  {
   "property": "C92",
   "status": "proved",
   "theorems": [
    "Verif.C92_call",
    "Verif.C92_other",
    "Verif.C92_history",
    "Verif.C92_seen",
    "Verif.C92_observer"
   ],
   "note": "C92_call and C92_history: every message of every history is simulated by the small ledger of Spec/Book.lean, tied to its reply item by item. An archive that recognises repeated transfers may answer one with the number of the first; then nothing is done (the rule `repeated`). C92_observer is for archives that repeat nothing."
  },
  {
   "property": "C93",
   "status": "partial",
   "theorems": [
    "Verif.C93_when",
    "Verif.C93_wait_partial",
    "Verif.C93_violated_unit"
   ],
   "note": "Proved with the announced number read as nanoseconds (C93_wait_partial); the text says milliseconds, so callers are told to wait a million times too long (C93_violated_unit). Times at which calls are executed do not decrease, as on the Internet Computer."
  },
  {
   "property": "C94",
   "status": "partial",
   "theorems": [
    "Verif.C94_clean_partial",
    "Verif.C94_violated",
    "Verif.C94_violated_forever"
   ],
   "note": "The clean-up never drops anything: the walk's shared borrow of the cache is still alive when the first block is to be removed, so `borrow_mut` panics and the message is undone (C94_violated, for every state with a block to drop; C94_violated_forever: a cached block stays cached for ever). What holds is C94_clean_partial."
  },
  {
   "property": "C95",
   "status": "proved",
   "theorems": [
    "Verif.C95_ascending",
    "Verif.C95_content",
    "Verif.C95_updates",
    "Verif.C95_recorded"
   ],
   "note": "Maps nested inside a value are taken as they are given; candid decoding has put them in order before the code runs."
  },
  {
   "property": "C96",
   "status": "proved",
   "theorems": [
    "Verif.C96_eventually",
    "Verif.C96_listed",
    "Verif.C96_numbers",
    "Verif.C96_collection"
   ],
   "note": "That runs go well again and again is a hypothesis; any other run may be lost, as in the example beside the theorem, where every other run is. Without overlap of the job with itself (see C43). The block format of the external ICRC-3 library enters as in C72/C73 (`Source`)."
  },
  {
   "property": "C97",
   "status": "proved",
   "theorems": [
    "Verif.C97_order",
    "Verif.C97_balances"
   ],
   "note": "Calls by spenders are left out: using one approval removes others (C21, C90_violated_transfer_from), so their order matters across tokens."
  },
  {
   "property": "C98",
   "status": "partial",
   "theorems": [
    "Verif.C98_justified_partial",
    "Verif.C98_justified_uncut_partial",
    "Verif.C98_begins",
    "Verif.C98_ends",
    "Verif.C98_times",
    "Verif.C98_violated"
   ],
   "note": "Full for histories in which the ledger cuts no mint short (`C98_justified_uncut_partial`). `C98_violated`: a mint cut short by the ledger leaves records of tokens that were not created, and the next mint records the same ids again; every other record is justified in all histories."
  },
  {
   "property": "C99",
   "status": "partial",
   "theorems": [
    "Verif.C99_log_partial",
    "Verif.C99_transfer_partial",
    "Verif.C99_transfer_from_partial",
    "Verif.C99_approve_partial",
    "Verif.C99_approve_collection_partial",
    "Verif.C99_revoke_partial",
    "Verif.C99_revoke_collection_partial",
    "Verif.C99_transfer_twice_partial",
    "Verif.C99_transfer_from_twice_partial",
    "Verif.C99_approve_twice_partial",
    "Verif.C99_approve_collection_twice_partial",
    "Verif.C99_revoke_twice_partial",
    "Verif.C99_revoke_collection_twice_partial",
    "Verif.C99_configured_partial",
    "Verif.C99_violated_default",
    "Verif.C99_violated_raised",
    "Verif.C99_violated_account"
   ],
   "note": "Full if the window and the permitted drift stay small against the window configured at the installation and, for icrc7_transfer, the token is held by the same account again (`C99_log_partial`, `C99_configured_partial`, and two theorems per method: a request that is in the log already, and two copies of a request with anything in between). The ledger is any ledger that recognises repeated transactions for the time it is told (`Recognises`, the assumption on the external library). `C99_violated_default`: without a configured window the library is told 0 while creation times of up to ten seconds ago are accepted; `C99_violated_raised`: raising the window with `update_collection_metadata` does not reach the library; `C99_violated_account`: `from_subaccount` is not part of the recorded request, so a token that came back to another account of the caller is taken from there."
  },
  {
   "property": "C100",
   "status": "partial",
   "theorems": [
    "Verif.C100_install",
    "Verif.C100_wrong_argument",
    "Verif.C100_history",
    "Verif.C100_announced",
    "Verif.C100_upgrade",
    "Verif.C100_storage_partial",
    "Verif.C100_violated_storage",
    "Verif.C100_index_install",
    "Verif.C100_index_wrong_argument",
    "Verif.C100_index_history"
   ],
   "note": "Arguments, announced version and histories in full for both canisters (C100_install, C100_wrong_argument, C100_history, C100_announced, C100_upgrade, C100_index_*). Storage canisters are installed with the version and commit hash of the installation for ever (C100_violated_storage), so that clause is proved until the first upgrade (C100_storage_partial). The serializer is taken to be lossless, as in C38."
  },
  {
   "property": "C101",
   "status": "partial",
   "theorems": [
    "Verif.C101_acceptable_partial",
    "Verif.C101_violated_logo",
    "Verif.C101_violated_window"
   ],
   "note": "C101_acceptable_partial: approval limits are never zero; the rest as long as the updates give acceptable values. update_collection_metadata checks nothing: C101_violated_logo, C101_violated_window (after which holders' transfers trap)."
  },
  {
   "property": "C102",
   "status": "partial",
   "theorems": [
    "Verif.C102_spares_partial",
    "Verif.C102_named_partial",
    "Verif.C102_violated_transfer",
    "Verif.C102_violated_revoke"
   ],
   "note": "For every message that is not icrc7_transfer or icrc37_revoke_collection_approvals (C102_named_partial), and for all messages with what those two make of it (C102_spares_partial): icrc7_transfer does not read from_subaccount and acts for any account of the caller (C102_violated_transfer), icrc37_revoke_collection_approvals does not read it and acts for the default account (C102_violated_revoke)."
  },
  {
   "property": "C103",
   "status": "partial",
   "theorems": [
    "Verif.C103_memo_partial",
    "Verif.C103_batch_partial",
    "Verif.C103_violated_memo",
    "Verif.C103_violated_batch",
    "Verif.C103_violated_query"
   ],
   "note": "For mint, icrc7_transfer, burn_nft and update_nft_metadata: C103_memo_partial, C103_batch_partial; for the queries of ICRC-7 see C28. The methods of ICRC-37 check none of the three limits: C103_violated_memo, C103_violated_batch, C103_violated_query."
  },
  {
   "property": "C104",
   "status": "partial",
   "theorems": [
    "Verif.C104_same_partial",
    "Verif.C104_violated",
    "Verif.C104_violated_effect"
   ],
   "note": "The same method, the same number of items for the four counted methods (if there are several), the same first spender of a collection approval: C104_same_partial. Tokens, recipients, spenders and owners are put in a list that is dropped before the answer, so they are not shown: C104_violated for every pair of one-item calls, C104_violated_effect for two calls with different effects."
  },
  {
   "property": "C105",
   "status": "proved",
   "theorems": [
    "Verif.C105_kept",
    "Verif.C105_no_approvals",
    "Verif.C105_all_ended"
   ],
   "note": "C105_kept, with its two consequences. An approval on record may be one of the previous owner, since icrc7_transfer keeps it (C15_violated)."
  },
  {
   "property": "C106",
   "status": "proved",
   "theorems": [
    "Verif.Spec.C106_replies",
    "Verif.Spec.C106_installation",
    "Verif.Spec.C106_reachable",
    "Verif.Spec.C106_newcomers",
    "Verif.Spec.C106_queries",
    "Verif.Spec.C106_approvals",
    "Verif.Spec.C106_admin_queries"
   ],
   "note": "C106_replies and C106_installation for every renaming; C106_newcomers for two unknown principals, given a transaction log that does not tell them apart. The ICRC-3 library is renamed along with the people (it is arbitrary in the model); get_all_uploads and the CLI are left out of C106_queries and C106_admin_queries."
  },
  {
   "property": "C107",
   "status": "partial",
   "theorems": [
    "Verif.Spec.C107_same",
    "Verif.Spec.C107_replies_partial",
    "Verif.Spec.C107_reachable",
    "Verif.Spec.C107_answers",
    "Verif.Spec.C107_approvals",
    "Verif.Spec.C107_is_approved_partial",
    "Verif.Spec.C107_violated"
   ],
   "note": "C107_replies_partial: all updates, given a transaction log that does not look at the spelling (icrc-ledger-types compares accounts by effective subaccount, but whether the ICRC-3 library hashes the spelling when it looks for duplicates is outside the model). Token queries and listings: C107_answers, C107_approvals. Missing: icrc37_is_approved compares subaccounts as they are spelled (C107_violated); C107_is_approved_partial for spenders that have not approved themselves."
  },
  {
   "property": "C108",
   "status": "proved",
   "theorems": [
    "Verif.Spec.C108_singles",
    "Verif.Spec.C108_split"
   ],
   "note": "Equivalence with single mints (C108_singles) and splitting (C108_split), for every ledger, with equality of the whole state."
  },
  {
   "property": "C109",
   "status": "proved",
   "theorems": [
    "Verif.Spec.C109_later",
    "Verif.Spec.C109_whole",
    "Verif.Spec.C109_approvals",
    "Verif.Spec.C109_answers",
    "Verif.Spec.C109_cleanup"
   ],
   "note": "Simulation between a history and the moved history, step by step (C109_later), from installation (C109_whole); queries (C109_approvals, C109_answers) and clean-up (C109_cleanup)."
  },
  {
   "property": "C110",
   "status": "proved",
   "theorems": [
    "Verif.Spec.C110_rearranged",
    "Verif.Spec.C110_readings",
    "Verif.Spec.C110_cleanup",
    "Verif.Spec.C110_distinct"
   ],
   "note": "Relational simulation: histories with arbitrary rearrangements before every message (C110_rearranged), all queries (C110_readings), clean-up (C110_cleanup), and existence for every installation (C110_distinct)."
  },
  {
   "property": "C111",
   "status": "proved",
   "theorems": [
    "Verif.Spec.C111_reworded",
    "Verif.Spec.C111_shape",
    "Verif.Spec.C111_installed",
    "Verif.Spec.C111_answers",
    "Verif.Spec.C111_shown"
   ],
   "note": "Simulation under any rewording: replies and states (C111_reworded), histories of the same shape (C111_shape), installation (C111_installed), queries not showing words (C111_answers) and showing them (C111_shown)."
  },
  {
   "property": "C112",
   "status": "proved",
   "theorems": [
    "Verif.Spec.C112_upgrade",
    "Verif.Spec.C112_invisible"
   ],
   "note": "C112_invisible for all placements of upgrades at idle moments, with hash tables rebuilt in any order; C112_upgrade: exactly the waiting calls are lost at other moments (C32 says what that does to the management lock). That the external serializer restores what it saved is assumed."
  },
  {
   "property": "C113",
   "status": "proved",
   "theorems": [
    "Verif.Spec.C113_trades",
    "Verif.Spec.C113_background",
    "Verif.Spec.C113_queries"
   ],
   "note": "C113_background (the background can be left out), C113_trades (two collections agreeing on the floor), C113_queries. Mint, burn and metadata updates are not trades: they need the management lock."
  },
  {
   "property": "C114",
   "status": "proved",
   "theorems": [
    "Verif.Spec.C114_tokens",
    "Verif.Spec.C114_approvals",
    "Verif.Spec.C114_total",
    "Verif.Spec.C114_limiter"
   ],
   "note": "C114_tokens, C114_approvals, C114_total for every reachable state; C114_limiter bounds one token's window (the number of windows is the subject of C80). Token metadata and uploads are written only by authorities (C29) and are not counted."
  },
  {
   "property": "C115",
   "status": "proved",
   "theorems": [
    "Verif.Spec.C115_updates",
    "Verif.Spec.C115_change"
   ],
   "note": "C115_updates for every pair of states and histories; C115_change for one change. About a running collection: at installation the storage threshold takes the place of the permitted drift (section 5 of DESIGN.md)."
  },
  {
   "property": "C116",
   "status": "proved",
   "theorems": [
    "Verif.Spec.C116_moment",
    "Verif.Spec.C116_histories"
   ],
   "note": "C116_moment (one waiting call, any others, any continuation), C116_histories (every history has an equivalent one without overlap). The several requests behind one init_upload are one answer in the model; C87 has them one by one."
  },
  {
   "property": "C117",
   "status": "proved",
   "theorems": [
    "Verif.Spec.C117_message",
    "Verif.Spec.C117_history",
    "Verif.Spec.C117_others"
   ],
   "note": "C117_message and C117_history (more permissions), C117_others (other people)."
  },
  {
   "property": "C118",
   "status": "proved",
   "theorems": [
    "Verif.C118_forgets",
    "Verif.C118_pause",
    "Verif.C118_strangers"
   ],
   "note": "C118_forgets and C118_pause for all states and histories; C118_strangers for calls of strangers interleaved anywhere in a history whose other calls come at non-decreasing times."
  },
  {
   "property": "C119",
   "status": "partial",
   "theorems": [
    "Verif.Spec.C119_roomier_partial",
    "Verif.Spec.C119_violated_batch",
    "Verif.Spec.C119_violated_window"
   ],
   "note": "C119_roomier_partial for limits the code can convert and times that do not wrap at 64 bits. Missing because false: C119_violated_batch (update_collection_metadata accepts a batch limit of 2^32, after which transfers trap), C119_violated_window (it accepts a time window of 2^64-1 ns, after which approvals made at the present moment are too old)."
  },
  {
   "property": "C120",
   "status": "proved",
   "theorems": [
    "Verif.Spec.C120_opens",
    "Verif.Spec.C120_others"
   ],
   "note": "C120_opens: additional or longer approvals change no reply of a history that gives none and whose uses of approvals succeeded. C120_others: the approvals of one principal change nothing for everybody else, failures included. Histories that give approvals are excluded, as an additional approval may fill the limit for further ones."
  },
  {
   "property": "C121",
   "status": "proved",
   "theorems": [
    "Verif.C121_files",
    "Verif.C121_begin"
   ],
   "note": "C121_files: leaving out the upload calls about other files changes no other reply, nor the state of the file, nor how it is served. C121_begin: nor whether an upload of the file can be begun. Where a begun upload is put, and so whether it succeeds, depends on the storage canisters the other uploads have made; an example shows it. Each call is ended before the next one begins; C116 reduces overlapping calls to this case."
  },
  {
   "property": "C122",
   "status": "proved",
   "theorems": [
    "Verif.Spec.C122_replies",
    "Verif.Spec.C122_log",
    "Verif.Spec.C122_queries",
    "Verif.Spec.C122_listed",
    "Verif.Spec.C122_approvals"
   ],
   "note": "C122_replies: the renumbered history gets the renumbered replies and ends in the renumbered state. C122_log: so does the transaction log. C122_queries, C122_listed, C122_approvals: the queries. Number 0 and the numbers not given out yet stay; the numbers given out fit in 64 bits, as the keys of two tables are encoded in 64 bits."
  },
  {
   "property": "C123",
   "status": "partial",
   "theorems": [
    "Verif.C123_grows",
    "Verif.C123_entries_partial",
    "Verif.C123_answers_partial",
    "Verif.C123_violated"
   ],
   "note": "C123_entries_partial: equally far means the same entries, further means more in front. C123_answers_partial: the same answers to get_blocks; without filters for blocks that exist, as otherwise the answer depends on the height of the ledger. C123_grows: entries only grow, in any history at all. Missing: overlapping runs of the update job, for which C123_violated shows two indexes with the same status and different entries."
  },
  {
   "property": "C124",
   "status": "partial",
   "theorems": [
    "Verif.C124_call_partial",
    "Verif.C124_history_partial",
    "Verif.C124_violated_lapsed",
    "Verif.C124_violated_halfway"
   ],
   "note": "C124_call_partial: a refused call changes nothing but the rate limiter. C124_history_partial: striking refused calls changes neither the other answers nor the outcome. Missing: calls given up halfway (StorageCanisterError), for which C124_violated_halfway shows a refused metadata update that is done, and transfer_from by a spender whose approval has run out, for which C124_violated_lapsed shows the approval disappearing from the listing."
  },
  {
   "property": "C125",
   "status": "partial",
   "theorems": [
    "Verif.C125_holdings_partial",
    "Verif.C125_uncut_partial",
    "Verif.C125_next_partial",
    "Verif.C125_movers",
    "Verif.C125_metadata_partial",
    "Verif.C125_violated_cut",
    "Verif.C125_violated_metadata"
   ],
   "note": "C125_holdings_partial: same log and same ids given out, then the same owners and answers about holdings (C125_uncut_partial: from the log alone if no mint was cut short by the ledger). C125_next_partial: the next mint answers with one more than the number of mints on record. C125_movers: the same approvals in force, the same accounts may move the same tokens. C125_metadata_partial: the same metadata for tokens with a recorded update. Missing: mints the ledger cuts short leave records of tokens that do not exist (C125_violated_cut), and the metadata a token was minted with is not in the log (C125_violated_metadata)."
  },
  {
   "property": "C126",
   "status": "partial",
   "theorems": [
    "Verif.C126_transfer_partial",
    "Verif.C126_approval",
    "Verif.C126_collection_partial",
    "Verif.C126_permission",
    "Verif.C126_violated_sub",
    "Verif.C126_violated_repeat"
   ],
   "note": "C126_transfer_partial, C126_approval, C126_collection_partial, C126_permission: the state after the second call has the same owners, movers, permissions and next id as the one before the first. For transfers this is more than the claim, because approvals for a token outlive its transfer (C15_violated). Missing: ledgers that take the transfer back for an earlier one, whose answer is Ok although the token stays (C126_violated_repeat), and approvals of an account other than the default one, which the revocation does not reach although it is answered Ok (C126_violated_sub)."
  }
 ]
}