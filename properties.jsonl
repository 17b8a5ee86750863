{"id": "C01", "title": "Ownership views agree", "statement": "After any history, a token id is listed by icrc7_tokens exactly when icrc7_owner_of answers with an account, and it is listed by icrc7_tokens_of(a) exactly when that account equals a. In particular no id is listed for two different accounts.", "quantifier": "every finite history of calls (all update methods, any callers, any arguments, any ledger answers, any interleaving of suspended calls, upgrades) starting from a freshly installed canister; every token id and account; page sizes of at least one", "why_tests_cant": "The views are computed from different indexes that are updated by separate statements in mint, transfer, transfer_from and burn; a test only sees the histories it runs.", "anchors": ["src/core_nft/src/queries/icrc7.rs: icrc7_tokens, icrc7_tokens_of, icrc7_owner_of", "src/core_nft/src/updates/icrc7.rs: transfer_nft", "src/core_nft/src/updates/icrc37.rs: transfer_from", "src/core_nft/src/updates/management.rs: mint, burn_nft"]}
{"id": "C02", "title": "Balance equals the tokens listed", "statement": "icrc7_balance_of(a) equals the number of token ids icrc7_tokens_of(a) enumerates.", "quantifier": "every finite history of calls (all update methods, any callers, any arguments, any ledger answers, any interleaving of suspended calls, upgrades) starting from a freshly installed canister; every account", "why_tests_cant": "Balance is the length of a per-owner list maintained incrementally, the listing scans the token table; agreement is an invariant over all histories.", "anchors": ["src/core_nft/src/state.rs: tokens_balance_of, tokens_ids_of_account", "src/core_nft/src/updates/management.rs: burn_nft"]}
{"id": "C03", "title": "Supply accounting", "statement": "icrc7_total_supply equals the number of distinct existing token ids; a successful mint of n requests raises it by exactly n, a successful burn lowers it by exactly 1, and no other call changes it.", "quantifier": "every finite history of calls (all update methods, any callers, any arguments, any ledger answers, any interleaving of suspended calls, upgrades) starting from a freshly installed canister", "why_tests_cant": "Needs an invariant over all histories, including failing and trapping calls and batches.", "anchors": ["src/core_nft/src/state.rs: total_supply", "src/core_nft/src/updates/management.rs: mint, burn_nft"]}
{"id": "C04", "title": "Token ids are fresh and never reused", "statement": "A successful mint returns the first of a run of consecutive ids; every id of the run is larger than every id that existed at any earlier time, burned ones included; ids start at 1. A burned id never exists again.", "quantifier": "every finite history of calls (all update methods, any callers, any arguments, any ledger answers, any interleaving of suspended calls, upgrades) starting from a freshly installed canister", "why_tests_cant": "Freshness is relative to the entire past of the canister.", "anchors": ["src/core_nft/src/updates/management.rs: mint", "src/core_nft/src/state.rs: Data::new (last_token_id)"]}
{"id": "C05", "title": "Supply cap is enforced", "statement": "A mint that would bring the number of existing tokens above the cap in force (10 000 if none is configured) is refused without creating any token, and so while the cap is not lowered the total supply never exceeds it.", "quantifier": "every finite history of calls (all update methods, any callers, any arguments, any ledger answers, any interleaving of suspended calls, upgrades) starting from a freshly installed canister; every cap and batch size", "why_tests_cant": "The bound must survive arbitrary mixes of mints, burns and transfers and every batch size.", "anchors": ["src/core_nft/src/updates/management.rs: mint"]}
{"id": "C06", "title": "Only the holder moves a token with icrc7_transfer", "statement": "If an icrc7_transfer call changes the owner of a token, then the caller is the principal of the account that owned it just before that item was executed.", "quantifier": "every reachable state, every batch, every caller, every ledger behaviour", "why_tests_cant": "Quantifies over all callers, states and batch contents, including repeated ids in one batch.", "anchors": ["src/core_nft/src/updates/icrc7.rs: transfer_nft, icrc7_transfer"]}
{"id": "C07", "title": "Delegated transfers need a live authority", "statement": "If icrc37_transfer_from moves a token, then the token was owned by the `from` account named in the request and the calling account (caller, spender_subaccount) was that owner, or held a token approval for that token that had not expired, or held a collection approval of the owner that had not expired.", "quantifier": "every reachable state, caller, batch, ledger behaviour", "why_tests_cant": "Security property over all states of two approval tables with expiry and lazy pruning.", "anchors": ["src/core_nft/src/updates/icrc37.rs: transfer_from"]}
{"id": "C08", "title": "Complete list of ways ownership can change", "statement": "In every single message, if the owner of a token differs before and after, then the message is a mint creating the token by a holder of the Minting permission, an icrc7_transfer or burn by the owner's principal, or an icrc37_transfer_from with a live authority. All other calls, queries, timers, upgrades and failed calls leave owners unchanged.", "quantifier": "every finite history of calls (all update methods, any callers, any arguments, any ledger answers, any interleaving of suspended calls, upgrades) starting from a freshly installed canister; every message after it and every token", "why_tests_cant": "Universally quantified over all messages of the interface and all reachable states.", "anchors": ["src/core_nft/src/updates/icrc7.rs", "src/core_nft/src/updates/icrc37.rs", "src/core_nft/src/updates/management.rs", "src/core_nft/src/guards.rs"]}
{"id": "C09", "title": "Burn is owner-only and final", "statement": "burn_nft removes a token only when the caller is the principal of its owner; after success icrc7_owner_of answers nothing for the id in every later state.", "quantifier": "every finite history of calls (all update methods, any callers, any arguments, any ledger answers, any interleaving of suspended calls, upgrades) starting from a freshly installed canister; every continuation", "why_tests_cant": "Finality ranges over every continuation of the history.", "anchors": ["src/core_nft/src/updates/management.rs: burn_nft"]}
{"id": "C10", "title": "Refused items change nothing", "statement": "An item of icrc7_transfer, icrc37_transfer_from, icrc37_approve_*, icrc37_revoke_* or a burn that is answered with an error changes no owner, no balance, no metadata and records no transaction, and never adds an approval; a refused transfer_from may only drop approvals that have expired.", "quantifier": "every state, item, caller and ledger behaviour", "why_tests_cant": "All error paths, including those after partial checks and lazy pruning, must be covered.", "anchors": ["src/core_nft/src/updates/icrc7.rs: transfer_nft", "src/core_nft/src/updates/icrc37.rs", "src/core_nft/src/updates/management.rs: burn_nft"]}
{"id": "C11", "title": "Successful transfer takes effect and touches only its token", "statement": "When icrc7_transfer or icrc37_transfer_from accepts an item whose transaction the ledger recorded, the token is owned by `to`, the balance of the previous owner drops by one, that of `to` grows by one, and owners of all other tokens and balances of all other accounts are unchanged.", "quantifier": "every state satisfying the reachable-state invariant, every item", "why_tests_cant": "Effect and frame over all states, tokens and accounts.", "anchors": ["src/core_nft/src/updates/icrc7.rs: transfer_nft", "src/core_nft/src/updates/icrc37.rs: transfer_from"]}
{"id": "C12", "title": "The transaction log is append-only and complete", "statement": "No call removes or rewrites a recorded transaction; every change of ownership is accompanied by a recorded transaction naming the token, the old owner and the new owner; replaying the mint, transfer and burn transactions of the log yields exactly the current owners.", "quantifier": "every finite history of calls (all update methods, any callers, any arguments, any ledger answers, any interleaving of suspended calls, upgrades) starting from a freshly installed canister", "why_tests_cant": "Replay equivalence is an induction over all histories, including ledger refusals in the middle of a batch.", "anchors": ["src/core_nft/src/updates/icrc7.rs: transfer_nft", "src/core_nft/src/updates/icrc37.rs: transfer_from", "src/core_nft/src/updates/management.rs: mint, burn_nft"]}
{"id": "C13", "title": "Duplicates do not execute twice", "statement": "When the ledger identifies an icrc7_transfer item as a duplicate, the token is not moved again and the caller gets the index of the original transaction.", "quantifier": "every state, item and ledger behaviour", "why_tests_cant": "Depends on an arbitrary external answer in any state.", "anchors": ["src/core_nft/src/updates/icrc7.rs: transfer_nft"]}
{"id": "C14", "title": "The anonymous identity neither sends nor receives", "statement": "An anonymous caller's icrc7_transfer changes nothing, and no icrc7_transfer or icrc37_transfer_from makes an account of the anonymous principal the owner of a token.", "quantifier": "every state, batch, subaccount", "why_tests_cant": "All subaccounts of the anonymous principal and all batch positions.", "anchors": ["src/core_nft/src/updates/icrc7.rs: icrc7_transfer, transfer_nft", "src/core_nft/src/updates/icrc37.rs: transfer_from"]}
{"id": "C15", "title": "Token approvals end with the ownership they were granted under", "statement": "After a token changes owner, approvals granted for it by the previous owner no longer authorise anybody to move it.", "quantifier": "every finite history of calls (all update methods, any callers, any arguments, any ledger answers, any interleaving of suspended calls, upgrades) starting from a freshly installed canister; every continuation in which the new owner approves nobody", "why_tests_cant": "Ranges over all continuations after the transfer.", "anchors": ["src/core_nft/src/updates/icrc7.rs: transfer_nft", "src/core_nft/src/updates/icrc37.rs: transfer_from, approve_token"]}
{"id": "C16", "title": "Expired approvals never authorise", "statement": "A token or collection approval whose expires_at is not later than the current time never lets its spender move a token, and is dropped when a transfer_from meets it.", "quantifier": "every state, time and approval", "why_tests_cant": "All times and both approval tables, including the boundary expires_at = now.", "anchors": ["src/core_nft/src/updates/icrc37.rs: transfer_from"]}
{"id": "C17", "title": "Revocation takes authority away", "statement": "After the owner's icrc37_revoke_token_approvals for a spender (or for all) succeeds, that spender cannot move the token by icrc37_transfer_from in any later state as long as no new token approval for the pair is granted, the spender does not own the token and no collection approval of the owner names the spender.", "quantifier": "every finite history of calls (all update methods, any callers, any arguments, any ledger answers, any interleaving of suspended calls, upgrades) starting from a freshly installed canister; every continuation", "why_tests_cant": "Every continuation of the history.", "anchors": ["src/core_nft/src/updates/icrc37.rs: revoke_token_approvals, transfer_from"]}
{"id": "C18", "title": "Only the owner grants or revokes token approvals", "statement": "If a call adds, replaces or removes a token approval of an existing token that has not expired, the caller account equals the token's owner, or the call is an accepted icrc37_transfer_from of that token.", "quantifier": "every state and every message", "why_tests_cant": "Universally quantified over messages and states.", "anchors": ["src/core_nft/src/updates/icrc37.rs: approve_token, revoke_token_approvals, transfer_from"]}
{"id": "C19", "title": "Collection approvals are granted only by the holder", "statement": "If a call adds or replaces a collection approval of account a, then the caller is a's principal, and that principal owned at least one token at that moment.", "quantifier": "every state and message", "why_tests_cant": "Universally quantified over messages and states.", "anchors": ["src/core_nft/src/updates/icrc37.rs: approve_collection"]}
{"id": "C20", "title": "Approvals per token and per collection are bounded", "statement": "With a fixed configured maximum m, no token and no account ever has more than m recorded approvals.", "quantifier": "every finite history of calls (all update methods, any callers, any arguments, any ledger answers, any interleaving of suspended calls, upgrades) starting from a freshly installed canister", "why_tests_cant": "Invariant over all histories of approve, revoke, expiry and transfer.", "anchors": ["src/core_nft/src/updates/icrc37.rs: approve_token, approve_collection"]}
{"id": "C21", "title": "A transfer of one token leaves unrelated approvals alone", "statement": "An accepted icrc37_transfer_from of token t does not change token approvals of other tokens, nor collection approvals.", "quantifier": "every state, item", "why_tests_cant": "Frame over all tokens and accounts.", "anchors": ["src/core_nft/src/updates/icrc37.rs: transfer_from"]}
{"id": "C22", "title": "is_approved predicts transfer_from", "statement": "icrc37_is_approved answers true for (spender, from_subaccount, token) exactly when an icrc37_transfer_from by that spender for that token would pass the authorisation check.", "quantifier": "every state, account, token, time", "why_tests_cant": "Equivalence of two independently written predicates over all states.", "anchors": ["src/core_nft/src/queries/icrc37.rs: icrc37_is_approved", "src/core_nft/src/updates/icrc37.rs: transfer_from"]}
{"id": "C23", "title": "Transaction time window", "statement": "An icrc7_transfer item is accepted only if its created_at_time lies in [now - (window + drift), now + drift]; outside it is answered TooOld or CreatedInFuture{now}. An approval, revocation or transfer_from is accepted only if now ≤ created_at_time + window and created_at_time ≤ now + drift.", "quantifier": "all times, windows and drifts representable in 64 bits without wrap-around", "why_tests_cant": "All 64-bit values, both boundaries.", "anchors": ["src/core_nft/src/updates/icrc7.rs: transfer_nft", "src/core_nft/src/updates/icrc37.rs: verify_approval_timing"]}
{"id": "C24", "title": "Rate limit per token", "statement": "For each token, among the calls admitted by the rate limiter, any six spread over at least 60 ms: in no interval shorter than 60 ms are more than five admitted. A call is refused only if five were admitted within the preceding 60 ms.", "quantifier": "every sequence of calls with non-decreasing time", "why_tests_cant": "Sliding-window bound over every sequence of arrival times.", "anchors": ["src/core_nft/src/guards.rs: guard_sliding_window"]}
{"id": "C25", "title": "Batch replies line up with requests and respect the limit", "statement": "icrc7_transfer executes at most the configured maximum of items, in order, and reply i is the outcome of item i; items are executed one after the other, each on the state left by the previous one. An empty batch is answered by an empty reply and changes nothing.", "quantifier": "every batch, configuration and state", "why_tests_cant": "Any batch length and any interaction between items of a batch.", "anchors": ["src/core_nft/src/updates/icrc7.rs: icrc7_transfer", "src/core_nft/src/updates/icrc37.rs: icrc37_transfer_from, icrc37_approve_tokens, icrc37_revoke_token_approvals"]}
{"id": "C26", "title": "Atomic batches are atomic", "statement": "When the collection announces icrc7_atomic_batch_transfers = true, an icrc7_transfer batch either executes every item or changes no owner.", "quantifier": "every state and batch", "why_tests_cant": "Any position of the failing item.", "anchors": ["src/core_nft/src/updates/icrc7.rs: icrc7_transfer", "src/core_nft/src/queries/icrc7.rs: icrc7_atomic_batch_transfers"]}
{"id": "C27", "title": "Pagination enumerates everything exactly once", "statement": "Pages of icrc7_tokens and icrc7_tokens_of are strictly increasing, never exceed the requested or default size, contain only ids above prev; fetching pages with prev = last id of the previous page until an empty page yields every id exactly once in increasing order, for every page size ≥ 1.", "quantifier": "every state, page size and starting point", "why_tests_cant": "Completeness of a resumable scan for every table and page size.", "anchors": ["src/core_nft/src/queries/icrc7.rs: icrc7_tokens, icrc7_tokens_of"]}
{"id": "C28", "title": "Query batch limits", "statement": "icrc7_owner_of, icrc7_balance_of and icrc7_token_metadata answer requests of at most the configured number of items, one answer per item in order, and reject (trap on) longer ones; a take above the configured maximum is rejected.", "quantifier": "every request and configuration", "why_tests_cant": "All lengths and configurations, including the boundary.", "anchors": ["src/core_nft/src/queries/icrc7.rs"]}
{"id": "C29", "title": "Permission checks guard administration", "statement": "mint, update_nft_metadata, update_collection_metadata, grant_permission, revoke_permission and the upload calls have an effect only if the caller holds the specific permission at the time of the call.", "quantifier": "every finite history of calls (all update methods, any callers, any arguments, any ledger answers, any interleaving of suspended calls, upgrades) starting from a freshly installed canister", "why_tests_cant": "All methods, callers and reachable permission tables.", "anchors": ["src/core_nft/src/guards.rs", "src/core_nft/src/updates/management.rs"]}
{"id": "C30", "title": "Permissions change only through authorities", "statement": "A principal's set of permissions changes only in a grant_permission or revoke_permission call by a holder of ManageAuthorities, and exactly by the named permission of the named principal.", "quantifier": "every finite history of calls (all update methods, any callers, any arguments, any ledger answers, any interleaving of suspended calls, upgrades) starting from a freshly installed canister", "why_tests_cant": "Every message of the interface.", "anchors": ["src/core_nft/src/types/permissions.rs", "src/core_nft/src/updates/management.rs: grant_permission, revoke_permission"]}
{"id": "C31", "title": "Revoked permissions are gone", "statement": "After revoke_permission(p, x), p does not hold x however many times it was granted, and all other permissions of all principals are unchanged; after grant_permission(p, x), p holds x.", "quantifier": "every table and history of grants", "why_tests_cant": "Any multiplicity of earlier grants.", "anchors": ["src/core_nft/src/types/permissions.rs"]}
{"id": "C32", "title": "Management calls exclude each other", "statement": "While a management call is suspended waiting for a storage canister, every other management call is refused without effect, and when it finishes, by whatever outcome, the next one is admitted again.", "quantifier": "every finite history of calls (all update methods, any callers, any arguments, any ledger answers, any interleaving of suspended calls, upgrades) starting from a freshly installed canister with suspended calls resumed in any order and any storage-canister answers", "why_tests_cant": "All schedules of suspended calls.", "anchors": ["src/core_nft/src/guards.rs: GuardManagement", "src/core_nft/src/updates/management.rs"]}
{"id": "C33", "title": "Upload life cycle", "statement": "An upload path goes through Init, InProgress, Finalized only in that order; a finalized upload is never changed, restarted, cancelled or written again; store_chunk and finalize are refused unless the upload was initialised / started; two uploads never share a path.", "quantifier": "every finite history of calls (all update methods, any callers, any arguments, any ledger answers, any interleaving of suspended calls, upgrades) starting from a freshly installed canister with all schedules and storage answers", "why_tests_cant": "All schedules of suspended calls and all answers.", "anchors": ["src/core_nft/src/updates/management.rs: init_upload, store_chunk, finalize_upload, cancel_upload", "src/core_nft/src/state.rs: InternalFilestorage"]}
{"id": "C34", "title": "Mint is all-or-nothing", "statement": "A mint call either creates all requested tokens with the requested owners and metadata and records one transaction each, or changes nothing at all.", "quantifier": "every state, request and ledger behaviour", "why_tests_cant": "Any position at which the ledger refuses.", "anchors": ["src/core_nft/src/updates/management.rs: mint"]}
{"id": "C35", "title": "Metadata follows the last accepted write", "statement": "After an accepted mint or update_nft_metadata of token t, icrc7_token_metadata(t) is exactly the supplied key/value map (last value wins for a repeated key) until the next accepted update of t, and a refused update leaves it unchanged; metadata of other tokens never changes.", "quantifier": "every finite history of calls (all update methods, any callers, any arguments, any ledger answers, any interleaving of suspended calls, upgrades) starting from a freshly installed canister; every token", "why_tests_cant": "Frame and persistence over all histories.", "anchors": ["src/core_nft/src/types/nft.rs", "src/core_nft/src/types/metadata.rs", "src/core_nft/src/updates/management.rs: mint, update_nft_metadata"]}
{"id": "C36", "title": "Stored values survive encoding", "statement": "For every metadata value (blob, text, natural, integer, nested arrays and maps) whose numbers fit 64 bits, decoding the stored encoding gives back the value, consuming exactly the bytes written; values outside the range are rejected by a trap, never altered.", "quantifier": "all values of unbounded size and nesting", "why_tests_cant": "Infinite recursive domain.", "anchors": ["src/core_nft/src/types/value_custom.rs", "src/index_icrc7/src/wrapped_values.rs", "src/core_nft/src/types/metadata.rs"]}
{"id": "C37", "title": "Stored keys and approvals survive encoding", "statement": "Encoding then decoding accounts, token ids, approvals, approval tables, index keys/values and cache entries gives back the original.", "quantifier": "all values in range", "why_tests_cant": "Infinite domain.", "anchors": ["src/core_nft/src/types/wrapped_types.rs", "src/core_nft/src/types/icrc37.rs: Approval", "src/index_icrc7/src/index.rs", "src/index_icrc7/src/cache.rs"]}
{"id": "C38", "title": "Upgrades preserve state", "statement": "Upgrading the canister at any point between messages leaves the answers of all ownership, approval, metadata, configuration, permission and upload queries and the transaction log unchanged, and stored media redirections stay in place.", "quantifier": "every finite history of calls (all update methods, any callers, any arguments, any ledger answers, any interleaving of suspended calls, upgrades) starting from a freshly installed canister; an upgrade at any point", "why_tests_cant": "Every reachable state.", "anchors": ["src/core_nft/src/lifecycle/pre_upgrade.rs", "src/core_nft/src/lifecycle/post_upgrade.rs", "src/core_nft/src/memory.rs"]}
{"id": "C39", "title": "Installation arguments are the configuration", "statement": "After installation each configuration query answers the corresponding installation argument (or the documented default), and only the principals granted permissions in the arguments hold permissions.", "quantifier": "every installation argument", "why_tests_cant": "All argument combinations; the constructor takes many same-typed positional arguments.", "anchors": ["src/core_nft/src/lifecycle/init.rs", "src/core_nft/src/state.rs: Data::new", "src/core_nft/src/queries/icrc7.rs"]}
{"id": "C40", "title": "Collection metadata updates change exactly the given fields", "statement": "update_collection_metadata sets each field that is present in the request and leaves every absent one, and nothing else, unchanged.", "quantifier": "every state and request", "why_tests_cant": "All 2^n combinations of present fields.", "anchors": ["src/core_nft/src/updates/management.rs: update_collection_metadata"]}
{"id": "C41", "title": "Memo limit", "statement": "A mint or icrc7_transfer item with a memo longer than the configured maximum (1 000 000 bytes by default) is refused; any shorter memo is never refused for its size.", "quantifier": "every memo and configuration", "why_tests_cant": "All lengths and the boundary.", "anchors": ["src/core_nft/src/utils.rs: check_memo"]}
{"id": "C42", "title": "Index is sound and complete", "statement": "After the indexer has processed blocks 0..n-1, the entry of an account, block type or token id lists exactly the processed blocks involving it, each exactly once, newest first.", "quantifier": "every block sequence", "why_tests_cant": "All sequences of blocks of every type.", "anchors": ["src/index_icrc7/src/index.rs: add_block_to_index", "src/index_icrc7/src/blocks.rs"]}
{"id": "C43", "title": "Indexer processes each block once, in order", "statement": "However often the update job runs, every block is added to the index exactly once and in order, and last_block_id equals the number of blocks added.", "quantifier": "all schedules of the job, including overlapping runs and failures", "why_tests_cant": "All interleavings.", "anchors": ["src/index_icrc7/src/jobs.rs: update_index"]}
{"id": "C44", "title": "Filtered block queries", "statement": "get_blocks with filters returns exactly the blocks present in the entries of all filters; consecutive pages of the result partition it, sorted as requested.", "quantifier": "every index, filter set, start and length", "why_tests_cant": "All filter combinations and pages.", "anchors": ["src/index_icrc7/src/update/get_blocks.rs"]}
{"id": "C45", "title": "Cache and chunking are transparent", "statement": "Fetching blocks through the cache returns the blocks the ledger holds for the requested ids, sorted as requested; grouping ids into ranges loses and invents no id.", "quantifier": "every id list, cache content consistent with the ledger, and archive split", "why_tests_cant": "All id lists and cache states.", "anchors": ["src/index_icrc7/src/blocks.rs: get_all_blocks, group_consecutive_block_ids", "src/index_icrc7/src/cache.rs"]}
{"id": "C46", "title": "Consent messages match the method", "statement": "icrc21_canister_call_consent_message describes exactly the requested method and what it does, distinguishes one item from several, says how many tokens are meant, shows the spender of a collection approval, and answers UnsupportedCanisterCall for any other method.", "quantifier": "every request", "why_tests_cant": "All method names and argument lists.", "anchors": ["src/core_nft/src/queries/icrc21.rs"]}
{"id": "C47", "title": "Collection approvals can be revoked by their granter", "statement": "An account that granted a collection approval can revoke it: after a successful icrc37_revoke_collection_approvals naming the spender, the approval no longer authorises.", "quantifier": "every account incl. subaccounts, every state", "why_tests_cant": "All subaccounts.", "anchors": ["src/core_nft/src/updates/icrc37.rs: revoke_collection_approvals, approve_collection"]}
{"id": "C48", "title": "Approval listings paginate", "statement": "icrc37_get_token_approvals and icrc37_get_collection_approvals return at most the requested number of entries, every one of them recorded for that token/account, newest first, and resuming after the last entry of a page continues the same listing.", "quantifier": "every table, prev and take", "why_tests_cant": "All tables and pages, any hash iteration order.", "anchors": ["src/core_nft/src/queries/icrc37.rs"]}
{"id": "C49", "title": "Stale uploads, and only stale ones, are garbage collected", "statement": "The periodic job cancels uploads that were started more than a day ago and are not finalized, and no other.", "quantifier": "every upload table and time", "why_tests_cant": "All tables and times.", "anchors": ["src/core_nft/src/jobs/upload_garbage_collector.rs"]}
{"id": "C50", "title": "Storage allocation respects capacity", "statement": "A file is placed only in an installed storage canister with enough remaining room for it, the first one that accepts it, and a new canister is created only if none does; files above 2 GiB are refused.", "quantifier": "every list of storage canisters and every pattern of their answers", "why_tests_cant": "All answer patterns of external canisters.", "anchors": ["src/core_nft/src/types/sub_canister.rs: init_upload"]}
{"id": "C51", "title": "Finalized uploads are reachable", "statement": "After finalize_upload succeeds, requests for the returned path are redirected to the storage canister that holds the file.", "quantifier": "every finite history of calls (all update methods, any callers, any arguments, any ledger answers, any interleaving of suspended calls, upgrades) starting from a freshly installed canister", "why_tests_cant": "All histories and paths.", "anchors": ["src/core_nft/src/updates/management.rs: finalize_upload", "src/core_nft/src/types/http.rs"]}
{"id": "C52", "title": "Chunked uploads reassemble", "statement": "The chunks the command-line client sends for a file are numbered 0..k-1 with k = ⌈size/chunk⌉, each at most the chunk size, and their concatenation is the file.", "quantifier": "every file and every chunk size ≥ 1", "why_tests_cant": "All sizes and contents.", "anchors": ["cmdline/src/calls/uploads.rs: upload_file"]}
{"id": "C53", "title": "Client labels round-trip", "statement": "Every permission label the command-line client prints is parsed back to the same permission, parsing ignores letter case, and any other word is rejected; block type names of the indexer round-trip in the same way.", "quantifier": "all permissions, all strings", "why_tests_cant": "All strings.", "anchors": ["cmdline/src/calls/permissions.rs: parse_permission_from_str", "cmdline/src/commands.rs", "src/index_icrc7/src/blocks.rs: BlockType"]}
{"id": "C54", "title": "Metadata documents are validated", "statement": "The client accepts a metadata document exactly when it is an object whose name, description, image and external_url are strings if present, and whose attributes, if present, are an array of objects each with a string trait_type, a value and, if present, a string display_type.", "quantifier": "every JSON document", "why_tests_cant": "Infinite domain.", "anchors": ["cmdline/src/metadata.rs: validate_icrc97_metadata"]}
{"id": "C55", "title": "The holder can send a token", "statement": "If the caller of icrc7_transfer is not anonymous and is the principal of the token's owner, the batch limit is not zero, the recipient is a different account and not of the anonymous principal, memo and creation time are within their limits, fewer than five calls on the token were admitted in the last 60 ms and the ledger accepts the transaction, then the item is answered with the ledger's index and the token belongs to the recipient.", "quantifier": "every reachable state, every item meeting the conditions, every ledger behaviour; limits of the width the code converts them to (sizes below 2^32, sums of times below 2^64)", "why_tests_cant": "Completeness over all states, times and configurations; a test shows one accepted transfer.", "anchors": ["src/core_nft/src/types/nft.rs: transfer", "src/core_nft/src/updates/icrc7.rs: icrc7_transfer, transfer_nft"]}
{"id": "C56", "title": "An authorised spender can move a token", "statement": "If the token belongs to `from`, the calling account is that owner or holds an unexpired token approval or an unexpired collection approval of the owner, the recipient is a different account and not the anonymous one, the creation time is within its window, fewer than five calls on the token were admitted in the last 60 ms and the ledger accepts, then the icrc37_transfer_from item is answered with the ledger's index and the token belongs to the recipient.", "quantifier": "every reachable state, every item meeting the conditions, every ledger behaviour; sums of times below 2^64", "why_tests_cant": "Every combination of approvals, states and ledgers.", "anchors": ["src/core_nft/src/updates/icrc37.rs: icrc37_transfer_from, transfer_from"]}
{"id": "C57", "title": "An owner can approve", "statement": "If the calling account owns the token (for a collection approval: any token), the spender is not the anonymous account, fewer approvals than the limit are recorded, time and rate limits are respected and the ledger accepts, then the approval item is answered with the ledger's index, ownership is unchanged, and until the approval expires the spender may move the token (for a collection approval: every token of that account).", "quantifier": "every state, every item meeting the conditions, every ledger behaviour; sums of times below 2^64", "why_tests_cant": "Every table content, time and ledger.", "anchors": ["src/core_nft/src/updates/icrc37.rs: approve_token, approve_collection"]}
{"id": "C58", "title": "Approval listings name the granting subaccount", "statement": "Every row of icrc37_get_collection_approvals for an account reports that account's subaccount as from_subaccount.", "quantifier": "every reachable state, account, page and hash iteration order", "why_tests_cant": "All accounts, granter/spender subaccount combinations and walks.", "anchors": ["src/core_nft/src/queries/icrc37.rs: icrc37_get_collection_approvals"]}
{"id": "C59", "title": "Collection metadata agrees with the settings", "statement": "icrc7_collection_metadata lists exactly the settings that are set, each once, sorted by key, with the values the single configuration queries answer.", "quantifier": "every state", "why_tests_cant": "All combinations of fourteen optional settings and all their values.", "anchors": ["src/core_nft/src/queries/icrc7.rs: icrc7_collection_metadata"]}
{"id": "C60", "title": "Mints within the limits are accepted", "statement": "A mint is accepted exactly when the caller holds the minting permission, no other management call is running, the batch is within the batch limit and the supply cap, every memo is within the memo limit and every metadata number fits 64 bits (the ledger refusing nothing).", "quantifier": "every state, caller, time and request list, every ledger that refuses nothing; memo limits below 2^32 and ids below 2^64", "why_tests_cant": "An equivalence over all requests and configurations.", "anchors": ["src/core_nft/src/updates/management.rs: mint"]}
{"id": "C61", "title": "Metadata updates are recorded with both versions", "statement": "An accepted update_nft_metadata appends exactly one transaction, naming the token and the caller, with the metadata shown before and the metadata shown after.", "quantifier": "every reachable state, caller, token and metadata list", "why_tests_cant": "All earlier metadata and all new metadata.", "anchors": ["src/core_nft/src/updates/management.rs: update_nft_metadata"]}
{"id": "C62", "title": "Command-line metadata is stored as given", "statement": "An entry KEY:VALUE given to the client's mint command becomes exactly one metadata entry with key KEY and the whole of VALUE, as a number when VALUE is a decimal number in the 64-bit range and as text otherwise; no entry given is lost.", "quantifier": "all entries (all strings), in any number", "why_tests_cant": "All strings, including values that contain the separator.", "anchors": ["cmdline/src/commands.rs: handle_mint"]}
{"id": "C63", "title": "Error replies are true", "statement": "Whatever error an item of a token method or a management call is answered with, what the error says is the case in the state the call met: NonExistingTokenId only for tokens that do not exist, Unauthorized only for callers who are neither owner nor approved, TooOld and CreatedInFuture only for such times, InvalidRecipient only for recipients that cannot receive, ApprovalDoesNotExist only if there is none, Duplicate only with the index of the earlier transaction, and so on for the supply cap, memos and the guards.", "quantifier": "all states, callers, times, arguments and ledgers, every error value", "why_tests_cant": "A test meets one error in one state; here each error value must imply a fact about every state it can be given in.", "anchors": ["src/core_nft/src/updates/icrc7.rs: icrc7_transfer", "src/core_nft/src/updates/icrc37.rs", "src/core_nft/src/updates/management.rs: mint, burn_nft, update_nft_metadata"]}
{"id": "C64", "title": "Records say what was done", "statement": "A call to one of the token methods appends to the transaction log exactly one record per accepted item, in the order of the items, and that record names the token, the accounts, the spender, the memo and the times of the item (an icrc7_transfer item that the ledger knows already is answered with the index of the earlier record and adds none); refused items, queries, administrative calls, answers of other canisters and upgrades record nothing.", "quantifier": "all states, callers, times, batches and ledgers", "why_tests_cant": "A field dropped from one kind of record in one branch, or a record written for a refused item, only shows for the batches that reach that branch.", "anchors": ["src/core_nft/src/updates/icrc37.rs", "src/core_nft/src/updates/icrc7.rs: icrc7_transfer", "src/core_nft/src/updates/management.rs: burn_nft", "src/core_nft/src/types/icrc3.rs"]}
{"id": "C65", "title": "Approvals are stored and removed exactly", "statement": "An accepted approval item stores, for its token (or for the caller's collection) and spender, the approval with the expiry, memo and creation time given, and changes no other approval; accepted revocation items remove exactly the approvals they name, or all of the token's (collection's) approvals if they name none.", "quantifier": "all reachable states, callers, times, arguments, batches and ledgers", "why_tests_cant": "That nothing else changes is a statement about every other token, account and spender.", "anchors": ["src/core_nft/src/updates/icrc37.rs: approve_token, approve_collection, revoke_token_approvals, revoke_collection_approvals"]}
{"id": "C66", "title": "Owners can revoke", "statement": "If the caller's account owns a token and the named spender holds an approval for it (or any approval exists and none is named), a revocation dated within the time window is accepted (the revocation limit not being zero) unless the rate limit or the ledger refuses it, and afterwards the approval is gone; the same holds for collection approvals of the caller's default account.", "quantifier": "all reachable states, owners, tokens, spenders and times", "why_tests_cant": "That no state locks an approval in place is a claim about every reachable combination of tables and counters.", "anchors": ["src/core_nft/src/updates/icrc37.rs: icrc37_revoke_token_approvals, icrc37_revoke_collection_approvals"]}
{"id": "C67", "title": "Administrative queries are guarded and true", "statement": "The queries for upload states, uploads, permissions and storage canisters answer only holders of the respective permission, and what they answer is the current state: every row is true, every path appears once, pages of uploads put together give all uploads, and every canister that holds a file is listed.", "quantifier": "all reachable states, callers, paths, page sizes and hash-map orders", "why_tests_cant": "The listings depend on the iteration order of hash maps and on histories of suspended uploads.", "anchors": ["src/core_nft/src/updates/management.rs: get_upload_status, get_all_uploads, get_user_permissions, has_permission, get_all_storage_subcanisters"]}
{"id": "C68", "title": "Uploads follow the storage canister's answer", "statement": "If a storage canister refuses a chunk or a finalization, the caller is told why and nothing else changes, so that the call can be repeated; if it accepts, the caller is told Ok and only that upload changes. An upload of at most 2 GiB to a free path is taken up, and once a canister takes the file it is listed in its first state.", "quantifier": "all reachable states, suspended calls and answers", "why_tests_cant": "Answers arrive in later messages, between which any other calls may have been handled.", "anchors": ["src/core_nft/src/updates/management.rs: init_upload, store_chunk, finalize_upload", "src/core_nft/src/types/sub_canister.rs"]}
{"id": "C69", "title": "Web answers can be verified", "statement": "A gateway that checks certificates accepts the answer to every request: the page served and the part of the certified tree shown with it belong to the path that was asked for, before and after upgrades.", "quantifier": "all reachable states, all request paths, all histories of uploads and upgrades", "why_tests_cant": "Whether an answer verifies depends on the tree last put into certified data, hence on every redirection added and every upgrade since.", "anchors": ["src/core_nft/src/queries/http_request.rs: http_request", "src/core_nft/src/types/http.rs: certify_all_assets, add_redirection", "src/core_nft/src/lifecycle/init.rs", "src/core_nft/src/lifecycle/post_upgrade.rs"]}
{"id": "C70", "title": "Only authorities can read who holds which permission", "statement": "Which principal holds which permission is shown only to callers with the permission to manage authorities.", "quantifier": "all reachable states, all callers, all methods and pages", "why_tests_cant": "It is a statement about every way to read the state.", "anchors": ["src/core_nft/src/state.rs: metrics", "src/core_nft/src/queries/http_request.rs", "src/core_nft/src/updates/management.rs: get_user_permissions, has_permission"]}
{"id": "C71", "title": "Storage canisters obey the collection and its current authorities", "statement": "A storage canister created by the collection takes orders from the collection itself and from those who may manage its authorities, and from nobody else.", "quantifier": "all installation arguments and all histories of grants and revocations", "why_tests_cant": "The list of authorised principals is computed once and the permissions change afterwards.", "anchors": ["src/core_nft/src/state.rs: Data::new", "src/core_nft/src/types/sub_canister.rs: create_canister(init_args)"]}
{"id": "C72", "title": "No record of the collection stops the index", "statement": "Every record the collection writes has a type it announces and the index supports, so that an index following the collection's ledger gets past every block.", "quantifier": "all reachable states of the collection, all prefixes of its ledger", "why_tests_cant": "One record of an unknown type, at any point of any history, would stop the index for good.", "anchors": ["src/core_nft/src/lifecycle/init.rs: supported_blocks", "src/index_icrc7/src/types/blocks.rs", "src/index_icrc7/src/jobs.rs", "src/core_nft/src/types/transaction.rs"]}
{"id": "C73", "title": "The index answers with the collection's records", "statement": "Asked for an account, a token or a kind of record, an index that has caught up names exactly the collection's records that mention it, each once; in particular the owner of a token finds under their account the record that gave them the token.", "quantifier": "all reachable states of the collection and all runs of the index over its ledger", "why_tests_cant": "It relates two canisters over unbounded histories of both.", "anchors": ["src/index_icrc7/src/types/blocks.rs", "src/index_icrc7/src/queries/get_blocks.rs", "src/core_nft/src/types/transaction.rs"]}
{"id": "C74", "title": "Attributes given on the command line become the document's attributes", "statement": "create-metadata with a name and a description writes a valid document with exactly the fields given and one attribute per --attribute trait:value[:display], in order, numbers as numbers and everything else as the text given.", "quantifier": "all names, descriptions, optional fields and lists of attribute arguments", "why_tests_cant": "Which texts count as numbers and how many colons they contain ranges over all strings.", "anchors": ["cmdline/src/commands.rs: handle_create_metadata", "cmdline/src/metadata.rs: create_icrc97_metadata, validate_icrc97_metadata"]}
{"id": "C75", "title": "The upload command reports success only for a finished upload", "statement": "If the upload command prints an address, the collection accepted the announcement, every chunk and the finalisation, and serves the file at that address; a file of an authorised uploader whose calls are accepted is uploaded completely.", "quantifier": "all files, chunk sizes, read sizes, all behaviours of the network and the storage canisters, all interleavings with other users", "why_tests_cant": "Any of the calls may fail or be refused at any point, while others use the collection.", "anchors": ["cmdline/src/calls/uploads.rs: init, store, finalize, upload_file", "src/core_nft/src/updates/management.rs: init_upload, store_chunk, finalize_upload"]}
{"id": "C76", "title": "The dialogues record what was answered", "statement": "The interactive modes of create-metadata and mint yield exactly the document, respectively the entries, the user typed in, and end when the input ends.", "quantifier": "all documents and entries, all ways to answer the questions", "why_tests_cant": "The dialogues are loops over unboundedly many answers.", "anchors": ["cmdline/src/prompts.rs", "cmdline/src/metadata.rs: create_metadata_interactive, create_metadata_interactive_hashmap"]}
{"id": "C77", "title": "The mint command asks for what was typed", "statement": "The request sent by the mint command names the owner, subaccount, memo, name and metadata given on the command line, and malformed owners and subaccounts are refused.", "quantifier": "all command lines", "why_tests_cant": "Owners, subaccounts, memos and entries range over all strings.", "anchors": ["cmdline/src/commands.rs: handle_mint", "cmdline/src/calls/mint.rs: mint_nft", "cmdline/src/metadata.rs: create_icrc97_metadata_from_url"]}
{"id": "C78", "title": "Principals without standing can change nothing", "statement": "Every call of a principal that owns no token, holds no permission and is nobody's spender is refused in full, and no query of anybody's afterwards answers differently; this holds for any number of such principals calling anything in any order.", "quantifier": "all reachable collections, all such principals (the anonymous one included), all methods, arguments, times and sequences of calls", "why_tests_cant": "Ranges over every method, argument and sequence of calls by unboundedly many principals.", "anchors": ["src/core_nft/src/updates/icrc7.rs", "src/core_nft/src/updates/icrc37.rs", "src/core_nft/src/updates/management.rs", "src/core_nft/src/guards.rs"]}
{"id": "C79", "title": "The collection stays administrable", "statement": "A collection that somebody can administer (grant and revoke permissions) always keeps somebody who can.", "quantifier": "all reachable collections and histories", "why_tests_cant": "Depends on every order of grants and revocations by several authorities, and on what no later history can do.", "anchors": ["src/core_nft/src/updates/management.rs: revoke_permission, grant_permission", "src/core_nft/src/types/permissions.rs"]}
{"id": "C80", "title": "Strangers cannot keep a holder from using a token", "statement": "Whatever principals without standing call, the holder of a token can still transfer it and manage approvals, and the collection's memory does not grow on their account.", "quantifier": "all reachable collections, all calls of strangers, all times", "why_tests_cant": "Denial of service depends on arbitrary hostile traffic and its timing.", "anchors": ["src/core_nft/src/types/sliding_window.rs", "src/core_nft/src/types/icrc7.rs: transfer", "src/core_nft/src/updates/icrc37.rs: approve_token_approvals, approve_collection"]}
{"id": "C81", "title": "The mint command reports what happened", "statement": "If the mint command prints an id, that id is a new token of the account given, with exactly the metadata given and one record with the memo given, and nothing else changed; if it reports an error, nothing was minted; an authorised minter within the limits succeeds.", "quantifier": "all command lines, all histories of the collection before, all losses of replies", "why_tests_cant": "Ranges over all command lines and all states the collection can be in.", "anchors": ["cmdline/src/commands.rs: handle_mint", "cmdline/src/calls/mint.rs: mint_nft", "src/core_nft/src/updates/management.rs: mint"]}
{"id": "C82", "title": "The permission commands do what they say", "statement": "permissions grant and revoke report success only if the named principal then holds, respectively no longer holds, the named permission and no other permission changed; an error means that nothing changed; list prints exactly the permissions held, in words the other commands accept, and has prints the truth.", "quantifier": "all principals, all spellings of permissions, all reachable collections and callers", "why_tests_cant": "Ranges over all texts, permission tables and callers.", "anchors": ["cmdline/src/commands.rs: handle_permissions", "cmdline/src/calls/permissions.rs", "src/core_nft/src/updates/management.rs: grant_permission, revoke_permission, get_user_permissions, has_permission"]}
{"id": "C83", "title": "Published metadata documents stay published", "statement": "If upload-metadata reports an address, the document is valid, the collection has it complete under its hash, and from then on the collection sends whoever asks for the address to one storage canister.", "quantifier": "all documents, chunk sizes, interleavings with other users during the upload, and all histories afterwards", "why_tests_cant": "Must hold for every later history, and whatever other users do during the upload.", "anchors": ["cmdline/src/commands.rs: handle_upload_metadata", "cmdline/src/calls/uploads.rs: upload_file", "src/core_nft/src/updates/management.rs: finalize_upload", "src/core_nft/src/types/http.rs: add_redirection"]}
{"id": "C84", "title": "What is announced is what is done", "statement": "icrc10_supported_standards names exactly ICRC-3, 7, 10, 21 and 37, each once and with an address of that standard; the block types announced are exactly the types of the records that histories of the collection produce.", "quantifier": "all histories", "why_tests_cant": "That no history writes a record of an unannounced type is a statement about all histories.", "anchors": ["src/core_nft/src/queries/icrc10.rs", "src/core_nft/src/lifecycle/init.rs: supported_blocks"]}
{"id": "C85", "title": "The client says what is wrong with a metadata document", "statement": "If the client refuses a metadata document, the message it gives names a fault the document has: it is no object; a text field (name, description, image or external_url, named in the message) is there and no string; the attributes are no array; or the first bad attribute, named by its position counted from 0, is no object, lacks trait_type or value, or has a trait_type or display_type that is no string. A document with such a fault is never accepted.", "quantifier": "every JSON document and every refusal message", "why_tests_cant": "Tests see a few bad documents; that the message is never about a fault the document does not have, and that the position is that of the first bad attribute, concerns all documents.", "anchors": ["cmdline/src/metadata.rs: validate_icrc97_metadata", "cmdline/src/utils.rs: validate_icrc97_metadata"]}
{"id": "C86", "title": "The tip certificate and the web pages can both be verified", "statement": "The certificate for the last block of the transaction log and the certificates of the web pages verify at all times, side by side.", "quantifier": "all histories of messages, interleaved in every way with the moments at which the ICRC-3 library certifies its last block", "why_tests_cant": "A canister has one certified datum; which of its writers came last depends on the whole interleaving of uploads, upgrades and transactions, and a test reads one certificate after one of them.", "anchors": ["src/core_nft/src/types/http.rs: add_redirection, certify_all_assets", "src/core_nft/src/queries/icrc3.rs: icrc3_get_tip_certificate", "src/core_nft/src/lifecycle/init.rs", "src/core_nft/src/lifecycle/post_upgrade.rs"]}
{"id": "C87", "title": "What storage canisters are sent is what the caller sent", "statement": "For every upload call the collection passes on to storage canisters, the requests carry the caller's arguments unchanged. Chunks, finalization and cancellation go to the canister recorded for the path, repeated until answered and at most three times, and the caller is told of success exactly if the answer is a consent. A new upload is sent only to installed canisters that reported room, or to a canister created for it; on success exactly the canister then recorded consented, on error none did. So when the upload command reports an address with all calls accepted, one canister received the initialisation, every chunk of the file in order, and the finalization.", "quantifier": "all histories of messages, every pattern of lost, failed and answered attempts, every table of storage canisters and order of walking it, every file, chunk size and interleaving with other calls", "why_tests_cant": "Tests run against storage canisters that answer; which attempts are lost, which canisters are full, and what other calls come between the chunks range over unbounded patterns.", "anchors": ["src/core_nft/src/types/sub_canister.rs: StorageSubCanisterManager::init_upload, StorageCanister::init_upload, store_chunk, finalize_upload, cancel_upload, get_storage_size", "src/core_nft/src/updates/management.rs: init_upload, store_chunk, finalize_upload, cancel_upload", "cmdline/src/calls/uploads.rs: upload_file"]}
{"id": "C88", "title": "Approvals in force can be read off the transaction log", "statement": "The approvals the collection honours are determined by its transaction log. A token approval of a spender is held, with the same granter, expiry, memo and time, exactly if its record is the last one on that token and spender, counting as later word a new approval of the spender, a revocation that names them or nobody, and an icrc37_transfer_from of the token; approvals already expired at the latest call may be missing. A collection approval is held exactly if its record is the last one on that granter and spender, counting a new approval, a revocation, and any icrc37_transfer_from out of the granter's account. So at any time after the last call, who may move a token is computable from the log and the owner.", "quantifier": "all histories of messages with calls at or before a time T, all tokens, granters, spenders and spellings of accounts", "why_tests_cant": "An auditor replays logs of any length in which grants, replacements, revocations, expiries, transfers and refused calls are interleaved; a test compares one log with one table.", "anchors": ["src/core_nft/src/updates/icrc37.rs: approve_token, approve_collection, revoke_token_approvals, revoke_collection_approvals, transfer_from", "src/core_nft/src/state.rs: approvals, collection_approvals"]}
{"id": "C89", "title": "Calls are answered", "statement": "An update call gets one of its method's answers, an error or a success per item, and not a trap, except under a short list of circumstances: icrc7_transfer under a batch limit of 2^32 or more, with a memo under a memo limit of 2^32 or more, or under a window or drift of 2^64 or more; icrc37_revoke_token_approvals of an empty batch; mint with a memo under a memo limit of 2^32 or more or with a metadata value the store cannot hold; update_nft_metadata with such a value; and token ids beyond 64 bits in mint, update_nft_metadata and icrc37_approve_tokens. icrc37_transfer_from, the collection approval methods, burns, uploads, settings and permission calls are always answered. The circumstances are real: for a single transfer, for token revocations, mints and metadata changes the exact conditions are given.", "quantifier": "all reachable states, all callers, times, update calls and batches", "why_tests_cant": "Absence of a panic is a statement about every input in every reachable state; the panics sit behind conversions that only fail for numbers no test uses.", "anchors": ["src/core_nft/src/updates/icrc7.rs: icrc7_transfer, transfer_nft", "src/core_nft/src/updates/icrc37.rs: approve_token, revoke_token_approvals, icrc37_revoke_token_approvals, transfer_from", "src/core_nft/src/updates/management.rs: mint, update_nft_metadata", "src/core_nft/src/utils.rs: check_memo", "src/core_nft/src/types/wrapped_types.rs", "src/core_nft/src/types/value_custom.rs"]}
{"id": "C90", "title": "Traffic about other tokens makes no difference", "statement": "Messages that neither name a token nor change the settings of the collection, in any number and of any kind, leave an existing token's owner, its approvals and its rate limit as they were, and a call about that token alone is answered after them just as it would have been without them, but for the numbers of the records written.", "quantifier": "all reachable states, all existing tokens, all histories in which calls about the token are scattered among other messages, all callers and times, every archive that takes all records", "why_tests_cant": "Non-interference compares two runs, for every interleaving of unrelated traffic with every call; a test runs one of them.", "anchors": ["src/core_nft/src/updates/icrc7.rs: icrc7_transfer, transfer_nft", "src/core_nft/src/updates/icrc37.rs: approve_token, revoke_token_approvals, transfer_from", "src/core_nft/src/updates/management.rs: burn_nft, mint", "src/core_nft/src/guards.rs: guard_sliding_window, GuardManagement"]}
{"id": "C91", "title": "The log tells a token's metadata versions", "statement": "The recorded metadata updates of a token form an unbroken history: the first begins with what the token was minted with, each begins where the one before ended, and the last ends with what icrc7_token_metadata answers now (or answered last, for a burned token). A token without recorded updates shows what it was minted with. What it was minted with is in the log, too.", "quantifier": "all reachable states, all tokens, all histories of calls from then on", "why_tests_cant": "The chain has to hold across any number of updates interleaved with any other calls; a test checks one update.", "anchors": ["src/core_nft/src/updates/management.rs: mint, update_nft_metadata", "src/core_nft/src/types/nft.rs: replace_metadata"]}
{"id": "C92", "title": "The collection is a small ledger of tokens", "statement": "Seen from outside, a collection is a small ledger that starts empty: who owns what, who was approved for what until when, who holds which permission. Each accepted item of a call performs exactly its operation on that ledger under its conditions (the sender owns the token, the spender is approved, the caller holds the permission), each refused item none — a refused icrc37_transfer_from may at most forget approvals that have ended — and nothing else ever changes it: not upgrades, not uploads, metadata or settings, not the later parts of calls. So whoever saw all calls and replies knows the owners, the permissions and who may move what, whatever the settings, the archive and the rest of the canister's state.", "quantifier": "all histories of messages from installation on, all archives; for the observer: all pairs of collections with the same initial permissions that gave the same replies, archives that repeat nothing", "why_tests_cant": "A refinement of the whole canister by a small machine over all histories and interleavings; tests compare single states.", "anchors": ["src/core_nft/src/updates/icrc7.rs: icrc7_transfer", "src/core_nft/src/updates/icrc37.rs", "src/core_nft/src/updates/management.rs: mint, burn_nft, grant_permission, revoke_permission", "src/core_nft/src/lifecycle"]}
{"id": "C93", "title": "A rate-limited caller is told when to try again", "statement": "When a call about a token is refused because the token was called for too often, the refusal says in how many milliseconds another call can be made: whatever anybody calls until then, a call about the token is refused at every moment before that and admitted from then on.", "quantifier": "all histories from installation on whose calls come at non-decreasing times, all tokens, all times, all calls made in the meantime", "why_tests_cant": "The claim is about all interleavings of calls between the refusal and the announced time; a test waits once.", "anchors": ["src/core_nft/src/guards.rs: guard_sliding_window"]}
{"id": "C94", "title": "The index's cache is cleaned daily", "statement": "The index canister's daily clean-up drops the cached blocks stored before it and nothing else: afterwards no older block is cached, blocks stored since are, and the index, its progress and running calls are untouched.", "quantifier": "all states of the index canister, all times, all histories of messages", "why_tests_cant": "Whether the clean-up works depends on the cache's content, and that the cache does not grow for ever is a claim about all histories.", "anchors": ["src/index_icrc7/src/cache.rs: remove_all_values_older_than", "src/index_icrc7/src/jobs.rs: cleanup_cache"]}
{"id": "C95", "title": "Metadata listings have one form", "statement": "A token's metadata is answered by strictly ascending key, and so are the two listings each update records. What is answered depends on the content alone: tokens with the same content, in the same collection or in another, are answered with the same list, whatever order and repetitions the entries were written with and whatever else happened.", "quantifier": "all reachable states of any two collections, all tokens, all lists of entries", "why_tests_cant": "A test sees particular keys; that the order of writing never shows is a claim about all pairs of histories.", "anchors": ["src/core_nft/src/types/metadata.rs: get_all_data, replace_all_data, insert_data", "src/core_nft/src/types/nft.rs: token_metadata, replace_metadata", "src/core_nft/src/queries/icrc7.rs: icrc7_token_metadata"]}
{"id": "C96", "title": "The index catches up with every record", "statement": "Requests of the index's update job may fail and the canister may be upgraded, any number of times: as long as again and again some run of the job goes well, that is, is answered throughout without a failure or an upgrade while it waits, every block that is on the ledger at any moment is some time counted by status and listed by get_blocks under its type, and stays so. For the records of a collection nothing further is needed: each is some time found under its kind, its token (transfers by spenders excepted) and its recipient, because all metadata the collection records has numbers within 64 bits.", "quantifier": "all infinite schedules of timer runs, queries, answers, failures, upgrades and clean-ups in which some run goes well again and again, all growing ledgers, all splits of the answers between ledger and archives; all collections that go on meanwhile", "why_tests_cant": "A test can only wait for a while; that catching up never stops for good is a claim about infinite schedules.", "anchors": ["src/index_icrc7/src/jobs.rs: update_index", "src/index_icrc7/src/blocks.rs: get_all_blocks", "src/index_icrc7/src/index.rs: add_block_to_index", "src/core_nft/src/updates/management.rs: mint, update_nft_metadata"]}
{"id": "C97", "title": "The order of calls about different tokens does not matter", "statement": "Take any calls by which holders transfer a token, approve spenders for it, revoke their approvals or burn it, each about one token. In whatever order the calls are executed, as long as the calls about each token keep their order, every token ends with the same owner and the same approvals, every account with the same balance, and every call is answered the same except for the number of its record.", "quantifier": "all reachable states, all finite sets of such calls from any callers at any times, all pairs of interleavings, all archives that take every record", "why_tests_cant": "The number of interleavings is exponential, and the platform chooses among them.", "anchors": ["src/core_nft/src/updates/icrc7.rs: icrc7_transfer, transfer_nft", "src/core_nft/src/updates/icrc37.rs: icrc37_approve_tokens, icrc37_revoke_token_approvals", "src/core_nft/src/guards.rs: guard_sliding_window"]}
{"id": "C98", "title": "The log justifies itself", "statement": "An auditor who has only the transaction log finds every record in order after the records before it: mints are of tokens not mentioned before; transfers and burns are from the account the log so far says holds the token, to another account that is not anonymous; transfers on behalf of the holder are by a spender to whom the log so far gives an unexpired approval; approvals and revocations are by the holder, revocations only after an approval was given, collection approvals by the holder of some token; metadata is updated of tokens that are held. So a token's records begin with its mint and end with its burn. If the clock does not go back, the times of the records do not either.", "quantifier": "all reachable states of all histories, every position in the log", "why_tests_cant": "It speaks about every record of every log and what all records before it say, over all interleavings of batches, expiries, cut-off mints and upgrades.", "anchors": ["src/core_nft/src/updates/icrc7.rs: transfer_nft", "src/core_nft/src/updates/icrc37.rs: approve_token, approve_collection, revoke_token_approvals, revoke_collection_approvals, transfer_from", "src/core_nft/src/updates/management.rs: mint, burn_nft, update_nft_metadata"]}
{"id": "C99", "title": "A request is executed at most once", "statement": "A client that did not get an answer may send the same request with the same creation time again: a transfer, a transfer on behalf of the owner, an approval or a revocation that is in the log already is not executed again, however the token moved in between, as long as the collection accepts its creation time and the ICRC-3 library recognises repeated transactions for as long as it is told to. So no two records of the log with a creation time are the same request.", "quantifier": "all histories of messages, all ledgers that recognise repeated transactions for the time they are told to, all settings", "why_tests_cant": "It compares the time a creation time is accepted for with the time the ledger recognises repetitions, over all settings and changes of settings, all clocks and everything that may happen between two copies of a request.", "anchors": ["src/core_nft/src/lifecycle/init.rs: init", "src/core_nft/src/updates/icrc7.rs: transfer_nft", "src/core_nft/src/updates/icrc37.rs: verify_approval_timing, approve_token, approve_collection, revoke_token_approvals, revoke_collection_approvals, transfer_from", "src/core_nft/src/updates/management.rs: update_collection_metadata"]}
{"id": "C100", "title": "Installations and upgrades do what their arguments say", "statement": "The collection and its index can be installed only with installation arguments and upgraded only with upgrade arguments; the wrong kind is refused and changes nothing. The metrics page shows the version and commit hash of the last upgrade made (or of the installation) and the mode of the installation, an upgrade changes no other answer, storage canisters created later are installed as those of the version announced, and the index goes on reading the ledger it was installed for.", "quantifier": "every installation argument, every history of calls, answers, traps and upgrades with any arguments", "why_tests_cant": "tests upgrade once or twice with the right arguments; the claim is about every mixture of right and wrong upgrades with any history in between", "anchors": ["src/core_nft/src/lifecycle/init.rs: init", "src/core_nft/src/lifecycle/post_upgrade.rs: post_upgrade", "src/core_nft/src/state.rs: metrics, Data::new", "src/core_nft/src/types/sub_canister.rs: StorageSubCanisterManager", "src/index_icrc7/src/lifecycle/init.rs: init", "src/index_icrc7/src/lifecycle/post_upgrade.rs: post_upgrade", "src/index_icrc7/src/queries/queries.rs: ledger_id, status"]}
{"id": "C101", "title": "Settings stay what an installation accepts", "statement": "Whatever happens, the settings of the collection are such that an installation with them would be accepted: the logo is a valid address, the transaction window a 64-bit number and the approval limits are not zero.", "quantifier": "every installation and every history", "why_tests_cant": "an invariant over all histories of configuration updates", "anchors": ["src/core_nft/src/lifecycle/init.rs: init", "src/core_nft/src/updates/management.rs: update_collection_metadata"]}
{"id": "C102", "title": "A request touches only the account it names", "statement": "A principal has many accounts, told apart by subaccounts. A message leaves every account it does not name alone, the caller's own other accounts included: that account keeps its tokens, exactly the live approvals for them, and exactly its live collection approvals. An account is named by from_subaccount (with the caller) or by from; burn_nft has no such field and names every account of its caller.", "quantifier": "every reachable state, every message with any batch, every account", "why_tests_cant": "tests send one request from the default account; the claim is about every other account under every message and batch, including tokens moved there and back within a batch", "anchors": ["src/core_nft/src/updates/icrc7.rs: icrc7_transfer", "src/core_nft/src/updates/icrc37.rs: icrc37_approve_tokens, icrc37_approve_collection, icrc37_revoke_token_approvals, icrc37_revoke_collection_approvals, icrc37_transfer_from", "src/core_nft/src/updates/management.rs: burn_nft"]}
{"id": "C103", "title": "Announced limits bind every method", "statement": "No memo longer than the announced icrc7:max_memo_size is put on the record, no call puts more on the record than icrc7:max_update_batch_size items, and no query answers more than icrc7:max_query_batch_size items, whichever method is called.", "quantifier": "every state, configuration and message", "why_tests_cant": "tests try a limit on one method; the claim is about all methods, memos and batch sizes", "anchors": ["src/core_nft/src/utils.rs: check_memo", "src/core_nft/src/updates/icrc7.rs: icrc7_transfer", "src/core_nft/src/updates/icrc37.rs", "src/core_nft/src/updates/management.rs: mint", "src/core_nft/src/queries/icrc37.rs: icrc37_is_approved"]}
{"id": "C104", "title": "What is shown for consent is what is done", "statement": "Two requests for which icrc21_canister_call_consent_message gives the same message ask for the same thing: the same method, the same number of items, the same tokens, recipients, spenders and owners. A user who agrees to one call cannot be made to sign another.", "quantifier": "every pair of requests and every decoding of their arguments", "why_tests_cant": "tests compare the text of a message with a literal; that no two different calls share a message is about all pairs of calls", "anchors": ["src/core_nft/src/queries/icrc21.rs: icrc21_canister_call_consent_message, create_consent_info"]}
{"id": "C105", "title": "Tokens of a holder who does nothing stay", "statement": "From any moment on, as long as the principal of the account that owns a token makes no call, the token leaves the account only through an icrc37_transfer_from of a spender whose approval, for the token or for all tokens of the account, was on record at that moment and has not ended when the call is made; meanwhile no new approval for the token or the account's tokens appears. A holder with no approvals on record, or whose approvals have all ended, keeps every token.", "quantifier": "every reachable state, token, owner, and every continuation without a call of the owner's principal (any other callers and methods, answers of other canisters, upgrades)", "why_tests_cant": "it is about everything anybody else may do, in any number and order of messages", "anchors": ["src/core_nft/src/updates/icrc7.rs: transfer_nft", "src/core_nft/src/updates/icrc37.rs: approve_token, approve_collection, transfer_from", "src/core_nft/src/updates/management.rs: mint, burn_nft"]}
{"id": "C106", "title": "The collection plays no favourites", "statement": "No principal is built into the collection except the anonymous one. If all principals in a history are renamed one-to-one, callers, owners, spenders, recipients, administrators, storage canisters, then every reply stays the same, every query answers the renamed question with the renamed answer, and the recorded transactions are the old ones with the names changed. Two principals of whom nothing is recorded get the same replies to the same calls.", "quantifier": "every one-to-one renaming of principals that keeps the anonymous principal, every state, every list of messages (calls, answers of other canisters, traps, upgrades), every installation", "why_tests_cant": "a hard-coded exception for one principal among 2^232 is not found by trying some", "anchors": ["src/core_nft/src/guards.rs: caller_has_minting_permission etc.", "src/core_nft/src/updates/icrc7.rs: transfer_nft", "src/core_nft/src/updates/icrc37.rs", "src/core_nft/src/updates/management.rs", "src/core_nft/src/lifecycle/init.rs: init"]}
{"id": "C107", "title": "How an account is written makes no difference", "statement": "An account with the default subaccount may be written without a subaccount or with 32 zero bytes. Two histories whose messages differ only in this get the same replies and lead to collections that differ only in this; every query about an account answers the same for both spellings.", "quantifier": "every state, every list of messages and every respelling of the accounts in it, every transaction log that does not look at the spelling, every query argument", "why_tests_cant": "accounts occur in every argument, table key and record, in every combination of spellings along a history; one comparison that looks at the spelling is enough to break it", "anchors": ["src/core_nft/src/types/wrapped_types.rs: WrappedAccount", "src/core_nft/src/updates/icrc7.rs: transfer_nft", "src/core_nft/src/updates/icrc37.rs: approve_token, approve_collection, revoke_collection_approvals, transfer_from", "src/core_nft/src/queries/icrc7.rs", "src/core_nft/src/queries/icrc37.rs: icrc37_is_approved"]}
{"id": "C108", "title": "Minting several tokens is minting each of them", "statement": "A mint of several tokens within the batch limit is accepted exactly if the same tokens minted one by one, in the same order, would all be accepted; the ids are the same, and the collection is the same afterwards in every respect: tokens, owners, balances, metadata, transaction log. An accepted mint can be split in two at any place.", "quantifier": "every reachable collection, caller, time, list of mint requests within the batch limit, every ledger behaviour", "why_tests_cant": "the code runs four loops over the requests (memos, metadata, records, tokens); that they add up to the same as single mints for all lists, prior contents and ledger answers is an induction", "anchors": ["src/core_nft/src/updates/management.rs: mint", "src/core_nft/src/types/nft.rs: add_metadata"]}
{"id": "C109", "title": "No date is built in: only differences in time matter", "statement": "Take any history of the collection and move all its dates by the same amount: when the messages arrive and the dates in the requests (created, expires). Every request is answered as before (the error 'created in the future' names the moved time), and afterwards the collection is the same with its stored dates moved: same tokens, owners, approvals in force, log entries, uploads. Queries about approvals, asked the same amount later, answer the same, and the upload clean-up picks the same uploads. The history must keep clear of both ends of the 64-bit clock by twice the collection's own transaction window and drift.", "quantifier": "every installation or state, every history of messages, every shift, every window and drift setting (also changed on the way), every transaction log whose answers do not depend on the date", "why_tests_cant": "tests run at one date; that no comparison anywhere mixes a date with a constant, another unit or a saturating difference is a statement about all histories and all shifts", "anchors": ["src/core_nft/src/updates/icrc7.rs: transfer_nft", "src/core_nft/src/updates/icrc37.rs: verify_approval_timing, transfer_from", "src/core_nft/src/guards.rs: guard_sliding_window", "src/core_nft/src/queries/icrc37.rs: icrc37_is_approved", "src/core_nft/src/jobs/upload_garbage_collector.rs"]}
{"id": "C110", "title": "The order of hash tables is invisible", "statement": "The collection keeps tokens, owners, approvals, permissions, uploads, redirections and rate-limit windows in hash tables, whose order is arbitrary and may change with every insertion and at every upgrade. Whatever order the tables happen to have before each message, every request is answered the same, the transaction log receives the same entries in the same order, and the collection afterwards is the same up to the order of its tables. Every query answers the same afterwards; only the listings of approvals and of uploads may show another of the orders they may show anyway. The clean-up of uploads cancels the same uploads.", "quantifier": "every state without duplicate keys (every installation leads to one), every history of messages, any rearrangement of every table (at both levels of the approval tables) before each message, any transaction log", "why_tests_cant": "a test sees the one order its process happened to draw; that no result depends on the order is a statement about all pairs of orders at all moments", "anchors": ["src/core_nft/src/state.rs: RuntimeState, Data", "src/core_nft/src/updates/icrc37.rs", "src/core_nft/src/updates/management.rs", "src/core_nft/src/queries/icrc7.rs: icrc7_tokens, icrc7_tokens_of", "src/core_nft/src/lifecycle/post_upgrade.rs"]}
{"id": "C111", "title": "What people write is carried, not interpreted", "statement": "Memos, the values in the metadata of tokens, and the name, symbol, description and logo of the collection have no influence on what happens. Two histories that differ only in these (with memos of the same length and with metadata numbers that both fit, or both do not fit, 64 bits) get the same reply to every request and lead to collections that differ only in these. Who owns what, who may do what, listings of tokens, balances, permissions, uploads and redirections are the same; the queries that show memos, metadata or the texts of the collection show the other words in the same places. So no memo, trait or name can act as an instruction, lift or impose a restriction.", "quantifier": "every collection, every history of messages, every replacement of memos, metadata values and texts (chosen anew at every occurrence), every transaction log that does not look at them either; also every installation", "why_tests_cant": "a test tries a few memos and values; that none of the unboundedly many contents matters, at any point of any history, is a statement about all of them", "anchors": ["src/core_nft/src/updates/icrc7.rs: transfer_nft", "src/core_nft/src/updates/icrc37.rs", "src/core_nft/src/updates/management.rs: mint, update_nft_metadata, update_collection_metadata", "src/core_nft/src/types/metadata.rs", "src/core_nft/src/utils.rs: check_memo", "src/core_nft/src/queries/icrc7.rs: icrc7_collection_metadata, icrc7_token_metadata"]}
{"id": "C112", "title": "Upgrades are invisible", "statement": "Upgrading the canister at moments when no call waits for the answer of another canister, any number of times in the course of a history, cannot be noticed: every request before and after is answered as if there had been no upgrade (including rate limits, permissions and approvals), the transaction log has the same entries in the same order, every query answers the same, and only the order of hash tables may differ. An upgrade at any moment takes away nothing but the calls that were waiting.", "quantifier": "every installation, every history of messages, any number of upgrades at any idle moments, any rebuilding of the hash tables at each upgrade, any transaction log", "why_tests_cant": "a test upgrades once at a chosen moment and looks at a few queries; that no later reply of any history differs is a statement about all histories and all placements of upgrades", "anchors": ["src/core_nft/src/lifecycle/pre_upgrade.rs: pre_upgrade", "src/core_nft/src/lifecycle/post_upgrade.rs: post_upgrade", "src/core_nft/src/state.rs: RuntimeState, Data"]}
{"id": "C113", "title": "Uploads and permissions do not disturb trading", "statement": "Transfers, approvals and revocations are answered, and take effect, independently of everything that goes on behind them: uploads in any stage, answers or failures of storage canisters, suspended management calls and the lock they hold, grants and withdrawals of permissions, token metadata, and upgrades at any moment. Leaving all these messages out of a history changes no reply to a transfer, approval or revocation, and leaves the same owners, balances, approvals, rate limits and transaction log.", "quantifier": "every state, every history made of ICRC-7/ICRC-37 updates, upload calls, permission changes, answers of other canisters and upgrades in any order; also any two states that agree on tokens, approvals, settings, rate limits and log", "why_tests_cant": "a test exercises one interleaving of an upload with a transfer; independence is a statement about every interleaving and every hidden state", "anchors": ["src/core_nft/src/updates/icrc7.rs", "src/core_nft/src/updates/icrc37.rs", "src/core_nft/src/updates/management.rs: init_upload, store_chunk, finalize_upload, cancel_upload, grant_permission, revoke_permission", "src/core_nft/src/guards.rs: GuardManagement, guard_sliding_window"]}
{"id": "C114", "title": "What is stored is in proportion to the log", "statement": "Nobody can make the collection remember tokens, owners or approvals without leaving entries in the transaction log: there are never more tokens than logged mints, never more rows in the index of owners than logged mints and transfers, never more approvals (with the tables holding them) than twice the logged approvals, hence all of them together never exceed twice the length of the log; and the rate limiter never remembers more than five calls of a token. Refused requests, revocations, expiries and upgrades do not make these tables grow.", "quantifier": "every reachable state: every installation, every history of messages, any transaction log, any answers of other canisters", "why_tests_cant": "memory exhaustion comes from long histories of requests nobody thought of testing; a bound on all reachable states cannot be sampled", "anchors": ["src/core_nft/src/types/nft.rs", "src/core_nft/src/state.rs: Data", "src/core_nft/src/updates/icrc37.rs", "src/core_nft/src/guards.rs: guard_sliding_window"]}
{"id": "C115", "title": "Settings that are only shown rule nothing", "statement": "Name, symbol, description and logo of the collection, the largest and the default page, the largest batch of a query and the storage threshold have no influence on what updates do: two collections that differ in nothing else answer every history of updates alike and hold the same tokens, approvals, permissions, uploads, rate limits and log ever after, even if these settings are changed differently in the two histories. Changing them changes nothing else.", "quantifier": "every pair of states differing only in these settings, every pair of histories differing only in changes of these settings, any transaction log, any answers of other canisters, upgrades included", "why_tests_cant": "a test sets one value of a setting and tries one update; that no update of any history depends on it is a statement about pairs of histories", "anchors": ["src/core_nft/src/updates/management.rs: update_collection_metadata", "src/core_nft/src/updates/icrc7.rs", "src/core_nft/src/updates/icrc37.rs", "src/core_nft/src/state.rs: Data"]}
{"id": "C116", "title": "Calls that wait take effect in one moment", "statement": "The upload methods wait for other canisters, and other calls are served meanwhile; nevertheless every call takes effect as if it were carried out in a single moment. Whatever overlaps with a waiting call, the resulting state and every reply are those of a history in which the call is made after the others and its wait ends at once; the only calls that notice the overlap are management calls, which are turned away. So to every history there is one without any overlap, made of the same messages, with the same final state and the same outcomes in the same order.", "quantifier": "every state in which no call waits, every history of calls, answers, traps in callbacks and upgrades in any order, any transaction log, any answers of other canisters", "why_tests_cant": "a test waits for the answer of each call before the next; serialisability is a statement about every interleaving of suspended and other calls", "anchors": ["src/core_nft/src/updates/management.rs: init_upload, store_chunk, finalize_upload, cancel_upload", "src/core_nft/src/guards.rs: GuardManagement", "src/core_nft/src/types/sub_canister.rs: init_upload, store_chunk, finalize_upload, cancel_upload"]}
{"id": "C117", "title": "A permission only opens doors", "statement": "Giving somebody a permission never makes anything worse or different for anybody: every call that was not rejected for want of a permission gets the same reply and has the same effect, and in a history in which nobody is rejected additional permissions make no difference at all. And what a principal is permitted concerns only that principal's own calls of the methods that need a permission: as long as they make none, no reply to anybody and no effect depends on it.", "quantifier": "every two states that differ only in permissions, every message and every history (calls by anybody, answers of other canisters, upgrades, grants and withdrawals included)", "why_tests_cant": "a test grants a permission and makes the call it opens; that nothing else changes is a statement about all other calls and all later histories", "anchors": ["src/core_nft/src/types/permissions.rs: has_permission, grant_permission, revoke_permission", "src/core_nft/src/guards.rs: the permission guards", "src/core_nft/src/updates/management.rs"]}
{"id": "C118", "title": "The rate limiter forgets and strangers leave no trace", "statement": "A call counts against nobody once 60 ms have passed: two collections that differ only in calls made longer ago answer every later message alike and stay alike. In particular, whatever principals without any standing call (they own no token, hold no permission, are named in no approval), everybody else is answered as if those calls had never been made, provided each of them comes at least 60 ms before the next call of the others; and in the end owners, metadata, approvals, permissions, settings, uploads, transaction log and ledger are the same.", "quantifier": "all states, all earlier and later histories (calls of everybody, answers of other canisters, upgrades), all reachable collections and all histories in which calls of strangers are interleaved at any places", "why_tests_cant": "that past calls have no influence is a statement about all continuations of all histories; a test sees one call being admitted after a pause", "anchors": ["src/core_nft/src/guards.rs: guard_sliding_window", "src/core_nft/src/updates/icrc7.rs: transfer_nft", "src/core_nft/src/updates/icrc37.rs: approve_token, approve_collection, revoke_token_approvals, revoke_collection_approvals, transfer_from"]}
{"id": "C119", "title": "Raising a limit never breaks what worked", "statement": "If the settings of a collection are changed so that each limit (supply cap, items in a batch, length of memos, time window, permitted drift, approvals per token or account, revocations per call) is as large as before or larger, then every history in which all batches and mints were done in full before the change gets exactly the same replies after it and leads to the same collection but for the settings.", "quantifier": "all states, all pairs of settings of which the second has the larger limits, all histories that change no settings and in which the calls subject to limits were done in full", "why_tests_cant": "compares two runs of an arbitrary history under all pairs of settings; a test sees one setting and one call", "anchors": ["src/core_nft/src/updates/icrc7.rs: icrc7_transfer, transfer_nft", "src/core_nft/src/updates/icrc37.rs: verify_approval_timing, approve_token, approve_collection, revoke_token_approvals, revoke_collection_approvals, transfer_from", "src/core_nft/src/updates/management.rs: mint, update_collection_metadata"]}
{"id": "C120", "title": "An approval only opens doors", "statement": "If two collections differ only in that the second has more approvals, or approvals that last longer, then every history that gives no approvals and in which all uses and revocations of approvals were done in full gets exactly the same replies in the second as in the first, and the two still differ at most in approvals, of which the second has more. If two collections differ only in approvals given to one principal, then in every history that gives and takes back no approvals, and in which that principal moves nobody's tokens with approvals, every reply is the same in both, failures included.", "quantifier": "all pairs of states that differ in approvals as described, all histories that give no approvals (second part: nor take any back), any ledger", "why_tests_cant": "compares two runs of an arbitrary history under arbitrary sets of approvals; a test sees one set of approvals and a few calls", "anchors": ["src/core_nft/src/updates/icrc37.rs: check_token_approval, check_collection_approval, transfer_from, revoke_token_approvals, revoke_collection_approvals", "src/core_nft/src/updates/icrc7.rs: icrc7_transfer", "src/core_nft/src/updates/management.rs: mint, burn_nft"]}
{"id": "C121", "title": "Uploads of other files make no difference to a file", "statement": "Take any sequence of calls and upgrades, each brought to its end before the next, in which the upload of a given file is not begun anew, and leave out every upload call about other files. Every remaining call, trades and management calls included, gets the same replies; the upload of the file is in the same state afterwards; everything else in the collection is the same but for the other files; and the file is served the same, unless one of the other files is served under the same path. Whether an upload of the file would then be turned down or passed on to the storage canisters does not depend on the other files either.", "quantifier": "all reachable states in which no call waits, all sequences of calls and upgrades with any answers of the storage canisters or traps on them, all paths; any ledger", "why_tests_cant": "compares two runs of an arbitrary sequence with arbitrary answers of other canisters; tests upload one or two files with a cooperative storage canister", "anchors": ["src/core_nft/src/updates/management.rs: init_upload, store_chunk, finalize_upload, cancel_upload", "src/core_nft/src/types/sub_canister.rs: init_upload, get_canister", "src/core_nft/src/types/http.rs: add_redirection"]}
{"id": "C122", "title": "No token is special: token numbers are only names", "statement": "Give the existing tokens other numbers, throughout the collection and in all calls. Every call then gets the reply it got before (with the new number where the reply names a token), the collection and the transaction log end up the same but for the numbers, and every query about a token answers for the new number what it answered for the old one: owner, metadata, approvals, listings. So what happens to a token depends on what is recorded about it and never on its number.", "quantifier": "all reachable states, all permutations of the token numbers given out so far, all sequences of messages including resumed uploads, traps and upgrades, all queries; any ledger that is renumbered with the tokens", "why_tests_cant": "compares every history with every renumbered one; tests use tokens 1 and 2", "anchors": ["src/core_nft/src/updates/icrc7.rs: transfer_nft", "src/core_nft/src/updates/icrc37.rs: approve_token, revoke_token, transfer_from", "src/core_nft/src/updates/management.rs: mint, update_nft_metadata, burn_nft", "src/core_nft/src/types/nft.rs: Icrc7Token", "src/core_nft/src/queries/icrc7.rs: icrc7_owner_of, icrc7_token_metadata, icrc7_tokens_of"]}
{"id": "C123", "title": "Indexes of the same ledger agree", "statement": "Two index canisters that read the same ledger, each on its own schedule, with its own failures, upgrades and cache contents, have the same entries once they report the same status, and answer every get_blocks call with the same blocks and turn down the same calls. If one has come further, its entries are the other's with only further blocks in front. Whatever happens to an index, an entry never loses or reorders what it lists.", "quantifier": "all pairs of histories of the index canister over the same growing chain, all splits of answers between ledger and archives, all keys, filters, pages and directions", "why_tests_cant": "compares all pairs of schedules; tests follow one index on one schedule", "anchors": ["src/index_icrc7/src/jobs.rs: update_index", "src/index_icrc7/src/index.rs: add_block_to_index", "src/index_icrc7/src/blocks.rs: get_all_blocks", "src/index_icrc7/src/update/get_blocks.rs"]}
{"id": "C124", "title": "A refused call might as well not have been made", "statement": "Strike from a history every call that was answered by an error, whoever made it (holder, spender, administrator or stranger) and whatever it asked for. The remaining calls are answered exactly as before, and in the end owners, balances, metadata, approvals, permissions, settings, uploads and the transaction log are the same; only the rate limiter may remember the refused calls, for 60 ms.", "quantifier": "all states, all histories of calls, answers to waiting calls and upgrades, all choices of refused calls among them, each at least 60 ms before the next call that is kept, all ledgers that keep nothing of what they refuse", "why_tests_cant": "compares each history with the history without its refused calls, for all histories and all reasons for refusal", "anchors": ["src/core_nft/src/updates/icrc7.rs: transfer_nft", "src/core_nft/src/updates/icrc37.rs: approve_token, transfer_from, revoke_token_approvals", "src/core_nft/src/updates/management.rs", "src/core_nft/src/guards.rs"]}
{"id": "C125", "title": "The log is a backup of the collection", "statement": "Two collections with the same transaction log are the same collection to those who trade: icrc7_owner_of, icrc7_balance_of, icrc7_total_supply, icrc7_tokens, icrc7_tokens_of and icrc7_token_metadata answer alike, and at any time after the last call the same approvals are in force and the same accounts may move the same tokens, whatever the settings, the archives, the permissions, the uploads, the upgrades and the refused calls in their histories.", "quantifier": "all pairs of installations, of ledgers and of histories of calls, answers to waiting calls and upgrades that lead to equal logs; all queries that both answer, all later times", "why_tests_cant": "compares two arbitrary histories that have nothing in common but the log they leave", "anchors": ["src/core_nft/src/updates/icrc7.rs: transfer_nft", "src/core_nft/src/updates/icrc37.rs", "src/core_nft/src/updates/management.rs: mint, burn_nft, update_nft_metadata", "src/core_nft/src/queries/icrc7.rs", "src/core_nft/src/state.rs: tokens_list"]}
{"id": "C126", "title": "What is undone leaves nothing behind", "statement": "A token sent away and sent back, an approval given and revoked, a permission granted and revoked: once both calls have been accepted, every token belongs to whom it belonged before, nobody may move it at any time who could not before, approvals for accounts and for other tokens are as before, the same principals hold the same permissions and the next id is the same, also if the canister was upgraded or calls that waited were answered in between.", "quantifier": "all ledgers, all reachable states, all pairs of an accepted call and the accepted call that undoes it, all tokens, accounts, spenders, principals, permissions and times, any number of upgrades and answers in between", "why_tests_cant": "compares all rights of everybody before and after, in every state a history can lead to", "anchors": ["src/core_nft/src/updates/icrc7.rs: icrc7_transfer", "src/core_nft/src/updates/icrc37.rs: icrc37_approve_tokens, icrc37_approve_collection, icrc37_revoke_token_approvals, icrc37_revoke_collection_approvals", "src/core_nft/src/updates/management.rs: grant_permission, revoke_permission"]}
