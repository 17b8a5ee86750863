{
"C01": {"status": "proved", "note": "With the page size configured to 0 every listing is empty, so C01_listed_iff_owned and C01_listed_of_iff_owned take page sizes of at least one; C01_one_owner holds without."},
"C02": {"status": "partial", "note": "Proved for accounts none of whose tokens was burned, and in general as balance = listed + burned from that account; the full statement is false after a burn (C02_violated)."},
"C03": {"status": "proved", "note": ""},
"C04": {"status": "proved", "note": ""},
"C05": {"status": "proved", "note": ""},
"C06": {"status": "proved", "note": "Stated per item (one-item message); C25_transfer_singles reduces a batch to its one-item messages."},
"C07": {"status": "proved", "note": "Stated per item; C25_transfer_from_singles reduces a batch to its items."},
"C08": {"status": "proved", "note": ""},
"C09": {"status": "proved", "note": ""},
"C10": {"status": "proved", "note": ""},
"C100": {"status": "partial", "note": "Arguments, announced version and histories in full for both canisters (C100_install, C100_wrong_argument, C100_history, C100_announced, C100_upgrade, C100_index_*). Storage canisters are installed with the version and commit hash of the installation for ever (C100_violated_storage), so that clause is proved until the first upgrade (C100_storage_partial). The serializer is taken to be lossless, as in C38."},
"C101": {"status": "partial", "note": "C101_acceptable_partial: approval limits are never zero; the rest as long as the updates give acceptable values. update_collection_metadata checks nothing: C101_violated_logo, C101_violated_window (after which holders' transfers trap)."},
"C102": {"status": "partial", "note": "For every message that is not icrc7_transfer or icrc37_revoke_collection_approvals (C102_named_partial), and for all messages with what those two make of it (C102_spares_partial): icrc7_transfer does not read from_subaccount and acts for any account of the caller (C102_violated_transfer), icrc37_revoke_collection_approvals does not read it and acts for the default account (C102_violated_revoke)."},
"C103": {"status": "partial", "note": "For mint, icrc7_transfer, burn_nft and update_nft_metadata: C103_memo_partial, C103_batch_partial; for the queries of ICRC-7 see C28. The methods of ICRC-37 check none of the three limits: C103_violated_memo, C103_violated_batch, C103_violated_query."},
"C104": {"status": "partial", "note": "The same method, the same number of items for the four counted methods (if there are several), the same first spender of a collection approval: C104_same_partial. Tokens, recipients, spenders and owners are put in a list that is dropped before the answer, so they are not shown: C104_violated for every pair of one-item calls, C104_violated_effect for two calls with different effects."},
"C105": {"status": "proved", "note": "C105_kept, with its two consequences. An approval on record may be one of the previous owner, since icrc7_transfer keeps it (C15_violated)."},
"C106": {"status": "proved", "note": "C106_replies and C106_installation for every renaming; C106_newcomers for two unknown principals, given a transaction log that does not tell them apart. The ICRC-3 library is renamed along with the people (it is arbitrary in the model); get_all_uploads and the CLI are left out of C106_queries and C106_admin_queries."},
"C107": {"status": "partial", "note": "C107_replies_partial: all updates, given a transaction log that does not look at the spelling (icrc-ledger-types compares accounts by effective subaccount, but whether the ICRC-3 library hashes the spelling when it looks for duplicates is outside the model). Token queries and listings: C107_answers, C107_approvals. Missing: icrc37_is_approved compares subaccounts as they are spelled (C107_violated); C107_is_approved_partial for spenders that have not approved themselves."},
"C108": {"status": "proved", "note": "Equivalence with single mints (C108_singles) and splitting (C108_split), for every ledger, with equality of the whole state."},
"C109": {"status": "proved", "note": "Simulation between a history and the moved history, step by step (C109_later), from installation (C109_whole); queries (C109_approvals, C109_answers) and clean-up (C109_cleanup)."},
"C11": {"status": "proved", "note": "Balances relative to the reachable-state invariant."},
"C110": {"status": "proved", "note": "Relational simulation: histories with arbitrary rearrangements before every message (C110_rearranged), all queries (C110_readings), clean-up (C110_cleanup), and existence for every installation (C110_distinct)."},
"C111": {"status": "proved", "note": "Simulation under any rewording: replies and states (C111_reworded), histories of the same shape (C111_shape), installation (C111_installed), queries not showing words (C111_answers) and showing them (C111_shown)."},
"C112": {"status": "proved", "note": "C112_invisible for all placements of upgrades at idle moments, with hash tables rebuilt in any order; C112_upgrade: exactly the waiting calls are lost at other moments (C32 says what that does to the management lock). That the external serializer restores what it saved is assumed."},
"C113": {"status": "proved", "note": "C113_background (the background can be left out), C113_trades (two collections agreeing on the floor), C113_queries. Mint, burn and metadata updates are not trades: they need the management lock."},
"C114": {"status": "proved", "note": "C114_tokens, C114_approvals, C114_total for every reachable state; C114_limiter bounds one token's window (the number of windows is the subject of C80). Token metadata and uploads are written only by authorities (C29) and are not counted."},
"C115": {"status": "proved", "note": "C115_updates for every pair of states and histories; C115_change for one change. About a running collection: at installation the storage threshold takes the place of the permitted drift (section 5 of DESIGN.md)."},
"C116": {"status": "proved", "note": "C116_moment (one waiting call, any others, any continuation), C116_histories (every history has an equivalent one without overlap). The several requests behind one init_upload are one answer in the model; C87 has them one by one."},
"C117": {"status": "proved", "note": "C117_message and C117_history (more permissions), C117_others (other people)."},
"C118": {"status": "proved", "note": "C118_forgets and C118_pause for all states and histories; C118_strangers for calls of strangers interleaved anywhere in a history whose other calls come at non-decreasing times."},
"C119": {"status": "partial", "note": "C119_roomier_partial for limits the code can convert and times that do not wrap at 64 bits. Missing because false: C119_violated_batch (update_collection_metadata accepts a batch limit of 2^32, after which transfers trap), C119_violated_window (it accepts a time window of 2^64-1 ns, after which approvals made at the present moment are too old)."},
"C12": {"status": "partial", "note": "Append-only and the replay for histories in which no mint is cut short by a ledger refusal; the full statement is false otherwise (C12_violated)."},
"C120": {"status": "proved", "note": "C120_opens: additional or longer approvals change no reply of a history that gives none and whose uses of approvals succeeded. C120_others: the approvals of one principal change nothing for everybody else, failures included. Histories that give approvals are excluded, as an additional approval may fill the limit for further ones."},
"C121": {"status": "proved", "note": "C121_files: leaving out the upload calls about other files changes no other reply, nor the state of the file, nor how it is served. C121_begin: nor whether an upload of the file can be begun. Where a begun upload is put, and so whether it succeeds, depends on the storage canisters the other uploads have made; an example shows it. Each call is ended before the next one begins; C116 reduces overlapping calls to this case."},
"C122": {"status": "proved", "note": "C122_replies: the renumbered history gets the renumbered replies and ends in the renumbered state. C122_log: so does the transaction log. C122_queries, C122_listed, C122_approvals: the queries. Number 0 and the numbers not given out yet stay; the numbers given out fit in 64 bits, as the keys of two tables are encoded in 64 bits."},
"C123": {"status": "partial", "note": "C123_entries_partial: equally far means the same entries, further means more in front. C123_answers_partial: the same answers to get_blocks; without filters for blocks that exist, as otherwise the answer depends on the height of the ledger. C123_grows: entries only grow, in any history at all. Missing: overlapping runs of the update job, for which C123_violated shows two indexes with the same status and different entries."},
"C124": {"status": "partial", "note": "C124_call_partial: a refused call changes nothing but the rate limiter. C124_history_partial: striking refused calls changes neither the other answers nor the outcome. Missing: calls given up halfway (StorageCanisterError), for which C124_violated_halfway shows a refused metadata update that is done, and transfer_from by a spender whose approval has run out, for which C124_violated_lapsed shows the approval disappearing from the listing."},
"C125": {"status": "partial", "note": "C125_holdings_partial: same log and same ids given out, then the same owners and answers about holdings (C125_uncut_partial: from the log alone if no mint was cut short by the ledger). C125_next_partial: the next mint answers with one more than the number of mints on record. C125_movers: the same approvals in force, the same accounts may move the same tokens. C125_metadata_partial: the same metadata for tokens with a recorded update. Missing: mints the ledger cuts short leave records of tokens that do not exist (C125_violated_cut), and the metadata a token was minted with is not in the log (C125_violated_metadata)."},
"C126": {"status": "partial", "note": "C126_transfer_partial, C126_approval, C126_collection_partial, C126_permission: the state after the second call has the same owners, movers, permissions and next id as the one before the first. For transfers this is more than the claim, because approvals for a token outlive its transfer (C15_violated). Missing: ledgers that take the transfer back for an earlier one, whose answer is Ok although the token stays (C126_violated_repeat), and approvals of an account other than the default one, which the revocation does not reach although it is answered Ok (C126_violated_sub)."},
"C13": {"status": "proved", "note": ""},
"C14": {"status": "partial", "note": "Full for icrc7_transfer. icrc37_transfer_from only refuses the default account of the anonymous principal (C14_violated)."},
"C15": {"status": "partial", "note": "Full for icrc37_transfer_from: all approvals of the token are gone and none returns without a new grant. For icrc7_transfer only spenders approved before the sale stay authorised (C15_transfer_partial), and they do (C15_violated: the old owner's spender takes the token from the buyer)."},
"C16": {"status": "proved", "note": ""},
"C17": {"status": "proved", "note": ""},
"C18": {"status": "proved", "note": "Both directions: who can add a token approval and what can remove one."},
"C19": {"status": "proved", "note": ""},
"C20": {"status": "proved", "note": "For every reachable state: the limit is positive by installation and no call changes it."},
"C21": {"status": "partial", "note": "Token approvals of other tokens and collection approvals of other accounts are untouched. All collection approvals of the account `from` are wiped (C21_violated)."},
"C22": {"status": "partial", "note": "Agreement proved when no collection approval is involved and from_subaccount is the spender's; C22_confirmed_partial says what a true answer means in every state, C22_complete_partial who is confirmed. False in both directions otherwise (C22_violated_denied, C22_violated_confirmed, C22_violated_burned)."},
"C23": {"status": "proved", "note": "icrc7_transfer both ways, with the error answered; ICRC-37 methods: acceptance only inside their window. All under no-wrap conditions; C23_unrepresentable: a window or drift of 2^64 or more lets no icrc7_transfer through (the call traps)."},
"C24": {"status": "proved", "note": "For every history with non-decreasing call times: at most five accepted calls per token in any [t, t+60ms). Refusals only after five admitted calls (limiter level)."},
"C25": {"status": "proved", "note": "Order, limit and replies proved for all batch methods (revocations: limits below 2^32; token revocations up to the memory of the rate limiter, which a whole batch is charged to once); the empty-batch clause holds for icrc7_transfer and fails (traps) for icrc37_revoke_token_approvals (C25_empty_revoke_violated)."},
"C26": {"status": "partial", "note": "False as stated (C26_violated); proved for every batch whose replies do not mix successes and errors (one item, over the limit, trapping and so on). C26_flag_ignored: within the limit the setting makes no difference to any batch in any state."},
"C27": {"status": "proved", "note": "The crawls take page sizes from one up to the configured maximum; a larger one is refused (C28). Completeness of a single page is for sizes below 2^32, the width of usize in the canister."},
"C28": {"status": "partial", "note": "For configured limits below 2^32. Larger ones are replaced by the default of 100 (C28_violated_wide)."},
"C29": {"status": "proved", "note": "Per method, for every state; suspended calls are traced back to an authorised caller in the history; a resumed call touches only uploads, storage canisters and redirections."},
"C30": {"status": "proved", "note": "For every message of every kind, and over histories."},
"C31": {"status": "proved", "note": "For every permission table; acceptance shown when no management call is in progress."},
"C32": {"status": "partial", "note": "Exclusion and release hold for every reachable state and outcome. After an upgrade during a suspension the guard stays taken for ever (C32_violated), so admission is proved for histories without such an upgrade."},
"C33": {"status": "proved", "note": "Every reachable state, every message; finalized uploads over all continuations; refusals and successful progress."},
"C34": {"status": "partial", "note": "Accepted mints create everything, with the metadata requested (C34_metadata_partial; metadata left under an id by a cut mint is shown besides); mints refused by anything but the ledger change nothing. A refusal by the ledger in mid-batch leaves metadata and recorded transactions behind: C34_violated."},
"C35": {"status": "partial", "note": "Proved for all histories in which the ledger refuses no mint and no update; frame and refusal theorems without that restriction. Violated for refused updates (new metadata stays) and for ids reused after a cut mint (stale metadata): witnesses."},
"C36": {"status": "proved", "note": "Byte-level codec, round trip by structural induction; for reachable states every stored row encodes and decodes. Map entries are taken without repeated keys (a BTreeMap cannot repeat them) and encodings shorter than 2^64 bytes."},
"C37": {"status": "proved", "note": "Byte-level round trips. Principals of at most 29 bytes, subaccounts of 32, times of 64 bits (all by type in the code). C37_reachable: in every history of typed messages every approval table, written in any order of its entries, is read back with the same approvals."},
"C38": {"status": "proved", "note": "Every modelled query, the redirections and the log, for every reachable state. That the external serializer restores the saved state is assumed. The effect of an upgrade on suspended calls is C32."},
"C39": {"status": "partial", "note": "Everything but permitted_drift, which is swapped with max_canister_storage_threshold (C39_violated), and collection_metadata, which is not read (C39_violated_metadata)."},
"C40": {"status": "partial", "note": "Fourteen of the fifteen fields, and equality of the rest of the state (C40_exact_partial). The fifteenth, collection_metadata, is accepted and ignored (C40_metadata_ignored, C40_violated)."},
"C41": {"status": "partial", "note": "Refusal of long memos for every state. Acceptance of short ones for limits below 2^32; with a larger limit every memo traps (C41_violated_wide)."},
"C42": {"status": "partial", "note": "Soundness, number ranges and block types in full, for every history including dishonest answers; accounts and tokens when the blocks naming the key satisfy PlainParties/PlainToken; C42_exact says, without condition, what the entry of any key is. The full statement is false: 37xfer blocks are not listed under their token, an account named twice is listed twice, the spender of a collection approval is not listed (C42_violated_*)."},
"C43": {"status": "partial", "note": "Full for all honest histories in which the job does not overlap with itself (failures, upgrades, growing chain allowed). False for overlapping runs (C43_violated_overlap). C43_stuck: a block of unknown type stops the index for good."},
"C44": {"status": "partial", "note": "Intersection, paging and order within a page for every honest history and start + length < 2^32. False beyond: wrap-around traps, lengths of 2^32 are cut to zero, descending pages are not in order across pages, unfiltered descending queries ignore start, repeated entries are returned twice (C44_violated_*)."},
"C45": {"status": "partial", "note": "For every honest history, hence every cache content that can arise, every archive split, and a chain growing during the call. Ranges that run to 2^64 or beyond are answered with no block (C45_violated_wrap); C45_range_partial is about all others, C45_latest about every length."},
"C46": {"status": "partial", "note": "Method, action word, metadata and UnsupportedCanisterCall in full, for arbitrary argument decoders; the number of tokens for the four counted methods (C46_number), the first spender for collection approvals (C46_spender). One item and several are told apart for the four counted methods only; the collection methods show the first item (C46_violated_several, C46_violated_revoke), an empty collection approval traps (C46_violated_empty) and an empty batch is described as one item (C46_violated_none)."},
"C47": {"status": "partial", "note": "Proved for the default account; approvals granted from a subaccount can never be revoked (C47_subaccount_stuck, C47_violated)."},
"C48": {"status": "partial", "note": "Size, soundness and order for every walk; resumption for a fixed walk, or any walks if creation times differ. With equal times and different walks a row can be skipped (C48_violated)."},
"C49": {"status": "partial", "note": "What the job selects is proved exactly; the stated property fails in both directions (C49_violated_stale, C49_violated_fresh)."},
"C50": {"status": "partial", "note": "For every table order and every pattern of answers whose reported sizes leave the 128-bit sum below 2^128 (C50_violated_wrap otherwise). Room is counted against 500 GiB; the setting max_canister_storage_threshold is read by nothing (C50_threshold_ignored, C50_violated_threshold)."},
"C51": {"status": "partial", "note": "Every reachable state; excluded are the paths /logs, /traces, /metrics and two uploads served under one path (C51_violated_reserved, C51_violated_shared)."},
"C52": {"status": "partial", "note": "Full statement when every read fills the buffer or reaches the end of the file (and size + chunk size below 2^64). For arbitrary reads: numbering, sizes and a prefix of the file; C52_violated_short shows that a short read loses the end of the file, because the number of reads is fixed beforehand."},
"C53": {"status": "proved", "note": "All permissions and all strings; block type names of the indexer too (their lower-casing maps the Kelvin sign to k, as Unicode does)."},
"C54": {"status": "proved", "note": "Decision theorem against an independent predicate, and every document the client creates is accepted."},
"C55": {"status": "proved", "note": "Stated for single-item calls, over a ledger that takes the record; SaneLimits: limits of the widths the code converts them to."},
"C56": {"status": "proved", "note": ""},
"C57": {"status": "proved", "note": "Stated for single-item calls, over a ledger that takes the record. Token ids below 2^64 and approval limits below 2^32, the widths the code converts them to (beyond, the call traps, see C89)."},
"C58": {"status": "partial", "note": "False in general (C58_violated); holds when granter and spender use the same subaccount."},
"C59": {"status": "proved", "note": "All fourteen keys."},
"C60": {"status": "proved", "note": "Equivalence over a ledger that does not refuse. With a memo limit of 2^32 or more any memo traps, see C41_violated_wide."},
"C61": {"status": "proved", "note": "The recorded transaction is given field by field."},
"C62": {"status": "partial", "note": "Proved for entries with exactly one colon, for every value (C62_entries_partial: numbers with sign or leading zeros, integers, text). Values containing a colon are cut (C62_violated_colon) and entries without one are dropped silently (C62_violated_dropped)."},
"C63": {"status": "partial", "note": "Every error value of nine methods is tied to what it says (Spec/Errors). Fails for two replies: icrc7_transfer answers InvalidRecipient to a caller who is not the owner (C63_violated), and icrc37_transfer_from answers Duplicate with the constant index 2 (C63_duplicate_violated); mint's supply cap error also stands for a batch that is too long. Those readings are spelled out in the specification."},
"C64": {"status": "proved", "note": "The log after each batch is the old log followed by the records of the accepted items, field by field (Spec/Errors). icrc7_transfer is stated per item (C64_transfer) and per batch (C64_transfer_batch). Mint and update records are in C03/C12 and C61."},
"C65": {"status": "partial", "note": "Both tables are determined exactly after each accepted item, and after whole batches of approvals and of revocations. The full property fails for the creation time: the call's time is stored instead of the one given (C65_violated)."},
"C66": {"status": "proved", "note": "Stated for single-item calls by the owner below the rate limit and over a ledger that takes the record. Collection approvals of subaccounts cannot be revoked at all, see C47."},
"C67": {"status": "proved", "note": "Hash-map orders are arbitrary permutations; pages are complete if the order stays the same between calls."},
"C68": {"status": "proved", "note": "The error values passed on unchanged are listed in Spec.passedOn; the others become StorageCanisterError."},
"C69": {"status": "partial", "note": "Holds for media redirections always and for /metrics until the first upgrade. C69_violated_logs: /logs and /traces are answered with the witness of another path. C69_violated_upgrade: after an upgrade nothing certifies the pages again. The certified data are assumed to survive upgrades and the root hash to stand for the contents of the tree."},
"C70": {"status": "partial", "note": "The two guarded methods and the other pages do not depend on the permission table for strangers; C70_violated: the public metrics page lists every principal with its permissions."},
"C71": {"status": "partial", "note": "The list is the one computed at installation; C71_violated_granted, C71_violated_revoked and C71_violated_test_mode show that it does not follow later grants and revocations and is not what test mode installs for."},
"C72": {"status": "proved", "note": "bity_ic_icrc3, which turns transactions into blocks, is not in the repository: Spec.Publishes states what is assumed of the blocks (type, and the fields of the transaction under tx)."},
"C73": {"status": "partial", "note": "Accounts and tokens up to the exceptions in the statements; C73_violated: a record of transfer_from is not found under its token. Collection approvals are not found under the spender, and subaccounts are shown under their owner."},
"C74": {"status": "partial", "note": "Arguments whose parts contain no colon and whose values are not words for infinity or NaN; C74_violated_colon (an address as value is cut), C74_violated_dropped (an argument without colon is ignored), C74_violated_null (inf becomes null). The printing of doubles is a parameter."},
"C75": {"status": "partial", "note": "C75_finalized: success means the collection has the upload finalised; C75_served_partial: the address reported leads to its storage canister for good (up to the exceptions of C51); C75_no_overwrite: a finished file is never replaced; C75_completes: the command succeeds when nothing interferes. C75_violated_refused: refusals of the announcement and of chunks are never read; C75_violated_empty: an empty file cannot be uploaded. SHA-256 and Url::parse are parameters."},
"C76": {"status": "partial", "note": "Documents up to the exceptions of C74 about numbers; entries exactly, unreadable values refused. Answers may be surrounded by white space (Unicode, Spec.Typed), spelled in any case and repeated until understood. C76_violated_end: at the end of the input the yes/no question is repeated forever."},
"C77": {"status": "partial", "note": "Owner, subaccount, memo and metadata; C77_violated_name: the required --name is ignored; C77_violated_ignored: --metadata together with --icrc97_url or --interactive is ignored. Principal::from_text is a parameter."},
"C78": {"status": "proved", "note": "All methods and all histories of strangers' calls. The rate limiter's table, which no query shows, is the only thing that changes; its effect on others is C80."},
"C79": {"status": "partial", "note": "C79_kept_partial: administrability is lost only by revoking the permission from its last holder; C79_frozen: once lost, no permission ever changes again. C79_violated: the last authority may revoke itself and is told Ok; C79_unmanaged_install: an installation without permissions is accepted."},
"C80": {"status": "partial", "note": "C80_holder_moves_partial: strangers hold up a transfer only by naming that very token five times in 60 ms. C80_violated: one refused message does that on every collection; C80_collection_violated: one refused message blocks everybody's collection approvals and revocations; C80_growth_violated: the limiter keeps an entry for any id anybody names."},
"C81": {"status": "partial", "note": "C81_minted_partial assumes that the ledger refused no earlier mint or metadata update (else C35_violated_reused); C81_failed, C81_succeeds in full. C81_violated_lost: if the reply is lost, the error is reported although the token was minted, and running the command again mints a second one."},
"C82": {"status": "partial", "note": "C82_grant, C82_revoke, C82_accepted, C82_has in full; C82_list_partial for principals the collection has an entry for (and the exact shape of the output); C82_violated_unknown: for others list reports an error instead of no permissions."},
"C83": {"status": "partial", "note": "C83_published_partial excludes that somebody finishes an upload to the same path without its slash (C51_violated_*). What the storage canister holds is outside the model; SHA-256, serde_json and Url::parse are parameters."},
"C84": {"status": "proved", "note": "The announced lists are constants of the code; that no record of any history has another type is C72_announced, that each type occurs is witnessed."},
"C85": {"status": "proved", "note": "The texts of the messages are part of the specification (Spec.MetadataFault); C54 says that exactly the well-formed documents are accepted."},
"C86": {"status": "partial", "note": "When the library stores the root of its tree is left open (an event that may happen at any time). C86_violated_exclusive: the two never verify together; C86_violated_pages, C86_violated_tip: each write spoils the other until the next write of the same kind. Partial theorems: redirections verify as long as the library writes nothing; a certified tip verifies until the next block or finalized upload."},
"C87": {"status": "proved", "note": "The model is refined to single attempts of single requests (Model/Traffic); every summary used elsewhere comes from such attempts (answer_onto). retry_async is an external function, taken to repeat until answered and at most the given number of times. C87_file assumes that nobody asks to cancel the upload meanwhile and that a new canister has a new name; C87_room that reported sizes are below 2^127."},
"C88": {"status": "proved", "note": "The rules are those the code follows. C88_standard_rules_differ proves that reading the log by the rules of ICRC-37 gives wrong answers both ways (causes: C15, C21). C88_clock shows why the time bound is needed."},
"C89": {"status": "proved", "note": "C89_traps_only is the list, the _iff theorems the exact conditions. Queries are not part of the claim (C28). Out-of-memory and instruction-limit traps are not modelled."},
"C90": {"status": "partial", "note": "Owner, approvals and rate limit: in full (C90_untouched). Answers: in full for transfers and token approvals and revocations, over whole interleaved histories (C90_same_answer_partial); for icrc37_transfer_from only if the other messages leave collection approvals alone, and for burn_nft only if no management call is under way, both limits being real (C90_violated_transfer_from, C90_violated_burn)."},
"C91": {"status": "partial", "note": "C91_versions_partial and C91_last_partial for histories in which the ledger refuses no update of the token; otherwise the chain breaks (C91_violated_refused). Mint records carry no metadata (C91_violated_mint), so the log alone gives the original metadata only of tokens that were updated."},
"C92": {"status": "proved", "note": "C92_call and C92_history: every message of every history is simulated by the small ledger of Spec/Book.lean, tied to its reply item by item. An archive that recognises repeated transfers may answer one with the number of the first; then nothing is done (the rule `repeated`). C92_observer is for archives that repeat nothing."},
"C93": {"status": "partial", "note": "Proved with the announced number read as nanoseconds (C93_wait_partial); the text says milliseconds, so callers are told to wait a million times too long (C93_violated_unit). Times at which calls are executed do not decrease, as on the Internet Computer."},
"C94": {"status": "partial", "note": "The clean-up never drops anything: the walk's shared borrow of the cache is still alive when the first block is to be removed, so `borrow_mut` panics and the message is undone (C94_violated, for every state with a block to drop; C94_violated_forever: a cached block stays cached for ever). What holds is C94_clean_partial."},
"C95": {"status": "proved", "note": "Maps nested inside a value are taken as they are given; candid decoding has put them in order before the code runs."},
"C96": {"status": "proved", "note": "That runs go well again and again is a hypothesis; any other run may be lost, as in the example beside the theorem, where every other run is. Without overlap of the job with itself (see C43). The block format of the external ICRC-3 library enters as in C72/C73 (`Source`)."},
"C97": {"status": "proved", "note": "Calls by spenders are left out: using one approval removes others (C21, C90_violated_transfer_from), so their order matters across tokens."},
"C98": {"status": "partial", "note": "Full for histories in which the ledger cuts no mint short (`C98_justified_uncut_partial`). `C98_violated`: a mint cut short by the ledger leaves records of tokens that were not created, and the next mint records the same ids again; every other record is justified in all histories."},
"C99": {"status": "partial", "note": "Full if the window and the permitted drift stay small against the window configured at the installation and, for icrc7_transfer, the token is held by the same account again (`C99_log_partial`, `C99_configured_partial`, and two theorems per method: a request that is in the log already, and two copies of a request with anything in between). The ledger is any ledger that recognises repeated transactions for the time it is told (`Recognises`, the assumption on the external library). `C99_violated_default`: without a configured window the library is told 0 while creation times of up to ten seconds ago are accepted; `C99_violated_raised`: raising the window with `update_collection_metadata` does not reach the library; `C99_violated_account`: `from_subaccount` is not part of the recorded request, so a token that came back to another account of the caller is taken from there."}
}
