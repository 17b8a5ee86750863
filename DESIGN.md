# Formal model of ORIGYN-SA/nft in Lean 4

The code under study is in `/repo`: the NFT canister (`src/core_nft`, ICRC-7 /
ICRC-37 / ICRC-3 / ICRC-10 / ICRC-21), its index canister (`src/index_icrc7`)
and the command-line client (`cmdline`).  This directory holds a Lean 4 model
of that code and theorems about the model.

## 1. Layout

| module | content |
| --- | --- |
| `Verif/Prelude/*` | finite maps as association lists with a Rust-style key equality, list lemmas; no repo content |
| `Verif/Model/*` | the model; every definition cites the file and lines it models |
| `Verif/Spec/*` | small independent specifications used to *state* properties (log replay, sliding-window bound, page chains, …) |
| `Verif/Lemmas/*` | helper lemmas, not claims |
| `Verif/Props/*` | the property theorems `Cxx_…`, each with an `example` beside it that meets its hypotheses |
| `Verif/Conformance/*` | the repository's own tests, run on the model: evidence for the reading of the source, no part of any proof |
| `/verif/seeded/*` | wrong programs: `mutants.py` are the edits, `LOG.jsonl` what each one broke (lines with `built` rebuilt only the modules named there), `AUTO.jsonl` the outcome of generated edits of every definition (`tools/automut.py`, an earlier state of the model), with the proof that broke first |

## 2. Modelling decisions

* **Messages.** An IC update message runs atomically between awaits and a trap
  (Rust panic, `panic = "abort"`) rolls back everything the message did.  A
  model function that can panic returns `Option`; the dispatcher turns `none`
  into "state unchanged, reply trapped".  Methods that await a storage canister
  are split at the await: a start segment that leaves a *suspended call* in the
  state and a resume segment that takes the external answer as an argument.
  A history is a list of `Msg`; resumptions are messages, so all interleavings
  are histories.
* **Release arithmetic.** The release profile does not enable overflow checks,
  so `u64 + u64` wraps; the model has `u64add` with wrap-around.  `usize` is
  32 bits wide (wasm32), `candid::Nat` is unbounded.
* **Accounts.** `icrc_ledger_types::Account` compares and hashes by owner and
  *effective* subaccount (`None` is the all-zero subaccount).  The model has a
  Rust-style `==` (`BEq`) for that and structural `=` besides.  Maps keyed by
  accounts use `==`, and like `HashMap::insert` keep the old key on overwrite.
* **HashMap iteration order** is unspecified.  Where it is observable
  (approval listings, upload listing) the theorems quantify over every
  permutation of the entries.
* **ICRC-3 ledger.** `bity_ic_icrc3` is an external crate whose source is not
  available.  It is a parameter: an arbitrary hidden state and an arbitrary
  function answering each submitted transaction with `Ok(index)` or an error.
  The model records the accepted transactions in `log`.  Everything proved
  holds for every such ledger; theorems that need the index to be the position
  in the log say so as a hypothesis.
* **Storage canisters, the block source of the indexer, time and caller** are
  arguments of the messages (arbitrary values), never constants.  C87 looks
  below the summary of what storage canisters answer, at each attempt of each
  request; `retry_async` (external) is taken to repeat a request until it is
  answered, at most the given number of times.
* **Serialization.** The hand-written minicbor codecs are modelled at byte
  level (CBOR heads included).  Elsewhere maps in stable memory are modelled by
  their content; the round-trip theorems are what justifies that.
* **Strings** in error messages are kept only where a program branches on them.

## 3. Trusted base

* Lean 4.33.0's kernel, and for each theorem at most the axioms `propext`,
  `Classical.choice`, `Quot.sound` (section 6 lists them as printed by
  `#print axioms`).  No `sorry`, no own axioms, no `native_decide`/`bv_decide`.
* The reading of the Rust source into the model definitions (by hand, cited).
  `Verif/Conformance` checks it against the repository's tests: 31 tests of
  `test_icrc7.rs`, 2 of `test_icrc3.rs`, 22 of `test_icrc37.rs`, 19 of `test_management.rs`, the 10 of
  `test_index.rs` and the unit tests of `blocks.rs`, `value_custom.rs` and
  `wrapped_values.rs` give on the model what they assert (these tests could not
  be run on the program here).  The repository's tests even pin two of the
  disagreements of section 5: `test_icrc37_approvals_reset_after_transfer`
  expects the previous owner's collection approvals to be gone (C21), and
  `test_get_blocks_descending_order_with_limit` computes its expectation for the
  "next" page so that it equals the first page (C44).
* The semantics of the IC used above (atomic messages, rollback on trap, state
  kept across await, dropped futures run `Drop`).
* External crates, as described in section 2: `icrc_ledger_types` (account
  equality), `candid` (argument decoding yields well-typed values),
  `ic_stable_structures` (a map ordered by `Ord` of the key), `minicbor`'s
  primitive heads (modelled at byte level from RFC 8949), `bity_ic_*` (ledger,
  sub-canister manager, storage client, serializer: parameters).

* Web certification: the certified tree is modelled as the set of paths and
  answers it holds, and a proof as accepted exactly if the root in certified
  data is that of a tree holding the path with the answer (hashes taken to be
  collision free); certified data survive upgrades.  C69 takes only this canister's
  own code to write certified data; C86 is about the ICRC-3 library writing them too.
* The block format produced by `bity_ic_icrc3` (theorems C72, C73): stated as
  the hypothesis `Spec.Publishes`.

Not modelled: candid (de)serialization, hashing inside the asset tree,
tracing and logging, cycles and canister creation internals (parameters), the
network layer of the client (every call may fail or be answered; which is a
parameter).  In the client, the printing of doubles, base64,
SHA-256, `Principal::from_text` and `Url::parse` are parameters of the
theorems.

## 4. Properties: plan

"History" means a list of messages applied from an arbitrary successful
installation.  `reachable` = obtained by some history.

| id | modelled | proof |
| --- | --- | --- |
| C01 | tokens table, per-owner lists, queries | invariant over histories (each table row carries its own id, keys distinct); listing = filter of the table |
| C02 | per-owner lists | invariant without burn (`_partial`); **violated** after a burn: witness |
| C03 | total_supply, all messages | per-message effect lemma, case analysis over all messages |
| C04 | mint, last id counter | invariant "every id ever created < counter", monotone counter |
| C05 | mint | refusal and bound as invariant while the cap is not lowered |
| C06 | transfer_nft, icrc7_transfer | batch induction; per-item authority |
| C07 | transfer_from | per-item decision theorem against an independent `Authorised` spec; batch induction |
| C08 | all messages | one theorem over the dispatcher |
| C09 | burn_nft | per-call theorem; finality by invariant with C04 |
| C10 | all item functions | error-path theorems per function |
| C11 | transfer_nft, transfer_from | effect theorems under the C01/C02 invariants |
| C12 | ledger log | append-only for all messages; replay equals owners for histories whose mints are not cut short by the ledger (`_partial`); **violated** otherwise: witness |
| C13 | transfer_nft | decision theorem |
| C14 | icrc7_transfer, transfer_from | full for icrc7_transfer (`_partial`); **violated** for transfer_from to an anonymous subaccount: witness |
| C15 | approvals across transfers | **violated** for icrc7_transfer: witness of theft after sale; `_partial`: holds for transfer_from |
| C16 | transfer_from | decision theorem against spec |
| C17 | revoke, all continuations | invariant over continuations: no approval entry for the pair |
| C18 | all messages | dispatcher case analysis |
| C19 | all messages | dispatcher case analysis |
| C20 | approve_token/collection | invariant over histories; the maximum is positive and constant |
| C21 | transfer_from | token approvals of others: proved (`_partial`); **violated** for collection approvals of the previous owner: witness |
| C22 | is_approved | **violated** in both directions: witnesses; `_partial`: token-approval part agrees; what a true answer means in every state |
| C23 | timing checks | decision theorems with no-wrap hypothesis |
| C24 | guard_sliding_window | invariant over call sequences; independent counting spec |
| C25 | batch entry points | induction: replies = items threaded one by one (spec `runSeq`) |
| C26 | icrc7_transfer | **violated**: witness; `_partial`: single-item batches and refusal of oversized ones |
| C27 | tokens, tokens_of | page-chain theorem by induction on remaining ids |
| C28 | query functions | decision theorems for limits below 2^32 (`_partial`), witness beyond |
| C29 | guards | one theorem per guarded method over all states |
| C30 | all messages | dispatcher case analysis |
| C31 | permission table | decision theorems over all tables |
| C32 | GuardManagement, suspended calls | invariant guard set = suspended calls; **violated** when an upgrade happens while a call is suspended: witness (`_partial` for histories without that) |
| C33 | upload calls | per-message transition theorem, all interleavings |
| C34 | mint | ownership and supply all-or-nothing (`_partial`); **violated** for log and metadata on a ledger refusal: witness |
| C35 | metadata | last-write theorem (`_partial`: refused updates by the ledger and ids reused after failed mints excluded); **violated** otherwise: witnesses |
| C36 | CustomValue codec | structural induction, byte level |
| C37 | other codecs | round trips at byte level |
| C38 | pre/post upgrade | all query answers equal; serializer round trip is an assumption |
| C39 | init | **violated** for two swapped arguments: witness; `_partial` for the rest |
| C40 | update_collection_metadata | field-wise theorem |
| C41 | check_memo | decision theorem, entry-point corollaries; limits of 2^32 and more **violated**: witness |
| C42 | add_block_to_index | fold theorem; **violated** (37xfer not indexed by token, repeated accounts): witnesses; `_partial`; `C42_exact` without condition |
| C43 | update_index | sequential runs (`_partial`); **violated** when runs overlap: witness |
| C44 | get_blocks | intersection and paging theorems; descending paging **violated**: witness |
| C45 | get_all_blocks, grouping | theorems for every cache consistent with the ledger; ranges running past 2^64 **violated**: `_partial` |
| C46 | consent messages | decision theorems; empty batch traps: witness |
| C47 | revoke_collection_approvals | **violated** for subaccounts: witness; `_partial` for the default subaccount |
| C48 | approval listings | theorems over every iteration order |
| C49 | garbage collector | **violated** (inverted comparison): witness; what the code does is proved as `_partial` |
| C50 | storage selection | induction over the canister list and answers; wrap-around **violated**: witness |
| C51 | finalize_upload, http routing | state theorem |
| C52 | client chunking | induction (`_partial`: full reads); short reads **violated**: witness |
| C53 | labels | case analysis; all strings |
| C54 | metadata validation | decision theorem against an independent predicate |
| C55 | transfer_nft, icrc7_transfer | full decision chain of one item, then the accepted branch |
| C56 | transfer_from, its authorisation check | full decision chain of one item, then the accepted branch; uses the reachable-state invariant |
| C57 | approve_token, approve_collection | same, for the two approval methods |
| C58 | icrc37_get_collection_approvals | **violated**: rows carry the spender's subaccount; `_partial` when both coincide |
| C59 | icrc7_collection_metadata, scalar queries | membership and order of the listed pairs |
| C60 | mint | equivalence between acceptance and the documented conditions |
| C61 | update_nft_metadata | the appended transaction is computed and compared with the two query answers |
| C62 | metadata entries on the command line | list induction over the split; digit strings by the library's repr lemmas; witnesses for the failing part |
| C63 | every error value of the nine token and management methods | case analysis along each method against one predicate per method (Spec/Errors) that reads the error as a fact about the state |
| C64 | ledger log, all messages | the appended records of a batch are computed from the accepted items, by induction over the batch; every other message leaves the log alone |
| C65 | approve and revoke methods, approval tables | exact effect on both tables per accepted item, by batch induction for revocations; **violated** for the creation time |
| C66 | revoke methods | decision theorem: which calls are sure to be accepted |
| C67 | administrative queries | decision theorems; pages of `get_all_uploads` over every walk order |
| C68 | answers of storage canisters to the three upload methods | case analysis over the answers; the error values passed on are listed in the specification |
| C69 | http_request, certify_all_assets, add_redirection, init, post_upgrade: certified tree and root | invariant over histories of uploads and upgrades (`_partial`); **violated** for /logs and after upgrades: witnesses |
| C70 | metrics page, guarded queries | non-interference theorems (`_partial`); **violated** by the metrics page: witness |
| C71 | Data::new, storage init arguments | the list is constant (`_partial`); **violated** after grants, revocations and in test mode: witnesses |
| C72 | announced block types, record shapes, indexing loop | invariant on the shape of all records, composed with the index model |
| C73 | collection records seen through the index | C42 composed with the record invariant (`_partial`); **violated** for 37xfer under its token: witness |
| C74 | handle_create_metadata, f64 syntax, create/validate metadata | grammar of decimal numbers proved equivalent to the parser; list induction (`_partial`); **violated** for colons, dropped and infinite values: witnesses |
| C75 | upload_file driving the collection model, with arbitrary other messages between the calls | induction over the calls sent, reachability of every state passed (`_partial`); **violated** by unread replies and for empty files: witnesses |
| C76 | prompts.rs and the two dialogues over a list of input lines | induction over a grammar of answers (`_partial`); **violated** at the end of input: witness |
| C77 | handle_mint, hex decoding, mint_nft | hex text characterised exactly; case analysis (`_partial`); **violated** for the name and ignored entries: witnesses |
| C78 | all methods, from the caller's lack of standing | case analysis of every method; induction over the history; query answers compared |
| C79 | grant, revoke, init | induction over histories with `perms` as invariant; C30 for the only way to lose it (`_partial`); **violated** by the last authority revoking itself: witness |
| C80 | limiter tables under strangers' calls | sublist bound on remembered calls, then C55 (`_partial`); **violated** on every collection by five refused items: general construction; growth by induction on n |
| C81 | handle_mint and mint_nft run against the collection, replies may be lost | C34, C35, C60 and C77 composed (`_partial`); **violated** when the reply is lost: witness |
| C82 | handle_permissions run against the collection | C31, C53 and C67 composed (`_partial`); **violated** for principals without entry: witness |
| C83 | handle_upload_metadata run against the collection | C75, C33 and C51 composed; path arithmetic on strings (`_partial`) |
| C84 | icrc10_supported_standards, supported_blocks | list equalities; C72_announced and a history with every kind of record |
| C85 | validate_icrc97_metadata | each refusal message against an inductive list of faults with their texts; a fault excludes acceptance |
| C86 | certified data: writes by add_redirection, certify_all_assets, post_upgrade, and by the library at any time | induction over event lists (`_partial`); **violated**: both write the same datum |
| C87 | types/sub_canister.rs request by request, retry_async, the upload command on top | unfolding of the search (`C87_placed`, `C87_room`), reachable invariant on suspended calls (`C87_forwarded`), induction over the chunks with interleaved messages (`C87_file`) |
| C88 | the approval tables and the log | each elementary effect changes table and log together: invariant `TokAudit`/`CollAudit` over `Micro`, list lemma on the last word of a log (`lastWord_snoc`) |
| C89 | all update methods, `Option` results | panics of items are characterised (`transferNft_none` and others), lifted over batches by an invariant of the intermediate states (`runBatch_none`); approvals are only ever stored under 64-bit ids (`Reachable.apprKeys`) |
| C90 | messages, `step`, the rate limiter | agreement of two states about one token (`LocalRel`) is kept by every message elsewhere (`step_elsewhere`, over micro-steps) and makes calls about the token alone answer alike (`step_local`, item by item); lifted to interleavings by induction (`run_amid`) |
| C91 | `update_nft_metadata`, records | one message either keeps versions and shown metadata or appends the pair (before, after) (`step_leads`, from C61 and C35); induction over the history; ids above the counter have no versions (`fresh_versions`) |
| C92 | all update methods, `init`, upgrades, callbacks | refinement by the machine of `Spec/Book.lean`: each item's outcome (`item_transfer`, `item_transferFrom`, …) is an operation on the book, batches by induction, histories by induction over messages; the observer's claim by showing the machine deterministic up to approvals that have ended |
| C93 | the text of `guard_sliding_window`'s refusal (`Model/Retry.lean`) | a full history keeps its five entries while its first one is remembered, by induction over the messages in between; that the entries are ordered, from C24's lemmas; the unit by a witness |
| C94 | `remove_all_values_older_than`, with Rust's rule for temporaries | case analysis on the walk; that blocks stay cached, by induction over messages |
| C95 | rows as ordered maps listed by key | sorting lemmas; two strictly ascending lists with the same members are equal; the log by induction over messages |
| C96 | infinite schedules in which some run of the job goes well again and again; the suspended fetch ranked by what it still waits for | every good answer lowers the rank, so runs end; a completed run passes 100 blocks or the tip (C43); induction on the distance; stored and recorded metadata in range by induction over messages |
| C97 | histories as lists of calls tagged with their token | each schedule agrees on a token with the queue of the calls about it (C90's local relation); balances by the members of the owner lists |
| C98 | each record judged by the prefix of the log before it, with the holder by replay (C12) and the approvals as logged (C88) | one invariant for owners, approvals and log, by induction over the effects of messages; begin and end of a token follow from the log alone; times by induction over histories |
| C99 | the ledger as a history of accepted and refused transactions; what the library is told at the installation (Model/Dedup); any ledger that recognises repetitions for that long | every message asks the ledger for transactions one after the other and logs exactly the accepted ones, by cases over all methods; creation times near record times by induction over effects; repeated requests would have to be further apart than their common creation time allows |
| C100 | `Args` of both canisters, what is set from them beside the state (Model/Lifecycle) | case analysis; the state after a list of events is that after the corresponding messages, by induction; the version announced by induction over the upgrades; **violated** for storage canisters created after an upgrade: witness (`_partial` before) |
| C101 | `init`'s checks, `update_collection_metadata` | invariant over micro-steps with `applyUpdate` field by field (`_partial`); **violated** for logo and window: witnesses |
| C102 | all update methods as messages; the accounts their arguments name (Spec/Named) | from the complete lists of what changes owners and approvals (C08, C18, C19), batches of delegated transfers by induction over their items (`_partial`); **violated** for `icrc7_transfer` and `icrc37_revoke_collection_approvals`: witnesses |
| C103 | all update methods, the log, `icrc37_is_approved` | the records a message adds: induction over the items of a transfer, outcomes of a mint, micro-steps for the rest (`_partial`); **violated** for the methods of ICRC-37: witnesses |
| C104 | `consent`, the call a request asks for (Spec/Consent `asksFor`), `step` for the effects | from C46; cancellation of the common text (`_partial`); **violated** for every pair of one-item calls of a method: proved for all of them, and with two different effects as witness |
| C105 | `step`, owners and approvals of every reachable state | induction over the continuation from C08, C18 and C19; the approvals on record only become fewer |
| C106 | a renaming of all of `State`, `Msg`, `Env` (Spec/Change.lean, Spec/Renaming.lean) | every function commutes with the renaming; induction over the messages |
| C107 | `Change` generalises the renaming of C106 to spellings; `plain` leaves out zero subaccounts (Spec/Change.lean, Spec/Spelling.lean) | every function commutes with the change; two spellings have the same plain form |
| C108 | `mint`, `step` | what an accepted mint does in closed form; induction over the requests, in both directions |
| C109 | `step`, `run`, time checks, rate limiter, approvals, uploads | simulation: moving dates (Spec/Later) commutes with every function of the model; the settings stay below the bound along the history |
| C110 | `step`, `run`, all queries, `gcCancels` | relation "same rows in another order" (Spec/Rearranged) kept by every function of the model; also the reason why association lists may stand for hash tables |
| C111 | `step`, `run`, `init`, all queries | rewording (Spec/Words) commutes with every function of the model; wiping out all words gives independence for each occurrence |
| C112 | `upgrade`, `step`, `run` | router = saved redirections is an invariant, so an idle upgrade is the identity up to the order of tables; then C110's relation |
| C113 | the six ICRC-7/37 updates, upload methods, `resume`, `upgrade`, `grant`, `revoke` | wiping out the background commutes with trades; background messages do not change what remains |
| C114 | `Micro` effects, owner index, approval tables, limiter table | row counts against counts of log entries as an invariant; five-call bound by induction over `windowStep` |
| C115 | all update methods, `applyUpdate`, `step`, `run` | blanking the shown settings commutes with every message |
| C116 | `step` with suspended calls, `resume`, `resumeTrap`, `upgrade` | trades commute with the lock and the waiting call; what makes a call wait is left alone by trades; everything else is refused while a call waits; induction over the history |
| C117 | `execCall`, every method body, `grantPermission`, `revokePermission` | replacing the table of permissions commutes with every method body; grants and withdrawals act on both tables alike |
| C118 | `guardWindow` in every method that uses it, `step` | replacing the table of remembered calls by one that agrees on the calls still counted is kept by every message at a later time; calls at least 60 ms old never count; with C78 for the calls of strangers |
| C119 | `transferTiming`, `verifyTiming`, `checkMemo`, `maxApprovals`, `maxRevoke`, `icrc7Transfer`, `mint`, every batch method, `step` | an item done under the smaller limits is done with the same effect under the larger ones; batches by induction; a batch done in full was not cut; methods without limits commute with replacing the settings |
| C120 | `checkTokenApproval`, `checkCollApproval`, `transferFrom`, `revokeToken`, `revokeCollection`, `step` | looking up approvals, and dropping expired ones on the way, is monotone in the tables; batches by induction; every other method commutes with replacing the tables of approvals; by induction on the history |
| C121 | `initUpload`, `storeChunk`, `finalizeUpload`, `cancelUpload`, `resumeBody`, `upgrade`, `step` | calls that are not about a file commute with replacing the upload table, storage canisters and redirections; the two halves of an upload call depend on the entry of its file only, as its storage canister is listed and installed in every reachable state; a call about another file changes those tables only; by induction on the sequence |
| C122 | a renumbering of `State`, `Msg`, `Reply`, `Env` (Spec/Renumber.lean) | every function commutes with the renumbering, minting because the numbers it gives out stay; the next number never falls; by induction over the messages |
| C123 | two histories of `ixStep` over one chain | both indexes list the blocks below their status (C43), so entries are determined by chain and status; answers by C45's invariant of the fetch, a sorted list of genuine blocks being determined by its ids |
| C124 | histories with marked messages, the others refused | each method's error paths leave all but the limiter's table (and a ledger that forgets refusals) alone; then the simulation of C118 between histories that differ in forgotten windows |
| C125 | two arbitrary installations, ledgers and histories; the log and the queries | owners are the replayed log (C12), listings and counts are functions of the owners up to order and the order is sorted away, balances add the burns of the log (C02), approvals are the last words of the log (C88), shown metadata the last version (C91) |
| C126 | a reachable state, an accepted call, upgrades and answers, the accepted call that undoes it | both replies are inverted with the book of C92, in which the second update cancels the first; upgrades and answers leave the book alone |

No property is left out as inexpressible.

## 5. Disagreements between the code and the properties

Each row is a theorem about the model (a concrete witness or a general negation).
"Reached" says what it takes to get there.

| property | theorem | what the code does | reached |
| --- | --- | --- | --- |
| C02 | `C02_violated` | `burn_nft` leaves the id in the owner's list, so `icrc7_balance_of` still counts it (`updates/management.rs` burn) | any burn |
| C12 | `C12_violated` | a `mint` refused by the ledger in mid-batch leaves mint transactions in the log for tokens that do not exist | ledger refusal |
| C14 | `C14_violated` | `icrc37_transfer_from` only refuses the *default* account of the anonymous principal | `to` with a subaccount |
| C15 | `C15_violated` | `icrc7_transfer` does not clear token approvals: the seller's spender takes the token from the buyer | approve, then sell |
| C21 | `C21_violated` | an accepted `transfer_from` deletes **all** collection approvals of `from` | any delegated transfer |
| C22 | `C22_violated_denied`, `C22_violated_confirmed`, `C22_violated_burned` | `icrc37_is_approved` looks collection approvals up under the spender instead of the owner: a spender approved by the owner is denied, and one who approved itself is confirmed for other people's tokens; a spender of a token burned since is confirmed | collection approvals |
| C25 | `C25_empty_revoke_violated` | an empty `icrc37_revoke_token_approvals` batch traps (indexing `args[0]`) | empty batch |
| C26 | `C26_violated` | `icrc7_atomic_batch_transfers = true` is announced but items are executed one by one | a batch whose second item fails |
| C28 | `C28_violated_wide` | a query limit that does not fit `usize` is replaced by 100 | limit ≥ 2^32 |
| C32 | `C32_violated` | the "one management call" guard is saved by an upgrade; if a call is suspended then, nobody can manage the collection any more | upgrade while an upload call waits |
| C34 | `C34_violated` | see C12; metadata rows are left behind too | ledger refusal |
| C35 | `C35_violated_refused`, `C35_violated_reused` | `update_nft_metadata` writes before asking the ledger; an id handed out again after a cut mint shows the old metadata | ledger refusal |
| C39 | `C39_violated` | `permitted_drift` and `max_canister_storage_threshold` are swapped (`lifecycle/init.rs`, call of the state constructor) | any installation that sets either |
| C41 | `C41_violated_wide` | a memo limit that does not fit `usize` makes every memo trap | limit ≥ 2^32 |
| C42 | `C42_violated_token`, `C42_violated_repeat`, `C42_violated_spender` | delegated transfers (`37xfer`) are not indexed by token; an account named twice in a block is listed twice; the spender of a collection approval is not listed | ordinary blocks |
| C43 | `C43_violated_overlap`, `C43_stuck` | overlapping runs of the job index a block twice; a block of unknown type stops the index for good | slow ledger; new block type |
| C44 | `C44_violated_start`, `_order`, `_trap`, `_truncated`, `_repeat` | unfiltered descending queries ignore `start`; descending pages are not in order across pages; large lengths trap or are cut to zero; repeated entries are returned twice | see theorems |
| C46 | `C46_violated_empty`, `_several`, `_revoke`, `_none` | an empty `icrc37_approve_collection` traps; the collection methods show the first of several items; an empty batch is described as one item | see theorems |
| C47 | `C47_violated`, `C47_subaccount_stuck` | collection approvals are revoked from the default account of the caller only | approval granted from a subaccount |
| C48 | `C48_violated` | rows with the same creation time are ordered by the hash map; a page may skip one | two approvals in one call |
| C49 | `C49_violated_stale`, `C49_violated_fresh` | the garbage collector's comparison is inverted and its day is 86.4 ms long: old uploads stay, fresh and finalized ones are cancelled | any time |
| C50 | `C50_violated_wrap` | the 128-bit sum of used and requested bytes wraps | a storage canister reporting almost 2^128 bytes |
| C51 | `C51_violated_reserved`, `C51_violated_shared` | `/logs`, `/traces`, `/metrics` are answered before redirections; two upload paths can map to one served path | such paths |
| C52 | `C52_violated_short` | the number of reads is fixed beforehand; a short `read` loses the end of the file | operating system |
| C58 | `C58_violated` | `icrc37_get_collection_approvals` reports the spender's subaccount as `from_subaccount` | subaccounts |
| C62 | `C62_violated_colon`, `C62_violated_dropped` | the client cuts a value at its first colon (addresses become `https`) and drops entries without a colon | `--metadata image:https://…` |
| C63 | `C63_violated`, `C63_duplicate_violated` | a caller who does not own the token is told `InvalidRecipient` (`updates/icrc7.rs`); a duplicate `icrc37_transfer_from` is answered with the constant `duplicate_of: 2` (`updates/icrc37.rs` 795-798) | see theorems |
| C65 | `C65_violated` | an approval's `created_at_time` is replaced by the time of the call when the approval is stored and listed (`updates/icrc37.rs` 139-145, 292-298); the record in the log keeps the given time | see theorem |
| C69 | `C69_violated_logs`, `C69_violated_upgrade` | /logs and /traces are answered with the witness of /metrics (and `/trace` is registered instead of `/traces`); after an upgrade the pages are certified no more | gateways reject these answers |
| C70 | `C70_violated` | the metrics page, public, prints the permission table | anybody reads who holds which permission, although the methods are guarded |
| C71 | `C71_violated_granted`, `C71_violated_revoked`, `C71_violated_test_mode` | storage canisters are installed with the authorities named at the collection's installation | a new authority is refused by the storage canister, a dismissed one still obeyed |
| C73 | `C73_violated` | the index does not read the token of a 37xfer record | asking the index for a token misses every transfer by a spender |
| C74 | `C74_violated_colon`, `C74_violated_dropped`, `C74_violated_null` | arguments are split at every colon, arguments without colon skipped, `inf` and `nan` parsed as doubles and printed as `null` | `--attribute site:https://a.b` writes `https`; silent loss of attributes |
| C75 | `C75_violated_refused`, `C75_violated_empty` | replies to init_upload and store_chunk are not decoded | a refused chunk is noticed only at the end, after sending the whole file; empty files fail |
| C76 | `C76_violated_end` | `prompt_bool` loops on end of input | piping answers into the client can hang it |
| C77 | `C77_violated_name`, `C77_violated_ignored` | `_token_name` is unused; the metadata sources exclude one another silently | tokens are minted without the required name, or without some of the metadata |
| C79 | `C79_violated`, `C79_unmanaged_install` | `revoke_permission` does not ask whether anybody is left; `init` accepts an empty permission table | the collection can never be administered again except by its controllers |
| C80 | `C80_violated`, `C80_collection_violated`, `C80_growth_violated` | the limiter is keyed by token id, charged before the caller is checked, and never drops ids | anybody can hold up a token, all collection approvals (bucket 0), and fill memory |
| C81 | `C81_violated_lost` | mint has no created-at or deduplication | a retry after a lost reply mints twice |
| C82 | `C82_violated_unknown` | `get_user_permissions` answers `UserNotFound` for principals without an entry, and an empty list for those whose permissions were revoked | `permissions list` fails where it should print that there are none |
| C86 | `C86_violated_exclusive`, `C86_violated_pages`, `C86_violated_tip` | the page tree and the ICRC-3 tip are certified through the same datum, each write replacing the other's root | after an upload is finalized the tip certificate does not verify, after the tip is certified no page does |
| C88 | `C88_standard_rules_differ` | An auditor who reads approvals off the log by the rules of ICRC-37 is wrong both ways: a `7xfer` record does not end token approvals, and a `37xfer` record ends all collection approvals of the account it came from. Proved in `C88_standard_rules_differ`. | see the text |
| C89 | `C89_transfer_iff`, `C89_revoke_iff`, `C89_mint_iff` | Settings outside a machine word are accepted by `update_collection_metadata` and then make transfers and mints trap (a batch limit of 2^32 stops every `icrc7_transfer`); `icrc37_revoke_token_approvals` traps on an empty batch where the other methods answer with an empty list. Proved in `C89_transfer_iff`, `C89_revoke_iff`, `C89_mint_iff`. | see the text |
| C90 | `C90_violated_transfer_from`, `C90_violated_burn` | A spender's call about one token depends on what other spenders did with other tokens: an accepted `icrc37_transfer_from` of token 2 removes the owner's collection approvals (C21), so another spender's call for token 1 is refused. `burn_nft` is refused while anybody's upload call waits for a storage canister. Proved in `C90_violated_transfer_from` and `C90_violated_burn`. | see the text |
| C91 | `C91_violated_mint`, `C91_violated_refused` | The record of a mint does not contain the metadata, so an observer of the log cannot tell what a token was minted with. After an update the ledger refused, the next recorded version begins with metadata no record introduced. Proved in `C91_violated_mint` and `C91_violated_refused`. | see the text |
| C93 | `C93_violated_unit` | The rate limiter announces a number of nanoseconds as milliseconds (`guards.rs` 62-66): a caller who has to wait 50 ms is told to wait 50000000 milliseconds. Proved in `C93_violated_unit`. | see the text |
| C94 | `C94_violated`, `C94_violated_forever` | `remove_all_values_older_than` (`index_icrc7/src/cache.rs` 71-80) calls `borrow_mut` while the `Ref` of the same statement is alive: the daily clean-up traps whenever there is something to remove, and the cache only grows. Proved in `C94_violated` and `C94_violated_forever`. | see the text |
| C98 | `C98_violated` | A mint the ledger cuts short leaves mint records of ids that were not created; the next mint records the same ids again, for other owners. Proved in `C98_violated`. | see the text |
| C99 | `C99_violated_default` | Without a configured transaction window the ICRC-3 library is told to recognise repeated transactions for 0 ns, while creation times up to 10 s old are accepted (lifecycle/init.rs 107-110): a repeated transfer moves the token again. Proved in `C99_violated_default`. | see the text |
| C99 | `C99_violated_raised` | Raising the window with `update_collection_metadata` does not reach the ICRC-3 library; repeated requests are then executed again. Proved in `C99_violated_raised`. | see the text |
| C99 | `C99_violated_account` | The account a token is taken from is the one that holds it, not the one the caller names (`from_subaccount` is not read): a repeated transfer takes the token from another account of the caller. Proved in `C99_violated_account`. | see the text |
| C39 | `C39_violated_metadata` | The installation argument `collection_metadata` is not read (lifecycle/init.rs 42): nothing shows it. Proved in `C39_violated_metadata`. | see the text |
| C40 | `C40_violated` | The field `collection_metadata` of `update_collection_metadata` is accepted and ignored (types/management.rs 109; updates/management.rs 36-120). Proved in `C40_violated`. | see the text |
| C50 | `C50_threshold_ignored`, `C50_violated_threshold` | The setting `max_canister_storage_threshold` is stored and read by nothing; storage canisters are filled up to 500 GiB whatever it says. Proved in `C50_threshold_ignored` and `C50_violated_threshold`. | see the text |
| C100 | `C100_violated_storage` | Storage canisters created after an upgrade are installed with the version and commit hash of the first installation, as the arguments kept in the sub-canister manager are never renewed (state.rs 124-137, lifecycle/post_upgrade.rs 49-50). Proved in `C100_violated_storage`. | see the text |
| C101 | `C101_violated_logo`, `C101_violated_window` | `update_collection_metadata` accepts a logo that is not an address and a window of more than 64 bits, both of which an installation refuses; the latter makes every transfer trap. Proved in `C101_violated_logo` and `C101_violated_window`. | see the text |
| C102 | `C102_violated_transfer` | `icrc7_transfer` ignores `from_subaccount` (updates/icrc7.rs 30-35): a request to send a token from one account of the caller is accepted and takes it from another. Proved in `C102_violated_transfer`. | see the text |
| C102 | `C102_violated_revoke` | `icrc37_revoke_collection_approvals` ignores `from_subaccount` (updates/icrc37.rs 584-587): a request to revoke the approvals of one account removes those of the default account. Proved in `C102_violated_revoke`. | see the text |
| C103 | `C103_violated_memo` | The methods of ICRC-37 do not check the size of memos. Proved in `C103_violated_memo`. | see the text |
| C103 | `C103_violated_batch` | `icrc37_approve_tokens`, `icrc37_approve_collection` and `icrc37_transfer_from` execute batches of any size. Proved in `C103_violated_batch`. | see the text |
| C103 | `C103_violated_query` | `icrc37_is_approved` answers lists of any length. Proved in `C103_violated_query`. | see the text |
| C104 | `C104_violated`, `C104_violated_effect` | The details collected for a consent message (token, recipient, spender, memo) are dropped (queries/icrc21.rs 27-40, 49-65): the message is the same whatever token is sent to whomever, and `device_spec` is not read. Proved in `C104_violated` and `C104_violated_effect`. | see the text |
| C45 | `C45_violated_wrap` | the end of a range is computed with wrapping addition: a range that runs to 2^64 or beyond is answered with no block | ranges below 2^64 |
| C107 | `C107_violated` | `icrc37_is_approved` compares the subaccounts of the spender as they are spelled (queries/icrc37.rs 188-191), while all tables compare accounts by effective subaccount. An account that approved itself for the collection is told "approved" in one spelling and "not approved" in the other. `C107_violated`. | see the text |
| C119 | `C119_violated_batch`, `C119_violated_window` | raising a limit can break calls that worked: `update_collection_metadata` stores any number; `icrc7_transfer` converts the batch limit to `usize` with `unwrap`, so 2^32 makes every transfer trap; `verify_approval_timing` adds the time window in 64 bits, so a window of 2^64-1 ns makes an approval made at the present moment too old | an administrator setting a very large limit |
| C123 | `C123_violated` | two overlapping runs of the update job add a block twice (see C43); an index on which this happened answers differently from one that reports the same status | two `update_index` runs in flight at once |
| C124 | `C124_violated_lapsed`, `C124_violated_halfway` | a refused `icrc37_transfer_from` removes an approval that has run out from the listing; a metadata update answered by an error because the ledger refused the record has changed the metadata (see C35) | an approval with an expiry, tried after it; a ledger that refuses |
| C125 | `C125_violated_cut`, `C125_violated_metadata` | the same log is left by a mint of one token and by a mint of three that the ledger cuts short after the first record, but only the first gives the token to anyone; two mints that differ in the metadata leave the same log | ledger refusal; none |
| C126 | `C126_violated_sub`, `C126_violated_repeat` | the owner approves carol for another of their accounts and revokes it, both answered `Ok`, and carol may still move the tokens; with a ledger that takes it for an earlier transfer, sending a token back is answered `Ok` and the token stays | none; ledger |

Observations made while modelling that are not claims of their own: a mint to the
anonymous principal is possible; re-approving a spender is refused when the table is
full; revoking an absent spender answers `Ok`; a non-atomic batch over the maximum is
cut silently; a storage canister created for an upload is leaked if its `init_upload`
fails; `delete_data` of the garbage collector does nothing; the transaction window is
configured in milliseconds but compared in nanoseconds; the collection approval calls
share the rate-limit bucket of token 0; an approval listing resumed after a removed
entry starts again from the top; burning does not remove metadata; the index never
lists accounts by subaccount; the client ignores the replies of `init_upload` and
`store_chunk`, and panics on a chunk size of zero after having opened the upload.

## 6. Axioms per theorem

As printed by `#print axioms` (regenerate with `tools/axioms.py`).

**none** (8 theorems): `C100_index_install`, `C100_install`, `C28_violated_wide`, `C39_config_partial`, `C39_drift`, `C39_violated`, `C52_violated_short`, `C86_violated_exclusive`.

**propext** (14 theorems): `C107_same`, `C111_installed`, `C22_batch`, `C22_complete_partial`, `C37_account_valid`, `C39_accepted`, `C46_quotes`, `C46_violated_empty`, `C46_violated_none`, `C46_violated_revoke`, `C46_violated_several`, `C70_other_pages`, `C70_violated`, `C72_announced`.

**propext, Classical.choice, Quot.sound** (503 theorems): `C01_listed_iff_owned`, `C01_listed_of_iff_owned`, `C01_one_owner`, `C02_balance_partial`, `C02_balance_unburned_partial`, `C02_violated`, `C03_burn`, `C03_mint`, `C03_others`, `C03_supply_counts`, `C04_fresh`, `C04_mint_ids`, `C04_never_again`, `C04_start`, `C05_bound`, `C05_bound_from_init`, `C05_refused`, `C06_holder_only`, `C07_live_authority`, `C08_failed`, `C08_owner_change`, `C09_final`, `C09_owner_only`, `C100_announced`, `C100_history`, `C100_index_history`, `C100_index_wrong_argument`, `C100_storage_partial`, `C100_upgrade`, `C100_violated_storage`, `C100_wrong_argument`, `C101_acceptable_partial`, `C101_violated_logo`, `C101_violated_window`, `C102_named_partial`, `C102_spares_partial`, `C102_violated_revoke`, `C102_violated_transfer`, `C103_batch_partial`, `C103_memo_partial`, `C103_violated_batch`, `C103_violated_memo`, `C103_violated_query`, `C104_same_partial`, `C104_violated`, `C104_violated_effect`, `C105_all_ended`, `C105_kept`, `C105_no_approvals`, `C106_newcomers`, `C106_queries`, `C106_reachable`, `C106_replies`, `C107_answers`, `C107_reachable`, `C107_replies_partial`, `C107_violated`, `C108_singles`, `C108_split`, `C109_answers`, `C109_cleanup`, `C109_later`, `C109_whole`, `C10_approve_collection`, `C10_approve_tokens`, `C10_burn`, `C10_management`, `C10_rejected`, `C10_revoke_collection`, `C10_revoke_tokens`, `C10_revoke_tokens_whole`, `C10_transfer`, `C10_transfer_from`, `C110_cleanup`, `C110_distinct`, `C110_readings`, `C110_rearranged`, `C111_reworded`, `C111_shape`, `C111_shown`, `C112_invisible`, `C112_upgrade`, `C113_background`, `C113_queries`, `C113_trades`, `C114_approvals`, `C114_limiter`, `C114_tokens`, `C114_total`, `C115_change`, `C115_updates`, `C116_histories`, `C116_moment`, `C117_history`, `C117_message`, `C117_others`, `C118_forgets`, `C118_pause`, `C118_strangers`, `C119_roomier_partial`, `C119_violated_batch`, `C119_violated_window`, `C11_transfer`, `C11_transfer_from`, `C120_opens`, `C120_others`, `C121_begin`, `C121_files`, `C122_log`, `C122_queries`, `C122_replies`, `C123_answers_partial`, `C123_entries_partial`, `C123_grows`, `C123_violated`, `C124_call_partial`, `C124_history_partial`, `C124_violated_halfway`, `C124_violated_lapsed`, `C125_holdings_partial`, `C125_metadata_partial`, `C125_movers`, `C125_next_partial`, `C125_uncut_partial`, `C125_violated_cut`, `C125_violated_metadata`, `C126_approval`, `C126_collection_partial`, `C126_permission`, `C126_transfer_partial`, `C126_violated_repeat`, `C126_violated_sub`, `C12_append_only`, `C12_replay_partial`, `C12_replay_uncut_partial`, `C12_violated`, `C13_answer`, `C13_not_moved`, `C14_anonymous_caller`, `C14_transfer`, `C14_transfer_from_partial`, `C14_violated`, `C15_transfer_from_partial`, `C15_transfer_partial`, `C15_violated`, `C16_expired_dropped`, `C16_expired_never_authorise`, `C17_revoked`, `C17_revoked_cannot_move`, `C18_granted_by_owner`, `C18_removed_by_owner`, `C19_granted_by_holder`, `C19_removed`, `C20_collection`, `C20_token`, `C21_unrelated_partial`, `C21_violated`, `C22_violated_burned`, `C22_violated_confirmed`, `C22_violated_denied`, `C23_approve_collection`, `C23_approve_tokens`, `C23_approve_unrepresentable`, `C23_revoke_collection`, `C23_revoke_tokens`, `C23_transfer`, `C23_transfer_from`, `C23_transfer_outside`, `C23_unrepresentable`, `C24_at_most_five`, `C24_quiet_token_moves`, `C24_refused`, `C24_remembered`, `C25_approve_collection_singles`, `C25_approve_tokens_singles`, `C25_empty_revoke_violated`, `C25_revoke_collection_singles`, `C25_revoke_tokens_each`, `C25_transfer_empty`, `C25_transfer_from_singles`, `C25_transfer_oversized`, `C25_transfer_singles`, `C26_atomic_partial`, `C26_flag_ignored`, `C26_violated`, `C27_tokens_complete`, `C27_tokens_crawl`, `C27_tokens_of_complete`, `C27_tokens_of_crawl`, `C27_tokens_of_page`, `C27_tokens_page`, `C28_token_metadata_partial`, `C29_rejected`, `C29_resume`, `C29_suspended`, `C30_gained`, `C30_history`, `C30_lost`, `C31_accepted`, `C31_granted`, `C31_revoked`, `C32_admitted_partial`, `C32_excluded`, `C32_one`, `C32_released`, `C32_stuck_after_upgrade`, `C32_violated`, `C33_finalized_forever`, `C33_paths_differ`, `C33_placement_stays`, `C33_proceeds`, `C33_refused`, `C33_transition`, `C34_accepting_ledger_partial`, `C34_metadata_partial`, `C34_minted`, `C34_refused_partial`, `C34_violated`, `C35_frame`, `C35_history_partial`, `C35_query`, `C35_refused_partial`, `C35_update`, `C35_violated_refused`, `C35_violated_reused`, `C36_depth`, `C36_from_bytes`, `C36_injective`, `C36_reachable`, `C36_roundtrip`, `C36_row`, `C37_account`, `C37_approval`, `C37_approvals`, `C37_cache`, `C37_index_key`, `C37_index_value`, `C37_nat`, `C37_reachable`, `C38_upgrade`, `C39_permissions`, `C39_violated_metadata`, `C40_accepted`, `C40_exact_partial`, `C40_metadata_ignored`, `C40_violated`, `C41_mint_long`, `C41_mint_short_partial`, `C41_transfer_long`, `C41_transfer_short_partial`, `C41_violated_wide`, `C42_account_partial`, `C42_chain_partial`, `C42_exact`, `C42_range`, `C42_sound`, `C42_subaccount`, `C42_token_partial`, `C42_type`, `C42_violated_repeat`, `C42_violated_spender`, `C42_violated_token`, `C43_genuine`, `C43_once_partial`, `C43_progress`, `C43_status`, `C43_stuck`, `C43_violated_overlap`, `C44_filtered_partial`, `C44_pages`, `C44_total`, `C44_violated_order`, `C44_violated_repeat`, `C44_violated_start`, `C44_violated_trap`, `C44_violated_truncated`, `C45_grouping`, `C45_latest`, `C45_range_partial`, `C45_violated_wrap`, `C46_action`, `C46_count_partial`, `C46_distinct`, `C46_number`, `C46_spender`, `C46_trap`, `C46_undecodable`, `C47_default_partial`, `C47_subaccount_stuck`, `C47_violated`, `C48_collection_any_walk_partial`, `C48_collection_pages`, `C48_collection_resume_partial`, `C48_token_any_walk_partial`, `C48_token_pages`, `C48_token_resume_partial`, `C48_violated`, `C49_harmless_partial`, `C49_selects`, `C49_violated_fresh`, `C49_violated_stale`, `C50_installed`, `C50_placement_partial`, `C50_threshold_ignored`, `C50_violated_threshold`, `C50_violated_wrap`, `C51_no_other_redirect`, `C51_redirected_partial`, `C51_returned`, `C51_violated_reserved`, `C51_violated_shared`, `C52_reassemble_partial`, `C53_block_rejected`, `C53_block_type`, `C53_case`, `C53_distinct`, `C53_exact`, `C53_rejected`, `C53_round_trip`, `C54_created`, `C55_transfer_succeeds`, `C56_transfer_from_succeeds`, `C57_approve_collection_succeeds`, `C57_approve_succeeds`, `C58_rows_show_spender_subaccount`, `C58_same_subaccount_partial`, `C58_violated`, `C59_entries`, `C59_sorted`, `C60_accepted`, `C61_recorded`, `C62_entries_partial`, `C62_entry_partial`, `C62_order`, `C62_violated_colon`, `C62_violated_dropped`, `C63_approve_collection`, `C63_approve_tokens`, `C63_burn`, `C63_duplicate_violated`, `C63_mint`, `C63_revoke_collection`, `C63_revoke_tokens`, `C63_revoke_tokens_call`, `C63_transfer_from_partial`, `C63_transfer_partial`, `C63_update_nft_metadata`, `C63_violated`, `C64_approve_collection`, `C64_approve_tokens`, `C64_burn`, `C64_index`, `C64_no_other`, `C64_revoke_collection`, `C64_revoke_tokens`, `C64_transfer`, `C64_transfer_batch`, `C64_transfer_from`, `C64_transfer_refused`, `C65_approve_collection_batch_partial`, `C65_approve_collection_partial`, `C65_approve_tokens_batch_partial`, `C65_approve_tokens_partial`, `C65_revoke_collection`, `C65_revoke_tokens`, `C65_violated`, `C66_revoke_collection_succeeds`, `C66_revoke_succeeds`, `C67_storage`, `C67_uploads_pages`, `C67_uploads_true`, `C68_init_proceeds`, `C68_storage_accepts`, `C68_storage_refuses`, `C69_metrics_partial`, `C69_redirects`, `C69_violated_logs`, `C69_violated_upgrade`, `C71_installed`, `C71_unchanged_partial`, `C71_violated_granted`, `C71_violated_revoked`, `C72_progress`, `C73_account_partial`, `C73_owner`, `C73_token_partial`, `C73_type`, `C73_violated`, `C74_document_partial`, `C74_required`, `C74_violated_colon`, `C74_violated_dropped`, `C74_violated_null`, `C75_completes`, `C75_finalized`, `C75_no_overwrite`, `C75_served_partial`, `C75_violated_empty`, `C75_violated_refused`, `C76_document_partial`, `C76_entries`, `C76_required`, `C76_unreadable`, `C76_violated_end`, `C77_refused`, `C77_request_partial`, `C77_violated_ignored`, `C77_violated_name`, `C78_history`, `C78_invisible`, `C78_refused`, `C79_frozen`, `C79_kept_partial`, `C79_unmanaged_install`, `C79_violated`, `C80_collection_violated`, `C80_growth_violated`, `C80_holder_moves_partial`, `C80_violated`, `C81_failed`, `C81_minted_partial`, `C81_succeeds`, `C81_violated_lost`, `C82_accepted`, `C82_grant`, `C82_has`, `C82_list_partial`, `C82_revoke`, `C82_violated_unknown`, `C83_published_partial`, `C84_block_types`, `C84_standards`, `C85_reason`, `C86_redirects_partial`, `C86_tip_partial`, `C86_violated_pages`, `C86_violated_tip`, `C87_file`, `C87_forwarded`, `C87_placed`, `C88_clock`, `C88_held`, `C88_logged`, `C88_movers`, `C88_standard_rules_differ`, `C89_mint_iff`, `C89_revoke_iff`, `C89_transfer_iff`, `C89_traps_only`, `C89_update_iff`, `C90_burn_partial`, `C90_same_answer_partial`, `C90_spender_partial`, `C90_untouched`, `C90_violated_burn`, `C90_violated_transfer_from`, `C91_fresh`, `C91_last_partial`, `C91_versions_partial`, `C91_violated_mint`, `C91_violated_refused`, `C92_call`, `C92_history`, `C92_observer`, `C92_other`, `C93_violated_unit`, `C93_wait_partial`, `C94_clean_partial`, `C94_violated`, `C94_violated_forever`, `C95_ascending`, `C95_content`, `C95_recorded`, `C95_updates`, `C96_collection`, `C96_eventually`, `C96_listed`, `C96_numbers`, `C97_balances`, `C97_order`, `C98_begins`, `C98_ends`, `C98_justified_partial`, `C98_justified_uncut_partial`, `C98_times`, `C98_violated`, `C99_approve_collection_partial`, `C99_approve_collection_twice_partial`, `C99_approve_partial`, `C99_approve_twice_partial`, `C99_configured_partial`, `C99_log_partial`, `C99_revoke_collection_partial`, `C99_revoke_collection_twice_partial`, `C99_revoke_partial`, `C99_revoke_twice_partial`, `C99_transfer_from_partial`, `C99_transfer_from_twice_partial`, `C99_transfer_partial`, `C99_transfer_twice_partial`, `C99_violated_account`, `C99_violated_default`, `C99_violated_raised`.

**propext, Quot.sound** (33 theorems): `C106_admin_queries`, `C106_approvals`, `C106_installation`, `C107_approvals`, `C107_is_approved_partial`, `C109_approvals`, `C111_answers`, `C122_approvals`, `C122_listed`, `C22_confirmed_partial`, `C22_is_approved_partial`, `C24_limiter`, `C24_refused_only_after_five`, `C28_balance_of_partial`, `C28_owner_of_partial`, `C28_take`, `C36_encodes`, `C46_names`, `C46_unsupported`, `C52_prefix`, `C54_exact`, `C67_permissions`, `C67_refused`, `C67_upload_status`, `C67_uploads_default`, `C70_methods_partial`, `C71_violated_test_mode`, `C75_answered_partial`, `C85_faulty`, `C87_room`, `C88_unique`, `C92_seen`, `C93_when`.
