import Verif.Model.Codec
import Verif.Prelude.Sort
/-!
# The index canister

Files cited without a path are in /repo/src/index_icrc7/src.
-/
namespace Verif

/-! ## blocks.rs -/

/-- `icrc_ledger_types::icrc3::blocks::BlockWithId`. External crate, imported in
src/index_icrc7/src/types.rs 4 and returned at 17. -/
structure Block where
  id : Nat
  data : Value
  deriving DecidableEq, Repr

/-- blocks.rs 14-25 `BlockType`. -/
inductive BlockType where
  | transfer
  | transferFrom
  | updateMeta
  | mint
  | burn
  | approve
  | approveColl
  | revoke
  | revokeColl
  deriving DecidableEq, Repr

/-- The effect of `str::to_lowercase` as far as it can be told apart by a
comparison with a word of lower-case ASCII letters, digits and underscores: the
ASCII capitals, and the Kelvin sign, which Unicode maps to `k`. Every other
character is mapped to something that contains a non-ASCII character. Standard library, used in
src/index_icrc7/src/blocks.rs 58. -/
def lowerChar (c : Char) : Char :=
  if 65 ≤ c.toNat ∧ c.toNat ≤ 90 then Char.ofNat (c.toNat + 32) else if c.toNat = 0x212A then 'k' else c

/-- `str::to_lowercase`, see `lowerChar`. Standard library, used in
src/index_icrc7/src/blocks.rs 58. -/
def lowercase (s : String) : String := String.ofList (s.toList.map lowerChar)

/-- blocks.rs 54-71 `BlockType::from_str`. -/
def BlockType.parse (s : String) : Option BlockType :=
  let s := lowercase s
  if s = "7xfer" then some .transfer
  else if s = "7mint" then some .mint
  else if s = "7burn" then some .burn
  else if s = "37approve" then some .approve
  else if s = "37xfer" then some .transferFrom
  else if s = "37approve_coll" then some .approveColl
  else if s = "37revoke" then some .revoke
  else if s = "37revoke_coll" then some .revokeColl
  else if s = "7update_token" then some .updateMeta
  else none

/-- blocks.rs 73-87 `to_string`. -/
def BlockType.name : BlockType → String
  | .transfer => "7xfer"
  | .mint => "7mint"
  | .burn => "7burn"
  | .approve => "37approve"
  | .transferFrom => "37xfer"
  | .approveColl => "37approve_coll"
  | .revoke => "37revoke"
  | .revokeColl => "37revoke_coll"
  | .updateMeta => "7update_token"

/-- `BTreeMap::get` on a value map. Standard library, used in src/index_icrc7/src/blocks.rs
105-330. -/
def fieldOf (kvs : List (String × Value)) (k : String) : Option Value := (⟨kvs⟩ : Map String Value).get k

/-- `Principal::from_str` (external crate `candid`): any partial function. Used by
`WrappedAccount::from_str`, src/index_icrc7/src/wrapped_values.rs 108-145. -/
abbrev ParsePrincipal := String → Option Principal

/-- wrapped_values.rs 75-90 `WrappedAccount::from_str`: principals only. -/
def parseAccount (parse : ParsePrincipal) (s : String) : Option Account := (parse s).map fun p => ⟨p, none⟩

/-- blocks.rs 175-179 and its copies: push the account in a text field. -/
def pushField (parse : ParsePrincipal) (tx : List (String × Value)) (k : String) (acc : List Account) : List Account :=
  match fieldOf tx k with
  | some (.text s) =>
    match parseAccount parse s with
    | some a => acc ++ [a]
    | none => acc
  | _ => acc

/-- The fields each block type is read for, in order: blocks.rs 175-184 (transfer),
216-220 (mint), 252-261 (burn), 293-302 (approve), 334-348 (transfer from),
367-371 (metadata update), 403-407 (collection approve), 426-435 (revoke),
467-476 (collection revoke). -/
def accountFields : BlockType → List String
  | .transfer => ["from", "to"]
  | .mint => ["to"]
  | .burn => ["from", "to"]
  | .approve => ["from", "spender"]
  | .transferFrom => ["from", "spender", "to"]
  | .updateMeta => ["from"]
  | .approveColl => ["from"]
  | .revoke => ["from", "spender"]
  | .revokeColl => ["from", "spender"]

/-- `extract_accounts` of the nine block types (blocks.rs 170-482), with
`unwrap_or_default` (index.rs 94). -/
def extractAccounts (parse : ParsePrincipal) (t : BlockType) : Value → List Account
  | .map m =>
    match fieldOf m "tx" with
    | some (.map tx) => (accountFields t).foldl (fun acc k => pushField parse tx k acc) []
    | _ => []
  | _ => []

/-- `extract_token_id` of the nine block types: none for transfer from (356-358),
collection approve (415-417) and collection revoke (484-486); otherwise the field
`tid` of the transaction. Errors are turned into none (index.rs 95). -/
def extractTokenId (t : BlockType) : Value → Option Nat
  | .map m =>
    match t with
    | .transferFrom | .approveColl | .revokeColl => none
    | _ =>
      match fieldOf m "tx" with
      | some (.map tx) => match fieldOf tx "tid" with | some (.nat n) => some n | _ => none
      | _ => none
  | _ => none

/-! ## index.rs -/

/-- index.rs 45: the index. -/
abbrev Index := Map IndexKey (List Nat)

/-- index.rs 104-112 and its copies: push a block id to the front of an entry. -/
def pushBlock (ix : Index) (k : IndexKey) (id : Nat) : Index := ix.set k (id :: (ix.get k).getD [])

/-- index.rs 83-91: the type of a block. -/
def blockTypeOf : Value → Option BlockType
  | .map m => match fieldOf m "btype" with | some (.text s) => BlockType.parse s | _ => none
  | _ => none

/-- index.rs 80-139 `add_block_to_index`. `none`: a panic (block id, 98, or token
id, 135, above 64 bits); `some none`: an error, nothing changed. -/
def addBlock (parse : ParsePrincipal) (ix : Index) (b : Block) : Option (Option Index) :=
  match blockTypeOf b.data with
  | none => some none
  | some t =>
    if b.id < U64 then
      let ix := (extractAccounts parse t b.data).foldl (fun ix a => pushBlock ix (.account a) b.id) ix
      let ix := pushBlock ix (.blockType t.name) b.id
      match extractTokenId t b.data with
      | none => some (some ix)
      | some n => if n < U64 then some (some (pushBlock ix (.tokenId n) b.id)) else none
    else none

/-! ## cache.rs -/

/-- cache.rs 49: time stamp and block by id. -/
abbrev Cache := Map Nat (Nat × Value)

/-- cache.rs 86-91 `insert_value`. `none`: the block has a number above 64 bits
and its encoding panics. -/
def cacheInsert (now : Nat) (c : Cache) (id : Nat) (v : Value) : Option Cache :=
  if v.inRange then some (c.set id (now, v)) else none

/-- cache.rs 69-84 `remove_all_values_older_than`. The shared borrow of the cache taken for
the walk (71-72) is a temporary of the statement 71-80 and lives to its end; `for_each` runs
inside that statement, so the first `borrow_mut` (79) panics: `none`. With nothing to remove
`for_each` does nothing. -/
def cacheClean (c : Cache) (now : Nat) : Option Cache :=
  if c.entries.any fun e => decide (e.2.1 < now) then none else some c

/-- blocks.rs 556-563 and 566-573: cache the blocks of an answer; ids above 64 bits
are skipped. -/
def cacheAll (now : Nat) : Cache → List Block → Option Cache
  | c, [] => some c
  | c, b :: bs =>
    if b.id < U64 then
      match cacheInsert now c b.id b.data with
      | none => none
      | some c => cacheAll now c bs
    else cacheAll now c bs

/-! ## blocks.rs: get_all_blocks -/

/-- index.rs 18-23 `SortBy`. -/
inductive SortDir where
  | asc
  | desc
  deriving DecidableEq, Repr

/-- blocks.rs 519-529 and 576-586. -/
def sortBlocks : Option SortDir → List Block → List Block
  | some .desc, l => sortBy (fun a b => decide (b.id ≤ a.id)) l
  | _, l => sortBy (fun a b => decide (a.id ≤ b.id)) l

/-- blocks.rs 607-627, the loop: `cur` is the chunk from `start_idx` on (reversed),
`prev` its last id. -/
def groupLoop (cur : List Nat) (prev : Nat) : List Nat → List (List Nat)
  | [] => [cur.reverse]
  | x :: xs => if x ≠ u64add prev 1 then cur.reverse :: groupLoop [x] x xs else groupLoop (x :: cur) x xs

/-- blocks.rs 607-627 `group_consecutive_block_ids`. -/
def groupConsecutive : List Nat → List (List Nat)
  | [] => []
  | x :: xs => groupLoop [x] x xs

/-- blocks.rs 540-551: the range asked for a chunk, its first id and its length. -/
def chunkRequest (chunk : List Nat) : Nat × Nat := (chunk.headD 0, chunk.length)

/-- `ArchivedBlocks`: the archive and the ranges to ask it for. External crate, read in
src/index_icrc7/src/blocks.rs 554-568. -/
structure ArchiveCall where
  canister : Principal
  args : List (Nat × Nat)
  deriving DecidableEq, Repr

/-- What a suspended fetch waits for: the ledger's answer for the first chunk
(544-552), or the answer of the first archive (555-557), the blocks of the
ledger's own answer still to be added. -/
inductive Wait where
  | ledger
  | archive (calls : List ArchiveCall) (blocks : List Block)
  deriving DecidableEq, Repr

/-- The variables of `get_all_blocks` alive across its awaits: `ret_blocks`, the
chunks not yet finished (the current one first), and `sort_by`. src/index_icrc7/src/blocks.rs
489-605. -/
structure Fetch where
  ret : List Block
  chunks : List (List Nat)
  wait : Wait
  sort : Option SortDir
  deriving DecidableEq, Repr

/-- Where a segment of `get_all_blocks` ends. The awaits of src/index_icrc7/src/blocks.rs
540-568. -/
inductive FetchOut where
  | done (blocks : List Block)
  | wait (f : Fetch)
  | failed
  deriving DecidableEq, Repr

/-- blocks.rs 489-541, up to the first await. -/
def fetchStart (c : Cache) (ids : List Nat) (sort : Option SortDir) : FetchOut :=
  if ids.isEmpty then .done []
  else
    let ret := ids.filterMap fun i => (c.get i).map fun e => (⟨i, e.2⟩ : Block)
    let uncached := ids.filter fun i => (c.get i).isNone
    if uncached.isEmpty then .done (sortBlocks sort ret)
    else .wait ⟨ret, groupConsecutive (sortNat uncached), .ledger, sort⟩

/-- An answer from outside. Answers of the wrong shape fail to decode.
src/index_icrc7/src/blocks.rs 540-568. -/
inductive IxAnswer where
  | failed
  | ledger (blocks : List Block) (archived : List ArchiveCall)
  | archive (blocks : List Block)
  deriving DecidableEq, Repr

/-- blocks.rs 566-588: the ledger's own blocks, then the next chunk or the result. -/
def finishChunk (now : Nat) (c : Cache) (f : Fetch) (ret blocks : List Block) : Option (Cache × FetchOut) :=
  match cacheAll now c blocks with
  | none => none
  | some c =>
    match f.chunks.tail with
    | [] => some (c, .done (sortBlocks f.sort (ret ++ blocks)))
    | cs => some (c, .wait ⟨ret ++ blocks, cs, .ledger, f.sort⟩)

/-- blocks.rs 544-590, from an await to the next. `none`: a panic. -/
def fetchResume (now : Nat) (c : Cache) (f : Fetch) (ans : IxAnswer) : Option (Cache × FetchOut) :=
  match f.wait, ans with
  | .ledger, .ledger blocks [] => finishChunk now c f f.ret blocks
  | .ledger, .ledger blocks calls => some (c, .wait { f with wait := .archive calls blocks })
  | .archive calls blocks, .archive got =>
    match cacheAll now c got with
    | none => none
    | some c =>
      match calls.tail with
      | [] => finishChunk now c f (f.ret ++ got) blocks
      | calls => some (c, .wait { f with ret := f.ret ++ got, wait := .archive calls blocks })
  | _, _ => some (c, .failed)

/-! ## jobs.rs and update/get_blocks.rs -/

/-- Who awaits a fetch. src/index_icrc7/src/jobs.rs 37-65 and update/get_blocks.rs 8-34. -/
inductive Task where
  /-- jobs.rs 37-65 `update_index`, with its `last_block_id`. -/
  | update (last : Nat)
  /-- update/get_blocks.rs 8-34 `get_blocks`. -/
  | get
  deriving DecidableEq, Repr

/-- The state of the canister: state.rs 42-48 `last_block_id`, the index, the
cache, and the calls suspended at an await. `added` is no part of the program:
the blocks added to the index so far, oldest first, for stating properties. -/
structure Ix where
  last : Nat
  index : Index
  cache : Cache
  tasks : Map Nat (Task × Fetch)
  nextTask : Nat
  added : List Block
  deriving DecidableEq, Repr

/-- lifecycle/init.rs, state.rs 50-60: a fresh installation. -/
def Ix.fresh : Ix := ⟨0, ∅, ∅, ∅, 0, []⟩

/-- types.rs 7-14. -/
structure GetArgs where
  start : Nat
  length : Nat
  filters : List IndexKey
  sort : Option SortDir
  deriving DecidableEq, Repr

/-- Messages. `tick`: the timer starts `update_index`; `clean`: the daily cache
clean-up (jobs.rs 24-31); `resume`: an answer arrives for a suspended call;
`upgrade`: suspended calls are lost, everything else is kept. -/
inductive IxMsg where
  | tick
  | clean (now : Nat)
  | get (args : GetArgs)
  | resume (now : Nat) (task : Nat) (ans : IxAnswer)
  | upgrade
  deriving DecidableEq, Repr

/-- What a message shows outside: nothing, the call is suspended, a trap, or the
response of `get_blocks`. src/index_icrc7/src/update/get_blocks.rs 8-34. -/
inductive IxOut where
  | none
  | waiting (task : Nat)
  | trapped
  | response (blocks : List Block) (total : Nat)
  deriving DecidableEq, Repr

/-- The range `a..b` of `u64`s. src/index_icrc7/src/update/get_blocks.rs 20. -/
def rangeU64 (a b : Nat) : List Nat := List.range' a (b - a)

/-- jobs.rs 46-55: the loop over the fetched blocks. `none`: a panic; otherwise
the new `last_block_id`, index and list of blocks added. -/
def indexBlocks (parse : ParsePrincipal) : Nat → Index → List Block → List Block → Option (Nat × Index × List Block)
  | last, ix, added, [] => some (last, ix, added)
  | last, ix, added, b :: bs =>
    match addBlock parse ix b with
    | none => none
    | some none => some (last, ix, added)
    | some (some ix) => indexBlocks parse (u64add last 1) ix (added ++ [b]) bs

/-- What a task does when its fetch has ended (jobs.rs 44-64; get_blocks.rs 19-33).
`none`: a trap. -/
def finishTask (parse : ParsePrincipal) (s : Ix) : Task → FetchOut → Option (Ix × IxOut)
  | .update last, .done blocks =>
    match indexBlocks parse last s.index s.added blocks with
    | none => none
    | some (last, ix, added) => some ({ s with last := last, index := ix, added := added }, .none)
  | .get, .done blocks => some (s, .response blocks s.last)
  | task, .wait f =>
    some ({ s with tasks := s.tasks.set s.nextTask (task, f), nextTask := s.nextTask + 1 }, .waiting s.nextTask)
  | _, .failed => none

/-- get_blocks.rs 36-81: the page of block ids that pass all filters. `none`: the
slice panics (its end, after wrap-around and truncation to 32 bits, lies before its
start). -/
def filterIds (ix : Index) (filters : List IndexKey) (start length : Nat) : Option (List Nat) :=
  let results := filters.map fun f => (ix.get f).getD []
  let combined :=
    match results with
    | [] => []
    | r :: rs => rs.foldl (fun acc f => acc.filter fun id => f.contains id) r
  let combined := sortNat combined
  let startIdx := start % 2 ^ 32
  let endIdx := u64add start length % 2 ^ 32
  if combined.length ≤ startIdx then some []
  else
    let endIdx := min endIdx combined.length
    if endIdx < startIdx then none else some ((combined.drop startIdx).take (endIdx - startIdx))

/-- get_blocks.rs 8-27 and 61-79: the ids a `get_blocks` call fetches. (Ranges too
long for the memory of the canister trap in the code; memory is not modelled.) -/
def getIds (s : Ix) (a : GetArgs) : Option (List Nat) :=
  if a.filters.isEmpty then
    let start := match a.sort with | some .desc => s.last - a.length | _ => a.start
    some (rangeU64 start (u64add start a.length))
  else filterIds s.index a.filters a.start a.length

/-- Run a segment; a trap undoes it. No repo code: what the platform does with a panic in
src/index_icrc7/src/jobs.rs 37-65 or update/get_blocks.rs 8-34. -/
def orTrap (s : Ix) : Option (Ix × IxOut) → Ix × IxOut
  | some r => r
  | none => (s, .trapped)

/-- jobs.rs 17: blocks per run. -/
def batchSize : Nat := 100

/-- One message. src/index_icrc7/src/jobs.rs 37-65, update/get_blocks.rs 8-34, blocks.rs
489-605. -/
def ixStep (parse : ParsePrincipal) (s : Ix) : IxMsg → Ix × IxOut
  | .tick =>
    orTrap s (finishTask parse s (.update s.last)
      (fetchStart s.cache (rangeU64 s.last (u64add s.last batchSize)) none))
  | .clean now =>
    match cacheClean s.cache now with
    | none => (s, .trapped)
    | some c => ({ s with cache := c }, .none)
  | .get a =>
    match getIds s a with
    | none => (s, .trapped)
    | some ids => orTrap s (finishTask parse s .get (fetchStart s.cache ids (some (a.sort.getD .asc))))
  | .resume now i ans =>
    match s.tasks.get i with
    | none => (s, .none)
    | some (task, f) =>
      let s := { s with tasks := s.tasks.del i }
      match fetchResume now s.cache f ans with
      | none => (s, .trapped)
      | some (c, .wait f) => ({ s with cache := c, tasks := s.tasks.set i (task, f) }, .waiting i)
      | some (c, out) => orTrap s (finishTask parse { s with cache := c } task out)
  | .upgrade => ({ s with tasks := ∅ }, .none)

/-- queries/queries.rs 6-11 `status`. -/
def ixStatus (s : Ix) : Nat := s.last

end Verif
