import Verif.Model.Index
import Verif.Spec.Basic
/-!
# Specification for the index canister

What a block involves, read from the block alone; and honest block sources.
-/
namespace Verif.Spec

/-- A top-level field of a block. -/
def blockField (b : Block) (k : String) : Option Value :=
  match b.data with
  | .map m => (⟨m⟩ : Map String Value).get k
  | _ => none

/-- A field of the transaction in a block. -/
def txField (b : Block) (k : String) : Option Value :=
  match blockField b "tx" with
  | some (.map tx) => (⟨tx⟩ : Map String Value).get k
  | _ => none

/-- The account named by a field of the transaction: the text of a principal. -/
def partyIn (parse : ParsePrincipal) (b : Block) (k : String) : Option Account :=
  match txField b k with
  | some (.text s) => (parse s).map fun p => ⟨p, none⟩
  | _ => none

/-- The accounts a block names as sender, recipient or spender. -/
def parties (parse : ParsePrincipal) (b : Block) : List Account := ["from", "to", "spender"].filterMap (partyIn parse b)

/-- The type of a block, in lower case. -/
def typeText (b : Block) : Option String :=
  match blockField b "btype" with
  | some (.text s) => some (lowercase s)
  | _ => none

/-- The token a block is about. -/
def tokenIn (b : Block) : Option Nat :=
  match txField b "tid" with
  | some (.nat n) => some n
  | _ => none

/-- Block `b` involves the account, block type or token `k`. -/
def involves (parse : ParsePrincipal) (b : Block) : IndexKey → Bool
  | .account a => (parties parse b).any fun p => p == a
  | .blockType t => decide (typeText b = some t)
  | .tokenId n => decide (tokenIn b = some n)

/-- What the entry of `k` should be after the blocks `bs`: the blocks involving
`k`, each once, newest first. -/
def entryOf (parse : ParsePrincipal) (bs : List Block) (k : IndexKey) : List Nat :=
  ((bs.filter fun b => involves parse b k).map Block.id).reverse

/-- The entry of a key, empty when there is none. -/
def entry (ix : Index) (k : IndexKey) : List Nat := (ix.get k).getD []

/-- No account is named twice, and only in the fields the index reads for that
type of block. -/
structure PlainParties (parse : ParsePrincipal) (b : Block) : Prop where
  distinct : (parties parse b).Pairwise fun x y => (x == y) = false
  noFrom : typeText b = some "7mint" → partyIn parse b "from" = none
  noTo : ∀ t, typeText b = some t → t ∈ ["7update_token", "37approve", "37approve_coll", "37revoke", "37revoke_coll"] →
    partyIn parse b "to" = none
  noSpender : ∀ t, typeText b = some t → t ∈ ["7xfer", "7mint", "7burn", "7update_token", "37approve_coll"] →
    partyIn parse b "spender" = none

/-- The block is of a type whose token the index reads, or names no token. -/
def PlainToken (b : Block) : Prop :=
  ∀ t, typeText b = some t → t ∈ ["37xfer", "37approve_coll", "37revoke_coll"] → tokenIn b = none

/-- The fields of the transaction read for accounts, by type of block. -/
def readFor : String → List String
  | "7mint" => ["to"]
  | "7xfer" | "7burn" => ["from", "to"]
  | "37approve" | "37revoke" | "37revoke_coll" => ["from", "spender"]
  | "37xfer" => ["from", "spender", "to"]
  | "7update_token" | "37approve_coll" => ["from"]
  | _ => []

/-- How many times a block names a key in what is read of its type of block. -/
def timesRead (parse : ParsePrincipal) (b : Block) : IndexKey → Nat
  | .account a => (((readFor ((typeText b).getD "")).filterMap (partyIn parse b)).filter fun p => p == a).length
  | .blockType t => if typeText b = some t then 1 else 0
  | .tokenId n =>
    if tokenIn b = some n ∧ ∀ t ∈ ["37xfer", "37approve_coll", "37revoke_coll"], typeText b ≠ some t then 1 else 0

/-- Any sequence of messages, with any answers. -/
def ixRun (parse : ParsePrincipal) (s : Ix) (ms : List IxMsg) : Ix := ms.foldl (fun s m => (ixStep parse s m).1) s

/-! ## Honest block sources -/

/-- The ledger's chain: block `i`, once there is one. -/
abbrev Chain := Nat → Value

/-- A block of the chain. -/
def Genuine (L : Chain) (b : Block) : Prop := b.data = L b.id

/-- The ids in a list of ranges (start, length). -/
def idsIn (ranges : List (Nat × Nat)) : List Nat := ranges.flatMap fun r => List.range' r.1 r.2

/-- An answer to a suspended fetch is honest when the ledger, then holding the
blocks below `tip`, names for the range asked exactly the blocks it has in that
range, each once, either in its own answer or in ranges to be asked from archives,
and archives answer with exactly the ranges asked. Failures are allowed. -/
def HonestAnswer (L : Chain) (tip : Nat) (f : Fetch) : IxAnswer → Prop
  | .failed => True
  | .ledger blocks calls =>
    f.wait = .ledger → ∀ chunk rest, f.chunks = chunk :: rest →
      (∀ b ∈ blocks, Genuine L b) ∧
      (blocks.map Block.id ++ calls.flatMap fun c => idsIn c.args).Perm
        ((idsIn [chunkRequest chunk]).filter fun i => decide (i < tip))
  | .archive got =>
    ∀ call calls blocks, f.wait = .archive (call :: calls) blocks →
      (∀ b ∈ got, Genuine L b) ∧ (got.map Block.id).Perm (idsIn call.args)

/-- A message is honest when the answer it carries is. -/
def HonestMsg (L : Chain) (tip : Nat) (s : Ix) : IxMsg → Prop
  | .resume _ i ans => ∀ task f, s.tasks.get i = some (task, f) → HonestAnswer L tip f ans
  | _ => True

/-- Histories of the index canister over a growing ledger, from state `s` at height
`t` to state `s'` at height `t'`; `ok` restricts the schedule. -/
inductive Run (parse : ParsePrincipal) (L : Chain) (ok : Ix → IxMsg → Prop) (t : Nat) (s : Ix) : Nat → Ix → Prop
  | refl : Run parse L ok t s t s
  | step {t₁ s₁ t₂ m} : Run parse L ok t s t₁ s₁ → t₁ ≤ t₂ → HonestMsg L t₂ s₁ m → ok s₁ m →
      Run parse L ok t s t₂ (ixStep parse s₁ m).1

/-- Any schedule. -/
def AnySchedule : Ix → IxMsg → Prop := fun _ _ => True

/-- Schedules in which the update job is not started while it is still running. -/
def NoOverlap : Ix → IxMsg → Prop := fun s m =>
  m = .tick → ∀ i last f, s.tasks.get i ≠ some (.update last, f)

/-- A `get_blocks` call made in state `s` at height `t` is answered at height `t'`
with `bs` and `total`: at once, or after any honest history in between. -/
inductive Answered (parse : ParsePrincipal) (L : Chain) (t : Nat) (s : Ix) (a : GetArgs) : Nat → List Block → Nat → Prop
  | now {bs total} : (ixStep parse s (.get a)).2 = .response bs total → Answered parse L t s a t bs total
  | later {i t₁ s₁ t₂ time ans bs total} : (ixStep parse s (.get a)).2 = .waiting i →
      Run parse L AnySchedule t (ixStep parse s (.get a)).1 t₁ s₁ → t₁ ≤ t₂ → HonestMsg L t₂ s₁ (.resume time i ans) →
      (ixStep parse s₁ (.resume time i ans)).2 = .response bs total → Answered parse L t s a t₂ bs total

/-- The block `id` is in the index's cache, stored there at `stored`. -/
def CachedSince (s : Ix) (id stored : Nat) : Prop := ∃ v, s.cache.get id = some (stored, v)

/-- The block types the index knows. -/
def knownTypes : List String :=
  ["7xfer", "7mint", "7burn", "7update_token", "37approve", "37xfer", "37approve_coll", "37revoke", "37revoke_coll"]

/-- The page of `l` from position `start`, of at most `length` ids. -/
def idPage (l : List Nat) (start length : Nat) : List Nat := (l.drop start).take length

/-- A list in the requested direction, given in ascending order. -/
def inDirection : SortDir → List Nat → List Nat
  | .asc, l => l
  | .desc, l => l.reverse

/-- The blocks passing all filters, in ascending order. -/
def Selects (ix : Index) (filters : List IndexKey) (l : List Nat) : Prop :=
  l.Pairwise (· ≤ ·) ∧ ∀ i, i ∈ l ↔ ∀ k ∈ filters, i ∈ entry ix k

/-- Sorted in the requested direction. -/
def SortedAs : SortDir → List Block → Prop
  | .asc, l => l.Pairwise fun a b => a.id ≤ b.id
  | .desc, l => l.Pairwise fun a b => b.id ≤ a.id

end Verif.Spec
