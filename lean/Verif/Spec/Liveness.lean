import Verif.Spec.Chain
import Verif.Spec.Answers
/-!
# Specification: the index catches up (C96)
-/
namespace Verif.Spec

/-- A block the index can take: of a type it knows, with all numbers within 64 bits. -/
def Readable (b : Block) : Prop := (∃ ty ∈ knownTypes, typeText b = some ty) ∧ b.data.inRange = true

/-- An answer from where the call waits for one, not a failure. -/
def Fits (f : Fetch) : IxAnswer → Prop
  | .failed => False
  | .ledger _ _ => f.wait = .ledger
  | .archive _ => f.wait ≠ .ledger

/-- A run of the update job, started by message `k`, that goes well: as long as it waits, the
canister is not upgraded, an answer comes some time, and the answers are no failures. -/
def GoesWell (m : Nat → IxMsg) (s : Nat → Ix) (k : Nat) : Prop :=
  m k = .tick ∧ ∀ k' last f, k < k' → (s k').tasks.get (s k).nextTask = some (.update last, f) →
    m k' ≠ .upgrade ∧ (∃ k'', k' ≤ k'' ∧ ∃ now ans, m k'' = .resume now (s k).nextTask ans) ∧
    ∀ now ans, m k' = .resume now (s k).nextTask ans → Fits f ans

/-- An endless life of the index canister: `s k` is its state before message `m k`, and the
ledger then holds the blocks below `tip k`. Answers that are no failures are honest, and the
update job does not overlap with itself. Requests may fail and the canister may be upgraded,
any number of times, but again and again a run of the job goes well. -/
structure Life (parse : ParsePrincipal) (L : Chain) (tip : Nat → Nat) (m : Nat → IxMsg) (s : Nat → Ix) : Prop where
  start : ∃ t, t ≤ tip 0 ∧ Run parse L NoOverlap 0 Ix.fresh t (s 0)
  steps : ∀ k, s (k + 1) = (ixStep parse (s k) (m k)).1
  grows : ∀ k, tip k ≤ tip (k + 1)
  small : ∀ k, tip k + 100 < 2 ^ 64
  honest : ∀ k, HonestMsg L (tip k) (s k) (m k)
  alone : ∀ k, NoOverlap (s k) (m k)
  goes_well : ∀ k, ∃ k', k ≤ k' ∧ GoesWell m s k'

/-- All numbers of a record are within 64 bits. (Times and amounts of time are so by their
type.) -/
def SmallNumbers (r : Tx) : Prop :=
  (∀ n, r.tid = some n → n < 2 ^ 64) ∧
  ∀ before after, r.meta_ = some (before, after) → ∀ e ∈ before ++ after, Storable e.2

/-- A collection and the chain an index reads: `S k` is the collection when the ledger holds
the blocks below `tip k`. They are its records, published block by block, and a record whose
numbers are within 64 bits makes a block whose numbers are. -/
structure Source {H : Type} (E : Env H) (parse : ParsePrincipal) (L : Chain) (tip : Nat → Nat) (S : Nat → State H) : Prop where
  start : Reachable E (S 0)
  goes_on : ∀ k, ∃ ms, S (k + 1) = run E (S k) ms
  height : ∀ k, (S k).log.length = tip k
  published : ∀ k, Publishes parse (S k).log L
  numbers : ∀ k i r, (S k).log[i]? = some r → SmallNumbers r → (L i).inRange = true

end Verif.Spec
