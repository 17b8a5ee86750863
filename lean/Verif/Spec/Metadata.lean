import Verif.Spec.Basic
/-!
# Specification: token metadata
-/
namespace Verif.Spec

variable {H : Type}

/-- The value a list of pairs gives key `k`: that of the last pair with this
key. -/
def lastValue : List (String × Value) → String → Option Value
  | [], _ => none
  | (k₀, v₀) :: kvs, k =>
    match lastValue kvs k with
    | some v => some v
    | none => if k₀ = k then some v₀ else none

/-- `l` lists every key of `kvs` once, with its last value, and nothing else. -/
def ListsMap (l kvs : List (String × Value)) : Prop :=
  (l.map Prod.fst).Nodup ∧ ∀ k v, (k, v) ∈ l ↔ lastValue kvs k = some v

/-- The metadata `icrc7_token_metadata` answers for token `tid`, if it exists. -/
def Shown (s : State H) (tid : Nat) (l : List (String × Value)) : Prop :=
  (s.tokens.get tid).map (tokenMetadata s) = some l

/-- Token `tid` exists and is shown with the map given by `kvs`. -/
def MetaIs (s : State H) (tid : Nat) (kvs : List (String × Value)) : Prop :=
  ∃ l, Shown s tid l ∧ ListsMap l kvs

/-- The transaction recorded for the `k`-th request of a mint whose first token
is `first`. -/
def mintRecord (now first k : Nat) (r : MintReq) : Tx :=
  { op := .mint, ts := now, tid := some (first + k), to_ := some r.owner, memo := r.memo,
    createdAt := some now }

/-- What a message, given its reply, writes as the metadata of token `tid`. -/
def written (tid : Nat) : Msg → Reply → Option (List (String × Value))
  | .call _ _ (.updateNftMetadata t kvs), .mgmt (.ok _) => if t = tid then some kvs else none
  | .call _ _ (.mint reqs), .mgmt (.ok (.id first)) =>
    if first ≤ tid then (reqs[tid - first]?).map MintReq.metadata else none
  | _, _ => none

/-- The last metadata written for token `tid` in a history. -/
def lastWritten (E : Env H) (s : State H) (tid : Nat) : List Msg → Option (List (String × Value))
  | [] => none
  | m :: ms =>
    match lastWritten E (step E s m).1 tid ms with
    | some kvs => some kvs
    | none => written tid m (step E s m).2

/-- No mint and no metadata update of the history was refused by the ledger. -/
def LedgerNeverRefused (E : Env H) (s : State H) : List Msg → Prop
  | [] => True
  | m :: ms =>
    ((∃ c now call, m = .call c now call ∧
        ((∃ reqs, call = .mint reqs) ∨ ∃ tid kvs, call = .updateNftMetadata tid kvs)) →
      (step E s m).2 ≠ .mgmt (.error .storageCanisterError)) ∧
    LedgerNeverRefused E (step E s m).1 ms

end Verif.Spec
