import Verif.Spec.Basic
import Verif.Spec.Metadata
/-!
# When a call ends without an answer

A call that panics is rolled back and its caller gets a reject instead of one of
the method's answers. `NoAnswer` lists the only circumstances under which that
can happen.
-/
namespace Verif.Spec

open Verif

variable {H : Type}

/-- Metadata values the stable store can hold: naturals of 64 bits, integers of
64 bits, and arrays and maps of such values. -/
inductive Storable : Value → Prop
  | blob (b) : Storable (.blob b)
  | text (t) : Storable (.text t)
  | nat {n : Nat} : n < 2 ^ 64 → Storable (.nat n)
  | int {i : Int} : -(2 ^ 63) ≤ i → i < 2 ^ 63 → Storable (.int i)
  | array {vs : List Value} : (∀ v ∈ vs, Storable v) → Storable (.array vs)
  | map {kvs : List (String × Value)} : (∀ e ∈ kvs, Storable e.2) → Storable (.map kvs)

/-- The circumstances under which a call may end without an answer: settings wider
than the machine words the code converts them to, metadata the store cannot hold,
an empty batch of token revocations, or token ids beyond 64 bits. For the calls
not listed there are none. -/
def NoAnswer (s : State H) : Call → Prop
  | .transfer args => args ≠ [] ∧
      (2 ^ 32 ≤ BatchLimit s ∨ ((∃ a ∈ args, a.memo ≠ none) ∧ 2 ^ 32 ≤ MemoLimit s) ∨
        2 ^ 64 ≤ Window s ∨ 2 ^ 64 ≤ Drift s)
  | .approveTokens args => ∃ a ∈ args, 2 ^ 64 ≤ a.tid ∧ Owner s a.tid ≠ none
  | .revokeTokens args => args = []
  | .mint reqs => ((∃ r ∈ reqs, r.memo ≠ none) ∧ 2 ^ 32 ≤ MemoLimit s) ∨
      (∃ r ∈ reqs, ∃ e ∈ r.metadata, ¬ Storable e.2) ∨ 2 ^ 64 < s.lastId + reqs.length
  | .updateNftMetadata tid kvs =>
      Owner s tid ≠ none ∧ ((∃ k v, lastValue kvs k = some v ∧ ¬ Storable v) ∨ 2 ^ 64 ≤ tid)
  | _ => False

end Verif.Spec
