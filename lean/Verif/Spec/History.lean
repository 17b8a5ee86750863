import Verif.Spec.Metadata
/-!
# Specification: the metadata versions of a token in the log (C91)
-/
namespace Verif.Spec

variable {H : Type}

/-- The versions the log records for token `tid`: for each metadata update, what was
shown before and what was shown after. -/
def versions (log : List Tx) (tid : Nat) : List (List (String × Value) × List (String × Value)) :=
  log.filterMap fun r => if r.op = .updateToken ∧ r.tid = some tid then r.meta_ else none

/-- The pairs lead from `a` to `b`: the first begins with `a`, each begins where the one
before ended, and the last ends with `b`. -/
def Leads {α : Type} : α → List (α × α) → α → Prop
  | a, [], b => a = b
  | a, (x, y) :: l, b => a = x ∧ Leads y l b

/-- The ledger refused none of the metadata updates of token `tid` in the history. -/
def UpdatesRecorded (E : Env H) (tid : Nat) (s : State H) : List Msg → Prop
  | [] => True
  | m :: ms =>
    ((∃ c now kvs, m = .call c now (.updateNftMetadata tid kvs)) →
      (step E s m).2 ≠ .mgmt (.error .storageCanisterError)) ∧
    UpdatesRecorded E tid (step E s m).1 ms

end Verif.Spec
