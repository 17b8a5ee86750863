import Verif.Spec.Basic
/-!
# Specification: announced limits

`icrc7:max_memo_size`, `icrc7:max_update_batch_size` and
`icrc7:max_query_batch_size` are announced for the collection, not for single methods.
-/
namespace Verif.Spec

variable {H : Type}

/-- A record of one of the methods of ICRC-37. -/
def Delegated (x : Tx) : Prop := x.op ∈ [Op.xferFrom, .approve, .approveColl, .revoke, .revokeColl]

instance (x : Tx) : Decidable (Delegated x) := by unfold Delegated; infer_instance

/-- The records message `m` adds to the log of `s`. -/
def addedBy (E : Env H) (s : State H) (m : Msg) : List Tx := (step E s m).1.log.drop s.log.length

/-- Every memo put on the record is within the limit, whatever the method. -/
def MemosBound (E : Env H) (s : State H) : Prop :=
  ∀ m, ∀ x ∈ addedBy E s m, ∀ b, x.memo = some b → b.length ≤ MemoLimit s

/-- No message puts more on the record than one call may ask for, whatever the method. -/
def BatchesBound (E : Env H) (s : State H) : Prop := ∀ m, (addedBy E s m).length ≤ BatchLimit s

end Verif.Spec
