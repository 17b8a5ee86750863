import Verif.Spec.Errors
/-!
# Accepted items and what is recorded of them
-/
namespace Verif.Spec

variable {H : Type}

/-- The items of a batch that were answered `Ok`, in order. -/
def accepted {A : Type} (args : List A) (rs : List (Except TokErr Nat)) : List A :=
  (args.zip rs).filterMap fun p => match p.2 with | .ok _ => some p.1 | .error _ => none

/-- `x` is the last of the list with the property. -/
def LastWith {A : Type} (p : A → Prop) (l : List A) (x : A) : Prop :=
  ∃ before after, l = before ++ x :: after ∧ p x ∧ ∀ y ∈ after, ¬ p y

/-- The approval an item grants on behalf of `granter` in a call made at `now`. -/
def granted (info : ApprovalInfo) (granter : Account) (now : Nat) : Approval :=
  { spender := info.spender, from_ := granter, expiresAt := info.expiresAt, createdAt := now, memo := info.memo }

/-- The spender an item of a revocation names, or every spender if it names none. -/
def Revokes (named : Option Account) (sp : Account) : Prop :=
  named = none ∨ ∃ w, named = some w ∧ SameAccount w sp

/-- The number of items of a revocation that are looked at. -/
def RevokeLimit (s : State H) : Nat := s.cfg.maxRevoke.getD 10

/-- Calls that can leave a record. -/
def canRecord : Call → Bool
  | .transfer _ | .transferFrom _ | .approveTokens _ | .approveCollection _ | .revokeTokens _
  | .revokeCollection _ | .mint _ | .burn _ | .updateNftMetadata _ _ => true
  | _ => false

end Verif.Spec
