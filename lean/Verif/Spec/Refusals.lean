import Verif.Spec.Forgets
/-!
# Refused calls
-/
namespace Verif.Spec

variable {H : Type}

/-- The ledger library keeps nothing of the transactions it refuses. -/
def ForgetsRefused (L : Ledger H) : Prop := ∀ h tx h' e, L.add h tx = (h', .error e) → h' = h

/-- No approval that names an account of `p` as spender has run out at time `now`. -/
def NoneLapsed (s : State H) (now : Nat) (p : Principal) : Prop :=
  (∀ tid sp a, TokenApproval s tid sp a → sp.owner = p → Live a now) ∧
    ∀ o sp a, CollApproval s o sp a → sp.owner = p → Live a now

/-- The call is refused in full. Left out are calls that are given up halfway, answered by
`StorageCanisterError` (a burn has no halfway), and a `icrc37_transfer_from` by a spender
one of whose approvals has run out. -/
def PlainlyRefused (E : Env H) (s : State H) (c : Principal) (now : Nat) (call : Call) : Prop :=
  Refused (step E s (.call c now call)).2 ∧
    ((step E s (.call c now call)).2 = .mgmt (.error .storageCanisterError) → ∃ tid, call = .burn tid) ∧
    ((∃ args, call = .transferFrom args) → NoneLapsed s now c)

/-- The messages of a history that are not marked are calls that are refused when they are
made, and each is made at least 60 ms before the marked calls that follow it. -/
def RefusedBetween (E : Env H) (s : State H) : List (Bool × Msg) → Prop
  | [] => True
  | (true, m) :: l => RefusedBetween E (step E s m).1 l
  | (false, m) :: l => (∃ c now call, m = .call c now call ∧ PlainlyRefused E s c now call ∧
      NotBefore (now + 60000000) (marked l)) ∧ RefusedBetween E (step E s m).1 l

end Verif.Spec
