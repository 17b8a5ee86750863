import Verif.Spec.Limits
import Verif.Spec.Admin
/-!
# Principals without any standing (C78 to C80)
-/
namespace Verif.Spec

variable {H : Type}

/-- `p` has no standing with the collection: it owns no token with any of its
accounts, holds no permission, is named as spender in no approval (live or
expired), and the table of collection approvals has no entry for its default
account. -/
structure Stranger (s : State H) (p : Principal) : Prop where
  ownsNothing : ∀ tid o, Owner s tid = some o → o.owner ≠ p
  noPermission : ∀ x, ¬ Holds s p x
  noTokenApproval : ∀ tid sp a, TokenApproval s tid sp a → sp.owner ≠ p
  noCollApproval : ∀ o sp a, CollApproval s o sp a → sp.owner ≠ p
  neverGranted : s.collAppr.get ⟨p, none⟩ = none

/-- The reply reports no success of any kind. -/
def Refused : Reply → Prop
  | .rejected | .trapped | .batchErr _ | .mgmt (.error _) => True
  | .batch rs => ∀ r ∈ rs, ∃ e, r = .error e
  | .suspended | .mgmt (.ok _) | .none => False

/-- All messages are calls of strangers to `s`. -/
def ByStrangers (s : State H) (msgs : List Msg) : Prop :=
  ∀ m ∈ msgs, ∃ c now call, m = .call c now call ∧ Stranger s c

/-- Somebody can grant and revoke permissions. -/
def Managed (s : State H) : Prop := ∃ p, Holds s p .manageAuthorities

/-- The tokens for which the rate limiter keeps an entry. -/
def limiterEntries (s : State H) : Nat := s.windows.size

end Verif.Spec
