import Verif.Model.System
/-!
# What permissions are good for
-/
namespace Verif.Spec

variable {H : Type}

/-- `s'` is the same collection as `s`, with perhaps more permissions held by somebody. -/
structure MorePermitted (s s' : State H) : Prop where
  rest : { s' with perms := s.perms } = s
  more : ∀ p x, hasPermission s.perms p x = true → hasPermission s'.perms p x = true

/-- The two collections differ at most in what the principal `x` is permitted. -/
structure SameButFor (x : Principal) (s s' : State H) : Prop where
  rest : { s' with perms := s.perms } = s
  others : ∀ p, p ≠ x → s'.perms.get p = s.perms.get p

/-- A call, made by `x`, of a method for which one needs a permission. -/
def needsOf (x : Principal) : Msg → Bool
  | .call c _ call => c == x && call.needs.isSome
  | _ => false

end Verif.Spec
