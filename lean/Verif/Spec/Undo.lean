import Verif.Spec.Basic
/-!
# C126: doing and undoing

What it means that nothing is left of a call that was undone.
-/
namespace Verif.Spec

variable {H : Type}

/-- The same accounts own the same tokens, the same accounts may move them, at whatever
time, the same principals hold the same permissions, and the next id is the same. -/
structure SameRights (s t : State H) : Prop where
  owners : ∀ tid a, (∃ o, Owner s tid = some o ∧ SameAccount o a) ↔ ∃ o, Owner t tid = some o ∧ SameAccount o a
  movers : ∀ now tid o sp, MayMove s now tid o sp ↔ MayMove t now tid o sp
  permissions : ∀ p x, Holds s p x ↔ Holds t p x
  next : s.lastId = t.lastId

/-- `ms` are no calls: upgrades, and answers to calls that wait. -/
def NoCalls (ms : List Msg) : Prop := ∀ c now call, Msg.call c now call ∉ ms

end Verif.Spec
