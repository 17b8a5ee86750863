import Verif.Model.System
import Verif.Spec.Background
/-!
# Calls that wait take effect in one moment
-/
namespace Verif.Spec

variable {H : Type}

/-- The messages that end the wait of a suspended call: its answer, a trap while the answer
is handled, or an upgrade. -/
def endsWait : Msg → Bool
  | .resume _ i _ => i == 0
  | .resumeTrap i => i == 0
  | .upgrade => true
  | .call _ _ _ => false

/-- A history without overlap: as long as a call waits for another canister, nothing happens
but the end of the wait. -/
def OneAtATime (E : Env H) : State H → List Msg → Prop
  | _, [] => True
  | s, m :: ms => (s.pending ≠ [] → endsWait m = true) ∧ OneAtATime E (step E s m).1 ms

/-- The reply tells a caller what became of a call: neither "turned away" nor "wait", and
not the missing reply of an upgrade. -/
def settled : Reply → Bool
  | .rejected => false
  | .mgmt (.error .concurrentManagementCall) => false
  | .suspended => false
  | .none => false
  | _ => true

/-- The calls and answers of a history that were dealt with, in their order, with what was
replied. -/
def outcomes (E : Env H) : State H → List Msg → List (Msg × Reply)
  | _, [] => []
  | s, m :: ms =>
    if settled (step E s m).2 then (m, (step E s m).2) :: outcomes E (step E s m).1 ms
    else outcomes E (step E s m).1 ms

end Verif.Spec
