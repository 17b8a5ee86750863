import Verif.Spec.Limits
import Verif.Model.Retry
/-!
# Specification: when to try again (C93)
-/
namespace Verif.Spec

variable {H : Type}

/-- The text asks to wait `n` milliseconds. -/
def AsksToWait (text : String) (n : Nat) : Prop :=
  text = "Rate limit exceeded. You can make another call in " ++ toString n ++ " milliseconds"

/-- A call on `tid` at `t` is not refused for the rate. -/
def Admitted (s : State H) (t tid : Nat) : Prop := recentCalls s t tid < 5

/-- The calls of a history are made at `now` or later, but before `t`. -/
def Between (now t : Nat) (ms : List Msg) : Prop := ∀ x ∈ callTimes ms, now ≤ x ∧ x < t

end Verif.Spec
