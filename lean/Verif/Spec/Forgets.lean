import Verif.Spec.Strangers
/-!
# What the rate limiter still remembers
-/
namespace Verif.Spec

variable {H : Type}

/-- The times of the calls on a token that the rate limiter still counts at time `t`. -/
def stillCounted (s : State H) (t tid : Nat) : List Nat :=
  ((s.windows.get tid).getD []).filter fun x => decide (t - x < 60000000)

/-- Two collections that differ at most in calls which the rate limiter no longer counts
at time `t`. -/
def SameSince (t : Nat) (s s' : State H) : Prop :=
  s' = { s with windows := s'.windows } ∧ ∀ tid, stillCounted s' t tid = stillCounted s t tid

/-- No call of the history is earlier than `t`. -/
def NotBefore (t : Nat) (msgs : List Msg) : Prop := ∀ x ∈ callTimes msgs, t ≤ x

/-- Every call of the history is at least 60 ms before `t`. -/
def LongBefore (t : Nat) (msgs : List Msg) : Prop := ∀ x ∈ callTimes msgs, x + 60000000 ≤ t

/-- The messages of a history that are marked. -/
def marked (hist : List (Bool × Msg)) : List Msg := (hist.filter (·.1)).map (·.2)

/-- The answers to the marked messages of a history. -/
def markedAnswers (E : Env H) (s : State H) : List (Bool × Msg) → List Reply
  | [] => []
  | (true, m) :: l => (step E s m).2 :: markedAnswers E (step E s m).1 l
  | (false, m) :: l => markedAnswers E (step E s m).1 l

/-- The messages that are not marked are calls of principals who have no standing with the
collection as it is after the marked messages before them, and each is made at least 60 ms before
the marked calls that follow it. -/
def StrangersBetween (E : Env H) (s : State H) : List (Bool × Msg) → Prop
  | [] => True
  | (true, m) :: l => StrangersBetween E (step E s m).1 l
  | (false, m) :: l => (∃ c now call, m = .call c now call ∧ Stranger s c ∧ NotBefore (now + 60000000) (marked l)) ∧
      StrangersBetween E s l

end Verif.Spec
