import Verif.Model.System
/-!
# guards.rs, the text of a refusal by the rate limiter
-/
namespace Verif

variable {H : Type}

/-- A `u64` difference; it wraps. guards.rs 60-62. -/
def u64sub (a b : Nat) : Nat := (a + U64 - b) % U64

/-- guards.rs 60-62: the number in the text, computed from the first remembered call. -/
def untilNext (now oldest : Nat) : Nat := u64sub slidingWindowNs (u64sub now oldest)

/-- guards.rs 59-67: the message `guard_sliding_window` returns as its error, if it refuses a
call on `tid` at `now`. The callers pass it on as the message of a `GenericError` with code 0
(updates/icrc7.rs 14-19, updates/icrc37.rs 72-80, 238-247, 385-395, 557-567, 668-676). -/
def retryText (s : State H) (now tid : Nat) : Option String :=
  let hist := ((s.windows.get tid).getD []).filter fun ts => decide (now - ts < slidingWindowNs)
  match hist with
  | [] => none
  | oldest :: _ =>
    if slidingWindowCalls ≤ hist.length then
      some ("Rate limit exceeded. You can make another call in " ++ toString (untilNext now oldest) ++ " milliseconds")
    else none

end Verif
