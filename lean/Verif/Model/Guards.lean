import Verif.Model.Types
/-!
# Guards, memo check, permission table
-/
namespace Verif

variable {H : Type}

/-- guards.rs 10. -/
def slidingWindowCalls : Nat := 5

/-- guards.rs 11: 60 ms in nanoseconds. -/
def slidingWindowNs : Nat := 60000000

/-- guards.rs 56-69: the new call history of a token and whether the call is
admitted. The retained history is stored in both cases (it is a `&mut` into the
table). The text of the error (guards.rs 61-66) is in
Model/Retry.lean. -/
def windowStep (hist : List Nat) (now : Nat) : List Nat × Bool :=
  let hist' := hist.filter fun ts => decide (now - ts < slidingWindowNs)
  if slidingWindowCalls ≤ hist'.length then (hist', false) else (hist' ++ [now], true)

/-- guards.rs 47-73 `guard_sliding_window`. `true` is `Ok(())`. -/
def guardWindow (s : State H) (now tid : Nat) : State H × Bool :=
  let r := windowStep ((s.windows.get tid).getD []) now
  ({ s with windows := s.windows.set tid r.1 }, r.2)

/-- guards.rs 9. -/
def maxConcurrent : Nat := 1

/-- guards.rs 25-38 `GuardManagement::new`: `none` is the error. A `BTreeSet`
insert of a present element does nothing. -/
def guardEnter (s : State H) (p : Principal) : Option (State H) :=
  if maxConcurrent ≤ s.guards.length then none
  else some { s with guards := if p ∈ s.guards then s.guards else s.guards ++ [p] }

/-- guards.rs 41-45 `Drop for GuardManagement`. -/
def guardLeave (s : State H) (p : Principal) : State H :=
  { s with guards := s.guards.filter (· ≠ p) }

/-- types/permissions.rs 35-40. -/
def hasPermission (perms : Map Principal (List Permission)) (p : Principal) (x : Permission) : Bool :=
  ((perms.get p).map fun l => l.contains x).getD false

/-- types/permissions.rs 42-47. -/
def grantPermission (perms : Map Principal (List Permission)) (p : Principal) (x : Permission) :
    Map Principal (List Permission) :=
  perms.set p ((perms.get p).getD [] ++ [x])

/-- types/permissions.rs 49-53. -/
def revokePermission (perms : Map Principal (List Permission)) (p : Principal) (x : Permission) :
    Map Principal (List Permission) :=
  match perms.get p with
  | some l => perms.set p (l.filter (· ≠ x))
  | none => perms

/-- types/icrc7.rs 13. -/
def defaultMaxMemo : Nat := 1000000

/-- utils.rs 5-28 `check_memo`. Outer `none`: the `unwrap` of the conversion of
the configured maximum to a 32-bit `usize` panics. `some true` is `Ok(())`. -/
def checkMemo (cfg : Config) (memo : Option Blob) : Option Bool :=
  match memo with
  | none => some true
  | some m =>
    let mx := cfg.maxMemo.getD defaultMaxMemo
    if USIZE ≤ mx then none else some (decide (m.length ≤ mx))

end Verif
