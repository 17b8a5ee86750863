import Verif.Model.System
/-!
# jobs/upload_garbage_collector.rs
-/
namespace Verif

variable {H : Type}

/-- `bity_ic_canister_time::DAY_IN_MS` (external crate): 24 h in milliseconds. Used in
jobs/upload_garbage_collector.rs 3, 12, 25. -/
def dayInMs : Nat := 24 * 60 * 60 * 1000

/-- jobs/upload_garbage_collector.rs 25-28: the test on one file. The sum is a
`u64` sum of a time in nanoseconds and a duration in milliseconds. -/
def gcSelects (now : Nat) (u : Upload) : Bool := decide (u64add u.initTs dayInMs > now)

/-- jobs/upload_garbage_collector.rs 21-44 `upload_garbage_collector`: the
storage canister and path of every `cancel_upload` it sends. The clock is read
again before every file; it is taken to stand still here. The answers are only
logged, and the upload table of this canister is not written. -/
def gcCancels (s : State H) (now : Nat) : List (Principal × String) :=
  (s.uploads.entries.filter fun e => gcSelects now e.2).map fun e => (e.2.canister, e.1)

end Verif
