import Verif.Model.System
/-!
# What the ICRC-3 library is told at the installation
-/
namespace Verif

/-- lifecycle/init.rs 107-110 and 160-161: for how long the ICRC-3 library is told to recognise
repeated transactions, in nanoseconds. The configured window is taken as a number of
milliseconds (`Duration::from_millis`), and is 0 if none is configured. The library keeps its
configuration over upgrades (lifecycle/post_upgrade.rs 53), and `update_collection_metadata`
(updates/management.rs 28-121) does not tell it about a new window. -/
def ledgerWindow (a : InitArgs) : Nat :=
  match a.txWindow with
  | some w => w * 1000000
  | none => 0

end Verif
