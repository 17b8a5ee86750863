import Verif.Model.Lifecycle
/-!
# Installations, upgrades and settings in words
-/
namespace Verif.Spec

/-- The version and commit hash announced last: those of the last upgrade made with upgrade
arguments, else those of the installation. -/
def announced (v : BuildVersion) (h : String) (us : List UpgradeArgs) : BuildVersion × String :=
  match us.getLast? with
  | some u => (u.version, u.commitHash)
  | none => (v, h)

/-- The proper upgrades among the events. -/
def upgrades (es : List Life) : List UpgradeArgs :=
  es.filterMap fun | .upgrade (.upgrade u) => some u | _ => none

/-- The events as messages of the plain model; an upgrade with installation arguments is none. -/
def happened (es : List Life) : List Msg :=
  es.filterMap fun
    | .call c now k => some (.call c now k)
    | .resume now i ans => some (.resume now i ans)
    | .resumeTrap i => some (.resumeTrap i)
    | .upgrade (.upgrade _) => some .upgrade
    | .upgrade (.init _) => none

/-- The proper upgrades among the events of the index. -/
def ixUpgrades (es : List IxLife) : List UpgradeArgs :=
  es.filterMap fun | .upgrade (.upgrade u) => some u | _ => none

/-- The events as messages of the plain index. -/
def ixMessages (es : List IxLife) : List IxMsg :=
  es.filterMap fun
    | .msg m _ => some m
    | .upgrade (.upgrade _) => some .upgrade
    | .upgrade (.init _) => none

/-- What an installation demands of the settings: the logo is an address, the time window a
64-bit number, and no approval limit is zero. -/
structure Acceptable {H : Type} (validUrl : String → Bool) (s : State H) : Prop where
  logo : ∀ u, icrc7Logo s = some u → validUrl u = true
  window : ∀ w, icrc7TxWindow s = some w → w < 2 ^ 64
  approvals : icrc37MaxApprovals s ≠ some 0
  revocations : icrc37MaxRevokeApprovals s ≠ some 0

end Verif.Spec
