import Verif.Model.Web
import Verif.Model.Index
/-!
# Installation and upgrade of the two canisters, with their arguments

What lies here beside the states of the canisters is read by no update method; it is
shown on the metrics page and passed on to storage canisters.
-/
namespace Verif

variable {H : Type}

/-- lifecycle/post_upgrade.rs 18-22 `UpgradeArgs`, and the same in
/repo/src/index_icrc7/src/lifecycle/mod.rs 34-38. -/
structure UpgradeArgs where
  version : BuildVersion
  commitHash : String
  deriving DecidableEq, Repr

/-- lifecycle/mod.rs 19-23 `Args`. -/
inductive Args where
  | init (a : InitArgs)
  | upgrade (a : UpgradeArgs)

/-- The fields of `CanisterEnv` (external crate) that are set by lifecycle/init.rs 50-54 and
lifecycle/post_upgrade.rs 49-50. -/
structure Build where
  testMode : Bool
  version : BuildVersion
  commitHash : String
  deriving DecidableEq, Repr

/-- The arguments storage canisters are installed with (state.rs 124-133). -/
structure StorageArgs where
  testMode : Bool
  version : BuildVersion
  commitHash : String
  authorized : List Principal
  deriving DecidableEq, Repr

/-- The running canister: `RuntimeState.env` (state.rs 31), the rest of the state, and the
field `init_args` of `StorageSubCanisterManager` (types/sub_canister.rs 24-29), which is what
`create_canister` is given (types/sub_canister.rs 104). -/
structure Deployed (H : Type) where
  state : State H
  build : Build
  storageArgs : StorageArgs

/-- lifecycle/init.rs 46-188 `init`. `none`: the installation traps and there is no
canister. -/
def install (self : Principal) (validUrl : String → Bool) (hid : H) (caller : Principal) : Args → Option (Deployed H)
  | .init a =>
    match init validUrl hid caller a with
    | none => none
    | some s =>
      some ⟨s, ⟨a.testMode, a.version, a.commitHash⟩,
        ⟨a.testMode, a.version, a.commitHash, storageAuthorized self a⟩⟩
  | .upgrade _ => none

/-- lifecycle/post_upgrade.rs 26-66 `post_upgrade`: `set_version` and `set_commit_hash` change
`env` only. `none`: the upgrade traps. -/
def upgradeWith (d : Deployed H) : Args → Option (Deployed H)
  | .init _ => none
  | .upgrade u =>
    some { d with state := upgrade d.state, build := { d.build with version := u.version, commitHash := u.commitHash } }

/-- What can happen to an installed canister. lifecycle/init.rs 25, lifecycle/post_upgrade.rs
20, and the messages of lib.rs. -/
inductive Life where
  | call (caller : Principal) (now : Nat) (c : Call)
  | resume (now : Nat) (i : Nat) (ans : Answer)
  | resumeTrap (i : Nat)
  | upgrade (a : Args)

/-- One event. An upgrade that traps is undone by the platform: the old code goes on with the
old state, suspended calls included. lifecycle/post_upgrade.rs 20-65; the undoing is the
platform's. -/
def lifeStep (E : Env H) (d : Deployed H) : Life → Deployed H × Reply
  | .call c now k => let r := step E d.state (.call c now k); ({ d with state := r.1 }, r.2)
  | .resume now i ans => let r := step E d.state (.resume now i ans); ({ d with state := r.1 }, r.2)
  | .resumeTrap i => let r := step E d.state (.resumeTrap i); ({ d with state := r.1 }, r.2)
  | .upgrade a =>
    match upgradeWith d a with
    | none => (d, .trapped)
    | some d' => (d', .none)

/-- A list of events. No repo code of its own: scaffolding around lifecycle/post_upgrade.rs
20-65. -/
def lifeRun (E : Env H) (d : Deployed H) : List Life → Deployed H
  | [] => d
  | e :: es => lifeRun E (lifeStep E d e).1 es

/-- state.rs 49-62 `metrics`, without time, memory and cycles. -/
structure Metrics where
  testMode : Bool
  version : BuildVersion
  commitHash : String
  permissions : Map Principal (List Permission)

/-- The page `/metrics` (queries/http_request.rs 64-67). -/
def metricsPage (d : Deployed H) : Metrics :=
  ⟨d.build.testMode, d.build.version, d.build.commitHash, d.state.perms⟩

/-! ## The index canister -/

/-- /repo/src/index_icrc7/src/lifecycle/mod.rs 25-32 `InitArgs`. -/
structure IxInitArgs where
  testMode : Bool
  version : BuildVersion
  commitHash : String
  authorized : List Principal
  ledger : Principal
  deriving DecidableEq, Repr

/-- /repo/src/index_icrc7/src/lifecycle/mod.rs 19-22 `Args`. -/
inductive IxArgs where
  | init (a : IxInitArgs)
  | upgrade (a : UpgradeArgs)
  deriving DecidableEq, Repr

/-- /repo/src/index_icrc7/src/state.rs 11-15 and 41-47. The set of authorized principals is
written but read by nothing that runs (`caller_is_authorized`, guards.rs 3-9, guards no
method, and `metrics` no page); the last update time is never read. -/
structure IxDeployed where
  ix : Ix
  build : Build
  ledger : Principal
  authorized : List Principal
  deriving DecidableEq, Repr

/-- /repo/src/index_icrc7/src/lifecycle/init.rs 8-44 `init`. -/
def ixInstall (caller : Principal) : IxArgs → Option IxDeployed
  | .init a =>
    some ⟨Ix.fresh, ⟨a.testMode, a.version, a.commitHash⟩, a.ledger,
      if a.testMode then a.authorized ++ [caller] else a.authorized⟩
  | .upgrade _ => none

/-- /repo/src/index_icrc7/src/lifecycle/post_upgrade.rs 12-48 `post_upgrade`. -/
def ixUpgradeWith (parse : ParsePrincipal) (d : IxDeployed) : IxArgs → Option IxDeployed
  | .init _ => none
  | .upgrade u =>
    some { d with ix := (ixStep parse d.ix .upgrade).1,
                  build := { d.build with version := u.version, commitHash := u.commitHash } }

/-- What can happen to an installed index. src/index_icrc7/src/lifecycle/mod.rs 28-36 and the
messages of `ixStep`. -/
inductive IxLife where
  | msg (m : IxMsg) (h : m ≠ .upgrade)
  | upgrade (a : IxArgs)

/-- One event. src/index_icrc7/src/lifecycle/mod.rs 28-36. -/
def ixLifeStep (parse : ParsePrincipal) (d : IxDeployed) : IxLife → IxDeployed × IxOut
  | .msg m _ => let r := ixStep parse d.ix m; ({ d with ix := r.1 }, r.2)
  | .upgrade a =>
    match ixUpgradeWith parse d a with
    | none => (d, .trapped)
    | some d' => (d', .none)

/-- A list of events. No repo code of its own: scaffolding around
src/index_icrc7/src/lifecycle/mod.rs 28-36. -/
def ixLifeRun (parse : ParsePrincipal) (d : IxDeployed) : List IxLife → IxDeployed
  | [] => d
  | e :: es => ixLifeRun parse (ixLifeStep parse d e).1 es

/-- /repo/src/index_icrc7/src/queries/queries.rs 13-18 `ledger_id`. -/
def ledgerId (d : IxDeployed) : Principal := d.ledger

end Verif
