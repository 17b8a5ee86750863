import Verif.Model.System
import Verif.Model.Queries
/-!
# Certified web pages, public metrics and the arguments of storage canisters

The state below lies beside `State`: nothing in the rest of the canister reads it.
-/
namespace Verif

variable {H : Type}

/-- The contents of the certification tree `HTTP_TREE` (types/http.rs 11-24): the
paths entered as "skip certification" and the redirections, which the asset router
enters into the same tree. -/
structure CertTree where
  skips : List String
  redirects : Map String String

/-- What `certify_all_assets` enters (types/http.rs 80-104). -/
def skipPaths : List String := ["/metrics", "/logs", "/trace"]

/-- The skip entries of the tree in memory, and the tree whose root hash was last
passed to `certified_data_set` (types/http.rs 54, 74, 107), which the platform
keeps until the next such call, also over an upgrade. Root hashes are represented
by the contents they commit to. -/
structure Web where
  skips : List String
  certified : CertTree

/-- The tree in memory: the router of the canister state holds the redirections. types/http.rs
47-107; state.rs 29-36. -/
def Web.tree (w : Web) (s : State H) : CertTree := ⟨w.skips, s.router⟩

/-- lifecycle/init.rs 178: a fresh installation calls `certify_all_assets`. -/
def webInit : Web := ⟨skipPaths, ⟨skipPaths, ∅⟩⟩

/-- The message calls `add_redirection` (updates/management.rs 526): the storage
canister accepted the end of an upload. -/
def addsRedirection (s : State H) : Msg → Bool
  | .resume _ i ans =>
    match s.pending[i]? with
    | some (.finalize _ _ _) => match ans.resp with | .ok _ => true | .error _ => false
    | _ => false
  | _ => false

/-- The effect of a message on the web state. `add_redirection` certifies the tree
(types/http.rs 47-57). An upgrade starts from an empty tree, as `HTTP_TREE` is a
thread-local of the new instance, and calls `add_redirection` for every saved
redirection (lifecycle/post_upgrade.rs 57-60), but not `certify_all_assets`. -/
def webStep (E : Env H) (s : State H) (w : Web) (m : Msg) : Web :=
  match m with
  | .upgrade =>
    if s.redirects.entries.isEmpty then ⟨[], w.certified⟩ else ⟨[], ⟨[], (step E s m).1.router⟩⟩
  | m => if addsRedirection s m then ⟨w.skips, ⟨w.skips, (step E s m).1.router⟩⟩ else w

/-- Run a list of messages on both states. No repo code of its own: scaffolding, the messages of
`run` with the tree of types/http.rs 47-107. -/
def webRun (E : Env H) (s : State H) (w : Web) : List Msg → Web
  | [] => w
  | m :: ms => webRun E (step E s m).1 (webStep E s w m) ms

/-- The path for which the answer to a request for `path` carries a witness:
queries/http_request.rs 45-56 (`serve_logs`, for both `/logs` and `/traces`) and
84-95 (`serve_metrics`) name "/metrics"; the asset router names the requested path. -/
def witnessedPath (path : String) : HttpReply → Option String
  | .logs | .traces | .metrics => some "/metrics"
  | .redirect _ => some path
  | .trapped => none

/-- The body of the metrics page (state.rs 49-62 `metrics`, queries/http_request.rs
65-67), its field `permissions`; none for other pages. Any caller may request it:
`http_request` has no guard. -/
def pagePermissions (s : State H) (path : String) : Option (Map Principal (List Permission)) :=
  match httpRequest s path with
  | .metrics => some s.perms
  | _ => none

/-- state.rs 110-138, the `authorized_principals` of the arguments with which storage
canisters are installed: the holders of `ManageAuthorities` among the permissions in
the installation arguments, and the canister itself. `init_args` of
`StorageSubCanisterManager` (types/sub_canister.rs 24-29, 67, 104) is set here only. -/
def storageAuthorized (self : Principal) (a : InitArgs) : List Principal :=
  a.perms.keys.filter (fun p => hasPermission a.perms p .manageAuthorities) ++ [self]

/-- lifecycle/init.rs 118-155: the announced block types. -/
def supportedBlocks : List String :=
  ["7mint", "7burn", "7xfer", "7update_token", "37approve", "37approve_coll", "37revoke", "37revoke_coll", "37xfer"]

end Verif
