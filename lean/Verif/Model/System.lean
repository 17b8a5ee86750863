import Verif.Model.Management
/-!
# The canister as a transition system

One `Msg` is one message execution of the IC: a call, the arrival of the answer
a suspended call waits for, a trap of such a callback, or an upgrade.
-/
namespace Verif

variable {H : Type}

/-- The update methods of the canister. updates/icrc7.rs 116, updates/icrc37.rs 50-647,
updates/management.rs 28-657. -/
inductive Call where
  | transfer (args : List TransferArg)
  | approveTokens (args : List ApproveTokenArg)
  | approveCollection (args : List ApprovalInfo)
  | revokeTokens (args : List RevokeTokenArg)
  | revokeCollection (args : List RevokeCollArg)
  | transferFrom (args : List TransferFromArg)
  | updateCollectionMetadata (a : UpdateCollArg)
  | mint (reqs : List MintReq)
  | updateNftMetadata (tid : Nat) (kvs : List (String × Value))
  | burn (tid : Nat)
  | initUpload (path : String) (size : Nat)
  | storeChunk (path : String)
  | finalizeUpload (path : String)
  | cancelUpload (path : String)
  | grant (p : Principal) (x : Permission)
  | revoke (p : Principal) (x : Permission)

/-- The permission in the `#[update(guard = …)]` attribute of a method
(updates/management.rs 28, 123, 229, 373, 409, 468, 588, 640, 656; guards.rs
75-125). -/
def Call.needs : Call → Option Permission
  | .updateCollectionMetadata _ => some .updateCollectionMetadata
  | .mint _ => some .minting
  | .updateNftMetadata _ _ => some .updateMetadata
  | .initUpload _ _ | .storeChunk _ | .finalizeUpload _ | .cancelUpload _ => some .updateUploads
  | .grant _ _ | .revoke _ _ => some .manageAuthorities
  | _ => none

/-- What the caller gets. `rejected`: the permission guard refused the message.
`trapped`: the message panicked. `suspended`: no reply yet. The responses of updates/icrc7.rs
116, updates/icrc37.rs 50-647 and updates/management.rs 28-657; rejections and traps are the
platform's. -/
inductive Reply where
  | rejected
  | trapped
  | suspended
  | batch (rs : List (Except TokErr Nat))
  | batchErr (e : TokErr)
  | mgmt (r : Except MgmtErr MgmtOk)
  | none

/-- Lift a batch result. No repo code of its own: scaffolding around updates/icrc7.rs 117 and
updates/icrc37.rs 51-647. -/
def ofBatch (s : State H) : Option (State H × List (Except TokErr Nat)) → State H × Reply
  | .none => (s, .trapped)
  | some (s', rs) => (s', .batch rs)

/-- Lift a management result. No repo code of its own: scaffolding around updates/management.rs
124-657. -/
def ofMgmt (s : State H) : Option (MgmtRes H) → State H × Reply
  | .none => (s, .trapped)
  | some (s', r) => (s', .mgmt r)

/-- Lift the first segment of an asynchronous method. No repo code of its own: scaffolding
around updates/management.rs 29 and 374-589. -/
def ofStarted : Started H → State H × Reply
  | .done s r => (s, .mgmt r)
  | .suspended s => (s, .suspended)

/-- The bodies of the update methods, after the permission guard. updates/icrc7.rs 117,
updates/icrc37.rs 51-647, updates/management.rs 29-657. -/
def exec (E : Env H) (s : State H) (caller : Principal) (now : Nat) : Call → State H × Reply
  | .transfer args => ofBatch s (icrc7Transfer E.ledger s caller now args)
  | .approveTokens args => ofBatch s (icrc37ApproveTokens E.ledger s caller now args)
  | .approveCollection args => ofBatch s (icrc37ApproveCollection E.ledger s caller now args)
  | .revokeTokens args =>
    match icrc37RevokeTokens E.ledger s caller now args with
    | .none => (s, .trapped)
    | some (s', .ok rs) => (s', .batch rs)
    | some (s', .error e) => (s', .batchErr e)
  | .revokeCollection args => ofBatch s (icrc37RevokeCollection E.ledger s caller now args)
  | .transferFrom args => ofBatch s (icrc37TransferFrom E.ledger s caller now args)
  | .updateCollectionMetadata a => ofMgmt s (updateCollectionMetadata s caller a)
  | .mint reqs => ofMgmt s (mint E s caller now reqs)
  | .updateNftMetadata tid kvs => ofMgmt s (updateNftMetadata E s caller now tid kvs)
  | .burn tid => ofMgmt s (burnNft E s caller now tid)
  | .initUpload path size => ofStarted (initUpload s caller path size)
  | .storeChunk path => ofStarted (storeChunk s caller path)
  | .finalizeUpload path => ofStarted (finalizeUpload s caller path)
  | .cancelUpload path => ofStarted (cancelUpload s caller path)
  | .grant p x => ofMgmt s (grant s caller p x)
  | .revoke p x => ofMgmt s (revoke s caller p x)

/-- A message execution. No repo code of its own: the entry points of updates/ (see `Call`), the
continuations after the awaits of updates/management.rs 29-625, and lifecycle/post_upgrade.rs
20. -/
inductive Msg where
  | call (caller : Principal) (now : Nat) (c : Call)
  | resume (now : Nat) (i : Nat) (ans : Answer)
  | resumeTrap (i : Nat)
  | upgrade

/-- The permission guard of the method, then its body. The `guard =` attributes of
updates/management.rs 28-656, guards.rs 75-125. -/
def execCall (E : Env H) (s : State H) (caller : Principal) (now : Nat) (c : Call) :
    State H × Reply :=
  match c.needs with
  | some p => if hasPermission s.perms caller p then exec E s caller now c else (s, .rejected)
  | .none => exec E s caller now c

/-- Lifecycle: `pre_upgrade` (lifecycle/pre_upgrade.rs 10-27) serialises the
runtime state and the ICRC-3 library and `post_upgrade`
(lifecycle/post_upgrade.rs 26-65) restores them (the serializer is external and
taken to be lossless); the stable maps stay where they are. Suspended calls lose
their future, but `principal_guards` is part of the saved state. The router is
rebuilt from the saved redirections (57-60). The arguments of the upgrade, and the
version and commit hash they carry, are in Model/Lifecycle.lean. -/
def upgrade (s : State H) : State H :=
  { s with pending := [],
           router := s.redirects.entries.foldl (fun r e => r.set e.1 e.2) ∅ }

/-- One message execution. A trapped message leaves the state unchanged. An
answer for a call that is not waiting does not exist; the model ignores it. A
trap in a callback (`resumeTrap`) rolls the callback back, but the cleanup
callback of the CDK drops the future and with it the guard. No repo code of its own beyond
`execCall`, the awaits of updates/management.rs 29-625 and lifecycle/post_upgrade.rs 20-65. -/
def step (E : Env H) (s : State H) : Msg → State H × Reply
  | .call caller now c => execCall E s caller now c
  | .resume now i ans =>
    match s.pending[i]? with
    | .none => (s, .none)
    | some p =>
      let r := resumeBody E { s with pending := s.pending.eraseIdx i } now p ans
      (guardLeave r.1 p.caller, .mgmt r.2)
  | .resumeTrap i =>
    match s.pending[i]? with
    | .none => (s, .none)
    | some p => (guardLeave { s with pending := s.pending.eraseIdx i } p.caller, .trapped)
  | .upgrade => (upgrade s, .none)

/-- Run a list of messages. No repo code: scaffolding, the platform executes the messages of
updates/icrc7.rs 116, updates/icrc37.rs 50-647 and updates/management.rs 28-657 one after the
other. -/
def run (E : Env H) (s : State H) : List Msg → State H
  | [] => s
  | m :: ms => run E (step E s m).1 ms

/-- The replies of a run. No repo code: scaffolding around `run`; the responses of
updates/icrc7.rs 116, updates/icrc37.rs 50-647, updates/management.rs 28-657. -/
def replies (E : Env H) (s : State H) : List Msg → List Reply
  | [] => []
  | m :: ms => (step E s m).2 :: replies E (step E s m).1 ms

/-- `bity_ic_types::BuildVersion` (external crate). Part of the arguments of lifecycle/init.rs
25 and lifecycle/post_upgrade.rs 20. -/
structure BuildVersion where
  major : Nat := 0
  minor : Nat := 0
  patch : Nat := 0
  deriving DecidableEq, Repr

/-- lifecycle/init.rs 22-44 `InitArgs`. `version` and `commit_hash` go to what
Model/Lifecycle.lean adds to the state; `collection_metadata` is not read by the code. -/
structure InitArgs where
  testMode : Bool := false
  version : BuildVersion := {}
  commitHash : String := ""
  perms : Map Principal (List Permission) := ∅
  description : Option String := none
  symbol : String := ""
  name : String := ""
  logo : Option String := none
  supplyCap : Option Nat := none
  maxQueryBatch : Option Nat := none
  maxUpdateBatch : Option Nat := none
  maxTake : Option Nat := none
  defaultTake : Option Nat := none
  maxMemo : Option Nat := none
  atomicBatch : Option Bool := none
  txWindow : Option Nat := none
  permittedDrift : Option Nat := none
  maxStorageThreshold : Option Nat := none
  maxApprovals : Option Nat := none
  maxRevoke : Option Nat := none
  collectionMetadata : List (String × Value) := []

/-- `Data::new` as lifecycle/init.rs 70-90 calls it: the parameters of state.rs
107-108 are in the order `max_canister_storage_threshold, permitted_drift`, the
arguments of init.rs 87-88 in the order `permitted_drift,
max_canister_storage_threshold`. -/
def initConfig (a : InitArgs) : Config :=
  { description := a.description, symbol := a.symbol, name := a.name, logo := a.logo,
    supplyCap := a.supplyCap, maxQueryBatch := a.maxQueryBatch,
    maxUpdateBatch := a.maxUpdateBatch, maxTake := a.maxTake, defaultTake := a.defaultTake,
    maxMemo := a.maxMemo, atomicBatch := a.atomicBatch, txWindow := a.txWindow,
    permittedDrift := a.maxStorageThreshold, maxStorageThreshold := a.permittedDrift,
    maxApprovals := a.maxApprovals, maxRevoke := a.maxRevoke }

/-- lifecycle/init.rs 92-105, in the order of the source. -/
def testPermissions : List Permission :=
  [.minting, .updateMetadata, .updateCollectionMetadata, .updateUploads, .manageAuthorities, .readUploads]

/-- lifecycle/init.rs 46-180 `init` with an `Init` argument. `validUrl` stands
for `url::Url::parse(..).is_ok()` (external crate), `hid` for the initial state
of the ICRC-3 library. `none`: the installation traps. -/
def init (validUrl : String → Bool) (hid : H) (caller : Principal) (a : InitArgs) :
    Option (State H) :=
  if a.logo.any (fun u => !validUrl u) then none
  else if a.txWindow.any (fun w => decide (U64 ≤ w)) then none
  else if a.maxRevoke = some 0 then none
  else if a.maxApprovals = some 0 then none
  else some {
    cfg := initConfig a
    perms := if a.testMode then testPermissions.foldl (fun ps x => grantPermission ps caller x) a.perms
             else a.perms
    tokens := ∅, byOwner := ∅, lastId := 1, subs := [], redirects := ∅, guards := [], windows := ∅
    uploads := ∅, tokAppr := ∅, collAppr := ∅, mdata := ∅, hid := hid, log := [], router := ∅
    pending := [] }

/-- A state is reachable if some installation followed by some list of messages
leads to it. lifecycle/init.rs 25-178, then the messages of `Msg`. -/
def Reachable (E : Env H) (s : State H) : Prop :=
  ∃ validUrl hid caller a s₀ msgs, init validUrl hid caller a = some s₀ ∧ run E s₀ msgs = s

end Verif
