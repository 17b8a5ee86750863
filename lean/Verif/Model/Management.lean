import Verif.Model.Metadata
/-!
# updates/management.rs
-/
namespace Verif

variable {H : Type}

/-- What the canister runs in: the ICRC-3 library, its own principal
(`canister_self`), and the textual form of principals (`Principal::to_text`,
external crate, arbitrary here). Uses: state.rs 135-142, updates/management.rs 546. -/
structure Env (H : Type) where
  ledger : Ledger H
  self : Principal
  text : Principal → String

/-- Success values of the management methods, one type for all of them. types/management.rs 33,
47, 64, 116, 133, 163, 197, 236, 258, 275. -/
inductive MgmtOk where
  | unit
  | id (n : Nat)
  | url (u : String)
  deriving DecidableEq, Repr

/-- Result of a management method; `Option` around it is a panic. types/management.rs 26-280. -/
abbrev MgmtRes (H : Type) := State H × Except MgmtErr MgmtOk

/-- The `GuardManagement` scope around a synchronous management method: enter
(or refuse), run, leave on return. guards.rs 25-45; updates/management.rs 128, 235, 329, 643,
659. -/
def withGuard (s : State H) (caller : Principal) (body : State H → Option (MgmtRes H)) :
    Option (MgmtRes H) :=
  match guardEnter s caller with
  | none => some (s, .error .concurrentManagementCall)
  | some s =>
    match body s with
    | none => none
    | some (s, r) => some (guardLeave s caller, r)

/-- types/management.rs 93-110 `update_collection_metadata::Args`; the field
`collection_metadata` is not read by the code. -/
structure UpdateCollArg where
  description : Option String := none
  symbol : Option String := none
  name : Option String := none
  logo : Option String := none
  supplyCap : Option Nat := none
  maxQueryBatch : Option Nat := none
  maxUpdateBatch : Option Nat := none
  maxTake : Option Nat := none
  defaultTake : Option Nat := none
  maxMemo : Option Nat := none
  atomicBatch : Option Bool := none
  txWindow : Option Nat := none
  permittedDrift : Option Nat := none
  maxStorageThreshold : Option Nat := none
  collectionMetadata : Option (List (String × Value)) := none
  deriving DecidableEq, Repr

/-- `if let Some(v) = field { … }` (updates/management.rs 36-118). -/
def setIf {A : Type} (o : Option A) (f : A → Config → Config) (c : Config) : Config :=
  match o with
  | some v => f v c
  | none => c

/-- updates/management.rs 36-118: every given field is overwritten, one after
the other. -/
def applyUpdate (c : Config) (a : UpdateCollArg) : Config :=
  let c := setIf a.description (fun v c => { c with description := some v }) c
  let c := setIf a.symbol (fun v c => { c with symbol := v }) c
  let c := setIf a.name (fun v c => { c with name := v }) c
  let c := setIf a.logo (fun v c => { c with logo := some v }) c
  let c := setIf a.supplyCap (fun v c => { c with supplyCap := some v }) c
  let c := setIf a.maxQueryBatch (fun v c => { c with maxQueryBatch := some v }) c
  let c := setIf a.maxUpdateBatch (fun v c => { c with maxUpdateBatch := some v }) c
  let c := setIf a.maxTake (fun v c => { c with maxTake := some v }) c
  let c := setIf a.defaultTake (fun v c => { c with defaultTake := some v }) c
  let c := setIf a.maxMemo (fun v c => { c with maxMemo := some v }) c
  let c := setIf a.atomicBatch (fun v c => { c with atomicBatch := some v }) c
  let c := setIf a.txWindow (fun v c => { c with txWindow := some v }) c
  let c := setIf a.permittedDrift (fun v c => { c with permittedDrift := some v }) c
  let c := setIf a.maxStorageThreshold (fun v c => { c with maxStorageThreshold := some v }) c
  c

/-- updates/management.rs 28-121 `update_collection_metadata`. The method is
`async` but never awaits. -/
def updateCollectionMetadata (s : State H) (caller : Principal) (a : UpdateCollArg) :
    Option (MgmtRes H) :=
  withGuard s caller fun s => some ({ s with cfg := applyUpdate s.cfg a }, .ok .unit)

/-- types/management.rs 32-50 `MintRequest`. -/
structure MintReq where
  owner : Account
  memo : Option Blob := none
  metadata : List (String × Value) := []
  deriving DecidableEq, Repr

/-- types/icrc7.rs 15. -/
def defaultSupplyCap : Nat := 10000

/-- updates/management.rs 158-165: outer `none` is a panic of `check_memo`,
`some false` a memo over the limit. The loop stops at the first bad memo. -/
def checkMemos (cfg : Config) : List MintReq → Option Bool
  | [] => some true
  | r :: rs =>
    match checkMemo cfg r.memo with
    | none => none
    | some false => some false
    | some true => checkMemos cfg rs

/-- updates/management.rs 171-196, first loop: write the metadata of every
request under the id it will get. -/
def mintMetadata : MetaTable → Nat → List MintReq → Option MetaTable
  | t, _, [] => some t
  | t, tid, r :: rs =>
    match addMetadata t tid r.metadata with
    | none => none
    | some t => mintMetadata t (tid + 1) rs

/-- updates/management.rs 178-192. -/
def mintTx (now tid : Nat) (r : MintReq) : Tx :=
  { op := .mint, ts := now, tid := some tid, to_ := some r.owner, memo := r.memo,
    createdAt := some now }

/-- updates/management.rs 198-207, second loop: submit one transaction per
request, stop at the first refusal. `false` is a refusal. -/
def mintTxs (L : Ledger H) (s : State H) (now tid : Nat) : List MintReq → State H × Bool
  | [] => (s, true)
  | r :: rs =>
    match addTx L s (mintTx now tid r) with
    | (s, .error _) => (s, false)
    | (s, .ok _) => mintTxs L s now (tid + 1) rs

/-- updates/management.rs 214-222: insert the tokens and push their ids on the
owners' lists. -/
def mintInsert (s : State H) (tid : Nat) : List MintReq → State H
  | [] => s
  | r :: rs =>
    mintInsert
      { s with tokens := s.tokens.set tid { id := tid, owner := r.owner },
               byOwner := s.byOwner.set r.owner ((s.byOwner.get r.owner).getD [] ++ [tid]) }
      (tid + 1) rs

/-- updates/management.rs 124-227 `mint`, after the permission check. The sum
of the two lengths is a `usize` sum; it cannot overflow in memory. -/
def mint (E : Env H) (s : State H) (caller : Principal) (now : Nat) (reqs : List MintReq) :
    Option (MgmtRes H) :=
  withGuard s caller fun s =>
    if reqs.length > s.cfg.maxUpdateBatch.getD 100 then some (s, .error .exceedMaxAllowedSupplyCap)
    else if s.tokens.size + reqs.length > s.cfg.supplyCap.getD defaultSupplyCap then
      some (s, .error .exceedMaxAllowedSupplyCap)
    else match checkMemos s.cfg reqs with
    | none => none
    | some false => some (s, .error .invalidMemo)
    | some true =>
      let first := s.lastId
      match mintMetadata s.mdata first reqs with
      | none => none
      | some md =>
        match mintTxs E.ledger { s with mdata := md } now first reqs with
        | (s, false) => some (s, .error .storageCanisterError)
        | (s, true) =>
          some (mintInsert { s with lastId := first + reqs.length } first reqs, .ok (.id first))

/-- updates/management.rs 230-324 `update_nft_metadata`, after the permission
check. `token.replace_metadata` uses the id stored in the token row. -/
def updateNftMetadata (E : Env H) (s : State H) (caller : Principal) (now tid : Nat)
    (kvs : List (String × Value)) : Option (MgmtRes H) :=
  withGuard s caller fun s =>
    match s.tokens.get tid with
    | none => some (s, .error .tokenDoesNotExist)
    | some token =>
      let prev := (getAllData s.mdata tid).getD []
      match replaceMetadata s.mdata token.id kvs with
      | none => none
      | some md =>
        let s := { s with mdata := md }
        let new := (getAllData s.mdata tid).getD []
        match addTx E.ledger s { op := .updateToken, ts := now, tid := some tid,
                                 from_ := some ⟨caller, none⟩, meta_ := some (prev, new),
                                 createdAt := some now } with
        | (s, .error _) => some (s, .error .storageCanisterError)
        | (s, .ok _) => some ({ s with tokens := s.tokens.set tid token }, .ok (.id tid))

/-- updates/management.rs 327-371 `burn_nft`. -/
def burnNft (E : Env H) (s : State H) (caller : Principal) (now tid : Nat) : Option (MgmtRes H) :=
  withGuard s caller fun s =>
    match s.tokens.get tid with
    | none => some (s, .error .tokenDoesNotExist)
    | some token =>
      if caller ≠ token.owner.owner then some (s, .error .notTokenOwner)
      else
        match addTx E.ledger s { op := .burn, ts := now, tid := some tid,
                                 from_ := some token.owner, createdAt := some now } with
        | (s, .error _) => some (s, .error .storageCanisterError)
        | (s, .ok _) => some ({ s with tokens := s.tokens.del tid }, .ok .unit)

/-- updates/management.rs 641-654 `grant_permission`. -/
def grant (s : State H) (caller p : Principal) (x : Permission) : Option (MgmtRes H) :=
  withGuard s caller fun s => some ({ s with perms := grantPermission s.perms p x }, .ok .unit)

/-- updates/management.rs 657-670 `revoke_permission`. -/
def revoke (s : State H) (caller p : Principal) (x : Permission) : Option (MgmtRes H) :=
  withGuard s caller fun s => some ({ s with perms := revokePermission s.perms p x }, .ok .unit)

/-! ## Uploads -/

/-- types/sub_canister.rs 16. -/
def maxStorageSize : Nat := 500 * 1024 * 1024 * 1024
/-- types/sub_canister.rs 17. -/
def maxFileSize : Nat := 2 * 1024 * 1024 * 1024

/-- Outcome of the first segment of an asynchronous method: it either returns,
or suspends on a call to another canister. No repo code of its own: the awaits of
updates/management.rs 29-116 and 373-625. -/
inductive Started (H : Type) where
  | done (s : State H) (r : Except MgmtErr MgmtOk)
  | suspended (s : State H)

/-- The `GuardManagement` scope of an asynchronous method. The guard lives as
long as the future does; a suspended call keeps its entry. guards.rs 25-45;
updates/management.rs 33, 376, 412, 472, 591. -/
def withGuardAsync (s : State H) (caller : Principal)
    (body : State H → State H × (Except MgmtErr MgmtOk ⊕ Pending)) : Started H :=
  match guardEnter s caller with
  | none => .done s (.error .concurrentManagementCall)
  | some s =>
    match body s with
    | (s, .inl r) => .done (guardLeave s caller) r
    | (s, .inr p) => .suspended { s with pending := s.pending ++ [p] }

/-- state.rs 312-314 `contains_path`. -/
def containsPath (m : Map String Upload) (path : String) : Bool :=
  m.entries.any fun e => decide (e.2.path = path)

/-- types/sub_canister.rs 132-137 `get_canister`. -/
def getSub (subs : List SubCanister) (id : Principal) : Option SubCanister :=
  subs.find? fun c => decide (c.id = id)

/-- updates/management.rs 374-390 `init_upload` up to its first await, and the
size check of types/sub_canister.rs 75-78 which returns without awaiting. -/
def initUpload (s : State H) (caller : Principal) (path : String) (size : Nat) : Started H :=
  withGuardAsync s caller fun s =>
    if containsPath s.uploads path then (s, .inl (.error .fileAlreadyExists))
    else if size > maxFileSize then (s, .inl (.error .storageCanisterError))
    else (s, .inr (.init caller path size s.subs))

/-- The part common to updates/management.rs 434-446, 496-508 and 613-625 and
the `state != Installed` test of the `StorageCanister` methods
(types/sub_canister.rs 249-254, 275-280, 301-306): look the storage canister up; if it is gone,
drop the upload entry. -/
def callStorage (s : State H) (key : String) (u : Upload) (p : Pending) :
    State H × (Except MgmtErr MgmtOk ⊕ Pending) :=
  match getSub s.subs u.canister with
  | none => ({ s with uploads := s.uploads.del key }, .inl (.error .storageCanisterError))
  | some c => if c.installed then (s, .inr p) else (s, .inl (.error .storageCanisterError))

/-- updates/management.rs 410-448 `store_chunk` up to its await. The chunk
itself only goes to the storage canister. -/
def storeChunk (s : State H) (caller : Principal) (key : String) : Started H :=
  withGuardAsync s caller fun s =>
    match s.uploads.get key with
    | none => (s, .inl (.error .uploadNotInitialized))
    | some u =>
      match u.state with
      | .finalized => (s, .inl (.error .uploadAlreadyFinalized))
      | .init | .inProgress => callStorage s key u (.store caller key u)

/-- updates/management.rs 469-510 `finalize_upload` up to its await. -/
def finalizeUpload (s : State H) (caller : Principal) (key : String) : Started H :=
  withGuardAsync s caller fun s =>
    match s.uploads.get key with
    | none => (s, .inl (.error .uploadNotStarted))
    | some u =>
      match u.state with
      | .init => (s, .inl (.error .uploadNotStarted))
      | .finalized => (s, .inl (.error .uploadAlreadyFinalized))
      | .inProgress => callStorage s key u (.finalize caller key u)

/-- updates/management.rs 589-627 `cancel_upload` up to its await. -/
def cancelUpload (s : State H) (caller : Principal) (key : String) : Started H :=
  withGuardAsync s caller fun s =>
    match s.uploads.get key with
    | none => (s, .inl (.error .uploadNotInitialized))
    | some u =>
      match u.state with
      | .finalized => (s, .inl (.error .uploadAlreadyFinalized))
      | .init | .inProgress => callStorage s key u (.cancel caller key u)

/-- Error variants of the storage canister API (external crate) that
types/management.rs 135-247 tells apart; `other` is any other variant, and also
a call that failed after its retries. -/
inductive StorageErr where
  | fileAlreadyExists | uploadNotInitialized | uploadNotStarted | uploadAlreadyFinalized
  | incompleteUpload | other
  deriving DecidableEq, Repr

/-- types/management.rs 165-178 `store_chunk::from_storage_response`. -/
def storeErr : StorageErr → MgmtErr
  | .uploadNotInitialized => .uploadNotInitialized
  | .uploadAlreadyFinalized => .uploadAlreadyFinalized
  | _ => .storageCanisterError

/-- types/management.rs 199-218 `finalize_upload::from_storage_response`. -/
def finalizeErr : StorageErr → MgmtErr
  | .uploadNotStarted => .uploadNotStarted
  | .uploadAlreadyFinalized => .uploadAlreadyFinalized
  | .incompleteUpload => .incompleteUpload
  | _ => .storageCanisterError

/-- types/management.rs 238-247 `cancel_upload::from_storage_response`. -/
def cancelErr : StorageErr → MgmtErr
  | .uploadNotInitialized => .uploadNotInitialized
  | _ => .storageCanisterError

/-- Everything the other canisters answer to one suspended call. `sizeOf` and
`initOk` are the answers of the existing storage canisters to
`get_storage_size` and `init_upload`, `created` what `create_canister` returns,
`newInitOk` the answer of the new canister to `init_upload`; `resp` is the
answer to `store_chunk`, `finalize_upload` or `cancel_upload`. `walk` is the order
in which the hash map of storage canisters is walked: some permutation. types/sub_canister.rs
207-345. -/
structure Answer where
  walk : List SubCanister → List SubCanister := id
  walk_perm : ∀ l, (walk l).Perm l := by exact fun l => List.Perm.refl l
  sizeOf : Principal → Option Nat := fun _ => none
  initOk : Principal → Bool := fun _ => false
  created : Option SubCanister := none
  newInitOk : Bool := false
  resp : Except StorageErr Unit := .ok ()

/-- types/sub_canister.rs 80-99: the first installed canister with room that
accepts the upload. The sum is a `u128` sum. -/
def pickStorage (ans : Answer) (size : Nat) : List SubCanister → Option Principal
  | [] => none
  | c :: cs =>
    match ans.sizeOf c.id with
    | none => pickStorage ans size cs
    | some used =>
      if (used + size) % 340282366920938463463374607431768211456 ≤ maxStorageSize && ans.initOk c.id then
        some c.id
      else pickStorage ans size cs

/-- types/sub_canister.rs 71-130 `init_upload` on the cloned manager: the new
list of canisters and the chosen one. `none` is an error, and the clone is
dropped with it. The calls to the other canisters are merged into one answer:
between them the method touches only the clone. `create_canister` (external
crate) is assumed to add the canister it returns to the table. -/
def managerInitUpload (ans : Answer) (subs : List SubCanister) (size : Nat) :
    Option (List SubCanister × Principal) :=
  match pickStorage ans size ((ans.walk subs).filter (·.installed)) with
  | some id => some (subs, id)
  | none =>
    match ans.created with
    | none => none
    | some c =>
      if c.installed && ans.newInitOk then
        some (subs.filter (fun x => decide (x.id ≠ c.id)) ++ [c], c.id)
      else none

/-- updates/management.rs 518-522. -/
def mediaPath (p : String) : String := if p.toList.head? = some '/' then p else "/" ++ p

/-- updates/management.rs 524 and 543-547. -/
def mediaUrl (E : Env H) (canister : Principal) (path : String) : String :=
  "https://" ++ E.text canister ++ ".raw.icp0.io" ++ path

/-- The rest of the four asynchronous methods, run when the awaited answer
arrives: updates/management.rs 386-406 (`init_upload`), 448-465 (`store_chunk`),
510-550 (`finalize_upload`), 627-637 (`cancel_upload`). `add_redirection`
(types/http.rs 29-58) registers the path with the asset router; its trap is the
message `resumeTrap` of `Verif.Model.System`. -/
def resumeBody (E : Env H) (s : State H) (now : Nat) (p : Pending) (ans : Answer) : MgmtRes H :=
  match p with
  | .init _ path size subs =>
    match managerInitUpload ans subs size with
    | none => (s, .error .storageCanisterError)
    | some (subs, canister) =>
      ({ s with subs := subs,
                uploads := s.uploads.set path
                  { initTs := now, state := .init, canister := canister, path := path } },
        .ok .unit)
  | .store _ key u =>
    match ans.resp with
    | .error e => (s, .error (storeErr e))
    | .ok _ => ({ s with uploads := s.uploads.set key { u with state := .inProgress } }, .ok .unit)
  | .finalize _ key u =>
    match ans.resp with
    | .error e => (s, .error (finalizeErr e))
    | .ok _ =>
      let path := mediaPath u.path
      let url := mediaUrl E u.canister path
      ({ s with router := s.router.set path url,
                redirects := s.redirects.set path url,
                uploads := s.uploads.set key { u with state := .finalized } },
        .ok (.url (mediaUrl E E.self path)))
  | .cancel _ key _ =>
    match ans.resp with
    | .error e => (s, .error (cancelErr e))
    | .ok _ => ({ s with uploads := s.uploads.del key }, .ok .unit)

end Verif
