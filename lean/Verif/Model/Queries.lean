import Verif.Prelude.Sort
import Verif.Model.System
/-!
# Queries: queries/icrc7.rs, queries/icrc37.rs and the queries of updates/management.rs

`Option` around an answer: `none` is a trap (or, for the guarded queries, the
rejection by the permission guard). A query changes nothing. Queries that walk a
`HashMap` and show the walk's order take the order as an argument.
-/
namespace Verif

variable {H : Type}

/-- types/icrc7.rs 10. -/
def defaultTake : Nat := 100
/-- types/icrc7.rs 14. -/
def defaultMaxQueryBatch : Nat := 100
/-- types/icrc7.rs 15. -/
def defaultMaxTake : Nat := 100

/-- The batch limit of queries/icrc7.rs 181-194, 215-228 and 241-254. -/
def queryBatch {A B : Type} (s : State H) (f : A → B) (args : List A) : Option (List B) :=
  if args.length > toUsizeOr (s.cfg.maxQueryBatch.getD defaultMaxQueryBatch) defaultMaxQueryBatch then
    none
  else some (args.map f)

/-- types/nft.rs 30-43 `token_metadata`: the row of the token's own id, empty if
there is none, by ascending key. -/
def tokenMetadata (s : State H) (t : Token) : List (String × Value) := (getAllData s.mdata t.id).getD []

/-- queries/icrc7.rs 178-211 `icrc7_token_metadata`. -/
def icrc7TokenMetadata (s : State H) (ids : List Nat) : Option (List (Option (List (String × Value)))) :=
  queryBatch s (fun tid => (s.tokens.get tid).map (tokenMetadata s)) ids

/-- queries/icrc7.rs 214-235 `icrc7_owner_of`. -/
def icrc7OwnerOf (s : State H) (ids : List Nat) : Option (List (Option Account)) :=
  queryBatch s (ownerOf s) ids

/-- state.rs 197-204 `tokens_balance_of`. -/
def balanceOf (s : State H) (a : Account) : Nat := ((s.byOwner.get a).map List.length).getD 0

/-- queries/icrc7.rs 238-261 `icrc7_balance_of`. -/
def icrc7BalanceOf (s : State H) (as : List Account) : Option (List Nat) := queryBatch s (balanceOf s) as

/-- state.rs 225-227 `total_supply`, queries/icrc7.rs 128-130. -/
def totalSupply (s : State H) : Nat := s.tokens.size

/-- state.rs 217-223 `tokens_ids_of_account`. -/
def tokenIdsOf (s : State H) (a : Account) : List Nat :=
  (s.tokens.entries.filter fun e => e.2.owner == a).map Prod.fst

/-- queries/icrc7.rs 295-301: sort, skip up to the first id above `prev`, take. -/
def page (ids : List Nat) (prev take : Nat) : List Nat :=
  let ids := sortNat ids
  let start := (ids.findIdx? fun id => decide (id > prev)).getD ids.length
  (ids.drop start).take take

/-- queries/icrc7.rs 268-293: check `take`, default `prev` and `take`. -/
def paged (s : State H) (ids : List Nat) (prev take : Option Nat) : Option (List Nat) :=
  if take.any fun t => decide (t > s.cfg.maxTake.getD defaultMaxTake) then none
  else
    some (page ids (prev.getD 0)
      (toUsizeOr (take.getD (s.cfg.defaultTake.getD defaultTake)) defaultTake))

/-- queries/icrc7.rs 264-303 `icrc7_tokens`. -/
def icrc7Tokens (s : State H) (prev take : Option Nat) : Option (List Nat) :=
  paged s s.tokens.keys prev take

/-- queries/icrc7.rs 306-346 `icrc7_tokens_of`. -/
def icrc7TokensOf (s : State H) (a : Account) (prev take : Option Nat) : Option (List Nat) :=
  paged s (tokenIdsOf s a) prev take

/-- queries/icrc7.rs 10-105 `icrc7_collection_metadata`: the present settings,
sorted by key. -/
def icrc7CollectionMetadata (s : State H) : List (String × Value) :=
  let opt (k : String) (f : Option Value) : List (String × Value) := (f.map fun v => (k, v)).toList
  sortBy (fun a b => decide (a.1 ≤ b.1)) <|
    [("icrc7:symbol", .text s.cfg.symbol), ("icrc7:name", .text s.cfg.name),
     ("icrc7:total_supply", .nat (totalSupply s))] ++
    opt "icrc7:description" (s.cfg.description.map .text) ++
    opt "icrc7:logo" (s.cfg.logo.map .text) ++
    opt "icrc7:supply_cap" (s.cfg.supplyCap.map .nat) ++
    opt "icrc7:max_query_batch_size" (s.cfg.maxQueryBatch.map .nat) ++
    opt "icrc7:max_update_batch_size" (s.cfg.maxUpdateBatch.map .nat) ++
    opt "icrc7:default_take_value" (s.cfg.defaultTake.map .nat) ++
    opt "icrc7:max_take_value" (s.cfg.maxTake.map .nat) ++
    opt "icrc7:max_memo_size" (s.cfg.maxMemo.map .nat) ++
    opt "icrc7:atomic_batch_transfers" (s.cfg.atomicBatch.map fun b => .text (if b then "true" else "false")) ++
    opt "icrc7:tx_window" (s.cfg.txWindow.map .nat) ++
    opt "icrc7:permitted_drift" (s.cfg.permittedDrift.map .nat)

/-! The scalar queries of queries/icrc7.rs 106-176 and queries/icrc37.rs 210-226
clone one field each. `icrc7_total_supply` is `totalSupply`. -/

/-- queries/icrc7.rs 107-110 `icrc7_symbol`. -/
def icrc7Symbol (s : State H) : String := s.cfg.symbol
/-- queries/icrc7.rs 112-115 `icrc7_name`. -/
def icrc7Name (s : State H) : String := s.cfg.name
/-- queries/icrc7.rs 117-120 `icrc7_description`. -/
def icrc7Description (s : State H) : Option String := s.cfg.description
/-- queries/icrc7.rs 122-125 `icrc7_logo`. -/
def icrc7Logo (s : State H) : Option String := s.cfg.logo
/-- queries/icrc7.rs 132-135 `icrc7_supply_cap`. -/
def icrc7SupplyCap (s : State H) : Option Nat := s.cfg.supplyCap
/-- queries/icrc7.rs 137-140 `icrc7_max_query_batch_size`. -/
def icrc7MaxQueryBatchSize (s : State H) : Option Nat := s.cfg.maxQueryBatch
/-- queries/icrc7.rs 142-145 `icrc7_max_update_batch_size`. -/
def icrc7MaxUpdateBatchSize (s : State H) : Option Nat := s.cfg.maxUpdateBatch
/-- queries/icrc7.rs 147-150 `icrc7_default_take_value`. -/
def icrc7DefaultTakeValue (s : State H) : Option Nat := s.cfg.defaultTake
/-- queries/icrc7.rs 152-155 `icrc7_max_take_value`. -/
def icrc7MaxTakeValue (s : State H) : Option Nat := s.cfg.maxTake
/-- queries/icrc7.rs 157-160 `icrc7_max_memo_size`. -/
def icrc7MaxMemoSize (s : State H) : Option Nat := s.cfg.maxMemo
/-- queries/icrc7.rs 162-165 `icrc7_atomic_batch_transfers`. -/
def icrc7AtomicBatchTransfers (s : State H) : Option Bool := s.cfg.atomicBatch
/-- queries/icrc7.rs 167-170 `icrc7_tx_window`. -/
def icrc7TxWindow (s : State H) : Option Nat := s.cfg.txWindow
/-- queries/icrc7.rs 172-175 `icrc7_permitted_drift`. -/
def icrc7PermittedDrift (s : State H) : Option Nat := s.cfg.permittedDrift
/-- queries/icrc37.rs 210-220 `icrc37_max_approvals_per_token_or_collection`. -/
def icrc37MaxApprovals (s : State H) : Option Nat := s.cfg.maxApprovals
/-- queries/icrc37.rs 222-226 `icrc37_max_revoke_approvals`. -/
def icrc37MaxRevokeApprovals (s : State H) : Option Nat := s.cfg.maxRevoke

/-- One row of queries/icrc37.rs 30-41 and 91-103: the approval, with the
subaccount of the table's *key* (the spender) as `from_subaccount`. -/
def approvalRow (e : Account × Approval) : ApprovalInfo :=
  { spender := e.2.spender, fromSub := e.1.sub, expiresAt := e.2.expiresAt, memo := e.2.memo,
    createdAt := e.2.createdAt }

/-- queries/icrc37.rs 24-72 and 84-134: sort by creation time, newest first (a
stable sort of the walk `order` of the hash map), start after the first entry
whose spender is that of `prev`, take (10 by default). -/
def approvalPage (order : List (Account × Approval)) (prev : Option ApprovalInfo) (take : Option Nat) :
    List ApprovalInfo :=
  let all := sortBy (fun a b => decide (b.createdAt ≤ a.createdAt)) (order.map approvalRow)
  let start := match prev with
    | some p => ((all.findIdx? fun a => a.spender == p.spender).map (· + 1)).getD 0
    | none => 0
  (all.drop start).take (take.elim 10 fun n => toUsizeOr n 10)

/-- queries/icrc37.rs 15-75 `icrc37_get_token_approvals`; `walk` is the
iteration order of the hash map. -/
def icrc37GetTokenApprovals (s : State H)
    (walk : List (Account × Approval) → List (Account × Approval))
    (tid : Nat) (prev : Option ApprovalInfo) (take : Option Nat) : List ApprovalInfo :=
  match s.tokAppr.get tid with
  | some m => approvalPage (walk m.entries) prev take
  | none => []

/-- queries/icrc37.rs 78-137 `icrc37_get_collection_approvals`. -/
def icrc37GetCollectionApprovals (s : State H)
    (walk : List (Account × Approval) → List (Account × Approval))
    (a : Account) (prev : Option ApprovalInfo) (take : Option Nat) : List ApprovalInfo :=
  approvalPage (walk ((s.collAppr.get a).getD ∅).entries) prev take

/-- types/icrc37.rs `IsApprovedArg`. -/
structure IsApprovedArg where
  spender : Account
  fromSub : Option Subaccount := none
  tid : Nat
  deriving DecidableEq, Repr

/-- queries/icrc37.rs 145-204, one item of `icrc37_is_approved`. The collection
approvals are looked up under the *spender* (183-187) and the owner test uses
the spender's principal (146-149). -/
def isApproved (s : State H) (now : Nat) (arg : IsApprovedArg) : Bool :=
  let fromAcc : Account := ⟨arg.spender.owner, arg.fromSub⟩
  let hasTok :=
    match s.tokAppr.get arg.tid with
    | none => false
    | some m =>
      match m.get arg.spender with
      | none => false
      | some a =>
        match a.expiresAt with
        | some e => decide (e > now)
        | none => true
  let hasColl := ((s.collAppr.get arg.spender).getD ∅).entries.any fun e =>
    decide (e.1.owner = arg.spender.owner) && decide (e.1.sub = arg.spender.sub)
  let isOwner :=
    match ownerOf s arg.tid with
    | some o => o == fromAcc
    | none => false
  isOwner || hasTok || hasColl

/-- queries/icrc37.rs 140-208 `icrc37_is_approved`. -/
def icrc37IsApproved (s : State H) (now : Nat) (args : List IsApprovedArg) : List Bool :=
  args.map (isApproved s now)

/-- A query behind a permission guard (guards.rs 75-125). -/
def guarded {A : Type} (s : State H) (caller : Principal) (p : Permission) (a : A) : Option A :=
  if hasPermission s.perms caller p then some a else none

/-- updates/management.rs 553-556 `get_all_storage_subcanisters`
(types/sub_canister.rs 153-158 `list_canisters_ids`). -/
def getAllStorageSubcanisters (s : State H) (caller : Principal) : Option (List Principal) :=
  guarded s caller .manageAuthorities (s.subs.map SubCanister.id)

/-- updates/management.rs 558-565 `get_upload_status`; inner `none` is
`UploadNotFound`. -/
def getUploadStatus (s : State H) (caller : Principal) (path : String) : Option (Option UploadState) :=
  guarded s caller .readUploads ((s.uploads.get path).map Upload.state)

/-- updates/management.rs 567-586 `get_all_uploads`; `order` is the iteration
order of the hash map. The answer is again a hash map. -/
def getAllUploads (s : State H) (caller : Principal)
    (walk : List (String × Upload) → List (String × Upload))
    (prev take : Option Nat) : Option (List (String × UploadState)) :=
  guarded s caller .readUploads
    (((walk s.uploads.entries).drop (toUsizeOr (prev.getD 0) 0)).take (toUsizeOr (take.getD 100) 100)
      |>.map fun e => (e.1, e.2.state))

/-- updates/management.rs 672-685 `get_user_permissions`; inner `none` is
`UserNotFound`. -/
def getUserPermissions (s : State H) (caller p : Principal) : Option (Option (List Permission)) :=
  guarded s caller .manageAuthorities (s.perms.get p)

/-- updates/management.rs 687-697 `has_permission`. -/
def hasPermissionQuery (s : State H) (caller p : Principal) (x : Permission) : Option Bool :=
  guarded s caller .manageAuthorities (hasPermission s.perms p x)

/-- What `http_request` answers. The bodies of the log and metrics pages are not
modelled. queries/http_request.rs 16-117. -/
inductive HttpReply where
  | logs
  | traces
  | metrics
  | redirect (to_ : String)
  | trapped
  deriving DecidableEq, Repr

/-- queries/http_request.rs 15-25 `http_request` and 106-117 `serve_asset`, as a
function of the path of the request. The asset router (external crate) answers a
registered path with a redirection to the url registered last for it; any other
path makes `serve_asset` trap. Certification headers are not modelled. -/
def httpRequest (s : State H) (path : String) : HttpReply :=
  if path = "/logs" then .logs
  else if path = "/traces" then .traces
  else if path = "/metrics" then .metrics
  else
    match s.router.get path with
    | some u => .redirect u
    | none => .trapped

end Verif
