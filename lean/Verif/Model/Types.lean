import Verif.Prelude.Map
/-!
# Basic types of the NFT canister

Paths are relative to `/repo/src/core_nft/src` unless they start with `/repo`.
-/
namespace Verif

/-- `candid::Principal`: at most 29 bytes. The length bound is not part of the
type; the codec theorems state it where it is needed. External; imported in state.rs 17. -/
abbrev Principal := List UInt8

/-- `icrc_ledger_types::icrc1::account::Subaccount = [u8; 32]`. The length is
not part of the type; the codec theorems state it where it is needed. External; stored in
types/wrapped_types.rs 79-115. -/
abbrev Subaccount := List UInt8

/-- `serde_bytes::ByteBuf` / `Vec<u8>`. External; the memos of types/icrc37.rs 19-31 and the
blobs of types/value_custom.rs 32-34. -/
abbrev Blob := List UInt8

/-- `Principal::anonymous()`: the single byte 0x04. Used in updates/icrc7.rs 32 and 144,
updates/icrc37.rs 114, 267, 703. -/
def anonymous : Principal := [4]

/-- `icrc_ledger_types::icrc1::account::Account` (external crate). Imported in state.rs 18. -/
structure Account where
  owner : Principal
  sub : Option Subaccount
  deriving DecidableEq, Repr

/-- `DEFAULT_SUBACCOUNT` of `icrc_ledger_types`: 32 zero bytes. External; behind every
comparison of accounts, such as updates/icrc7.rs 31-33. -/
def zeroSub : Subaccount := List.replicate 32 0

/-- `Account::effective_subaccount` of `icrc_ledger_types`. External; behind every comparison of
accounts, such as updates/icrc7.rs 31-33. -/
def Account.eff (a : Account) : Subaccount := a.sub.getD zeroSub

/-- `impl PartialEq for Account` of `icrc_ledger_types`: owners and *effective*
subaccounts are compared. `==` on accounts is this everywhere in the model;
`WrappedAccount` (types/wrapped_types.rs 55-77) derives its equality, hash and
order from it. -/
instance instBEqAccount : BEq Account :=
  ⟨fun a b => decide (a.owner = b.owner) && decide (a.eff = b.eff)⟩

theorem Account.beq_def (a b : Account) : (a == b) = (decide (a.owner = b.owner) && decide (a.eff = b.eff)) := rfl

theorem Account.beq_iff {a b : Account} : (a == b) = true ↔ a.owner = b.owner ∧ a.eff = b.eff := by
  simp [Account.beq_def]

/-- `PartialEq` of `Account` (external): owners and effective subaccounts, as compared in updates/icrc7.rs 31-33. -/
instance : EquivBEq Account where
  rfl := by intro a; simp [Account.beq_def]
  symm := by intro a b h; rw [Account.beq_iff] at *; exact ⟨h.1.symm, h.2.symm⟩
  trans := by intro a b c h h'; rw [Account.beq_iff] at *; exact ⟨h.1.trans h'.1, h.2.trans h'.2⟩

/-- `icrc_ledger_types::icrc::generic_value::ICRC3Value` (external crate); a
`Map` is a `BTreeMap<String, ICRC3Value>`, here the list of its entries. Stored by
types/value_custom.rs 25-117. -/
inductive Value where
  | blob (b : Blob)
  | text (s : String)
  | nat (n : Nat)
  | int (i : Int)
  | array (vs : List Value)
  | map (kvs : List (String × Value))
  deriving Repr

mutual
/-- Decidable equality of values (no repo code; the deriving handler does not
cover nested inductive types). Stands for the derived `Eq` behind types/value_custom.rs 25-117. -/
def Value.decEq : (a b : Value) → Decidable (a = b)
  | .blob a, .blob b => if h : a = b then .isTrue (by rw [h]) else .isFalse (by simpa using h)
  | .text a, .text b => if h : a = b then .isTrue (by rw [h]) else .isFalse (by simpa using h)
  | .nat a, .nat b => if h : a = b then .isTrue (by rw [h]) else .isFalse (by simpa using h)
  | .int a, .int b => if h : a = b then .isTrue (by rw [h]) else .isFalse (by simpa using h)
  | .array a, .array b =>
    match Value.decEqL a b with
    | .isTrue h => .isTrue (by rw [h])
    | .isFalse h => .isFalse (by simpa using h)
  | .map a, .map b =>
    match Value.decEqM a b with
    | .isTrue h => .isTrue (by rw [h])
    | .isFalse h => .isFalse (by simpa using h)
  | .blob _, .text _ | .blob _, .nat _ | .blob _, .int _ | .blob _, .array _ | .blob _, .map _
  | .text _, .blob _ | .text _, .nat _ | .text _, .int _ | .text _, .array _ | .text _, .map _
  | .nat _, .blob _ | .nat _, .text _ | .nat _, .int _ | .nat _, .array _ | .nat _, .map _
  | .int _, .blob _ | .int _, .text _ | .int _, .nat _ | .int _, .array _ | .int _, .map _
  | .array _, .blob _ | .array _, .text _ | .array _, .nat _ | .array _, .int _ | .array _, .map _
  | .map _, .blob _ | .map _, .text _ | .map _, .nat _ | .map _, .int _ | .map _, .array _ =>
    .isFalse (by simp)
/-- Arrays, see `Value.decEq` (types/value_custom.rs 50-56). -/
def Value.decEqL : (a b : List Value) → Decidable (a = b)
  | [], [] => .isTrue rfl
  | [], _ :: _ | _ :: _, [] => .isFalse (by simp)
  | a :: as, b :: bs =>
    match Value.decEq a b with
    | .isFalse h => .isFalse (by simp [h])
    | .isTrue h =>
      match Value.decEqL as bs with
      | .isFalse h' => .isFalse (by simp [h'])
      | .isTrue h' => .isTrue (by rw [h, h'])
/-- Maps, see `Value.decEq` (types/value_custom.rs 57-64). -/
def Value.decEqM : (a b : List (String × Value)) → Decidable (a = b)
  | [], [] => .isTrue rfl
  | [], _ :: _ | _ :: _, [] => .isFalse (by simp)
  | (k, a) :: as, (k', b) :: bs =>
    if hk : k = k' then
      match Value.decEq a b with
      | .isFalse h => .isFalse (by simp [h])
      | .isTrue h =>
        match Value.decEqM as bs with
        | .isFalse h' => .isFalse (by simp [h'])
        | .isTrue h' => .isTrue (by rw [hk, h, h'])
    else .isFalse (by simp [hk])
end

/-- Equality of values, see `Value.decEq` (types/value_custom.rs 25-117). -/
instance : DecidableEq Value := Value.decEq

/-- types/permissions.rs 5-13. -/
inductive Permission where
  | minting | manageAuthorities | updateMetadata | updateCollectionMetadata | readUploads | updateUploads
  deriving DecidableEq, Repr

/-- `bity_ic_storage_canister_api::types::storage::UploadState` (external). Used in state.rs
283, updates/management.rs 399-420. -/
inductive UploadState where
  | init | inProgress | finalized
  deriving DecidableEq, Repr

/-- types/icrc37.rs 19-31. -/
structure Approval where
  spender : Account
  from_ : Account
  expiresAt : Option Nat
  createdAt : Nat
  memo : Option Blob
  deriving DecidableEq, Repr

/-- types/nft.rs 10-14. -/
structure Token where
  id : Nat
  owner : Account
  deriving DecidableEq, Repr

/-- state.rs 280-286. -/
structure Upload where
  initTs : Nat
  state : UploadState
  canister : Principal
  path : String
  deriving DecidableEq, Repr

/-- The `op` strings of the recorded transactions (updates/icrc7.rs 68,
updates/icrc37.rs 167/335/483/610/777, updates/management.rs 178/282/344). -/
inductive Op where
  | mint | burn | xfer | updateToken | approve | approveColl | revoke | revokeColl | xferFrom
  deriving DecidableEq, Repr

/-- The literal strings behind `Op`. updates/icrc7.rs 68, updates/icrc37.rs 167, 335, 483, 610,
777, updates/management.rs 178, 282, 344. -/
def Op.name : Op → String
  | .mint => "7mint" | .burn => "7burn" | .xfer => "7xfer" | .updateToken => "7update_token"
  | .approve => "37approve" | .approveColl => "37approve_coll" | .revoke => "37revoke"
  | .revokeColl => "37revoke_coll" | .xferFrom => "37xfer"

/-- `ICRC7Transaction` / `ICRC37Transaction` (external crate `bity_ic_icrc3`)
as constructed in updates/*.rs: the union of both record types. `meta_` is the
pair (previous metadata, new metadata) of updates/management.rs 255-279. -/
structure Tx where
  op : Op
  ts : Nat
  tid : Option Nat := none
  from_ : Option Account := none
  to_ : Option Account := none
  spender : Option Account := none
  memo : Option Blob := none
  createdAt : Option Nat := none
  exp : Option Nat := none
  meta_ : Option (List (String × Value) × List (String × Value)) := none
  deriving DecidableEq, Repr

/-- `bity_ic_icrc3::types::Icrc3Error` (external crate) as far as it is matched
on: `DuplicateTransaction { duplicate_of }` (updates/icrc7.rs 105),
`Icrc3Error(String)` (updates/icrc37.rs 794), and any other variant. -/
inductive LedgerErr where
  | duplicate (of : Nat)
  | icrc3 (msg : String)
  | other
  deriving DecidableEq, Repr

/-- The ICRC-3 ledger library, an arbitrary machine: a hidden state and an
answer to every submitted transaction (`icrc3_add_transaction`, generated by
the external macro `icrc3_state!()`, state.rs 26). -/
structure Ledger (H : Type) where
  add : H → Tx → H × Except LedgerErr Nat

/-- The scalar configuration of state.rs 64-87, together with
`InitApprovalsArg` of state.rs 258-262. -/
structure Config where
  description : Option String := none
  symbol : String := ""
  name : String := ""
  logo : Option String := none
  supplyCap : Option Nat := none
  maxQueryBatch : Option Nat := none
  maxUpdateBatch : Option Nat := none
  maxTake : Option Nat := none
  defaultTake : Option Nat := none
  maxMemo : Option Nat := none
  atomicBatch : Option Bool := none
  txWindow : Option Nat := none
  permittedDrift : Option Nat := none
  maxStorageThreshold : Option Nat := none
  maxApprovals : Option Nat := none
  maxRevoke : Option Nat := none
  deriving DecidableEq, Repr

/-- types/sub_canister.rs 162-167; `installed` is
`state == CanisterState::Installed`. -/
structure SubCanister where
  id : Principal
  installed : Bool
  deriving DecidableEq, Repr

/-- A management call waiting for a storage canister: what the Rust future
captured before its await. updates/management.rs: `init_upload` 374-385,
`store_chunk` 410-446, `finalize_upload` 469-508, `cancel_upload` 589-625. -/
inductive Pending where
  | init (caller : Principal) (path : String) (size : Nat) (subs : List SubCanister)
  | store (caller : Principal) (key : String) (u : Upload)
  | finalize (caller : Principal) (key : String) (u : Upload)
  | cancel (caller : Principal) (key : String) (u : Upload)
  deriving DecidableEq, Repr

/-- The principal whose guard entry the suspended call holds. guards.rs 25-45;
updates/management.rs 33, 376, 412, 472, 591. -/
def Pending.caller : Pending → Principal
  | .init c _ _ _ | .store c _ _ | .finalize c _ _ | .cancel c _ _ => c

/-- The whole canister state: `RuntimeState` and `Data` (state.rs 29-87), the
stable maps `__TOKEN_APPROVALS`, `__COLLECTION_APPROVALS` (types/icrc37.rs
14-17) and `__METADATA` (types/metadata.rs 13-15), the ICRC-3 library (`hid`
its hidden state, `log` the transactions it accepted so far), the asset
router's redirections (types/http.rs 11-24) and the suspended calls. -/
structure State (H : Type) where
  cfg : Config
  perms : Map Principal (List Permission)
  tokens : Map Nat Token
  byOwner : Map Account (List Nat)
  lastId : Nat
  subs : List SubCanister
  redirects : Map String String
  guards : List Principal
  windows : Map Nat (List Nat)
  uploads : Map String Upload
  tokAppr : Map Nat (Map Account Approval)
  collAppr : Map Account (Map Account Approval)
  mdata : Map Nat (Map String Value)
  hid : H
  log : List Tx
  router : Map String String
  pending : List Pending

/-- `icrc3_add_transaction` (state.rs 26): ask the library; an accepted
transaction is in the log. -/
def addTx {H : Type} (L : Ledger H) (s : State H) (t : Tx) : State H × Except LedgerErr Nat :=
  match L.add s.hid t with
  | (h, .ok i) => ({ s with hid := h, log := s.log ++ [t] }, .ok i)
  | (h, .error e) => ({ s with hid := h }, .error e)

/-- Modulus of `u64`. The type of the times and limits of updates/icrc7.rs 50-60. -/
def U64 : Nat := 18446744073709551616

/-- Modulus of `usize` on wasm32. The target of the conversions of updates/icrc7.rs 133 and
updates/icrc37.rs 122-135. -/
def USIZE : Nat := 4294967296

/-- `u64 + u64` in a release build without overflow checks (/repo/Cargo.toml
10-12): wraps around. -/
def u64add (a b : Nat) : Nat := (a + b) % U64

/-- Errors of the ICRC-7 and ICRC-37 update methods; one type for all methods
(types/icrc7.rs 51-60, types/icrc37.rs 58-212). Message texts are dropped. -/
inductive TokErr where
  | nonExistingTokenId
  | invalidRecipient
  | invalidSpender
  | unauthorized
  | tooOld
  | createdInFuture (ledgerTime : Nat)
  | duplicate (of : Nat)
  | approvalDoesNotExist
  | generic (code : Nat)
  deriving DecidableEq, Repr

/-- Errors of the management methods (types/management.rs 26-282), one type for
all methods. Message texts are dropped. -/
inductive MgmtErr where
  | concurrentManagementCall
  | exceedMaxAllowedSupplyCap
  | invalidMemo
  | storageCanisterError
  | tokenDoesNotExist
  | notTokenOwner
  | fileAlreadyExists
  | uploadNotInitialized
  | uploadNotStarted
  | uploadAlreadyFinalized
  | incompleteUpload
  deriving DecidableEq, Repr

end Verif
