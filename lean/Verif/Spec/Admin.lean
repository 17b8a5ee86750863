import Verif.Spec.Basic
/-!
# Vocabulary of the administration properties
-/
namespace Verif.Spec

variable {H : Type}

/-- The permission the documentation asks for, per method; `none`: anybody may
call the method. -/
def adminPermission : Call → Option Permission
  | .mint _ => some .minting
  | .updateNftMetadata _ _ => some .updateMetadata
  | .updateCollectionMetadata _ => some .updateCollectionMetadata
  | .grant _ _ => some .manageAuthorities
  | .revoke _ _ => some .manageAuthorities
  | .initUpload _ _ => some .updateUploads
  | .storeChunk _ => some .updateUploads
  | .finalizeUpload _ => some .updateUploads
  | .cancelUpload _ => some .updateUploads
  | .transfer _ | .approveTokens _ | .approveCollection _ | .revokeTokens _ | .revokeCollection _
  | .transferFrom _ | .burn _ => none

/-- The management methods: the ones with a permission, and burning. -/
def managementCall (c : Call) : Bool :=
  (adminPermission c).isSome || (match c with | .burn _ => true | _ => false)

/-- Every query gives the same answer in both states, to every caller, at every
time and for every order in which a hash map may be walked. -/
structure SameAnswers (s s' : State H) : Prop where
  symbol : icrc7Symbol s' = icrc7Symbol s
  name : icrc7Name s' = icrc7Name s
  description : icrc7Description s' = icrc7Description s
  logo : icrc7Logo s' = icrc7Logo s
  supplyCap : icrc7SupplyCap s' = icrc7SupplyCap s
  maxQueryBatch : icrc7MaxQueryBatchSize s' = icrc7MaxQueryBatchSize s
  maxUpdateBatch : icrc7MaxUpdateBatchSize s' = icrc7MaxUpdateBatchSize s
  defaultTake : icrc7DefaultTakeValue s' = icrc7DefaultTakeValue s
  maxTake : icrc7MaxTakeValue s' = icrc7MaxTakeValue s
  maxMemo : icrc7MaxMemoSize s' = icrc7MaxMemoSize s
  atomicBatch : icrc7AtomicBatchTransfers s' = icrc7AtomicBatchTransfers s
  txWindow : icrc7TxWindow s' = icrc7TxWindow s
  permittedDrift : icrc7PermittedDrift s' = icrc7PermittedDrift s
  maxApprovals : icrc37MaxApprovals s' = icrc37MaxApprovals s
  maxRevoke : icrc37MaxRevokeApprovals s' = icrc37MaxRevokeApprovals s
  collection : icrc7CollectionMetadata s' = icrc7CollectionMetadata s
  supply : totalSupply s' = totalSupply s
  metadata : ∀ ids, icrc7TokenMetadata s' ids = icrc7TokenMetadata s ids
  owners : ∀ ids, icrc7OwnerOf s' ids = icrc7OwnerOf s ids
  balances : ∀ as, icrc7BalanceOf s' as = icrc7BalanceOf s as
  tokens : ∀ prev take, icrc7Tokens s' prev take = icrc7Tokens s prev take
  tokensOf : ∀ a prev take, icrc7TokensOf s' a prev take = icrc7TokensOf s a prev take
  tokenApprovals : ∀ walk tid prev take,
    icrc37GetTokenApprovals s' walk tid prev take = icrc37GetTokenApprovals s walk tid prev take
  collApprovals : ∀ walk a prev take,
    icrc37GetCollectionApprovals s' walk a prev take = icrc37GetCollectionApprovals s walk a prev take
  isApproved : ∀ now args, icrc37IsApproved s' now args = icrc37IsApproved s now args
  storage : ∀ c, getAllStorageSubcanisters s' c = getAllStorageSubcanisters s c
  uploadStatus : ∀ c path, getUploadStatus s' c path = getUploadStatus s c path
  uploads : ∀ c walk prev take, getAllUploads s' c walk prev take = getAllUploads s c walk prev take
  userPermissions : ∀ c p, getUserPermissions s' c p = getUserPermissions s c p
  hasPermission : ∀ c p x, hasPermissionQuery s' c p x = hasPermissionQuery s c p x
  http : ∀ path, httpRequest s' path = httpRequest s path

end Verif.Spec
