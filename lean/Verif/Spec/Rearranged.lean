import Verif.Model.Queries
/-!
# The same tables in another order

The tables of the collection are hash tables. A hash table has no order of its own: the
order in which its rows are walked may be another one after any insertion and after every
upgrade.
-/
namespace Verif.Spec

variable {H K V : Type}

/-- The rows of a table in another order: the same keys with equivalent contents. -/
inductive Rearranged (R : V → V → Prop) : List (K × V) → List (K × V) → Prop where
  | nil : Rearranged R [] []
  | row {k v v' l l'} : R v v' → Rearranged R l l' → Rearranged R ((k, v) :: l) ((k, v') :: l')
  | swap {k v v' k₂ w w' l l'} : R v v' → R w w' → Rearranged R l l' →
      Rearranged R ((k, v) :: (k₂, w) :: l) ((k₂, w') :: (k, v') :: l')
  | trans {l₁ l₂ l₃} : Rearranged R l₁ l₂ → Rearranged R l₂ l₃ → Rearranged R l₁ l₃

/-- A table and the same table in another order. No two rows of a table have the same key. -/
structure SameTable [BEq K] (R : V → V → Prop) (m m' : Map K V) : Prop where
  distinct : m.NodupKeys
  rows : Rearranged R m.entries m'.entries

/-- The collection with its tables in another order. The tables of approvals are tables of
tables; both levels may be rearranged. The metadata of one token are kept in a sorted tree,
and the storage canisters in a table whose order comes with every answer (`Answer.walk`). -/
structure SameTables (s s' : State H) : Prop where
  cfg : s'.cfg = s.cfg
  perms : SameTable Eq s.perms s'.perms
  tokens : SameTable Eq s.tokens s'.tokens
  byOwner : SameTable Eq s.byOwner s'.byOwner
  lastId : s'.lastId = s.lastId
  subs : s'.subs = s.subs
  redirects : SameTable Eq s.redirects s'.redirects
  guards : s'.guards = s.guards
  windows : SameTable Eq s.windows s'.windows
  uploads : SameTable Eq s.uploads s'.uploads
  tokAppr : SameTable (SameTable Eq) s.tokAppr s'.tokAppr
  collAppr : SameTable (SameTable Eq) s.collAppr s'.collAppr
  mdata : SameTable Eq s.mdata s'.mdata
  hid : s'.hid = s.hid
  log : s'.log = s.log
  router : SameTable Eq s.router s'.router
  pending : s'.pending = s.pending

/-- A history during which the tables are rearranged before every message, in any way:
`RearrangedRun E s msgs answers t` leads from `s` to `t`. -/
inductive RearrangedRun (E : Env H) : State H → List Msg → List Reply → State H → Prop where
  | nil {s t} : SameTables s t → RearrangedRun E s [] [] t
  | cons {s s₁ s₂ t msg r msgs rs} : SameTables s s₁ → step E s₁ msg = (s₂, r) → RearrangedRun E s₂ msgs rs t →
      RearrangedRun E s (msg :: msgs) (r :: rs) t

/-- An order in which a hash table may be walked. -/
def AnyWalk {A : Type} (walk : List A → List A) : Prop := ∀ l, (walk l).Perm l

/-- Every query gives the same answer in both states. The three listings that walk a hash
table answer what they may answer in the other state too. -/
structure SameReadings (s s' : State H) : Prop where
  settings : s'.cfg = s.cfg
  collection : icrc7CollectionMetadata s' = icrc7CollectionMetadata s
  supply : totalSupply s' = totalSupply s
  metadata : ∀ ids, icrc7TokenMetadata s' ids = icrc7TokenMetadata s ids
  owners : ∀ ids, icrc7OwnerOf s' ids = icrc7OwnerOf s ids
  balances : ∀ as, icrc7BalanceOf s' as = icrc7BalanceOf s as
  tokens : ∀ prev take, icrc7Tokens s' prev take = icrc7Tokens s prev take
  tokensOf : ∀ a prev take, icrc7TokensOf s' a prev take = icrc7TokensOf s a prev take
  isApproved : ∀ now args, icrc37IsApproved s' now args = icrc37IsApproved s now args
  storage : ∀ c, getAllStorageSubcanisters s' c = getAllStorageSubcanisters s c
  uploadStatus : ∀ c path, getUploadStatus s' c path = getUploadStatus s c path
  userPermissions : ∀ c p, getUserPermissions s' c p = getUserPermissions s c p
  hasPermission : ∀ c p x, hasPermissionQuery s' c p x = hasPermissionQuery s c p x
  http : ∀ path, httpRequest s' path = httpRequest s path
  tokenApprovals : ∀ walk, AnyWalk walk → ∀ tid prev take, ∃ walk', AnyWalk walk' ∧
    icrc37GetTokenApprovals s' walk' tid prev take = icrc37GetTokenApprovals s walk tid prev take
  collApprovals : ∀ walk, AnyWalk walk → ∀ a prev take, ∃ walk', AnyWalk walk' ∧
    icrc37GetCollectionApprovals s' walk' a prev take = icrc37GetCollectionApprovals s walk a prev take
  uploads : ∀ walk, AnyWalk walk → ∀ c prev take, ∃ walk', AnyWalk walk' ∧
    getAllUploads s' c walk' prev take = getAllUploads s c walk prev take

end Verif.Spec
