import Verif.Model.Commands
/-!
# What the collection sends to storage canisters

`Answer` sums up what the storage canisters answer to one call; here are the single
requests behind it, with what they carry. Files are in /repo/src/core_nft/src.
-/
namespace Verif

variable {H : Type}

/-- The arguments of the four upload methods (external crate
`bity_ic_storage_canister_api`; updates/management.rs 374, 411, 470, 590 take the types of
the storage canisters). -/
inductive UploadArgs where
  | init (path : String) (size : Nat) (chunk : Option Nat) (hash : String)
  | store (path : String) (id : Nat) (data : Blob)
  | finalize (path : String)
  | cancel (path : String)
  deriving DecidableEq, Repr

/-- The call as the rest of the model has it. updates/management.rs 373-625. -/
def UploadArgs.call : UploadArgs → Call
  | .init path size _ _ => .initUpload path size
  | .store path _ _ => .storeChunk path
  | .finalize path => .finalizeUpload path
  | .cancel path => .cancelUpload path

/-- The arguments of a call of the client (calls/uploads.rs in /repo/cmdline/src 70-80,
93-103, 106-113). -/
def ClientCall.args : ClientCall → UploadArgs
  | .init path size chunk hash => .init path size (some chunk) hash
  | .store path id data => .store path id data
  | .finalize path => .finalize path

/-- A request to a storage canister: its size (types/sub_canister.rs 207-208), or an upload
call with arguments (245, 272, 299, 327). -/
inductive StorageReq where
  | size
  | upload (a : UploadArgs)
  deriving DecidableEq, Repr

/-- `retry_async` (external crate `bity_ic_utils`, called with 3 in types/sub_canister.rs
208, 245, 272, 299, 327): make the call until it is answered, at most `fuel` times from
the `k`-th attempt on. The number of attempts and the answer. -/
def retryFrom {α : Type} (out : Nat → Option α) : Nat → Nat → Nat × Option α
  | 0, _ => (0, none)
  | fuel + 1, k =>
    match out k with
    | some a => (1, some a)
    | none => ((retryFrom out fuel (k + 1)).1 + 1, (retryFrom out fuel (k + 1)).2)

/-- `retry_async` with `tries` attempts. External crate, called in types/sub_canister.rs 208,
245, 272, 299, 327. -/
def retry {α : Type} (tries : Nat) (out : Nat → Option α) : Nat × Option α := retryFrom out tries 0

/-- What happens to every attempt of every request during one suspended call; `none`: the
attempt failed (not delivered, rejected, trapped). types/sub_canister.rs 207-345. -/
structure Net where
  walk : List SubCanister → List SubCanister := id
  walk_perm : ∀ l, (walk l).Perm l := by exact fun l => List.Perm.refl l
  /-- `get_storage_size` -/
  size : Principal → Nat → Option Nat := fun _ _ => none
  /-- `init_upload` at the canisters of the table -/
  init : Principal → Nat → Option (Except StorageErr Unit) := fun _ _ => none
  /-- `create_canister` -/
  created : Option SubCanister := none
  /-- `init_upload` at the new canister -/
  newInit : Nat → Option (Except StorageErr Unit) := fun _ => none
  /-- `store_chunk`, `finalize_upload` or `cancel_upload` -/
  resp : Nat → Option (Except StorageErr Unit) := fun _ => none

/-- An answer that says yes. types/sub_canister.rs 236-345. -/
def consents : Option (Except StorageErr Unit) → Bool
  | some (.ok _) => true
  | _ => false

/-- The summary on which the rest of the model works. types/sub_canister.rs 207-345. -/
def Net.answer (tries : Nat) (net : Net) : Answer where
  walk := net.walk
  walk_perm := net.walk_perm
  sizeOf p := (retry tries (net.size p)).2
  initOk p := consents (retry tries (net.init p)).2
  created := net.created
  newInitOk := consents (retry tries net.newInit).2
  resp := match (retry tries net.resp).2 with | some r => r | none => .error .other

/-- types/sub_canister.rs 101-128: a new canister is created and asked, if it is installed
(239-243). -/
def newTraffic (tries : Nat) (net : Net) (a : UploadArgs) : List (Principal × StorageReq) :=
  match net.created with
  | none => []
  | some c => if c.installed then List.replicate (retry tries net.newInit).1 (c.id, .upload a) else []

/-- types/sub_canister.rs 80-128: the requests made to find a place, through the installed
canisters in the order of the table. -/
def placeTraffic (tries : Nat) (net : Net) (a : UploadArgs) (size : Nat) : List SubCanister → List (Principal × StorageReq)
  | [] => newTraffic tries net a
  | c :: cs =>
    List.replicate (retry tries (net.size c.id)).1 (c.id, .size) ++
    match (retry tries (net.size c.id)).2 with
    | none => placeTraffic tries net a size cs
    | some used =>
      if (used + size) % 340282366920938463463374607431768211456 ≤ maxStorageSize then
        List.replicate (retry tries (net.init c.id)).1 (c.id, .upload a) ++
        if consents (retry tries (net.init c.id)).2 then [] else placeTraffic tries net a size cs
      else placeTraffic tries net a size cs

/-- The requests of a suspended call made with arguments `a`: types/sub_canister.rs 71-130
(`init_upload`), 256-339 (`store_chunk`, `finalize_upload`, `cancel_upload`). -/
def traffic (tries : Nat) (net : Net) (a : UploadArgs) : Pending → List (Principal × StorageReq)
  | .init _ _ size subs => placeTraffic tries net a size ((net.walk subs).filter (·.installed))
  | .store _ _ u | .finalize _ _ u | .cancel _ _ u =>
    List.replicate (retry tries net.resp).1 (u.canister, .upload a)

/-- What surrounds the `k`-th call of the client, request by request (see `Round`). No repo code
of its own: the schedule around cmdline/src/calls/uploads.rs 53-115. -/
structure NetRound where
  before : List Msg := []
  now : Nat := 0
  now' : Nat := 0
  net : Net := {}

/-- The summary. No repo code of its own: types/sub_canister.rs 207-345 summed up as in
`Net.answer`. -/
def NetRound.round (tries : Nat) (r : NetRound) : Round := ⟨r.before, r.now, r.now', r.net.answer tries⟩

/-- The requests made for a call of the client that is handled in state `s`: none if it is
answered at once. types/sub_canister.rs 207-345, called from updates/management.rs 373-625. -/
def callTraffic (E : Env H) (tries : Nat) (c : Principal) (now : Nat) (net : Net) (s : State H) (call : ClientCall) :
    List (Principal × StorageReq) :=
  match step E s (.call c now call.toCall) with
  | (s, .suspended) =>
    match s.pending[s.pending.length - 1]? with
    | some p => traffic tries net call.args p
    | none => []
  | _ => []

/-- The collection as the world of the client, with the requests it made so far for the
client's calls. No repo code of its own: the network between cmdline/src/calls/uploads.rs 53-115
and types/sub_canister.rs 207-345. -/
def netServe (E : Env H) (tries : Nat) (c : Principal) (rounds : Nat → NetRound)
    (w : (State H × Nat) × List (Principal × StorageReq)) (call : ClientCall) :
    ((State H × Nat) × List (Principal × StorageReq)) × Outcome :=
  let x := collServe E c (fun k => (rounds k).round tries) w.1 call
  let r := rounds w.1.2
  ((x.1, w.2 ++ callTraffic E tries c r.now r.net (run E w.1.1 r.before) call), x.2)

end Verif
