import Verif.Props.Uploads
/-!
# C67, C68: administrative queries and the replies to uploads
-/
namespace Verif

open Spec

variable {H : Type}

/-! ## C67 -/

/-- C67: without the permission, the administrative queries answer nothing. -/
theorem C67_refused (s : State H) (c : Principal) :
    (¬ Holds s c .readUploads →
      (∀ path, getUploadStatus s c path = none) ∧ (∀ walk prev take, getAllUploads s c walk prev take = none)) ∧
    (¬ Holds s c .manageAuthorities →
      getAllStorageSubcanisters s c = none ∧ (∀ p, getUserPermissions s c p = none) ∧
      (∀ p x, hasPermissionQuery s c p x = none)) := by
  constructor
  · intro h
    rw [holds_iff] at h
    simp [getUploadStatus, getAllUploads, guarded, h]
  · intro h
    rw [holds_iff] at h
    simp [getAllStorageSubcanisters, getUserPermissions, hasPermissionQuery, guarded, h]

/-- C67: `get_upload_status` answers the state of the upload, and not found if there
is none. -/
theorem C67_upload_status {s : State H} {c : Principal} (h : Holds s c .readUploads) (path : String) :
    getUploadStatus s c path = some (uploadState s path) := by
  rw [holds_iff] at h
  simp [getUploadStatus, guarded, h, uploadState]

/-- C67: `get_user_permissions` lists exactly the permissions the user holds; a user
who is not found holds none. `has_permission` agrees. -/
theorem C67_permissions {s : State H} {c : Principal} (h : Holds s c .manageAuthorities) (p : Principal) :
    (∃ answer, getUserPermissions s c p = some answer ∧ ∀ x, x ∈ answer.getD [] ↔ Holds s p x) ∧
    ∀ x, ∃ b, hasPermissionQuery s c p x = some b ∧ (b = true ↔ Holds s p x) := by
  rw [holds_iff] at h
  constructor
  · refine ⟨s.perms.get p, by simp [getUserPermissions, guarded, h], fun x => ?_⟩
    unfold Holds
    cases s.perms.get p <;> simp
  · intro x
    exact ⟨_, by simp only [hasPermissionQuery, guarded, h, if_true], holds_iff.symm⟩

/-- C67: `get_all_storage_subcanisters` lists the canisters, each once, and among
them is every canister that holds an upload. -/
theorem C67_storage (E : Env H) {s : State H} (hr : Reachable E s) {c : Principal} (h : Holds s c .manageAuthorities) :
    ∃ ids, getAllStorageSubcanisters s c = some ids ∧ ids.Nodup ∧
      ∀ path u, s.uploads.get path = some u → u.canister ∈ ids := by
  rw [holds_iff] at h
  refine ⟨s.subs.map SubCanister.id, by simp [getAllStorageSubcanisters, guarded, h], hr.uploadInv.subs, ?_⟩
  intro path u hu
  obtain ⟨x, hx, hid, _⟩ := C50_installed E s hr hu
  exact List.mem_map.2 ⟨x, hx, hid⟩

/-- A way to walk a hash map: some order of its entries. -/
def Spec.WalkOf (walk : List (String × Upload) → List (String × Upload)) : Prop := ∀ l, (walk l).Perm l

/-- The number asked for, or `d` if it does not fit into 32 bits. -/
def Spec.fits32 (n d : Nat) : Nat := if n < 2 ^ 32 then n else d

/-- C67: `get_all_uploads` answers only true rows, each path once; how many is known:
`take` of them, unless fewer are left after the first `prev`. Without `take`, or with one
beyond 32 bits, 100 are meant; likewise 0 for `prev`. -/
theorem C67_uploads_true (E : Env H) {s : State H} (hr : Reachable E s) {c : Principal} (h : Holds s c .readUploads)
    {walk} (hw : WalkOf walk) (prev take : Option Nat) :
    ∃ rows, getAllUploads s c walk prev take = some rows ∧ (rows.map Prod.fst).Nodup ∧
      (∀ path st, (path, st) ∈ rows → uploadState s path = some st) ∧
      rows.length = min (fits32 (take.getD 100) 100) (s.uploads.size - fits32 (prev.getD 0) 0) := by
  rw [holds_iff] at h
  have hn : ((walk s.uploads.entries).map Prod.fst).Nodup :=
    ((hw _).map Prod.fst).nodup_iff.2 (Map.nodup_keys_lawful hr.uploadInv.nodup)
  have hsub : ∀ a b, (((walk s.uploads.entries).drop a).take b).Sublist (walk s.uploads.entries) := fun a b =>
    (List.take_sublist _ _).trans (List.drop_sublist _ _)
  refine ⟨_, by simp only [getAllUploads, guarded, h, if_true]; rfl, ?_, ?_, ?_⟩
  · rw [List.map_map]
    exact hn.sublist ((hsub _ _).map _)
  · intro path st hin
    obtain ⟨e, he, heq⟩ := List.mem_map.1 hin
    have hm := (hw _).mem_iff.1 ((hsub _ _).subset he)
    cases heq
    simp [uploadState, Map.get_of_mem hr.uploadInv.nodup hm]
  · have hf : ∀ n d, fits32 n d = toUsizeOr n d := fun _ _ => rfl
    rw [hf, hf, List.length_map, List.length_take, List.length_drop, (hw _).length_eq]
    rfl

/-- C67: without a starting point the first upload is the first one answered, and
without a size 100 are; so is asking from 0 or for 100. A starting point or a size
that does not fit 32 bits is ignored. -/
theorem C67_uploads_default {s : State H} {c : Principal} (h : Holds s c .readUploads) {walk} (hw : WalkOf walk) :
    (∀ take, getAllUploads s c walk none take = getAllUploads s c walk (some 0) take) ∧
    (∀ prev, getAllUploads s c walk prev none = getAllUploads s c walk prev (some 100)) ∧
    (∀ n take, 2 ^ 32 ≤ n → getAllUploads s c walk (some n) take = getAllUploads s c walk none take) ∧
    (∀ prev n, 2 ^ 32 ≤ n → getAllUploads s c walk prev (some n) = getAllUploads s c walk prev none) ∧
    (s.uploads.size ≤ 100 → ∃ rows, getAllUploads s c walk none none = some rows ∧
      rows.Perm (s.uploads.entries.map fun e => (e.1, e.2.state))) := by
  have big : ∀ n d, 2 ^ 32 ≤ n → toUsizeOr n d = d := by
    intro n d hn
    unfold toUsizeOr
    exact if_neg (Nat.not_lt.2 hn)
  have small : ∀ d, d ≤ 100 → toUsizeOr d d = d := by
    intro d _
    unfold toUsizeOr
    split <;> rfl
  refine ⟨fun _ => rfl, fun _ => rfl, fun n take hn => ?_, fun prev n hn => ?_, fun hs => ?_⟩
  · simp only [getAllUploads, Option.getD_some, Option.getD_none, big n 0 hn, small 0 (by decide)]
  · simp only [getAllUploads, Option.getD_some, Option.getD_none, big n 100 hn, small 100 (by decide)]
  rw [holds_iff] at h
  refine ⟨_, by simp only [getAllUploads, guarded, h, if_true]; rfl, ?_⟩
  have : (walk s.uploads.entries).length ≤ 100 := by rw [(hw _).length_eq]; exact hs
  refine List.Perm.map _ ?_
  simp only [Option.getD_none, toUsizeOr]
  rw [if_pos (by decide), if_pos (by decide), List.drop_zero, List.take_of_length_le this]
  exact hw _

/-- C67: asking for `n` uploads after the first `0`, `n`, `2n`, … gives all of them,
each once, as long as the order of the hash map stays the same. -/
theorem C67_uploads_pages {s : State H} {c : Principal} (h : Holds s c .readUploads)
    {walk} (hw : WalkOf walk) {n : Nat} (hn : 0 < n) (hn32 : n < 2 ^ 32) (hsz : s.uploads.size + n ≤ 2 ^ 32) :
    ∃ k, (((List.range k).map fun j => (getAllUploads s c walk (some (j * n)) (some n)).getD []).flatten).Perm
      (s.uploads.entries.map fun e => (e.1, e.2.state)) := by
  rw [holds_iff] at h
  rw [pow32] at hn32 hsz
  have hlen : (walk s.uploads.entries).length = s.uploads.size := (hw _).length_eq
  generalize hl : walk s.uploads.entries = l at hlen
  have key : ∀ k, k * n < s.uploads.size + n →
      ((List.range k).map fun j => (getAllUploads s c walk (some (j * n)) (some n)).getD []).flatten =
      (l.take (k * n)).map fun e => (e.1, e.2.state) := by
    intro k
    induction k with
    | zero => intro _; simp
    | succ k ih =>
      intro hk
      rw [Nat.succ_mul] at hk
      rw [List.range_succ, List.map_append, List.flatten_append, ih (by omega), Nat.succ_mul, List.take_add, List.map_append]
      congr 1
      have hk' : k * n < USIZE := by omega
      simp [getAllUploads, guarded, h, toUsizeOr, hk', hn32, hl]
  refine ⟨(s.uploads.size + n - 1) / n, ?_⟩
  have h1 : (s.uploads.size + n - 1) / n * n ≤ s.uploads.size + n - 1 := Nat.div_mul_le_self _ _
  have h2 : s.uploads.size ≤ (s.uploads.size + n - 1) / n * n := by
    have := Nat.div_add_mod (s.uploads.size + n - 1) n
    have := Nat.mod_lt (s.uploads.size + n - 1) hn
    rw [Nat.mul_comm]
    omega
  rw [key _ (by omega), List.take_of_length_le (by omega), ← hl]
  exact (hw _).map _

example : Holds Demo.sFin Demo.admin .readUploads ∧ Holds Demo.sFin Demo.admin .manageAuthorities ∧
    ¬ Holds Demo.sFin [1] .readUploads :=
  ⟨holds_iff.2 (by decide), holds_iff.2 (by decide), by rw [holds_iff]; decide⟩

example : getAllUploads Demo.sFin Demo.admin id (some 0) (some 5) = some [("/a.png", .finalized)] ∧
    getAllStorageSubcanisters Demo.sFin Demo.admin = some [[5]] ∧
    fits32 (2 ^ 32) 100 = 100 ∧ fits32 7 100 = 7 := by decide

/-! ## C68 -/

/-- The error of the storage canister under its own name. -/
def Spec.named : StorageErr → MgmtErr
  | .uploadNotInitialized => .uploadNotInitialized
  | .uploadNotStarted => .uploadNotStarted
  | .uploadAlreadyFinalized => .uploadAlreadyFinalized
  | .incompleteUpload => .incompleteUpload
  | .fileAlreadyExists => .fileAlreadyExists
  | .other => .storageCanisterError

/-- The errors of the storage canister a method passes on; the others become
`StorageCanisterError`. -/
def Spec.passedOn : Pending → List StorageErr
  | .init _ _ _ _ => []
  | .store _ _ _ => [.uploadNotInitialized, .uploadAlreadyFinalized]
  | .finalize _ _ _ => [.uploadNotStarted, .uploadAlreadyFinalized, .incompleteUpload]
  | .cancel _ _ _ => [.uploadNotInitialized]

/-- C68: if the storage canister refuses, the caller is told so and nothing changes:
the upload keeps its state and the call may be made again. -/
theorem C68_storage_refuses (E : Env H) {s : State H} (hr : Reachable E s) {i : Nat} {p : Pending}
    (hp : s.pending[i]? = some p) (hkind : ∀ c path size subs, p ≠ .init c path size subs) (now : Nat) {ans : Answer}
    {e : StorageErr} (he : ans.resp = .error e) :
    step E s (.resume now i ans) =
      ({ s with pending := [], guards := [] },
       .mgmt (.error (if e ∈ passedOn p then named e else .storageCanisterError))) := by
  have hpe := hr.pendInv.pend
  have : s.pending = [p] ∧ s.guards = [p.caller] := by
    rcases hpe with h | ⟨q, h, hg⟩
    · rw [h] at hp; simp at hp
    · rw [h] at hp
      cases i with
      | zero => simp at hp; subst hp; exact ⟨h, hg⟩
      | succ i => simp at hp
  obtain ⟨h1, h2⟩ := this
  have hi : i = 0 := by
    cases i with
    | zero => rfl
    | succ i => rw [h1] at hp; simp at hp
  subst hi
  cases p with
  | init c path size subs => exact absurd rfl (hkind _ _ _ _)
  | store c k u =>
    simp only [step, resumeBody, he, guardLeave, h1, h2, Pending.caller]
    cases e <;> simp [storeErr, passedOn, named]
  | finalize c k u =>
    simp only [step, resumeBody, he, guardLeave, h1, h2, Pending.caller]
    cases e <;> simp [finalizeErr, passedOn, named]
  | cancel c k u =>
    simp only [step, resumeBody, he, guardLeave, h1, h2, Pending.caller]
    cases e <;> simp [cancelErr, passedOn, named]

/-- C68: if the storage canister accepts, the caller is told `Ok` and only that upload
changes. -/
theorem C68_storage_accepts (E : Env H) {s : State H} {i : Nat} {p : Pending}
    (hp : s.pending[i]? = some p) (hkind : ∀ c path size subs, p ≠ .init c path size subs) (now : Nat) {ans : Answer}
    (he : ans.resp = .ok ()) :
    ∃ ok path, (step E s (.resume now i ans)).2 = .mgmt (.ok ok) ∧
      ((∃ c u, p = .store c path u) ∨ (∃ c u, p = .finalize c path u) ∨ (∃ c u, p = .cancel c path u)) ∧
      ∀ path', path' ≠ path → (step E s (.resume now i ans)).1.uploads.get path' = s.uploads.get path' := by
  cases p with
  | init c path size subs => exact absurd rfl (hkind _ _ _ _)
  | store c k u =>
    refine ⟨.unit, k, ?_, .inl ⟨c, u, rfl⟩, fun q hq => ?_⟩
    · simp [step, hp, resumeBody, he]
    · simp only [step, hp, resumeBody, he, guardLeave]
      exact Map.get_set_ne _ _ (by simpa using Ne.symm hq)
  | finalize c k u =>
    refine ⟨_, k, by simp only [step, hp, resumeBody, he]; rfl, .inr (.inl ⟨c, u, rfl⟩), fun q hq => ?_⟩
    simp only [step, hp, resumeBody, he, guardLeave]
    exact Map.get_set_ne _ _ (by simpa using Ne.symm hq)
  | cancel c k u =>
    refine ⟨.unit, k, ?_, .inr (.inr ⟨c, u, rfl⟩), fun q hq => ?_⟩
    · simp [step, hp, resumeBody, he]
    · simp only [step, hp, resumeBody, he, guardLeave]
      rw [Map.get_del]
      simp [Ne.symm hq]

/-- C68: an upload to a free path of at most 2 GiB is taken up: the call waits for
the storage canisters, and once one of them (or a new one) takes the file, the
upload is there, in its first state, under the time of that answer. -/
theorem C68_init_proceeds (E : Env H) {s : State H} (hr : Reachable E s) {c : Principal} (now now' : Nat) {path : String}
    {size : Nat} (hperm : Holds s c .updateUploads) (hf : s.guards = []) (hfree : uploadState s path = none)
    (hsz : size ≤ 2147483648) {ans : Answer} {x : SubCanister} (hc : ans.created = some x) (hi : x.installed = true)
    (hok : ans.newInitOk = true) :
    replies E s [.call c now (.initUpload path size), .resume now' 0 ans] = [.suspended, .mgmt (.ok .unit)] ∧
    ∃ u, (run E s [.call c now (.initUpload path size), .resume now' 0 ans]).uploads.get path = some u ∧
      u.state = .init ∧ u.initTs = now' ∧ u.path = path := by
  have hp := holds_iff.1 hperm
  have hpe : s.pending = [] := by
    rcases hr.pendInv.pend with h | ⟨q, _, hg⟩
    · exact h
    · rw [hf] at hg; cases hg
  have hcp : containsPath s.uploads path = false := by
    cases hcp : containsPath s.uploads path with
    | false => rfl
    | true =>
      simp only [containsPath, List.any_eq_true, decide_eq_true_eq] at hcp
      obtain ⟨e, he, hpath⟩ := hcp
      have hg := Map.get_of_mem hr.uploadInv.nodup he
      rw [hr.uploadInv.path _ _ hg] at hpath
      subst hpath
      simp [uploadState, hg] at hfree
  have hsz' : ¬ size > maxFileSize := by have : maxFileSize = 2147483648 := by decide
                                         omega
  have hm : ∃ subs' id, managerInitUpload ans s.subs size = some (subs', id) := by
    unfold managerInitUpload
    split
    · exact ⟨_, _, rfl⟩
    · simp [hc, hi, hok]
  obtain ⟨subs', id, hm⟩ := hm
  simp [replies, run, step, execCall, Call.needs, hp, exec, initUpload, withGuardAsync, guardEnter_free hf, hcp, hsz',
    ofStarted, hpe, resumeBody, hm, guardLeave]

example : (step Demo.env Demo.sUp (.resume (Demo.ms 201) 0
    { created := some { id := [5], installed := true }, newInitOk := true })).2 = .mgmt (.ok .unit) := rfl

example : (step Demo.env (run Demo.env Demo.sPart [.call Demo.admin (Demo.ms 300) (.finalizeUpload "/a.png")])
    (.resume (Demo.ms 301) 0 { resp := .error .incompleteUpload })).2 = .mgmt (.error .incompleteUpload) := rfl

end Verif
