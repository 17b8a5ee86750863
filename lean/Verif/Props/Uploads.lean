import Verif.Lemmas.Uploads
import Verif.Model.Gc
import Verif.Props.Admin
/-!
# Uploads: life cycle, placement, redirection, garbage collection (C33, C49–C51)
-/
namespace Verif

open Spec

variable {H : Type}

/-- The state of the upload of `path`; `none` if there is none. -/
def Spec.uploadState (s : State H) (path : String) : Option UploadState := (s.uploads.get path).map Upload.state

/-! ## C33: upload life cycle -/

/-- **C33.** The only ways the state of an upload changes: it is created by an
answered `init_upload`, started by an answered `store_chunk`, finalized by an
answered `finalize_upload` after it was started, and removed by an answered
`cancel_upload` before it was finalized. Only calls that were suspended on
exactly this path do that, whatever else happens in between. -/
theorem C33_transition (E : Env H) (s : State H) (hr : Reachable E s) (m : Msg) (path : String) :
    uploadState (step E s m).1 path = uploadState s path ∨
    ∃ now i ans, m = .resume now i ans ∧
      ((uploadState s path = none ∧ uploadState (step E s m).1 path = some .init ∧
          ∃ c size subs, s.pending[i]? = some (.init c path size subs)) ∨
       (uploadState s path = some .init ∧ uploadState (step E s m).1 path = some .inProgress ∧ ans.resp = .ok () ∧
          ∃ c u, s.pending[i]? = some (.store c path u)) ∨
       (uploadState s path = some .inProgress ∧ uploadState (step E s m).1 path = some .finalized ∧ ans.resp = .ok () ∧
          ∃ c u, s.pending[i]? = some (.finalize c path u)) ∨
       ((uploadState s path = some .init ∨ uploadState s path = some .inProgress) ∧
          uploadState (step E s m).1 path = none ∧ ans.resp = .ok () ∧
          ∃ c u, s.pending[i]? = some (.cancel c path u))) := by
  unfold uploadState
  cases step_upload hr m path with
  | same h => rw [h]; exact .inl rfl
  | init now i ans c size id hm hp before after =>
    exact .inr ⟨now, i, ans, hm, .inl ⟨by rw [before]; rfl, by rw [after]; rfl, c, size, _, hp⟩⟩
  | store now i ans c u hm hp ok before hst after =>
    cases hu : u.state with
    | finalized => exact absurd hu hst
    | inProgress => left; rw [before, after]; simp [hu]
    | init => exact .inr ⟨now, i, ans, hm, .inr (.inl ⟨by rw [before]; simp [hu], by rw [after]; rfl, ok, c, u, hp⟩)⟩
  | finalize now i ans c u hm hp ok before hst after =>
    exact .inr ⟨now, i, ans, hm, .inr (.inr (.inl ⟨by rw [before]; simp [hst], by rw [after]; rfl, ok, c, u, hp⟩))⟩
  | cancel now i ans c u hm hp ok before hst after =>
    refine .inr ⟨now, i, ans, hm, .inr (.inr (.inr ⟨?_, by rw [after]; rfl, ok, c, u, hp⟩))⟩
    rw [before]
    cases hu : u.state with
    | finalized => exact absurd hu hst
    | inProgress => right; simp [hu]
    | init => left; simp [hu]

/-- **C33.** A finalized upload is never changed again: no restart, no further
chunk, no cancellation, no move to another storage canister, in any
continuation. -/
theorem C33_finalized_forever (E : Env H) (s : State H) (hr : Reachable E s) {path : String} {u : Upload}
    (hu : s.uploads.get path = some u) (hf : u.state = .finalized) (msgs : List Msg) :
    (run E s msgs).uploads.get path = some u := by
  induction msgs generalizing s with
  | nil => exact hu
  | cons m ms ih =>
    refine ih _ (hr.step m) ?_
    cases step_upload hr m path with
    | same h => rw [h, hu]
    | init _ _ _ _ _ _ _ _ before => rw [hu] at before; cases before
    | store _ _ _ _ _ _ _ _ before hst => rw [hu] at before; cases before; exact absurd hf hst
    | finalize _ _ _ _ _ _ _ _ before hst => rw [hu] at before; cases before; rw [hf] at hst; cases hst
    | cancel _ _ _ _ _ _ _ _ before hst => rw [hu] at before; cases before; exact absurd hf hst

/-- **C33.** As long as an upload exists, its path, storage canister and start time
stay as they were. -/
theorem C33_placement_stays (E : Env H) (s : State H) (hr : Reachable E s) (m : Msg) {path : String} {u u' : Upload}
    (hu : s.uploads.get path = some u) (hu' : (step E s m).1.uploads.get path = some u') :
    u'.canister = u.canister ∧ u'.initTs = u.initTs ∧ u'.path = u.path := by
  cases step_upload hr m path with
  | same h => rw [h, hu] at hu'; cases hu'; exact ⟨rfl, rfl, rfl⟩
  | init _ _ _ _ _ _ _ _ before => rw [hu] at before; cases before
  | store _ _ _ _ _ _ _ _ before hst after =>
    rw [hu] at before; cases before; rw [hu'] at after; cases after; exact ⟨rfl, rfl, rfl⟩
  | finalize _ _ _ _ _ _ _ _ before hst after =>
    rw [hu] at before; cases before; rw [hu'] at after; cases after; exact ⟨rfl, rfl, rfl⟩
  | cancel _ _ _ _ _ _ _ _ before hst after => rw [hu'] at after; cases after

/-- **C33.** Two uploads never share a path. -/
theorem C33_paths_differ (E : Env H) (s : State H) (hr : Reachable E s) :
    (s.uploads.entries.map fun e => e.2.path).Nodup := by
  have h := hr.uploadInv
  have : s.uploads.entries.map (fun e => e.2.path) = s.uploads.keys := by
    unfold Map.keys
    refine List.map_congr_left ?_
    rintro ⟨k, u⟩ hm
    exact h.path _ _ (Map.get_of_mem h.nodup hm)
  rw [this]
  exact Map.nodup_keys_lawful h.nodup

/-- **C33.** Out of order calls are refused without effect: chunks before the
initialisation or after the end, finalizing what was not started or is finished,
cancelling what does not exist or is finished, initialising what exists, and
initialising more than 2 GiB. -/
theorem C33_refused (E : Env H) (s : State H) (hr : Reachable E s) {c : Principal} (now : Nat) {path : String}
    (hperm : Holds s c .updateUploads) (hf : s.guards = []) :
    (uploadState s path = none →
      step E s (.call c now (.storeChunk path)) = (s, .mgmt (.error .uploadNotInitialized)) ∧
      step E s (.call c now (.finalizeUpload path)) = (s, .mgmt (.error .uploadNotStarted)) ∧
      step E s (.call c now (.cancelUpload path)) = (s, .mgmt (.error .uploadNotInitialized))) ∧
    (uploadState s path = some .init →
      step E s (.call c now (.finalizeUpload path)) = (s, .mgmt (.error .uploadNotStarted))) ∧
    (uploadState s path = some .finalized →
      step E s (.call c now (.storeChunk path)) = (s, .mgmt (.error .uploadAlreadyFinalized)) ∧
      step E s (.call c now (.finalizeUpload path)) = (s, .mgmt (.error .uploadAlreadyFinalized)) ∧
      step E s (.call c now (.cancelUpload path)) = (s, .mgmt (.error .uploadAlreadyFinalized))) ∧
    (∀ size, uploadState s path ≠ none →
      step E s (.call c now (.initUpload path size)) = (s, .mgmt (.error .fileAlreadyExists))) ∧
    (∀ size, uploadState s path = none → size > 2147483648 →
      step E s (.call c now (.initUpload path size)) = (s, .mgmt (.error .storageCanisterError))) := by
  have hp := holds_iff.1 hperm
  have back : guardLeave { s with guards := [c] } c = s := by
    rw [guardLeave_self _ _ rfl, with_guards_nil hf]
  unfold uploadState
  refine ⟨?_, ?_, ?_, ?_, ?_⟩
  · intro h
    simp at h
    refine ⟨?_, ?_, ?_⟩
    · simp [step, execCall, Call.needs, hp, exec, storeChunk, withGuardAsync, guardEnter_free hf, h, back, ofStarted]
    · simp [step, execCall, Call.needs, hp, exec, finalizeUpload, withGuardAsync, guardEnter_free hf, h, back, ofStarted]
    · simp [step, execCall, Call.needs, hp, exec, cancelUpload, withGuardAsync, guardEnter_free hf, h, back, ofStarted]
  · intro h
    simp at h
    obtain ⟨u, hu, hst⟩ := h
    simp [step, execCall, Call.needs, hp, exec, finalizeUpload, withGuardAsync, guardEnter_free hf, hu, hst, back, ofStarted]
  · intro h
    simp at h
    obtain ⟨u, hu, hst⟩ := h
    refine ⟨?_, ?_, ?_⟩
    · simp [step, execCall, Call.needs, hp, exec, storeChunk, withGuardAsync, guardEnter_free hf, hu, hst, back, ofStarted]
    · simp [step, execCall, Call.needs, hp, exec, finalizeUpload, withGuardAsync, guardEnter_free hf, hu, hst, back, ofStarted]
    · simp [step, execCall, Call.needs, hp, exec, cancelUpload, withGuardAsync, guardEnter_free hf, hu, hst, back, ofStarted]
  · intro size h
    have : containsPath s.uploads path = true := by
      cases hc : containsPath s.uploads path with
      | true => rfl
      | false => rw [containsPath_false hr.uploadInv hc] at h; simp at h
    simp [step, execCall, Call.needs, hp, exec, initUpload, withGuardAsync, guardEnter_free hf, this, back, ofStarted]
  · intro size h hsz
    have : containsPath s.uploads path = false := by
      cases hc : containsPath s.uploads path with
      | false => rfl
      | true =>
        obtain ⟨u, hu⟩ := containsPath_true hr.uploadInv hc
        rw [hu] at h; simp at h
    have hsz' : size > maxFileSize := hsz
    simp [step, execCall, Call.needs, hp, exec, initUpload, withGuardAsync, guardEnter_free hf, this, hsz', back, ofStarted]

/-- **C33.** In-order calls go through: a chunk for an initialised or started
upload, the end of a started one and the cancellation of an unfinished one are
sent to the storage canister, and its consent makes the upload started,
finalized and removed respectively. -/
theorem C33_proceeds (E : Env H) (s : State H) (hr : Reachable E s) {c : Principal} (now now' : Nat) {path : String}
    (hperm : Holds s c .updateUploads) (hf : s.guards = []) (ans : Answer) (hok : ans.resp = .ok ()) :
    ((uploadState s path = some .init ∨ uploadState s path = some .inProgress) →
      uploadState (run E s [.call c now (.storeChunk path), .resume now' 0 ans]) path = some .inProgress ∧
      uploadState (run E s [.call c now (.cancelUpload path), .resume now' 0 ans]) path = none) ∧
    (uploadState s path = some .inProgress →
      uploadState (run E s [.call c now (.finalizeUpload path), .resume now' 0 ans]) path = some .finalized) := by
  have hp := holds_iff.1 hperm
  have hpe : s.pending = [] := by
    rcases hr.pendInv.pend with h | ⟨q, _, hg⟩
    · exact h
    · rw [hf] at hg; cases hg
  unfold uploadState
  constructor
  · intro h
    have : ∃ u, s.uploads.get path = some u ∧ (u.state = .init ∨ u.state = .inProgress) := by
      simp at h
      rcases h with ⟨u, hu, hst⟩ | ⟨u, hu, hst⟩
      · exact ⟨u, hu, .inl hst⟩
      · exact ⟨u, hu, .inr hst⟩
    obtain ⟨u, hu, hst⟩ := this
    obtain ⟨sc, hsc, hin⟩ := hr.uploadInv.store _ _ hu
    constructor
    · rcases hst with hst | hst <;>
        simp [run, step, execCall, Call.needs, hp, exec, storeChunk, withGuardAsync, guardEnter_free hf, hu, hst,
          callStorage, hsc, hin, ofStarted, hpe, resumeBody, hok, guardLeave]
    · rcases hst with hst | hst <;>
        simp [run, step, execCall, Call.needs, hp, exec, cancelUpload, withGuardAsync, guardEnter_free hf, hu, hst,
          callStorage, hsc, hin, ofStarted, hpe, resumeBody, hok, guardLeave]
  · intro h
    simp at h
    obtain ⟨u, hu, hst⟩ := h
    obtain ⟨sc, hsc, hin⟩ := hr.uploadInv.store _ _ hu
    simp [run, step, execCall, Call.needs, hp, exec, finalizeUpload, withGuardAsync, guardEnter_free hf, hu, hst,
          callStorage, hsc, hin, ofStarted, hpe, resumeBody, hok, guardLeave]

/-- A started upload. -/
def Demo.sPart : State Nat := run env s1
  [.call admin (ms 200) (.initUpload "/a.png" 10),
   .resume (ms 201) 0 { created := some { id := [5], installed := true }, newInitOk := true },
   .call admin (ms 202) (.storeChunk "/a.png"), .resume (ms 203) 0 {}]

theorem Demo.sPart_reach : Reachable env Demo.sPart := Demo.s1_reach.run _

example : uploadState Demo.s1 "/a.png" = none ∧ uploadState Demo.sPart "/a.png" = some .inProgress ∧
    uploadState Demo.sFin "/a.png" = some .finalized ∧ Demo.sPart.guards = [] ∧ Demo.sFin.guards = [] := by decide

example : Holds Demo.sPart Demo.admin .updateUploads := holds_iff.2 (by decide)

/-! ## C50: storage allocation -/

/-- The storage canister reported enough room for `size` more bytes (500 GiB in
all) and accepted the upload. -/
def Spec.Takes (ans : Answer) (size : Nat) (c : SubCanister) : Prop :=
  (∃ used, ans.sizeOf c.id = some used ∧ used + size ≤ 500 * 1024 * 1024 * 1024) ∧ ans.initOk c.id = true

/-- The storage canisters report sizes that leave the sum with the size of a file
below `2^128`. -/
def Spec.SaneSizes (ans : Answer) : Prop := ∀ id used, ans.sizeOf id = some used → used + 2147483648 < 2 ^ 128

private theorem small_mod {used size : Nat} (h : used + 2147483648 < 2 ^ 128) (hs : size ≤ maxFileSize) :
    (used + size) % 340282366920938463463374607431768211456 = used + size := by
  apply Nat.mod_eq_of_lt
  have : (2 : Nat) ^ 128 = 340282366920938463463374607431768211456 := by decide
  have : maxFileSize = 2147483648 := by decide
  omega

private theorem refuses_iff {ans : Answer} {size : Nat} {x : SubCanister} (hs : SaneSizes ans) (hsz : size ≤ maxFileSize) :
    Refuses ans size x ↔ ¬ Takes ans size x := by
  have hm : maxStorageSize = 500 * 1024 * 1024 * 1024 := by decide
  constructor
  · rintro h ⟨⟨used, hu, hle⟩, hi⟩
    have := h used hu (by rw [small_mod (hs _ _ hu) hsz, hm]; exact hle)
    rw [this] at hi; cases hi
  · intro h used hu hle
    rw [small_mod (hs _ _ hu) hsz, hm] at hle
    cases hi : ans.initOk x.id with
    | false => rfl
    | true => exact absurd ⟨⟨used, hu, hle⟩, hi⟩ h

/-- **C50.** Where an upload goes when the answers arrive. Either the first
installed storage canister, in the order the table is walked, that has room and
accepts; or, if there is none, a newly created installed canister that accepts;
the table then contains it. In all other cases the call fails and nothing about
uploads or storage canisters changes. Missing: reported sizes of almost `2^128`
bytes, for which the sum wraps around (`C50_violated_wrap`). -/
theorem C50_placement_partial (E : Env H) (s : State H) (hr : Reachable E s) {i : Nat} {c : Principal} {path : String}
    {size : Nat} {subs : List SubCanister} (hp : s.pending[i]? = some (.init c path size subs)) (now : Nat)
    (ans : Answer) (hsane : SaneSizes ans) :
    let s' := (step E s (.resume now i ans)).1
    size ≤ 2147483648 ∧
    (((step E s (.resume now i ans)).2 = .mgmt (.ok .unit) ∧
        ∃ u, s'.uploads.get path = some u ∧ u.state = .init ∧ u.initTs = now ∧ u.path = path ∧
          ((∃ pre x post, (ans.walk s.subs).filter (·.installed) = pre ++ x :: post ∧ x.id = u.canister ∧
              Takes ans size x ∧ (∀ y ∈ pre, ¬ Takes ans size y) ∧ s'.subs = s.subs) ∨
           ((∀ y ∈ s.subs, y.installed = true → ¬ Takes ans size y) ∧
              ∃ x, ans.created = some x ∧ x.installed = true ∧ ans.newInitOk = true ∧ x.id = u.canister ∧
                s'.subs = s.subs.filter (fun y => decide (y.id ≠ x.id)) ++ [x]))) ∨
     ((step E s (.resume now i ans)).2 = .mgmt (.error .storageCanisterError) ∧
        s'.uploads = s.uploads ∧ s'.subs = s.subs ∧
        (∀ y ∈ s.subs, y.installed = true → ¬ Takes ans size y) ∧
        ∀ x, ans.created = some x → x.installed = true → ans.newInitOk = false)) := by
  obtain ⟨hnone, rfl, hsz⟩ := hr.uploadInv.pend _ (List.mem_of_getElem? hp)
  refine ⟨hsz, ?_⟩
  have hm : maxStorageSize = 500 * 1024 * 1024 * 1024 := by decide
  simp only [step, hp, resumeBody, managerInitUpload]
  cases hpick : pickStorage ans size ((ans.walk s.subs).filter (·.installed)) with
  | some id =>
    obtain ⟨pre, x, post, used, hl, hid, hu, hle, hok, hpre⟩ := pickStorage_some hpick
    left
    dsimp only
    refine ⟨rfl, { initTs := now, state := .init, canister := id, path := path }, by simp [guardLeave], rfl, rfl, rfl, .inl ?_⟩
    refine ⟨pre, x, post, hl, hid, ⟨⟨used, by rw [hid]; exact hu, ?_⟩, by rw [hid]; exact hok⟩, ?_, rfl⟩
    · rw [small_mod (hsane _ _ hu) hsz, hm] at hle; exact hle
    · intro y hy; exact (refuses_iff hsane hsz).1 (hpre y hy)
  | none =>
    have hall : ∀ y ∈ s.subs, y.installed = true → ¬ Takes ans size y := by
      intro y hy hyi
      refine (refuses_iff hsane hsz).1 (pickStorage_none hpick y ?_)
      rw [List.mem_filter]
      exact ⟨(ans.walk_perm s.subs).mem_iff.2 hy, hyi⟩
    dsimp only
    cases hc : ans.created with
    | none => right; exact ⟨rfl, rfl, rfl, hall, fun x hx => by cases hx⟩
    | some x =>
      dsimp only
      by_cases hi : (x.installed && ans.newInitOk) = true
      · rw [if_pos hi]
        left
        simp at hi
        refine ⟨rfl, { initTs := now, state := .init, canister := x.id, path := path }, by simp [guardLeave], rfl, rfl, rfl,
          .inr ⟨hall, x, rfl, hi.1, hi.2, rfl, rfl⟩⟩
      · rw [if_neg hi]
        right
        refine ⟨rfl, rfl, rfl, hall, ?_⟩
        intro y hy hyi
        cases hy
        simpa [hyi] using hi

/-- **C50.** Every upload lies in a storage canister of the table that is
installed, in every reachable state. -/
theorem C50_installed (E : Env H) (s : State H) (hr : Reachable E s) {path : String} {u : Upload}
    (hu : s.uploads.get path = some u) :
    ∃ x ∈ s.subs, x.id = u.canister ∧ x.installed = true := by
  obtain ⟨x, hx, hi⟩ := hr.uploadInv.store _ _ hu
  exact ⟨x, (getSub_mem hx).1, (getSub_mem hx).2, hi⟩

/-- The suspended call of `sUp`; a full canister is passed over for the next. -/
example : Demo.sUp.pending[0]? = some (.init Demo.admin "/a.png" 10 []) ∧ Demo.sFin.subs = [⟨[5], true⟩] := by decide

example : SaneSizes { sizeOf := fun _ => some 5, initOk := fun _ => true } := by
  intro id used h; simp at h; subst h; decide

def Demo.wrapAns : Answer := { sizeOf := fun _ => some (2 ^ 128 - 1), initOk := fun _ => true }

/-- C50 is false for a storage canister that reports almost `2^128` bytes in use: the
sum wraps around and the file is placed there. -/
theorem C50_violated_wrap : ∃ (s : State Nat) (ans : Answer) (u : Upload), Reachable Demo.env s ∧
    s.pending[0]? = some (.init Demo.admin "/b.png" 10 s.subs) ∧ (∀ id, ans.sizeOf id = some (2 ^ 128 - 1)) ∧
    (step Demo.env s (.resume 0 0 ans)).1.uploads.get "/b.png" = some u ∧ u.canister = [5] ∧ ¬ Takes ans 10 ⟨[5], true⟩ := by
  refine ⟨run Demo.env Demo.sFin [.call Demo.admin (Demo.ms 900) (.initUpload "/b.png" 10)], Demo.wrapAns,
    ⟨0, .init, [5], "/b.png"⟩, Demo.sFin_reach.run _, by decide, fun _ => rfl, by decide, rfl, ?_⟩
  rintro ⟨⟨used, hu, hle⟩, _⟩
  cases hu
  exact absurd hle (by decide)

/-- **C50.** The setting `max_canister_storage_threshold` makes no difference to where a file
is placed: the answer, the uploads and the storage canisters are the same for any two values. -/
theorem C50_threshold_ignored (E : Env H) (s : State H) (now i : Nat) (ans : Answer) (t : Option Nat) :
    let s₂ : State H := { s with cfg := { s.cfg with maxStorageThreshold := t } }
    (step E s₂ (.resume now i ans)).2 = (step E s (.resume now i ans)).2 ∧
    (step E s₂ (.resume now i ans)).1.uploads = (step E s (.resume now i ans)).1.uploads ∧
    (step E s₂ (.resume now i ans)).1.subs = (step E s (.resume now i ans)).1.subs := by
  have key : ∀ (s : State H) (p : Pending),
      resumeBody E { s with cfg := { s.cfg with maxStorageThreshold := t } } now p ans =
        ({ (resumeBody E s now p ans).1 with cfg := { (resumeBody E s now p ans).1.cfg with maxStorageThreshold := t } },
          (resumeBody E s now p ans).2) := by
    intro s p
    unfold resumeBody
    cases p <;> dsimp only <;> split <;> rfl
  dsimp only
  simp only [step]
  cases hp : s.pending[i]? with
  | none => exact ⟨rfl, rfl, rfl⟩
  | some p =>
    dsimp only
    rw [key { s with pending := s.pending.eraseIdx i } p]
    exact ⟨rfl, rfl, rfl⟩

/-- **C50 is violated** for the threshold the collection is configured with: told to keep storage
canisters below 1000 bytes, it places a file in one that already holds 5000. -/
theorem C50_violated_threshold : ∃ (s : State Nat) (ans : Answer) (u : Upload), Reachable Demo.env s ∧
    s.cfg.maxStorageThreshold = some 1000 ∧ s.pending[0]? = some (.init Demo.admin "/b.png" 10 s.subs) ∧
    (∀ id, ans.sizeOf id = some 5000) ∧
    (step Demo.env s (.resume 0 0 ans)).1.uploads.get "/b.png" = some u ∧ u.canister = [5] :=
  ⟨run Demo.env Demo.sFin [.call Demo.admin (Demo.ms 800) (.updateCollectionMetadata { maxStorageThreshold := some 1000 }),
      .call Demo.admin (Demo.ms 900) (.initUpload "/b.png" 10)], { sizeOf := fun _ => some 5000, initOk := fun _ => true },
    ⟨0, .init, [5], "/b.png"⟩, Demo.sFin_reach.run _, by decide, by decide, fun _ => rfl, by decide, rfl⟩

/-! ## C51: finalized uploads are reachable -/

/-- The redirections belong to finalized uploads. -/
structure RedirInv (E : Env H) (s : State H) : Prop where
  from_ : ∀ p url, s.redirects.get p = some url → ∃ k u, s.uploads.get k = some u ∧ u.state = .finalized ∧
    mediaPath k = p ∧ url = mediaUrl E u.canister p
  to_ : ∀ k u, s.uploads.get k = some u → u.state = .finalized → ∃ url, s.redirects.get (mediaPath k) = some url

theorem redirInv_of_eq {E : Env H} {s s' : State H} (h : RedirInv E s) (h1 : s'.redirects = s.redirects)
    (h2 : s'.uploads = s.uploads) : RedirInv E s' := by
  constructor
  · rw [h1, h2]; exact h.from_
  · rw [h1, h2]; exact h.to_

theorem redirInv_micro {E : Env H} {m : Msg} {s s' : State H} (hu : UploadInv s) (h : RedirInv E s)
    (hm : Micro E m s s') : RedirInv E s' := by
  cases hm with
  | mint reqs md h' perm free batch cap memos hmd => rw [mintInsert_eq]; exact redirInv_of_eq h rfl rfl
  | dropUpload key u perm free hu' hst hgone hcall =>
    obtain ⟨c, hc, _⟩ := hu.store _ _ hu'
    rw [hgone] at hc; cases hc
  | @resume _ now i ans p hp =>
    have hout := resumeBody_out E { s with pending := s.pending.eraseIdx i } now p ans
    have hok := hu.pend p (List.mem_of_getElem? hp)
    generalize (resumeBody E { s with pending := s.pending.eraseIdx i } now p ans).1 = t at hout
    unfold guardLeave
    /- an entry that was not finalized may be replaced or removed -/
    have keep : ∀ (ups : Map String Upload) (k' : String), (∀ k u, (k' == k) = false → (ups.get k = some u ↔ s.uploads.get k = some u)) →
        (∀ u, s.uploads.get k' = some u → u.state ≠ .finalized) → (∀ u, ups.get k' = some u → u.state ≠ .finalized) →
        (∀ p url, s.redirects.get p = some url → ∃ k u, ups.get k = some u ∧ u.state = .finalized ∧
            mediaPath k = p ∧ url = mediaUrl E u.canister p) ∧
        (∀ k u, ups.get k = some u → u.state = .finalized → ∃ url, s.redirects.get (mediaPath k) = some url) := by
      intro ups k' hsame hold hnew
      constructor
      · intro p url hg
        obtain ⟨k, u, h1, h2, h3⟩ := h.from_ p url hg
        refine ⟨k, u, (hsame k u ?_).2 h1, h2, h3⟩
        cases hk : (k' == k) with
        | false => rfl
        | true =>
          have : k' = k := by simpa using hk
          subst this
          exact absurd h2 (hold u h1)
      · intro k u hg hst
        cases hk : (k' == k) with
        | false => exact h.to_ k u ((hsame k u hk).1 hg) hst
        | true =>
          have : k' = k := by simpa using hk
          subst this
          exact absurd hst (hnew u hg)
    cases hout with
    | same => exact redirInv_of_eq h rfl rfl
    | init c k' size subs subs' id hpl =>
      obtain ⟨hnone, rfl, hsz⟩ := hok
      obtain ⟨h1, h2⟩ := keep (s.uploads.set k' { initTs := now, state := .init, canister := id, path := k' }) k'
        (fun k u hk => by rw [Map.get_set_ne _ _ hk]) (fun u hu' => by rw [hnone] at hu'; cases hu')
        (fun u hu' => by simp at hu'; rw [← hu']; simp)
      exact ⟨h1, h2⟩
    | store c k' u hok' =>
      obtain ⟨h1, h2⟩ := keep (s.uploads.set k' { u with state := .inProgress }) k'
        (fun k u hk => by rw [Map.get_set_ne _ _ hk]) (fun u hu' => by rw [hok.1] at hu'; cases hu'; exact hok.2)
        (fun u hu' => by simp at hu'; rw [← hu']; simp)
      exact ⟨h1, h2⟩
    | cancel c k' u hok' =>
      obtain ⟨h1, h2⟩ := keep (s.uploads.del k') k'
        (fun k u hk => by rw [Map.get_del_ne _ hk]) (fun u hu' => by rw [hok.1] at hu'; cases hu'; exact hok.2)
        (fun u hu' => by simp at hu')
      exact ⟨h1, h2⟩
    | finalize c k' u hok' =>
      have hpath : u.path = k' := hu.path _ _ hok.1
      rw [hpath]
      constructor
      · intro p url hg
        simp only [Map.get_set] at hg
        split at hg
        · rename_i hk
          have hk : mediaPath k' = p := by simpa using hk
          injection hg with hg
          exact ⟨k', _, Map.get_set_self _ _ _, rfl, hk, by rw [← hg, ← hk]⟩
        · obtain ⟨k, u1, h1, h2, h3⟩ := h.from_ p url hg
          refine ⟨k, u1, ?_, h2, h3⟩
          rw [Map.get_set_ne]
          · exact h1
          · cases hk : (k' == k) with
            | false => rfl
            | true =>
              have : k' = k := by simpa using hk
              subst this
              rw [hok.1] at h1
              cases h1
              rw [hok.2] at h2; cases h2
      · intro k u1 hg hst
        simp only [Map.get_set] at hg
        rw [Map.get_set]
        split at hg
        · rename_i hk
          have : k' = k := by simpa using hk
          subst this
          exact ⟨_, if_pos (by simp)⟩
        · obtain ⟨url, hurl⟩ := h.to_ k u1 hg hst
          split
          · exact ⟨_, rfl⟩
          · exact ⟨url, hurl⟩
  | _ => exact redirInv_of_eq h rfl rfl

theorem Reachable.redirInv {E : Env H} {s : State H} (h : Reachable E s) : RedirInv E s := by
  have : (PendInv s ∧ UploadInv s) ∧ RedirInv E s :=
    h.induct (P := fun s => (PendInv s ∧ UploadInv s) ∧ RedirInv E s)
    (fun _ _ _ _ _ h0 => ⟨⟨pendInv_init h0, by
      rw [init_eq h0]
      exact ⟨Map.nodup_empty, nofun, by simp, nofun, nofun⟩⟩, by rw [init_eq h0]; exact ⟨nofun, nofun⟩⟩)
    (fun _ _ _ hp hm => ⟨⟨pendInv_micro hp.1.1 hm, uploadInv_micro hp.1.1 hp.1.2 hm⟩, redirInv_micro hp.1.2 hp.2 hm⟩)
  exact this.2

/-- The path under which an upload is served: its path, with a slash in front if
it has none. -/
def Spec.servedPath (path : String) : String := if path.toList.head? = some '/' then path else "/" ++ path

/-- The url of `path` on a canister. -/
def Spec.rawUrl (E : Env H) (canister : Principal) (path : String) : String :=
  "https://" ++ E.text canister ++ ".raw.icp0.io" ++ path

/-- **C51**, the part that holds: in every reachable state, a request for the
served path of a finalized upload is redirected to the file in its storage
canister, unless the path is one of the three reserved ones or another finalized
upload is served under the same path. Missing: these two cases (`C51_violated_*`). -/
theorem C51_redirected_partial (E : Env H) (s : State H) (hr : Reachable E s) {path : String} {u : Upload}
    (hu : s.uploads.get path = some u) (hf : u.state = .finalized)
    (hres : servedPath path ≠ "/logs" ∧ servedPath path ≠ "/traces" ∧ servedPath path ≠ "/metrics")
    (huniq : ∀ path' u', s.uploads.get path' = some u' → u'.state = .finalized → servedPath path' = servedPath path →
      path' = path) :
    httpRequest s (servedPath path) = .redirect (rawUrl E u.canister (servedPath path)) := by
  obtain ⟨url, hurl⟩ := hr.redirInv.to_ path u hu hf
  obtain ⟨k, u', h1, h2, h3, h4⟩ := hr.redirInv.from_ _ _ hurl
  have := huniq k u' h1 h2 h3
  subst this
  rw [hu] at h1
  cases h1
  have hrt : s.router.get (servedPath k) = some url := by rw [hr.routeInv.same]; exact hurl
  unfold httpRequest
  rw [if_neg hres.1, if_neg hres.2.1, if_neg hres.2.2, hrt, h4]
  rfl

/-- **C51.** Any path that is redirected at all is redirected to a finalized upload
served under it, in its own storage canister. -/
theorem C51_no_other_redirect (E : Env H) (s : State H) (hr : Reachable E s) {p url : String}
    (h : httpRequest s p = .redirect url) :
    ∃ path u, s.uploads.get path = some u ∧ u.state = .finalized ∧ servedPath path = p ∧
      url = rawUrl E u.canister p := by
  unfold httpRequest at h
  split at h
  · cases h
  split at h
  · cases h
  split at h
  · cases h
  split at h
  · rename_i u hu
    injection h with h
    subst h
    rw [hr.routeInv.same] at hu
    obtain ⟨k, u', h1, h2, h3, h4⟩ := hr.redirInv.from_ _ _ hu
    exact ⟨k, u', h1, h2, h3, h4⟩
  · cases h

/-- **C51.** What an accepted `finalize_upload` returns: the url of the served path
on this canister; and the upload is finalized. -/
theorem C51_returned (E : Env H) (s : State H) (hr : Reachable E s) {i : Nat} {c : Principal} {path : String} {u : Upload}
    (hp : s.pending[i]? = some (.finalize c path u)) (now : Nat) (ans : Answer) {r : MgmtOk}
    (hok : (step E s (.resume now i ans)).2 = .mgmt (.ok r)) :
    r = .url (rawUrl E E.self (servedPath path)) ∧
    (step E s (.resume now i ans)).1.uploads.get path = some { u with state := .finalized } := by
  have hpath : u.path = path := hr.uploadInv.path _ _ (hr.uploadInv.pend _ (List.mem_of_getElem? hp)).1
  simp only [step, hp, resumeBody] at hok ⊢
  cases hresp : ans.resp with
  | error e => simp [hresp] at hok
  | ok x =>
    simp only [hresp] at hok
    injection hok with hok
    injection hok with hok
    subst hok
    rw [hpath]
    exact ⟨rfl, by simp [guardLeave]⟩

/-- Upload `path` completely, into storage canister `id`. -/
def Demo.upload (path : String) (id : Principal) (t : Nat) : List Msg :=
  [.call admin (ms t) (.initUpload path 10),
   .resume (ms (t + 1)) 0 { created := some { id := id, installed := true }, newInitOk := true },
   .call admin (ms (t + 2)) (.storeChunk path), .resume (ms (t + 3)) 0 {},
   .call admin (ms (t + 4)) (.finalizeUpload path), .resume (ms (t + 5)) 0 {}]

/-- **C51 is violated** for the reserved paths: an upload to "/metrics" is accepted
and finalized, but a request for it gets the metrics page. -/
theorem C51_violated_reserved : ∃ s : State Nat, Reachable Demo.env s ∧
    uploadState s "/metrics" = some .finalized ∧ httpRequest s "/metrics" = .metrics :=
  ⟨run Demo.env Demo.s1 (Demo.upload "/metrics" [5] 200), Demo.s1_reach.run _, by decide, by decide⟩

/-- An environment in which principals have different texts. -/
def Demo.env2 : Env Nat := ⟨ledger, [9], fun p => if p = [5] then "five" else "six"⟩

/-- **C51 is violated** when two uploads differ only in a leading slash: the second
one takes over the redirection of the first. -/
theorem C51_violated_shared : ∃ s : State Nat, Reachable Demo.env2 s ∧
    (∃ u, s.uploads.get "a" = some u ∧ u.state = .finalized ∧ u.canister = [5]) ∧
    servedPath "a" = "/a" ∧ httpRequest s "/a" = .redirect (rawUrl Demo.env2 [6] "/a") ∧
    rawUrl Demo.env2 [6] "/a" ≠ rawUrl Demo.env2 [5] "/a" :=
  ⟨run Demo.env2 Demo.s0 (Demo.upload "a" [5] 200 ++ Demo.upload "/a" [6] 300),
    ⟨fun _ => true, 0, Demo.admin, Demo.args, Demo.s0, _, Demo.s0_init, rfl⟩,
    ⟨{ initTs := Demo.ms 201, state := .finalized, canister := [5], path := "a" }, by decide, rfl, rfl⟩,
    by decide, by decide, by decide⟩

example : uploadState Demo.sFin "/a.png" = some .finalized ∧
    httpRequest Demo.sFin (servedPath "/a.png") = .redirect "https://aaaaa-aa.raw.icp0.io/a.png" ∧
    Demo.sFin.uploads.keys = ["/a.png"] := by decide

/-! ## C49: garbage collection of uploads -/

/-- Started more than a day ago (times in nanoseconds) and not finalized. -/
def Spec.Stale (now : Nat) (u : Upload) : Prop := u.initTs + 86400000000000 < now ∧ u.state ≠ .finalized

/-- **C49**, what the job does instead: it cancels, finalized or not, exactly the
uploads started less than 86.4 ms ago. -/
theorem C49_selects (E : Env H) (s : State H) (hr : Reachable E s) (now : Nat) {path : String} {u : Upload}
    (hu : s.uploads.get path = some u) (hsane : u.initTs < 2 ^ 63) :
    (u.canister, path) ∈ gcCancels s now ↔ now < u.initTs + 86400000 := by
  have hn := hr.uploadInv.nodup
  obtain ⟨k, hk, hm⟩ := Map.mem_of_get hu
  have hk : k = path := by simpa using hk
  subst hk
  have hsel : ∀ v, v.initTs < 2 ^ 63 → (gcSelects now v = true ↔ now < v.initTs + 86400000) := by
    intro v hv
    have h1 : (2 : Nat) ^ 63 = 9223372036854775808 := by decide
    have hd : dayInMs = 86400000 := by decide
    unfold gcSelects u64add
    rw [hd, Nat.mod_eq_of_lt (by simp only [U64]; omega)]
    simp
  unfold gcCancels
  constructor
  · intro h
    rw [List.mem_map] at h
    obtain ⟨⟨k', v⟩, hf, he⟩ := h
    rw [List.mem_filter] at hf
    simp at he
    obtain ⟨_, rfl⟩ := he
    have := Map.get_of_mem hn hf.1
    rw [hu] at this
    cases this
    exact (hsel u hsane).1 hf.2
  · intro h
    rw [List.mem_map]
    exact ⟨(k, u), List.mem_filter.2 ⟨hm, (hsel u hsane).2 h⟩, rfl⟩

/-- **C49**, the part that holds: the job cancels nothing but uploads this canister
knows, at their storage canister, and never changes any state here; once the last
initialisation is 86.4 ms old it cancels nothing at all. Missing: it does not
cancel stale uploads and does cancel fresh and finalized ones (`C49_violated_*`). -/
theorem C49_harmless_partial (E : Env H) (s : State H) (hr : Reachable E s) (now : Nat) :
    (∀ id path, (id, path) ∈ gcCancels s now → ∃ u, s.uploads.get path = some u ∧ u.canister = id) ∧
    ((∀ path u, s.uploads.get path = some u → u.initTs < 2 ^ 63 ∧ u.initTs + 86400000 ≤ now) → gcCancels s now = []) := by
  have hn := hr.uploadInv.nodup
  have hmem : ∀ id path, (id, path) ∈ gcCancels s now → ∃ u, s.uploads.get path = some u ∧ u.canister = id := by
    intro id path h
    unfold gcCancels at h
    rw [List.mem_map] at h
    obtain ⟨⟨k', v⟩, hf, he⟩ := h
    simp at he
    obtain ⟨rfl, rfl⟩ := he
    exact ⟨v, Map.get_of_mem hn (List.mem_filter.1 hf).1, rfl⟩
  refine ⟨hmem, ?_⟩
  intro hold
  cases hc : gcCancels s now with
  | nil => rfl
  | cons e l =>
    obtain ⟨id, path⟩ := e
    obtain ⟨u, hu, rfl⟩ := hmem id path (by rw [hc]; simp)
    obtain ⟨h1, h2⟩ := hold path u hu
    have := (C49_selects E s hr now hu h1).1 (by rw [hc]; simp)
    omega

/-- **C49 is violated**: an upload started eleven days ago and never finished is not
cancelled. -/
theorem C49_violated_stale : ∃ (s : State Nat) (u : Upload) (now : Nat), Reachable Demo.env s ∧
    s.uploads.get "/a.png" = some u ∧ Stale now u ∧ gcCancels s now = [] :=
  ⟨Demo.sPart, { initTs := Demo.ms 201, state := .inProgress, canister := [5], path := "/a.png" },
    1000000000000000, Demo.sPart_reach, by decide, ⟨by decide, by decide⟩, by decide⟩

/-- **C49 is violated**: a fresh upload, already finalized, is cancelled. -/
theorem C49_violated_fresh : ∃ (s : State Nat) (now : Nat), Reachable Demo.env s ∧
    uploadState s "/a.png" = some .finalized ∧ ([5], "/a.png") ∈ gcCancels s now :=
  ⟨Demo.sFin, Demo.ms 206, Demo.sFin_reach, by decide, by decide⟩

example : Demo.sFin.uploads.get "/a.png" =
    some { initTs := Demo.ms 201, state := .finalized, canister := [5], path := "/a.png" } := by decide

end Verif
