import Verif.Lemmas.Traffic
import Verif.Props.Commands
/-!
# C87 What storage canisters are asked
-/
namespace Verif

open Spec

variable {H : Type}

/-- An upload call is either answered at once, with an error, or waits for storage
canisters, remembered as it was made. -/
theorem upload_begun {E : Env H} {s : State H} (hr : Reachable E s) (c : Principal) (now : Nat) (a : UploadArgs) :
    (∃ e, (step E s (.call c now a.call)).2 = .mgmt (.error e)) ∨ (step E s (.call c now a.call)).2 = .rejected ∨
    ∃ s₁ p, step E s (.call c now a.call) = (s₁, .suspended) ∧ s₁.pending[s₁.pending.length - 1]? = some p ∧
      MadeWith a p ∧ p.caller = c ∧ s₁.uploads = s.uploads ∧ s₁.subs = s.subs := by
  have hn : a.call.needs = some .updateUploads := by cases a <;> rfl
  by_cases hp : hasPermission s.perms c .updateUploads = true
  case neg => exact .inr (.inl (by simp [step, execCall, hn, hp]))
  cases hg : guardEnter s c with
  | none =>
    refine .inl ⟨.concurrentManagementCall, ?_⟩
    cases a <;> simp [step, execCall, UploadArgs.call, Call.needs, hp, exec, initUpload, storeChunk, finalizeUpload,
      cancelUpload, withGuardAsync, hg, ofStarted]
  | some s₁ =>
    have hup : s₁.uploads = s.uploads ∧ s₁.subs = s.subs := by
      unfold guardEnter at hg
      split at hg
      · cases hg
      · cases hg; exact ⟨rfl, rfl⟩
    have placed (key : String) (u : Upload) (p : Pending) (hu : s.uploads.get key = some u) :
        callStorage s₁ key u p = (s₁, .inr p) := by
      obtain ⟨sc, hsc, hin⟩ := hr.uploadInv.store _ _ hu
      simp [callStorage, hup.2, hsc, hin]
    cases a with
    | init path size chunk hash =>
      by_cases h1 : containsPath s₁.uploads path = true
      · exact .inl ⟨.fileAlreadyExists, by
          simp [step, execCall, UploadArgs.call, Call.needs, hp, exec, initUpload, withGuardAsync, hg, h1, ofStarted]⟩
      · by_cases h2 : size > maxFileSize
        · exact .inl ⟨.storageCanisterError, by
            simp [step, execCall, UploadArgs.call, Call.needs, hp, exec, initUpload, withGuardAsync, hg, h1, h2, ofStarted]⟩
        · exact .inr (.inr ⟨{ s₁ with pending := s₁.pending ++ [.init c path size s₁.subs] }, .init c path size s₁.subs, by
            simp [step, execCall, UploadArgs.call, Call.needs, hp, exec, initUpload, withGuardAsync, hg, h1, h2, ofStarted],
            by simp, ⟨rfl, rfl⟩, rfl, hup⟩)
    | store path id data =>
      cases hu : s.uploads.get path with
      | none => exact .inl ⟨.uploadNotInitialized, by
          simp [step, execCall, UploadArgs.call, Call.needs, hp, exec, storeChunk, withGuardAsync, hg, hup.1, hu, ofStarted]⟩
      | some u =>
        cases hst : u.state with
        | init =>
          exact .inr (.inr ⟨{ s₁ with pending := s₁.pending ++ [.store c path u] }, .store c path u, by
            simp [step, execCall, UploadArgs.call, Call.needs, hp, exec, storeChunk, withGuardAsync, hg, hup.1, hu, hst,
              placed _ _ _ hu, ofStarted], by simp, rfl, rfl, hup⟩)
        | inProgress =>
          exact .inr (.inr ⟨{ s₁ with pending := s₁.pending ++ [.store c path u] }, .store c path u, by
            simp [step, execCall, UploadArgs.call, Call.needs, hp, exec, storeChunk, withGuardAsync, hg, hup.1, hu, hst,
              placed _ _ _ hu, ofStarted], by simp, rfl, rfl, hup⟩)
        | finalized => exact .inl ⟨.uploadAlreadyFinalized, by
            simp [step, execCall, UploadArgs.call, Call.needs, hp, exec, storeChunk, withGuardAsync, hg, hup.1, hu, hst,
              ofStarted]⟩
    | finalize path =>
      cases hu : s.uploads.get path with
      | none => exact .inl ⟨.uploadNotStarted, by
          simp [step, execCall, UploadArgs.call, Call.needs, hp, exec, finalizeUpload, withGuardAsync, hg, hup.1, hu, ofStarted]⟩
      | some u =>
        cases hst : u.state with
        | init => exact .inl ⟨.uploadNotStarted, by
            simp [step, execCall, UploadArgs.call, Call.needs, hp, exec, finalizeUpload, withGuardAsync, hg, hup.1, hu, hst,
              ofStarted]⟩
        | inProgress =>
          exact .inr (.inr ⟨{ s₁ with pending := s₁.pending ++ [.finalize c path u] }, .finalize c path u, by
            simp [step, execCall, UploadArgs.call, Call.needs, hp, exec, finalizeUpload, withGuardAsync, hg, hup.1, hu, hst,
              placed _ _ _ hu, ofStarted], by simp, rfl, rfl, hup⟩)
        | finalized => exact .inl ⟨.uploadAlreadyFinalized, by
            simp [step, execCall, UploadArgs.call, Call.needs, hp, exec, finalizeUpload, withGuardAsync, hg, hup.1, hu, hst,
              ofStarted]⟩
    | cancel path =>
      cases hu : s.uploads.get path with
      | none => exact .inl ⟨.uploadNotInitialized, by
          simp [step, execCall, UploadArgs.call, Call.needs, hp, exec, cancelUpload, withGuardAsync, hg, hup.1, hu, ofStarted]⟩
      | some u =>
        cases hst : u.state with
        | init =>
          exact .inr (.inr ⟨{ s₁ with pending := s₁.pending ++ [.cancel c path u] }, .cancel c path u, by
            simp [step, execCall, UploadArgs.call, Call.needs, hp, exec, cancelUpload, withGuardAsync, hg, hup.1, hu, hst,
              placed _ _ _ hu, ofStarted], by simp, rfl, rfl, hup⟩)
        | inProgress =>
          exact .inr (.inr ⟨{ s₁ with pending := s₁.pending ++ [.cancel c path u] }, .cancel c path u, by
            simp [step, execCall, UploadArgs.call, Call.needs, hp, exec, cancelUpload, withGuardAsync, hg, hup.1, hu, hst,
              placed _ _ _ hu, ofStarted], by simp, rfl, rfl, hup⟩)
        | finalized => exact .inl ⟨.uploadAlreadyFinalized, by
            simp [step, execCall, UploadArgs.call, Call.needs, hp, exec, cancelUpload, withGuardAsync, hg, hup.1, hu, hst,
              ofStarted]⟩

/-- The demo state with a chunk under way at the storage canister `[5]`. -/
def Demo.sChunk : State Nat := run env sPart [.call admin (ms 300) (.storeChunk "/a.png")]

theorem Demo.sChunk_reach : Reachable env Demo.sChunk := Demo.sPart_reach.run _

/-- The demo state with a second upload about to be placed. -/
def Demo.sSecond : State Nat := run env sPart [.call admin (ms 300) (.initUpload "/b.png" 10)]

theorem Demo.sSecond_reach : Reachable env Demo.sSecond := Demo.sPart_reach.run _

/-- Storage canisters that answer at the second attempt only; the first one is full. -/
def Demo.lossy : Net where
  size X j := if X = [5] ∧ j = 1 then some 536870912000 else none
  created := some ⟨[6], true⟩
  newInit j := if j = 1 then some (.ok ()) else none
  resp j := if j = 1 then some (.ok ()) else none

/-- **C87.** Storing, finalizing and cancelling: all requests made for the call go to the
storage canister recorded for the path and carry the caller's arguments; there are as many
as needed for an answer, at most `tries` (three); and the caller is told of success exactly
if the answer is a consent. -/
theorem C87_forwarded (E : Env H) {s : State H} (hr : Reachable E s) {i : Nat} {p : Pending}
    (hp : s.pending[i]? = some p) {a : UploadArgs} (ha : MadeWith a p)
    (hk : ∀ path size chunk hash, a ≠ .init path size chunk hash) (tries now : Nat) (net : Net) :
    ∃ u n, s.uploads.get (pathOf a) = some u ∧
      traffic tries net a p = List.replicate n (u.canister, .upload a) ∧ Attempts tries net.resp n ∧
      ((∃ r, (step E s (.resume now i (net.answer tries))).2 = .mgmt (.ok r)) ↔ Consented tries net.resp) := by
  have hok := hr.uploadInv.pend p (List.mem_of_getElem? hp)
  have hstep : (step E s (.resume now i (net.answer tries))).2 =
      .mgmt (resumeBody E { s with pending := s.pending.eraseIdx i } now p (net.answer tries)).2 := by
    simp [step, hp]
  rw [hstep, ← answer_resp]
  cases p with
  | init c path size subs =>
    cases a with
    | init path' size' chunk hash => exact absurd rfl (hk path' size' chunk hash)
    | _ => exact ha.elim
  | store c key u =>
    cases a with
    | store path id data =>
      obtain rfl : key = path := ha
      refine ⟨u, _, hok.1, rfl, retry_attempts _ _, ?_⟩
      simp only [resumeBody]
      cases (net.answer tries).resp <;> simp
    | _ => exact ha.elim
  | finalize c key u =>
    cases a with
    | finalize path =>
      obtain rfl : key = path := ha
      refine ⟨u, _, hok.1, rfl, retry_attempts _ _, ?_⟩
      simp only [resumeBody]
      cases (net.answer tries).resp <;> simp
    | _ => exact ha.elim
  | cancel c key u =>
    cases a with
    | cancel path =>
      obtain rfl : key = path := ha
      refine ⟨u, _, hok.1, rfl, retry_attempts _ _, ?_⟩
      simp only [resumeBody]
      cases (net.answer tries).resp <;> simp
    | _ => exact ha.elim

/-- A chunk that is delivered at the second attempt. -/
example : ∃ u, Demo.sChunk.uploads.get "/a.png" = some u ∧
    traffic 3 Demo.lossy (.store "/a.png" 1 [7]) (.store Demo.admin "/a.png" u) =
      List.replicate 2 ([5], .upload (.store "/a.png" 1 [7])) ∧ Consented 3 Demo.lossy.resp := by
  obtain ⟨u, n, h1, h2, h3, h4⟩ := C87_forwarded Demo.env Demo.sChunk_reach (i := 0)
    (p := .store Demo.admin "/a.png" ⟨Demo.ms 201, .inProgress, [5], "/a.png"⟩) (by decide)
    (a := .store "/a.png" 1 [7]) rfl (by simp) 3 (Demo.ms 301) Demo.lossy
  exact ⟨⟨Demo.ms 201, .inProgress, [5], "/a.png"⟩, by decide, by decide, h4.1 ⟨.unit, rfl⟩⟩

/-- **C87.** Starting an upload: requests go to installed storage canisters of the table
and to the one created for the purpose, and ask for the size or carry the caller's
arguments. If the caller is told of success, the last requests are those to the canister
then recorded for the path; it consented, and no other canister that was asked did. If the
caller is told of an error, no canister that was asked consented. (New canisters have new
names.) -/
theorem C87_placed (E : Env H) {s : State H} (hr : Reachable E s) {i : Nat} {p : Pending}
    (hp : s.pending[i]? = some p) {path : String} {size : Nat} {chunk : Option Nat} {hash : String}
    (ha : MadeWith (.init path size chunk hash) p) (tries now : Nat) (net : Net)
    (hnew : ∀ x, net.created = some x → ∀ y ∈ s.subs, y.id ≠ x.id) :
    let a := UploadArgs.init path size chunk hash
    let asked := traffic tries net a p
    let out := fun X : Principal => if (s.subs.any fun y => y.id == X) then net.init X else net.newInit
    (∀ q ∈ asked, (q.2 = .size ∨ q.2 = .upload a) ∧
      ((∃ x ∈ s.subs, x.id = q.1 ∧ x.installed = true) ∨ ∃ x, net.created = some x ∧ x.id = q.1 ∧ x.installed = true)) ∧
    (∀ r, (step E s (.resume now i (net.answer tries))).2 = .mgmt (.ok r) →
      ∃ u pre n, (step E s (.resume now i (net.answer tries))).1.uploads.get path = some u ∧
        asked = pre ++ List.replicate (n + 1) (u.canister, .upload a) ∧ Attempts tries (out u.canister) (n + 1) ∧
        Consented tries (out u.canister) ∧
        ∀ q ∈ pre, q.2 = .size ∨ (q.1 ≠ u.canister ∧ ¬ Consented tries (out q.1))) ∧
    (∀ e, (step E s (.resume now i (net.answer tries))).2 = .mgmt (.error e) →
      ∀ q ∈ asked, q.2 = .upload a → ¬ Consented tries (out q.1)) := by
  cases p with
  | init c path' size' subs =>
    obtain ⟨rfl, rfl⟩ := ha
    obtain ⟨hfree, rfl, hsz⟩ := hr.uploadInv.pend _ (List.mem_of_getElem? hp)
    intro a asked out
    have hstep : step E s (.resume now i (net.answer tries)) =
      let r := resumeBody E { s with pending := s.pending.eraseIdx i } now (.init c path' size' s.subs) (net.answer tries)
      (guardLeave r.1 c, .mgmt r.2) := by
      simp [step, hp, Pending.caller]
    have hperm : ∀ x, x ∈ (net.walk s.subs).filter (·.installed) ↔ x ∈ s.subs ∧ x.installed = true := by
      intro x
      rw [List.mem_filter, (net.walk_perm s.subs).mem_iff]
    have hnd : (((net.walk s.subs).filter (·.installed)).map SubCanister.id).Nodup :=
      (((net.walk_perm s.subs).map SubCanister.id).nodup_iff.2 hr.uploadInv.subs).sublist (List.filter_sublist.map _)
    have hout_old : ∀ x ∈ s.subs, out x.id = net.init x.id := by
      intro x hx
      simp only [out]
      rw [if_pos (List.any_eq_true.2 ⟨x, hx, by simp⟩)]
    have hout_new : ∀ x, net.created = some x → out x.id = net.newInit := by
      intro x hx
      simp only [out]
      rw [if_neg]
      intro h
      obtain ⟨y, hy, he⟩ := List.any_eq_true.1 h
      exact hnew x hx y hy (by simpa using he)
    cases hpk : pickStorage (net.answer tries) size' ((net.walk s.subs).filter (·.installed)) with
    | some id =>
      obtain ⟨⟨x, hx, hid⟩, hcons, pre, hpre, hq⟩ := place_some (a := a) _ hnd hpk
      subst hid
      obtain ⟨hx, hxi⟩ := (hperm x).1 hx
      have hasked : asked = pre ++ List.replicate (retry tries (net.init x.id)).1 (x.id, .upload a) := hpre
      have hm : managerInitUpload (net.answer tries) s.subs size' = some (s.subs, x.id) := by
        unfold managerInitUpload
        rw [show (net.answer tries).walk = net.walk from rfl, hpk]
      obtain ⟨n, hn⟩ := consented_pos hcons
      refine ⟨?_, ?_, ?_⟩
      · intro q hqm
        rw [hasked] at hqm
        rcases List.mem_append.1 hqm with hqm | hqm
        · obtain ⟨⟨y, hy, hyq⟩, hk⟩ := hq q hqm
          obtain ⟨hy, hyi⟩ := (hperm y).1 hy
          exact ⟨hk.imp id (fun h => h.1), .inl ⟨y, hy, hyq, hyi⟩⟩
        · rw [(List.mem_replicate.1 hqm).2]
          exact ⟨.inr rfl, .inl ⟨x, hx, rfl, hxi⟩⟩
      · intro r _
        rw [hstep]
        simp only [resumeBody, hm, guardLeave]
        refine ⟨{ initTs := now, state := .init, canister := x.id, path := path' }, pre, n, by simp, by rw [hasked, hn], ?_, ?_, ?_⟩
        · rw [hout_old x hx, ← hn]; exact retry_attempts _ _
        · rw [hout_old x hx]; exact hcons
        · intro q hqm
          obtain ⟨⟨y, hy, hyq⟩, hk⟩ := hq q hqm
          obtain ⟨hy, hyi⟩ := (hperm y).1 hy
          rw [← hyq, hout_old y hy, hyq]
          exact hk.imp id (fun h => h.2)
      · intro e he
        rw [hstep] at he
        simp [resumeBody, hm] at he
    | none =>
      obtain ⟨pre, hpre, hq⟩ := place_none (a := a) _ hpk
      have hasked : asked = pre ++ newTraffic tries net a := hpre
      have hpre' : ∀ q ∈ pre, (∃ x ∈ s.subs, x.id = q.1 ∧ x.installed = true) ∧
          (q.2 = .size ∨ (q.2 = .upload a ∧ ¬ Consented tries (out q.1))) := by
        intro q hqm
        obtain ⟨⟨y, hy, hyq⟩, hk⟩ := hq q hqm
        obtain ⟨hy, hyi⟩ := (hperm y).1 hy
        refine ⟨⟨y, hy, hyq, hyi⟩, ?_⟩
        rw [← hyq, hout_old y hy, hyq]
        exact hk
      have hnone : managerInitUpload (net.answer tries) s.subs size' =
          match net.created with
          | none => none
          | some x => if x.installed && consents (retry tries net.newInit).2 then
              some (s.subs.filter (fun y => decide (y.id ≠ x.id)) ++ [x], x.id) else none := by
        unfold managerInitUpload
        rw [show (net.answer tries).walk = net.walk from rfl, hpk]
        rfl
      cases hcr : net.created with
      | none =>
        have hnt : newTraffic tries net a = [] := by simp [newTraffic, hcr]
        rw [hnt, List.append_nil] at hasked
        rw [hcr] at hnone
        refine ⟨?_, ?_, ?_⟩
        · intro q hqm
          rw [hasked] at hqm
          obtain ⟨h1, h2⟩ := hpre' q hqm
          exact ⟨h2.imp id (fun h => h.1), .inl h1⟩
        · intro r hr'
          rw [hstep] at hr'
          simp [resumeBody, hnone] at hr'
        · intro e _ q hqm hup
          rw [hasked] at hqm
          rcases (hpre' q hqm).2 with h | h
          · rw [h] at hup; cases hup
          · exact h.2
      | some x =>
        rw [hcr] at hnone
        have hnt : newTraffic tries net a =
            if x.installed then List.replicate (retry tries net.newInit).1 (x.id, .upload a) else [] := by
          simp [newTraffic, hcr]
        have hnew' : ∀ q ∈ newTraffic tries net a, x.installed = true ∧ q = (x.id, .upload a) := by
          intro q hqm
          rw [hnt] at hqm
          split at hqm
          · rename_i hxi; exact ⟨hxi, (List.mem_replicate.1 hqm).2⟩
          · cases hqm
        refine ⟨?_, ?_, ?_⟩
        · intro q hqm
          rw [hasked] at hqm
          rcases List.mem_append.1 hqm with hqm | hqm
          · obtain ⟨h1, h2⟩ := hpre' q hqm
            exact ⟨h2.imp id (fun h => h.1), .inl h1⟩
          · obtain ⟨h1, rfl⟩ := hnew' q hqm
            exact ⟨.inr rfl, .inr ⟨x, rfl, rfl, h1⟩⟩
        · intro r hr'
          have hif : (x.installed && consents (retry tries net.newInit).2) = true := by
            cases hb : (x.installed && consents (retry tries net.newInit).2) with
            | true => rfl
            | false =>
              dsimp only at hnone
              rw [hb] at hnone
              rw [hstep] at hr'
              simp [resumeBody, hnone] at hr'
          dsimp only at hnone
          rw [if_pos hif] at hnone
          rw [Bool.and_eq_true] at hif
          have hcons := consents_iff.1 hif.2
          obtain ⟨n, hn⟩ := consented_pos hcons
          rw [hstep]
          simp only [resumeBody, hnone, guardLeave]
          refine ⟨{ initTs := now, state := .init, canister := x.id, path := path' }, pre, n, by simp, ?_, ?_, ?_, ?_⟩
          · rw [hasked, hnt, if_pos hif.1, hn]
          · rw [hout_new x hcr, ← hn]; exact retry_attempts _ _
          · rw [hout_new x hcr]; exact hcons
          · intro q hqm
            obtain ⟨⟨y, hy, hyq, hyi⟩, hk⟩ := hpre' q hqm
            rcases hk with h | h
            · exact .inl h
            · exact .inr ⟨by rw [← hyq]; exact hnew x hcr y hy, h.2⟩
        · intro e he q hqm hup
          rw [hasked] at hqm
          rcases List.mem_append.1 hqm with hqm | hqm
          · rcases (hpre' q hqm).2 with h | h
            · rw [h] at hup; cases hup
            · exact h.2
          · obtain ⟨h1, rfl⟩ := hnew' q hqm
            rw [hout_new x hcr]
            intro hc
            dsimp only at hnone
            rw [if_pos (by rw [h1, consents_iff.2 hc]; rfl)] at hnone
            rw [hstep] at he
            simp [resumeBody, hnone] at he
  | _ => exact ha.elim

/-- The full canister is asked for its size, the new one takes the upload. -/
example : traffic 3 Demo.lossy (.init "/b.png" 10 none "h") (.init Demo.admin "/b.png" 10 Demo.sSecond.subs) =
      [([5], .size), ([5], .size), ([6], .upload (.init "/b.png" 10 none "h")),
        ([6], .upload (.init "/b.png" 10 none "h"))] ∧
    ∃ u, (step Demo.env Demo.sSecond (.resume (Demo.ms 301) 0 (Demo.lossy.answer 3))).1.uploads.get "/b.png" = some u ∧
      u.canister = [6] := by
  refine ⟨by decide, ?_⟩
  have h := (C87_placed Demo.env Demo.sSecond_reach (i := 0) (p := .init Demo.admin "/b.png" 10 Demo.sSecond.subs)
    (by decide) (path := "/b.png") (size := 10) (chunk := none) (hash := "h") ⟨rfl, rfl⟩ 3 (Demo.ms 301) Demo.lossy
    (by rintro x ⟨⟩; decide)).2.1 .unit rfl
  obtain ⟨u, pre, n, h1, -⟩ := h
  exact ⟨⟨Demo.ms 301, .init, [6], "/b.png"⟩, by decide, rfl⟩

/-- **C87.** A storage canister of the table is only sent the upload if it was asked for
its size before and the answer leaves room: at most 500 GiB together with the file. (Sizes
are below `2^127`.) -/
theorem C87_room {tries : Nat} {net : Net} {a : UploadArgs} {c : Principal} {path : String} {size : Nat}
    {subs : List SubCanister} (hsmall : ∀ X k v, net.size X k = some v → v < 2 ^ 127) (hsize : size < 2 ^ 127)
    {q : Principal × StorageReq} (hq : q ∈ traffic tries net a (.init c path size subs)) (hu : q.2 = .upload a) :
    (∃ x, net.created = some x ∧ x.id = q.1) ∨
    ∃ k used, k < tries ∧ (∀ j, j < k → net.size q.1 j = none) ∧ net.size q.1 k = some used ∧
      used + size ≤ 536870912000 := by
  simp only [traffic] at hq
  generalize (net.walk subs).filter (·.installed) = l at hq
  induction l with
  | nil =>
    simp only [placeTraffic, newTraffic] at hq
    split at hq
    · cases hq
    · rename_i x hx
      split at hq
      · rw [(List.mem_replicate.1 hq).2]; exact .inl ⟨x, hx, rfl⟩
      · cases hq
  | cons x xs ih =>
    simp only [placeTraffic] at hq
    rcases List.mem_append.1 hq with hq | hq
    · rw [(List.mem_replicate.1 hq).2] at hu; cases hu
    · split at hq
      · exact ih hq
      · rename_i used hs
        split at hq
        · rename_i hle
          rcases List.mem_append.1 hq with hq | hq
          · rw [(List.mem_replicate.1 hq).2]
            obtain ⟨k, h1, h2, h3⟩ := retry_some.1 hs
            have hv := hsmall _ _ _ h3
            have e : (2 : Nat) ^ 127 = 170141183460469231731687303715884105728 := by decide
            rw [e] at hv hsize
            have hm : maxStorageSize = 536870912000 := by decide
            rw [Nat.mod_eq_of_lt (by omega), hm] at hle
            exact .inr ⟨k, used, h1, h2, h3, hle⟩
          · split at hq
            · cases hq
            · exact ih hq
        · exact ih hq

/-- A canister with room is asked for its size first. -/
example : ∃ k used, k < 3 ∧ (∀ j, j < k → (if j = 1 then some 5 else none : Option Nat) = none) ∧
    (if k = 1 then some 5 else none : Option Nat) = some used ∧ used + 10 ≤ 536870912000 := by
  have h := C87_room (tries := 3)
    (net := { size := fun _ j => if j = 1 then some 5 else none, init := fun _ _ => some (.ok ()) })
    (a := .init "/b.png" 10 none "h") (c := Demo.admin) (path := "/b.png") (size := 10) (subs := [⟨[5], true⟩])
    (by intro X k v h; simp at h; rw [← h.2]; decide) (by decide) (q := ([5], .upload (.init "/b.png" 10 none "h")))
    (by decide) rfl
  rcases h with ⟨x, hx, -⟩ | h
  · cases hx
  · exact h

/-! ## A whole file -/

/-- The upload of a path is placed at `X`, and no cancellation of it is under way. -/
structure Holding (E : Env H) (path : String) (X : Principal) (s : State H) : Prop where
  reach : Reachable E s
  entry : ∃ u, s.uploads.get path = some u ∧ u.canister = X
  free : ∀ c u, Pending.cancel c path u ∉ s.pending

theorem Holding.step {E : Env H} {path : String} {X : Principal} {s : State H} (h : Holding E path X s) {m : Msg}
    (hm : ∀ c now, m ≠ .call c now (.cancelUpload path)) : Holding E path X (step E s m).1 := by
  obtain ⟨u, hu, hX⟩ := h.entry
  refine ⟨h.reach.step m, ?_, ?_⟩
  · cases step_upload h.reach m path with
    | same h' => exact ⟨u, h'.trans hu, hX⟩
    | init now i ans c size id hm' hp before after => rw [hu] at before; cases before
    | store now i ans c u' hm' hp ok before hst after =>
      rw [hu] at before; obtain rfl := Option.some.inj before; exact ⟨_, after, hX⟩
    | finalize now i ans c u' hm' hp ok before hst after =>
      rw [hu] at before; obtain rfl := Option.some.inj before; exact ⟨_, after, hX⟩
    | cancel now i ans c u' hm' hp ok before hst after => exact absurd (List.mem_of_getElem? hp) (h.free _ _)
  · intro c u' hp
    rcases step_cancel_pending hp with hp | ⟨now, rfl⟩
    · exact h.free _ _ hp
    · exact hm c now rfl

theorem Holding.run {E : Env H} {path : String} {X : Principal} : ∀ (ms : List Msg) {s : State H}, Holding E path X s →
    (∀ m ∈ ms, ∀ c now, m ≠ .call c now (.cancelUpload path)) → Holding E path X (run E s ms) := by
  intro ms
  induction ms with
  | nil => exact fun h _ => h
  | cons m ms ih =>
    intro s h hm
    exact ih (h.step (hm m List.mem_cons_self)) fun x hx => hm x (List.mem_cons_of_mem _ hx)

theorem Holding.serve {E : Env H} {path : String} {X : Principal} {s : State H} (h : Holding E path X s) (c : Principal)
    (now now' : Nat) (ans : Answer) (call : ClientCall) : Holding E path X (serveCall E c now now' ans s call).1 := by
  have h1 := h.step (m := .call c now call.toCall) (by cases call <;> simp [ClientCall.toCall])
  unfold serveCall
  split
  · rename_i s₁ heq
    rw [heq] at h1
    have h2 := h1.step (m := .resume now' (s₁.pending.length - 1) ans) (by simp)
    split
    · rename_i heq'; rw [heq'] at h2; exact h2
    · rename_i heq'; rw [heq'] at h2; exact h2
  · rename_i heq; rw [heq] at h1; exact h1
  · rename_i heq; rw [heq] at h1; exact h1

/-- A call of the client that is accepted was suspended, and its requests are those of the
suspended call. -/
theorem accepted_begun {E : Env H} {s : State H} (hr : Reachable E s) {c : Principal} {now now' tries : Nat} {net : Net}
    {call : ClientCall} (h : Accepted (serveCall E c now now' (net.answer tries) s call).2) :
    ∃ s₁ p r, Reachable E s₁ ∧ s₁.pending[s₁.pending.length - 1]? = some p ∧ MadeWith call.args p ∧
      s₁.uploads = s.uploads ∧ s₁.subs = s.subs ∧
      step E s₁ (.resume now' (s₁.pending.length - 1) (net.answer tries)) =
        ((serveCall E c now now' (net.answer tries) s call).1, .mgmt (.ok r)) ∧
      callTraffic E tries c now net s call = traffic tries net call.args p := by
  have hcall : call.args.call = call.toCall := by cases call <;> rfl
  have hb := upload_begun hr c now call.args
  have hr1 := hr.step (.call c now call.toCall)
  rw [hcall] at hb
  unfold serveCall at h ⊢
  unfold callTraffic
  rcases hb with ⟨e, he⟩ | he | ⟨s₁, p, he, hp, hmw, -, hu, hs⟩
  · generalize step E s (.call c now call.toCall) = y at he h
    obtain ⟨y1, y2⟩ := y
    subst he
    exact h.elim
  · generalize step E s (.call c now call.toCall) = y at he h
    obtain ⟨y1, y2⟩ := y
    subst he
    exact h.elim
  · rw [he] at h hr1 ⊢
    simp only [hp]
    dsimp only at h ⊢
    generalize hst : step E s₁ (.resume now' (s₁.pending.length - 1) (net.answer tries)) = y at h ⊢
    obtain ⟨y1, y2⟩ := y
    cases y2 with
    | mgmt r =>
      cases r with
      | ok r => exact ⟨s₁, p, r, hr1, hp, hmw, hu, hs, hst, rfl⟩
      | error e => exact h.elim
    | _ => exact h.elim

theorem accepted_forwarded {E : Env H} {path : String} {X : Principal} {s : State H} (hh : Holding E path X s)
    {c : Principal} {now now' tries : Nat} {net : Net} {call : ClientCall}
    (h : Accepted (serveCall E c now now' (net.answer tries) s call).2) (hpath : pathOf call.args = path)
    (hk : ∀ path size chunk hash, call.args ≠ .init path size chunk hash) :
    ∃ n, callTraffic E tries c now net s call = List.replicate (n + 1) (X, .upload call.args) := by
  obtain ⟨s₁, p, r, hr1, hp, hmw, hu, -, hst, htr⟩ := accepted_begun hh.reach h
  obtain ⟨u, n, h1, h2, h3, h4⟩ := C87_forwarded E hr1 hp hmw hk tries now' net
  obtain ⟨u', hu', hX⟩ := hh.entry
  rw [hu, hpath, hu'] at h1
  obtain rfl := Option.some.inj h1
  have hcons := h4.1 ⟨r, by rw [hst]⟩
  rw [htr, h2, hX]
  cases n with
  | zero =>
    obtain ⟨k, hk, -⟩ := hcons
    obtain ⟨_, e, _⟩ := h3.2.2 (by omega)
    omega
  | succ n => exact ⟨n, rfl⟩

theorem accepted_placed {E : Env H} {s : State H} (hr : Reachable E s) {c : Principal} {now now' tries : Nat} {net : Net}
    {path : String} {size chunk : Nat} {hash : String}
    (h : Accepted (serveCall E c now now' (net.answer tries) s (.init path size chunk hash)).2)
    (hnew : ∀ x, net.created = some x → ∀ y ∈ s.subs, y.id ≠ x.id) :
    ∃ X pre n, Holding E path X (serveCall E c now now' (net.answer tries) s (.init path size chunk hash)).1 ∧
      callTraffic E tries c now net s (.init path size chunk hash) =
        pre ++ List.replicate (n + 1) (X, .upload (.init path size (some chunk) hash)) ∧
      ∀ q ∈ pre, q.2 = .size ∨ (q.1 ≠ X ∧ q.2 = .upload (.init path size (some chunk) hash)) := by
  obtain ⟨s₁, p, r, hr1, hp, hmw, hu, hs, hst, htr⟩ := accepted_begun hr h
  have hpl := C87_placed E hr1 hp (path := path) (size := size) (chunk := some chunk) (hash := hash) hmw tries now' net
    (by rw [hs]; exact hnew)
  obtain ⟨h1, h2, -⟩ := hpl
  obtain ⟨u, pre, n, g1, g2, -, -, g5⟩ := h2 r (by rw [hst])
  have hr2 := serveCall_reach hr c now now' (net.answer tries) (.init path size chunk hash)
  refine ⟨u.canister, pre, n, ⟨hr2, ⟨u, by rw [hst] at g1; exact g1, rfl⟩, ?_⟩, ?_, ?_⟩
  · have hpe : (step E s₁ (.resume now' (s₁.pending.length - 1) (net.answer tries))).1.pending = [] := by
      have hl := (hr1.pendInv.leave hp).1
      obtain ⟨_, _, _, _, he⟩ := resumeBody_eq E { s₁ with pending := s₁.pending.eraseIdx (s₁.pending.length - 1) } now' p
        (net.answer tries)
      simp only [step, hp, guardLeave, he]
      exact hl
    rw [hst] at hpe
    intro c u' hm
    rw [hpe] at hm
    cases hm
  · rw [htr]; exact g2
  · intro q hq
    have hq1 := h1 q (by rw [g2]; exact List.mem_append_left _ hq)
    rcases g5 q hq with g | ⟨g, -⟩
    · exact .inl g
    · rcases hq1.1 with g' | g'
      · exact .inl g'
      · exact .inr ⟨g, g'⟩

theorem send_traffic {E : Env H} {tries : Nat} {c : Principal} {rounds : Nat → NetRound} {path : String} {X : Principal}
    (hquiet : ∀ k, ∀ m ∈ (rounds k).before, ∀ c now, m ≠ .call c now (.cancelUpload path)) :
    ∀ (l : List (Nat × Blob)) (w w' : (State H × Nat) × List (Principal × StorageReq)) (log : List (ClientCall × Outcome)),
    Holding E path X w.1.1 →
    sendAll (netServe E tries c rounds) w (l.map fun x => .store path x.1 x.2) = (w', log, true) →
    (∀ e ∈ log, Accepted e.2) →
    Holding E path X w'.1.1 ∧ ∃ r, w'.2 = w.2 ++ r ∧
      Repeats (l.map fun x => (X, StorageReq.upload (.store path x.1 x.2))) r := by
  intro l
  induction l with
  | nil =>
    intro w w' log hh hs _
    cases hs
    exact ⟨hh, [], by simp, .nil⟩
  | cons x l ih =>
    intro w w' log hh hs hacc
    rw [List.map_cons, sendAll_cons] at hs
    split at hs
    · generalize hrest : sendAll (netServe E tries c rounds) (netServe E tries c rounds w (.store path x.1 x.2)).1
        (l.map fun x => ClientCall.store path x.1 x.2) = y at hs
      obtain ⟨y1, y2, y3⟩ := y
      injection hs with hs1 hs
      injection hs with hs2 hs3
      dsimp only at hs1 hs2 hs3
      subst hs1 hs2 hs3
      have hbef := hh.run (rounds w.1.2).before (hquiet w.1.2)
      have hfirst : Accepted (serveCall E c (rounds w.1.2).now (rounds w.1.2).now' ((rounds w.1.2).net.answer tries)
          (run E w.1.1 (rounds w.1.2).before) (.store path x.1 x.2)).2 := hacc _ List.mem_cons_self
      obtain ⟨n, hn⟩ := accepted_forwarded hbef hfirst rfl (by simp [ClientCall.args])
      obtain ⟨g1, r, g2, g3⟩ := ih _ _ _ (hbef.serve _ _ _ _ _) hrest
        fun e he => hacc e (List.mem_cons_of_mem _ he)
      refine ⟨g1, List.replicate (n + 1) (X, StorageReq.upload (.store path x.1 x.2)) ++ r, ?_, .more n _ g3⟩
      rw [g2]
      simp only [netServe, hn, ClientCall.args, List.append_assoc]
    · injection hs with _ hs
      injection hs with _ hs
      cases hs

theorem Spec.Repeats.append {α : Type} {l r l' r' : List α} (h : Repeats l r) (h' : Repeats l' r') :
    Repeats (l ++ l') (r ++ r') := by
  induction h with
  | nil => exact h'
  | more n x _ ih => rw [List.cons_append, List.append_assoc]; exact .more n x ih

/-- **C87.** From the command to the storage canister: if the upload command reports an
address and the collection accepted all its calls, there is one storage canister, the one
the collection recorded for the path, that was sent the initialisation with the size, chunk
size and hash of the file, every chunk with its number and bytes, and the finalization, in
this order, each once or (when an attempt was not answered) several times. If reads of the
file are not cut short, the chunks are numbered from 0 and put together are the file. Nothing else was
sent to it for the file but requests for its size; other canisters were sent at most the
initialisation. This holds whatever else the collection handled in between, as long as nobody
asked to cancel the upload. -/
theorem C87_file (E : Env H) {s s' : State H} (hr : Reachable E s) {tries : Nat} {c : Principal}
    {rounds : Nat → NetRound} {hash : Blob → String} {urlOf : String → Option String} {chunk : Nat} {read : Nat → Nat}
    {file : Blob} {path : String} {n : Nat} {asked : List (Principal × StorageReq)} {calls : List (ClientCall × Outcome)}
    {url : String}
    (h : uploadFile (netServe E tries c rounds) hash urlOf chunk read file path ((s, 0), []) =
      (((s', n), asked), calls, some url))
    (hacc : ∀ e ∈ calls, Accepted e.2)
    (hquiet : ∀ k, ∀ m ∈ (rounds k).before, ∀ c now, m ≠ .call c now (.cancelUpload path))
    (hnew : ∀ x, (rounds 0).net.created = some x → ∀ y ∈ (run E s (rounds 0).before).subs, y.id ≠ x.id) :
    ∃ X u sent pre body, s'.uploads.get path = some u ∧ u.canister = X ∧
      uploadChunks chunk read file = some sent ∧
      (file.length + chunk ≤ 2 ^ 64 - 1 → (∀ i, chunk ≤ read i) →
        sent.map Prod.fst = List.range sent.length ∧ sent.flatMap Prod.snd = file) ∧
      asked = pre ++ body ∧
      (∀ q ∈ pre, q.2 = .size ∨ (q.1 ≠ X ∧ q.2 = .upload (.init path file.length (some chunk) (hash file)))) ∧
      Repeats ((X, .upload (.init path file.length (some chunk) (hash file))) ::
        (sent.map fun x => (X, .upload (.store path x.1 x.2))) ++ [(X, .upload (.finalize path))]) body := by
  unfold uploadFile at h
  split at h
  · cases h
  · rename_i w₁ log hs
    split at h
    · cases h
    · rename_i hc
      obtain ⟨sent, hsent⟩ : ∃ sent, uploadChunks chunk read file = some sent :=
        ⟨_, by unfold uploadChunks; rw [if_neg hc]⟩
      rw [hsent] at hs
      injection h with hw h
      injection h with hl hu
      subst hl
      rw [Option.getD_some, sendAll_cons] at hs
      split at hs
      · generalize hrest : sendAll (netServe E tries c rounds) (netServe E tries c rounds ((s, 0), [])
          (.init path file.length chunk (hash file))).1 (sent.map fun x => ClientCall.store path x.1 x.2) = y at hs
        obtain ⟨y1, y2, y3⟩ := y
        injection hs with hs1 hs
        injection hs with hs2 hs3
        dsimp only at hs1 hs2 hs3
        subst hs1 hs2 hs3
        have hinit : Accepted (serveCall E c (rounds 0).now (rounds 0).now' ((rounds 0).net.answer tries)
            (run E s (rounds 0).before) (.init path file.length chunk (hash file))).2 :=
          hacc _ (List.mem_append_left _ List.mem_cons_self)
        obtain ⟨X, pre, n0, g1, g2, g3⟩ := accepted_placed (hr.run _) hinit hnew
        obtain ⟨f1, r, f2, f3⟩ := send_traffic hquiet sent _ _ _ g1 hrest
          fun e he => hacc e (List.mem_append_left _ (List.mem_cons_of_mem _ he))
        have hbef := f1.run (rounds y1.1.2).before (hquiet y1.1.2)
        have hfin : Accepted (serveCall E c (rounds y1.1.2).now (rounds y1.1.2).now' ((rounds y1.1.2).net.answer tries)
            (run E y1.1.1 (rounds y1.1.2).before) (.finalize path)).2 :=
          hacc (.finalize path, (netServe E tries c rounds y1 (.finalize path)).2)
            (List.mem_append_right _ List.mem_cons_self)
        obtain ⟨n1, hn1⟩ := accepted_forwarded hbef hfin rfl (by simp [ClientCall.args])
        have hlast := hbef.serve c (rounds y1.1.2).now (rounds y1.1.2).now' ((rounds y1.1.2).net.answer tries) (.finalize path)
        have hs' : s' = (serveCall E c (rounds y1.1.2).now (rounds y1.1.2).now' ((rounds y1.1.2).net.answer tries)
            (run E y1.1.1 (rounds y1.1.2).before) (.finalize path)).1 :=
          (congrArg (fun w : (State H × Nat) × List (Principal × StorageReq) => w.1.1) hw).symm
        have hasked : asked = y1.2 ++ callTraffic E tries c (rounds y1.1.2).now (rounds y1.1.2).net
            (run E y1.1.1 (rounds y1.1.2).before) (.finalize path) :=
          (congrArg (fun w : (State H × Nat) × List (Principal × StorageReq) => w.2) hw).symm
        rw [← hs'] at hlast
        obtain ⟨u, hu1, hu2⟩ := hlast.entry
        refine ⟨X, u, sent, pre,
          List.replicate (n0 + 1) (X, .upload (.init path file.length (some chunk) (hash file))) ++
            (r ++ List.replicate (n1 + 1) (X, .upload (.finalize path))), hu1, hu2, hsent, ?_, ?_, g3, ?_⟩
        · intro hsize hread
          obtain ⟨sent', e, h1, -, -, -, h5⟩ := C52_reassemble_partial (by omega) hsize hread
          obtain rfl := Option.some.inj (hsent.symm.trans e)
          exact ⟨h1, h5⟩
        · rw [hasked, f2, hn1]
          simp only [netServe, List.nil_append]
          rw [show (rounds ((s, 0) : State H × Nat).2) = rounds 0 from rfl, g2]
          simp [ClientCall.args]
        · refine .more n0 _ (f3.append ?_)
          have := Repeats.more n1 (X, StorageReq.upload (.finalize path)) (Repeats.nil)
          rwa [List.append_nil] at this
      · injection hs with _ hs
        injection hs with _ hs
        cases hs

/-- Every call is delivered at the second attempt; somebody else transfers in between. -/
def Demo.netRounds (k : Nat) : NetRound where
  before := if k = 2 then [sendMsg] else []
  now := ms (200 + 2 * k)
  now' := ms (201 + 2 * k)
  net := lossy

/-- A file of three bytes in two chunks. -/
def Demo.sentFile := uploadFile (netServe Demo.env 3 Demo.admin Demo.netRounds) (fun _ => "h") some 2 (fun _ => 2)
  [1, 2, 3] "/a.png" ((Demo.s1, 0), [])

theorem Demo.sentFile_url : Demo.sentFile.2.2.isSome = true ∧
    Demo.sentFile.2.1.all (fun e => match e.2 with | .reply (.ok _) => true | _ => false) = true := by decide

example : Demo.sentFile.1.2 =
    [([6], .upload (.init "/a.png" 3 (some 2) "h")), ([6], .upload (.init "/a.png" 3 (some 2) "h")),
      ([6], .upload (.store "/a.png" 0 [1, 2])), ([6], .upload (.store "/a.png" 0 [1, 2])),
      ([6], .upload (.store "/a.png" 1 [3])), ([6], .upload (.store "/a.png" 1 [3])),
      ([6], .upload (.finalize "/a.png")), ([6], .upload (.finalize "/a.png"))] := by decide

example : ∃ X u, Demo.sentFile.1.1.1.uploads.get "/a.png" = some u ∧ u.canister = X := by
  obtain ⟨url, hurl⟩ := Option.isSome_iff_exists.1 Demo.sentFile_url.1
  obtain ⟨X, u, _, _, _, h1, h2, -⟩ := C87_file Demo.env Demo.s1_reach (tries := 3) (c := Demo.admin)
    (rounds := Demo.netRounds) (hash := fun _ => "h") (urlOf := some) (chunk := 2) (read := fun _ => 2) (file := [1, 2, 3])
    (path := "/a.png") (s' := Demo.sentFile.1.1.1) (n := Demo.sentFile.1.1.2) (asked := Demo.sentFile.1.2)
    (calls := Demo.sentFile.2.1) (url := url) (by rw [← hurl]; rfl)
    (by
      intro e he
      have := List.all_eq_true.1 Demo.sentFile_url.2 e he
      obtain ⟨a, o⟩ := e
      cases o with
      | failed => cases this
      | reply r => cases r with
        | ok r => trivial
        | error r => cases this)
    (by
      intro k m hm c now
      simp only [Demo.netRounds] at hm
      split at hm
      · rw [List.mem_singleton.1 hm]; simp [Demo.sendMsg]
      · cases hm)
    (by rintro x ⟨⟩; decide)
  exact ⟨X, u, h1, h2⟩

end Verif
