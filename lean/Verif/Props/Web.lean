import Verif.Spec.Web
import Verif.Spec.Admin
import Verif.Props.Uploads
/-!
# Web pages, public metrics and the principals of storage canisters (C69–C71)
-/
namespace Verif
open Spec

variable {H : Type}

/-! ## C69: answers to web requests can be verified -/

private theorem call_router (E : Env H) (s : State H) (c : Principal) (now : Nat) (call : Call) :
    (step E s (.call c now call)).1.router = s.router := by
  refine (step_steps E s (.call c now call)).induct (P := fun t => t.router = s.router) ?_ rfl
  intro t t' ht hm
  rw [← ht]
  cases hm with
  | mint reqs md h' perm free batch cap memos hmd => rw [mintInsert_eq]
  | _ => rfl

private theorem step_router (E : Env H) (s : State H) (m : Msg) (hu : m ≠ .upgrade)
    (hm : addsRedirection s m = false) : (step E s m).1.router = s.router := by
  cases m with
  | call c now call => exact call_router E s c now call
  | upgrade => exact absurd rfl hu
  | resumeTrap i =>
    simp only [step]
    split <;> rfl
  | resume now i ans =>
    simp only [step]
    split
    · rfl
    · rename_i p hp
      simp only [addsRedirection, hp] at hm
      cases p with
      | init c path size subs => simp only [resumeBody, guardLeave]; split <;> rfl
      | store c key u => simp only [resumeBody, guardLeave]; split <;> rfl
      | cancel c key u => simp only [resumeBody, guardLeave]; split <;> rfl
      | finalize c key u =>
        cases hr : ans.resp with
        | error e => simp only [resumeBody, guardLeave, hr]
        | ok x => simp [hr] at hm

/-- The tree in memory is the certified one, or there is no redirection. -/
def WebInv (s : State H) (w : Web) : Prop :=
  SameTree (w.tree s) w.certified ∨ ∀ p, s.router.get p = none

theorem webInv_step (E : Env H) {s : State H} (hr : Reachable E s) {w : Web} (h : WebInv s w) (m : Msg) :
    WebInv (step E s m).1 (webStep E s w m) := by
  by_cases hu : m = .upgrade
  · subst hu
    simp only [webStep]
    split
    · rename_i he
      refine .inr fun p => ?_
      have := upgrade_router hr.routeInv.nodup p
      show (upgrade s).router.get p = none
      rw [this]
      have : s.redirects = ∅ := by
        cases hh : s.redirects with
        | mk l =>
          rw [hh] at he
          cases l with
          | nil => rfl
          | cons _ _ => simp at he
      rw [this]
      rfl
    · exact .inl ⟨fun _ => Iff.rfl, fun _ => rfl⟩
  · have hw : webStep E s w m =
        if addsRedirection s m then ⟨w.skips, ⟨w.skips, (step E s m).1.router⟩⟩ else w := by
      cases m <;> first | rfl | exact absurd rfl hu
    rw [hw]
    cases ha : addsRedirection s m with
    | true => exact .inl ⟨fun _ => Iff.rfl, fun _ => rfl⟩
    | false =>
      have := step_router E s m hu ha
      simp only [Bool.false_eq_true, if_false]
      rcases h with h | h
      · refine .inl ⟨h.1, fun p => ?_⟩
        simp only [Web.tree, this]
        exact h.2 p
      · exact .inr fun p => by rw [this]; exact h p

theorem webInv_run (E : Env H) (ms : List Msg) : ∀ {s : State H}, Reachable E s → ∀ {w : Web}, WebInv s w →
    WebInv (run E s ms) (webRun E s w ms) := by
  induction ms with
  | nil => intro s _ w h; exact h
  | cons m ms ih => intro s hr w h; exact ih (hr.step m) (webInv_step E hr h m)

private theorem skips_step (E : Env H) (s : State H) (w : Web) {m : Msg} (hu : m ≠ .upgrade) :
    (webStep E s w m).skips = w.skips := by
  cases m <;> first | exact absurd rfl hu | (simp only [webStep]; split <;> rfl)

private theorem skips_upgrade (E : Env H) (s : State H) (w : Web) : (webStep E s w .upgrade).skips = [] := by
  simp only [webStep]
  split <;> rfl

theorem skips_kept (E : Env H) (ms : List Msg) (h : .upgrade ∉ ms) : ∀ (s : State H) (w : Web),
    (webRun E s w ms).skips = w.skips := by
  induction ms with
  | nil => intro s w; rfl
  | cons m ms ih =>
    intro s w
    rw [List.mem_cons, not_or] at h
    rw [webRun, ih h.2, skips_step E s w (fun hm => h.1 hm.symm)]

theorem skips_empty (E : Env H) (ms : List Msg) : ∀ (s : State H) (w : Web), w.skips = [] →
    (webRun E s w ms).skips = [] := by
  induction ms with
  | nil => intro s w h; exact h
  | cons m ms ih =>
    intro s w h
    refine ih _ _ ?_
    by_cases hu : m = .upgrade
    · subst hu; exact skips_upgrade E s w
    · rw [skips_step E s w hu, h]

theorem skips_lost (E : Env H) (ms : List Msg) (h : .upgrade ∈ ms) : ∀ (s : State H) (w : Web),
    (webRun E s w ms).skips = [] := by
  induction ms with
  | nil => simp at h
  | cons m ms ih =>
    intro s w
    rw [List.mem_cons] at h
    rcases h with rfl | h
    · exact skips_empty E ms _ _ (skips_upgrade E s w)
    · exact ih h _ _

private theorem reach_pair {E : Env H} {s : State H} {w : Web} (h : WebReachable E s w) :
    Reachable E s ∧ WebInv s w := by
  obtain ⟨v, hid, c, a, s₀, ms, h0, rfl, rfl⟩ := h
  refine ⟨⟨v, hid, c, a, s₀, ms, h0, rfl⟩, webInv_run E ms ⟨v, hid, c, a, s₀, [], h0, rfl⟩ (.inr fun p => ?_)⟩
  rw [init_eq h0]
  rfl

/-- **C69** for media: in every reachable state, before and after any upgrades, a
redirection is answered with a certificate that a verifying gateway accepts. -/
theorem C69_redirects (E : Env H) {s : State H} {w : Web} (h : WebReachable E s w) {path url : String}
    (hreq : httpRequest s path = .redirect url) : Accepts s w path := by
  have hroute : s.router.get path = some url := by
    unfold httpRequest at hreq
    split at hreq
    · cases hreq
    split at hreq
    · cases hreq
    split at hreq
    · cases hreq
    split at hreq
    · rename_i u hu; injection hreq with hreq; rw [hu, hreq]
    · cases hreq
  refine ⟨?_, by rw [hreq]; rfl, by rw [hreq]; exact hroute⟩
  rcases (reach_pair h).2 with h1 | h1
  · exact h1
  · rw [h1] at hroute; cases hroute

/-- **C69** for the metrics page, the part that holds: until the first upgrade a
verifying gateway accepts it. Missing: after an upgrade (`C69_violated_upgrade`). -/
theorem C69_metrics_partial (E : Env H) {v : String → Bool} {hid : H} {c : Principal} {a : InitArgs} {s₀ : State H}
    (h0 : init v hid c a = some s₀) (ms : List Msg) (hno : .upgrade ∉ ms) :
    Accepts (run E s₀ ms) (webRun E s₀ webInit ms) "/metrics" := by
  have key : ∀ (ms : List Msg), .upgrade ∉ ms → ∀ (s : State H) (w : Web), SameTree (w.tree s) w.certified →
      SameTree ((webRun E s w ms).tree (run E s ms)) (webRun E s w ms).certified := by
    intro ms
    induction ms with
    | nil => intro _ s w h; exact h
    | cons m ms ih =>
      intro hno s w h
      rw [List.mem_cons, not_or] at hno
      refine ih hno.2 _ _ ?_
      have hu : m ≠ .upgrade := fun hm => hno.1 hm.symm
      have hw : webStep E s w m =
          if addsRedirection s m then ⟨w.skips, ⟨w.skips, (step E s m).1.router⟩⟩ else w := by
        cases m <;> first | rfl | exact absurd rfl hu
      rw [hw]
      cases ha : addsRedirection s m with
      | true => exact ⟨fun _ => Iff.rfl, fun _ => rfl⟩
      | false =>
        have := step_router E s m hu ha
        refine ⟨h.1, fun p => ?_⟩
        simp only [Web.tree, this]
        exact h.2 p
  refine ⟨key ms hno _ _ ⟨fun _ => Iff.rfl, fun p => ?_⟩, rfl, ?_⟩
  · rw [init_eq h0]; rfl
  · show "/metrics" ∈ (webRun E s₀ webInit ms).skips
    rw [skips_kept E ms hno]
    decide

/-- **C69 is violated** for the log pages: their answers carry the witness of the
metrics page, so no verifying gateway ever accepts them. -/
theorem C69_violated_logs (E : Env H) {s : State H} {w : Web} (_ : WebReachable E s w) :
    ¬ Accepts s w "/logs" ∧ ¬ Accepts s w "/traces" := by
  refine ⟨fun h => ?_, fun h => ?_⟩
  · have := h.2.1
    simp [httpRequest, witnessedPath] at this
  · have := h.2.1
    simp [httpRequest, witnessedPath] at this

/-- **C69 is violated** by upgrades: `post_upgrade` does not enter the metrics page
into the new tree, so after the first upgrade no verifying gateway accepts it,
whatever happens later. -/
theorem C69_violated_upgrade (E : Env H) {v : String → Bool} {hid : H} {c : Principal} {a : InitArgs} {s₀ : State H}
    (_ : init v hid c a = some s₀) (ms : List Msg) (hup : .upgrade ∈ ms) :
    ¬ Accepts (run E s₀ ms) (webRun E s₀ webInit ms) "/metrics" := by
  intro h
  have h2 : "/metrics" ∈ (webRun E s₀ webInit ms).skips := h.2.2
  rw [skips_lost E ms hup] at h2
  cases h2

/-- The history of an upload of "/a.png". -/
def Demo.pngMsgs : List Msg := Demo.mintMsg :: Demo.upload "/a.png" [5] 200

/-- A finalized upload, then an upgrade: its redirection is accepted. -/
example : WebReachable Demo.env (run Demo.env Demo.s0 (Demo.pngMsgs ++ [.upgrade]))
      (webRun Demo.env Demo.s0 webInit (Demo.pngMsgs ++ [.upgrade])) ∧
    httpRequest (run Demo.env Demo.s0 (Demo.pngMsgs ++ [.upgrade])) "/a.png" =
      .redirect "https://aaaaa-aa.raw.icp0.io/a.png" :=
  ⟨⟨fun _ => true, 0, Demo.admin, Demo.args, Demo.s0, _, Demo.s0_init, rfl, rfl⟩, by decide⟩

/-- Before the upgrade the metrics page is accepted, and the history adds a
redirection to the tree. -/
example : Accepts (run Demo.env Demo.s0 Demo.pngMsgs) (webRun Demo.env Demo.s0 webInit Demo.pngMsgs) "/metrics" ∧
    (webRun Demo.env Demo.s0 webInit Demo.pngMsgs).certified.redirects.keys = ["/a.png"] :=
  ⟨C69_metrics_partial Demo.env Demo.s0_init _ (by simp [Demo.pngMsgs, Demo.upload, Demo.mintMsg]), by decide⟩

/-! ## C70: who may read the permissions -/

/-- **C70**, the part that holds: the two methods that answer about permissions
answer only holders of ManageAuthorities. Missing: the metrics page
(`C70_violated`). -/
theorem C70_methods_partial (s : State H) (c : Principal) (hno : ¬ Holds s c .manageAuthorities) (p : Principal)
    (x : Permission) : getUserPermissions s c p = none ∧ hasPermissionQuery s c p x = none := by
  have : ¬ hasPermission s.perms c .manageAuthorities = true := fun h => hno (holds_iff.2 h)
  unfold getUserPermissions hasPermissionQuery guarded
  rw [if_neg this, if_neg this]
  exact ⟨rfl, rfl⟩

/-- **C70 is violated**: in every state, the metrics page shows everyone the
permissions of every principal. -/
theorem C70_violated (s : State H) :
    ∃ t, pagePermissions s "/metrics" = some t ∧
      ∀ p x, (∃ l, t.get p = some l ∧ x ∈ l) ↔ Holds s p x :=
  ⟨s.perms, rfl, fun _ _ => Iff.rfl⟩

/-- No other page shows them. -/
theorem C70_other_pages (s : State H) (path : String) (h : path ≠ "/metrics") : pagePermissions s path = none := by
  unfold pagePermissions httpRequest
  rw [if_neg h]
  repeat' split
  all_goals first | rfl | (rename_i hh; repeat' (split at hh)) <;> cases hh

/-- bob may not ask who the authorities are, but the page tells. -/
example : ¬ Holds Demo.s1 [2] .manageAuthorities ∧ getUserPermissions Demo.s1 [2] Demo.admin = none ∧
    ∃ t, pagePermissions Demo.s1 "/metrics" = some t ∧ hasPermission t Demo.admin .manageAuthorities = true :=
  ⟨fun h => absurd (holds_iff.1 h) (by decide), by decide, _, rfl, by decide⟩

/-! ## C71: who is authorized on storage canisters -/

/-- Whom the storage canisters created by the collection should obey: itself and the
current holders of ManageAuthorities. -/
def Spec.ShouldObey (E : Env H) (s : State H) (p : Principal) : Prop := p = E.self ∨ Holds s p .manageAuthorities

/-- **C71**, what the code does: a storage canister, whenever it is created, is
installed with the collection itself and the holders of ManageAuthorities in the
installation arguments. -/
theorem C71_installed (E : Env H) (a : InitArgs) (p : Principal) :
    p ∈ storageAuthorized E.self a ↔ p = E.self ∨ ∃ l, a.perms.get p = some l ∧ Permission.manageAuthorities ∈ l := by
  have hiff : hasPermission a.perms p .manageAuthorities = true ↔
      ∃ l, a.perms.get p = some l ∧ Permission.manageAuthorities ∈ l := by
    unfold hasPermission
    cases a.perms.get p <;> simp
  unfold storageAuthorized
  rw [List.mem_append, List.mem_filter, hiff, List.mem_singleton]
  constructor
  · rintro (⟨_, h⟩ | h)
    · exact .inr h
    · exact .inl h
  · rintro (h | ⟨l, h, hl⟩)
    · exact .inr h
    · obtain ⟨k, hk, hm⟩ := Map.mem_of_get h
      have hk : k = p := by simpa using hk
      subst hk
      exact .inl ⟨List.mem_map_of_mem hm, l, h, hl⟩

/-- **C71**, the part that holds: outside test mode, as long as nobody was given or
lost ManageAuthorities, exactly the right principals are authorized. Missing: after
such changes, and in test mode (`C71_violated_*`). -/
theorem C71_unchanged_partial (E : Env H) {v : String → Bool} {hid : H} {c : Principal} {a : InitArgs} {s₀ : State H}
    (h0 : init v hid c a = some s₀) (htest : a.testMode = false) (ms : List Msg)
    (hms : ∀ m ∈ ms, ∀ c now p, m ≠ .call c now (.grant p .manageAuthorities) ∧
      m ≠ .call c now (.revoke p .manageAuthorities)) (p : Principal) :
    p ∈ storageAuthorized E.self a ↔ ShouldObey E (run E s₀ ms) p := by
  have key : ∀ (ms : List Msg) (s : State H), (∀ m ∈ ms, ∀ c now p, m ≠ .call c now (.grant p .manageAuthorities) ∧
      m ≠ .call c now (.revoke p .manageAuthorities)) →
      (Holds (run E s ms) p .manageAuthorities ↔ Holds s p .manageAuthorities) := by
    intro ms
    induction ms with
    | nil => intro s _; exact Iff.rfl
    | cons m ms ih =>
      intro s h
      have hm := h m (List.mem_cons_self ..)
      change Holds (run E (step E s m).1 ms) p _ ↔ _
      rw [ih _ fun m' hm' => h m' (List.mem_cons_of_mem _ hm')]
      constructor
      · intro h1
        refine Classical.byContradiction fun h2 => ?_
        obtain ⟨c, now, rfl, _⟩ := C30_gained E s m h2 h1
        exact (hm c now p).1 rfl
      · intro h1
        refine Classical.byContradiction fun h2 => ?_
        obtain ⟨c, now, rfl, _⟩ := C30_lost E s m h1 h2
        exact (hm c now p).2 rfl
  rw [C71_installed, ShouldObey, key ms s₀ hms, C39_permissions h0]
  simp [htest]

/-- **C71 is violated** by later grants: a new authority is not authorized on storage
canisters, not even on those created afterwards. -/
theorem C71_violated_granted : ∃ p, Reachable Demo.env (run Demo.env Demo.s0
      [.call Demo.admin (Demo.ms 200) (.grant p .manageAuthorities)]) ∧
    init (fun _ => true) 0 Demo.admin Demo.args = some Demo.s0 ∧
    ShouldObey Demo.env (run Demo.env Demo.s0 [.call Demo.admin (Demo.ms 200) (.grant p .manageAuthorities)]) p ∧
    p ∉ storageAuthorized Demo.env.self Demo.args :=
  ⟨[2], ⟨fun _ => true, 0, Demo.admin, Demo.args, Demo.s0, _, Demo.s0_init, rfl⟩, Demo.s0_init,
    .inr (holds_iff.2 (by decide)), by decide⟩

/-- **C71 is violated** by later revocations: storage canisters created afterwards
still obey the former authority. -/
theorem C71_violated_revoked : ∃ p, Reachable Demo.env (run Demo.env Demo.s0
      [.call Demo.admin (Demo.ms 200) (.revoke p .manageAuthorities)]) ∧
    init (fun _ => true) 0 Demo.admin Demo.args = some Demo.s0 ∧
    ¬ ShouldObey Demo.env (run Demo.env Demo.s0 [.call Demo.admin (Demo.ms 200) (.revoke p .manageAuthorities)]) p ∧
    p ∈ storageAuthorized Demo.env.self Demo.args :=
  ⟨Demo.admin, ⟨fun _ => true, 0, Demo.admin, Demo.args, Demo.s0, _, Demo.s0_init, rfl⟩, Demo.s0_init,
    fun h => h.elim (by decide) (fun h => absurd (holds_iff.1 h) (by decide)), by decide⟩

/-- **C71 is violated** in test mode from the start: the installer holds all
permissions but is not authorized. -/
theorem C71_violated_test_mode : ∃ (a : InitArgs) (s : State Nat) (p : Principal),
    init (fun _ => true) 0 p a = some s ∧ ShouldObey Demo.env s p ∧ p ∉ storageAuthorized Demo.env.self a :=
  ⟨{ testMode := true }, _, Demo.admin, rfl, .inr (holds_iff.2 (by decide)), by decide⟩

/-- The authorities of the demo collection, unchanged by minting and an upload. -/
example : storageAuthorized Demo.env.self Demo.args = [Demo.admin, [9]] ∧
    Demo.admin ∈ storageAuthorized Demo.env.self Demo.args := by decide

example (p : Principal) : p ∈ storageAuthorized Demo.env.self Demo.args ↔
    ShouldObey Demo.env (run Demo.env Demo.s0 Demo.pngMsgs) p :=
  C71_unchanged_partial Demo.env Demo.s0_init rfl _ (by simp [Demo.pngMsgs, Demo.upload, Demo.mintMsg]) p

end Verif
