import Verif.Spec.Lifecycle
import Verif.Spec.Index
import Verif.Props.Admin
/-!
# Installations, upgrades and the settings they leave (C100, C101)
-/
namespace Verif
open Spec

variable {H : Type}

/-! ## C100: an installation or upgrade does what its arguments say -/

/-- **C100.** A collection comes into being only with installation arguments, in the state these
describe. -/
theorem C100_install {self : Principal} {v : String → Bool} {hid : H} {c : Principal} {args : Args} {d : Deployed H}
    (h : install self v hid c args = some d) :
    ∃ a, args = .init a ∧ init v hid c a = some d.state ∧ (metricsPage d).testMode = a.testMode ∧
      (metricsPage d).version = a.version ∧ (metricsPage d).commitHash = a.commitHash := by
  cases args with
  | upgrade => cases h
  | init a =>
    simp only [install] at h
    split at h
    · cases h
    · rename_i s hs
      cases h
      exact ⟨a, rfl, hs, rfl, rfl, rfl⟩

/-- **C100.** Upgrade arguments install nothing, and installation arguments upgrade nothing: the
collection goes on as if nothing had happened. -/
theorem C100_wrong_argument (E : Env H) (v : String → Bool) (hid : H) (c : Principal) (u : UpgradeArgs) (a : InitArgs)
    (d : Deployed H) :
    install E.self v hid c (.upgrade u) = none ∧ lifeStep E d (.upgrade (.init a)) = (d, .trapped) := ⟨rfl, rfl⟩

/-- **C100.** Between installation and now the collection went through the messages of its history,
an upgrade with installation arguments being none. Hence every claim about histories holds of
collections that are upgraded with any arguments. -/
theorem C100_history (E : Env H) (es : List Life) (d : Deployed H) :
    (lifeRun E d es).state = run E d.state (happened es) := by
  induction es generalizing d with
  | nil => rfl
  | cons e es ih =>
    rw [lifeRun, ih]
    cases e with
    | upgrade a => cases a <;> rfl
    | _ => rfl

private theorem lifeRun_build (E : Env H) (es : List Life) (d : Deployed H) :
    (lifeRun E d es).build.testMode = d.build.testMode ∧
    ((lifeRun E d es).build.version, (lifeRun E d es).build.commitHash) =
      announced d.build.version d.build.commitHash (upgrades es) := by
  induction es generalizing d with
  | nil => exact ⟨rfl, rfl⟩
  | cons e es ih =>
    rw [lifeRun]
    obtain ⟨h1, h2⟩ := ih (lifeStep E d e).1
    rw [h1, h2]
    cases e with
    | upgrade a =>
      cases a with
      | init => exact ⟨rfl, rfl⟩
      | upgrade u =>
        refine ⟨rfl, ?_⟩
        show announced u.version u.commitHash (upgrades es) = announced _ _ (u :: upgrades es)
        simp only [announced, List.getLast?_cons]
        cases (upgrades es).getLast? <;> rfl
    | _ => exact ⟨rfl, rfl⟩

/-- **C100.** At every moment the metrics page shows the version and commit hash of the last
upgrade that was made, or of the installation, and the mode of the installation. -/
theorem C100_announced (E : Env H) {v : String → Bool} {hid : H} {c : Principal} {a : InitArgs} {d : Deployed H}
    (h : install E.self v hid c (.init a) = some d) (es : List Life) :
    let p := metricsPage (lifeRun E d es)
    p.testMode = a.testMode ∧ (p.version, p.commitHash) = announced a.version a.commitHash (upgrades es) := by
  obtain ⟨a', ha, _, h1, h2, h3⟩ := C100_install h
  cases ha
  obtain ⟨h4, h5⟩ := lifeRun_build E es d
  refine ⟨h4.trans h1, h5.trans ?_⟩
  rw [← h2, ← h3]
  rfl

/-- **C100.** A proper upgrade changes no answer of any query but the version and commit hash. -/
theorem C100_upgrade (E : Env H) (d : Deployed H) (hr : Reachable E d.state) (u : UpgradeArgs) :
    (lifeStep E d (.upgrade (.upgrade u))).2 = .none ∧
    SameAnswers d.state (lifeStep E d (.upgrade (.upgrade u))).1.state ∧
    metricsPage (lifeStep E d (.upgrade (.upgrade u))).1 =
      { metricsPage d with version := u.version, commitHash := u.commitHash } :=
  ⟨rfl, (C38_upgrade E d.state hr).1, rfl⟩

private theorem lifeRun_storage (E : Env H) (es : List Life) (d : Deployed H) :
    (lifeRun E d es).storageArgs = d.storageArgs := by
  induction es generalizing d with
  | nil => rfl
  | cons e es ih =>
    rw [lifeRun, ih]
    cases e with
    | upgrade a => cases a <;> rfl
    | _ => rfl

/-- **C100**, the part about storage canisters that holds: until the first upgrade they are installed
with the version, commit hash and mode the collection announces. Missing: afterwards
(`C100_violated_storage`). -/
theorem C100_storage_partial (E : Env H) {v : String → Bool} {hid : H} {c : Principal} {a : InitArgs} {d : Deployed H}
    (h : install E.self v hid c (.init a) = some d) (es : List Life) (hno : upgrades es = []) :
    let p := metricsPage (lifeRun E d es)
    let b := (lifeRun E d es).storageArgs
    b.testMode = p.testMode ∧ b.version = p.version ∧ b.commitHash = p.commitHash := by
  obtain ⟨h1, h2⟩ := C100_announced E h es
  simp only [hno, announced, List.getLast?_nil, Prod.mk.injEq] at h2
  have hs : d.storageArgs = ⟨a.testMode, a.version, a.commitHash, storageAuthorized E.self a⟩ := by
    simp only [install] at h
    split at h
    · cases h
    · cases h; rfl
  refine ⟨?_, ?_, ?_⟩
  · rw [lifeRun_storage, hs]; exact h1.symm
  · rw [lifeRun_storage, hs]; exact h2.1.symm
  · rw [lifeRun_storage, hs]; exact h2.2.symm

namespace Demo

/-- The demo collection, installed as version 1.0.0. -/
def args1 : InitArgs := { args with version := ⟨1, 0, 0⟩, commitHash := "one" }
def d0 : Deployed Nat := (install env.self (fun _ => true) 0 admin (.init args1)).get rfl
theorem d0_install : install env.self (fun _ => true) 0 admin (.init args1) = some d0 := rfl

/-- An upgrade with the wrong arguments and one with the right ones. -/
def toTwo : List Life := [.upgrade (.init args1), .upgrade (.upgrade ⟨⟨2, 0, 0⟩, "two"⟩)]

end Demo

/-- **C100 is violated** for storage canisters: after an upgrade to version 2.0.0, which the
metrics page announces, storage canisters are still created as those of version 1.0.0. -/
theorem C100_violated_storage : ∃ (d : Deployed Nat) (es : List Life),
    install Demo.env.self (fun _ => true) 0 Demo.admin (.init Demo.args1) = some d ∧
    (metricsPage (lifeRun Demo.env d es)).version = ⟨2, 0, 0⟩ ∧
    (lifeRun Demo.env d es).storageArgs.version = ⟨1, 0, 0⟩ ∧
    (lifeRun Demo.env d es).storageArgs.commitHash = "one" :=
  ⟨Demo.d0, Demo.toTwo, Demo.d0_install, rfl, rfl, rfl⟩

/-- The refused upgrade left nothing, the other one is announced. -/
example : upgrades Demo.toTwo = [⟨⟨2, 0, 0⟩, "two"⟩] ∧
    (metricsPage (lifeRun Demo.env Demo.d0 Demo.toTwo)).commitHash = "two" ∧
    (lifeStep Demo.env Demo.d0 (.upgrade (.init Demo.args1))).1.build.commitHash = "one" ∧
    (lifeRun Demo.env Demo.d0 Demo.toTwo).state = run Demo.env Demo.d0.state [.upgrade] := ⟨rfl, rfl, rfl, rfl⟩

example : Reachable Demo.env Demo.d0.state := ⟨_, _, _, _, _, [], (C100_install Demo.d0_install).choose_spec.2.1, rfl⟩

example : (lifeRun Demo.env Demo.d0 [.call Demo.admin (Demo.ms 100) (.mint [{ owner := Demo.alice }])]).storageArgs.version =
    ⟨1, 0, 0⟩ :=
  (C100_storage_partial Demo.env Demo.d0_install [.call Demo.admin (Demo.ms 100) (.mint [{ owner := Demo.alice }])] rfl).2.1

/-! ### The index canister -/

/-- **C100** for the index: it comes into being with installation arguments only, empty and for the
ledger named there. -/
theorem C100_index_install {c : Principal} {args : IxArgs} {d : IxDeployed} (h : ixInstall c args = some d) :
    ∃ a, args = .init a ∧ d.ix = Ix.fresh ∧ ixStatus d.ix = 0 ∧ ledgerId d = a.ledger ∧
      d.build = ⟨a.testMode, a.version, a.commitHash⟩ := by
  cases args with
  | upgrade => cases h
  | init a => cases h; exact ⟨a, rfl, rfl, rfl, rfl, rfl⟩

/-- **C100** for the index: the wrong kind of arguments changes nothing. -/
theorem C100_index_wrong_argument (parse : ParsePrincipal) (c : Principal) (u : UpgradeArgs) (a : IxInitArgs)
    (d : IxDeployed) :
    ixInstall c (.upgrade u) = none ∧ ixLifeStep parse d (.upgrade (.init a)) = (d, .trapped) := ⟨rfl, rfl⟩

/-- **C100** for the index: it went through the messages of its history, and it reads the blocks of
the ledger it was installed for, whatever happens. -/
theorem C100_index_history (parse : ParsePrincipal) (es : List IxLife) (d : IxDeployed) :
    (ixLifeRun parse d es).ix = ixRun parse d.ix (ixMessages es) ∧
    ledgerId (ixLifeRun parse d es) = ledgerId d ∧
    ((ixLifeRun parse d es).build.version, (ixLifeRun parse d es).build.commitHash) =
      announced d.build.version d.build.commitHash (ixUpgrades es) := by
  induction es generalizing d with
  | nil => exact ⟨rfl, rfl, rfl⟩
  | cons e es ih =>
    rw [ixLifeRun]
    obtain ⟨h1, h2, h3⟩ := ih (ixLifeStep parse d e).1
    rw [h1, h2, h3]
    cases e with
    | msg m hm => exact ⟨rfl, rfl, rfl⟩
    | upgrade a =>
      cases a with
      | init => exact ⟨rfl, rfl, rfl⟩
      | upgrade u =>
        refine ⟨rfl, rfl, ?_⟩
        show announced u.version u.commitHash (ixUpgrades es) = announced _ _ (u :: ixUpgrades es)
        simp only [announced, List.getLast?_cons]
        cases (ixUpgrades es).getLast? <;> rfl

/-- An index for the ledger `[9]`, upgraded once. -/
example (parse : ParsePrincipal) : ∃ d, ixInstall [7] (.init ⟨false, ⟨1, 0, 0⟩, "one", [], [9]⟩) = some d ∧
    ledgerId (ixLifeRun parse d [.upgrade (.upgrade ⟨⟨2, 0, 0⟩, "two"⟩), .upgrade (.init ⟨false, ⟨1, 0, 0⟩, "x", [], [8]⟩)]) =
      [9] ∧
    (ixLifeRun parse d [.upgrade (.upgrade ⟨⟨2, 0, 0⟩, "two"⟩), .upgrade (.init ⟨false, ⟨1, 0, 0⟩, "x", [], [8]⟩)]).build.commitHash =
      "two" := ⟨_, rfl, rfl, rfl⟩

/-! ## C101: settings stay what an installation accepts -/

private theorem acceptable_init {v : String → Bool} {hid : H} {c : Principal} {a : InitArgs} {s : State H}
    (h : init v hid c a = some s) : Acceptable v s := by
  obtain ⟨h1, h2, h3, h4⟩ := (C39_accepted v hid c a).1 ⟨s, h⟩
  rw [init_eq h]
  exact ⟨h1, h2, h4, h3⟩

private theorem applyUpdate_fields (c : Config) (a : UpdateCollArg) :
    (applyUpdate c a).logo = a.logo.or c.logo ∧ (applyUpdate c a).txWindow = a.txWindow.or c.txWindow ∧
    (applyUpdate c a).maxApprovals = c.maxApprovals ∧ (applyUpdate c a).maxRevoke = c.maxRevoke := by
  rw [applyUpdate_eq]
  exact ⟨rfl, rfl, rfl, rfl⟩

/-- The values of the updates in a history are such as an installation would accept. -/
def Spec.UpdatesAcceptable (v : String → Bool) (ms : List Msg) : Prop :=
  ∀ m ∈ ms, ∀ c now a, m = .call c now (.updateCollectionMetadata a) →
    (∀ u, a.logo = some u → v u = true) ∧ (∀ w, a.txWindow = some w → w < 2 ^ 64)

/-- **C101**, the part that holds: approval limits are never zero, and the logo and the window stay
acceptable as long as updates give acceptable ones. Missing: updates are not checked
(`C101_violated_logo`, `C101_violated_window`). -/
theorem C101_acceptable_partial (E : Env H) {v : String → Bool} {hid : H} {c : Principal} {a : InitArgs} {s₀ : State H}
    (h0 : init v hid c a = some s₀) (ms : List Msg) :
    icrc37MaxApprovals (run E s₀ ms) ≠ some 0 ∧ icrc37MaxRevokeApprovals (run E s₀ ms) ≠ some 0 ∧
    (UpdatesAcceptable v ms → Acceptable v (run E s₀ ms)) := by
  have hstep : ∀ (s : State H) (m : Msg),
      ((step E s m).1.cfg.maxApprovals = s.cfg.maxApprovals ∧ (step E s m).1.cfg.maxRevoke = s.cfg.maxRevoke) ∧
      (UpdatesAcceptable v [m] → Acceptable v s → Acceptable v (step E s m).1) := by
    intro s m
    refine (step_steps E s m).induct (P := fun t =>
      (t.cfg.maxApprovals = s.cfg.maxApprovals ∧ t.cfg.maxRevoke = s.cfg.maxRevoke) ∧
      (UpdatesAcceptable v [m] → Acceptable v s → Acceptable v t)) ?_ ⟨⟨rfl, rfl⟩, fun _ h => h⟩
    intro t t' ht hm
    rcases micro_cfg hm with he | ⟨c, now, a, rfl, he⟩
    · refine ⟨by rw [he]; exact ht.1, fun hu ha => ?_⟩
      obtain ⟨p1, p2, p3, p4⟩ := ht.2 hu ha
      exact ⟨fun u h => p1 u (by unfold icrc7Logo at h ⊢; rw [← he]; exact h),
        fun w h => p2 w (by unfold icrc7TxWindow at h ⊢; rw [← he]; exact h),
        by unfold icrc37MaxApprovals at p3 ⊢; rw [he]; exact p3,
        by unfold icrc37MaxRevokeApprovals at p4 ⊢; rw [he]; exact p4⟩
    · obtain ⟨e1, e2, e3, e4⟩ := applyUpdate_fields t.cfg a
      refine ⟨by rw [he, e3, e4]; exact ht.1, fun hu ha => ?_⟩
      obtain ⟨p1, p2, p3, p4⟩ := ht.2 hu ha
      obtain ⟨q1, q2⟩ := hu _ List.mem_cons_self c now a rfl
      refine ⟨fun u h => ?_, fun w h => ?_, ?_, ?_⟩
      · unfold icrc7Logo at h
        rw [he, e1] at h
        cases hl : a.logo with
        | none => rw [hl] at h; exact p1 u h
        | some x => rw [hl] at h; exact q1 u (by rw [hl]; exact h)
      · unfold icrc7TxWindow at h
        rw [he, e2] at h
        cases hl : a.txWindow with
        | none => rw [hl] at h; exact p2 w h
        | some x => rw [hl] at h; exact q2 w (by rw [hl]; exact h)
      · unfold icrc37MaxApprovals at p3 ⊢; rw [he, e3]; exact p3
      · unfold icrc37MaxRevokeApprovals at p4 ⊢; rw [he, e4]; exact p4
  have hrun : ∀ (ms : List Msg) (s : State H),
      ((run E s ms).cfg.maxApprovals = s.cfg.maxApprovals ∧ (run E s ms).cfg.maxRevoke = s.cfg.maxRevoke) ∧
      (UpdatesAcceptable v ms → Acceptable v s → Acceptable v (run E s ms)) := by
    intro ms
    induction ms with
    | nil => exact fun s => ⟨⟨rfl, rfl⟩, fun _ h => h⟩
    | cons m ms ih =>
      intro s
      obtain ⟨⟨i1, i2⟩, i3⟩ := ih (step E s m).1
      obtain ⟨⟨j1, j2⟩, j3⟩ := hstep s m
      refine ⟨⟨i1.trans j1, i2.trans j2⟩, fun hu ha => i3 (fun x hx => hu x (List.mem_cons_of_mem _ hx)) (j3 ?_ ha)⟩
      intro x hx
      exact hu x (by rw [List.mem_singleton.1 hx]; exact List.mem_cons_self)
  have ha := acceptable_init h0
  obtain ⟨⟨r1, r2⟩, r3⟩ := hrun ms s₀
  refine ⟨?_, ?_, fun hu => r3 hu ha⟩
  · unfold icrc37MaxApprovals; rw [r1]; exact ha.approvals
  · unfold icrc37MaxRevokeApprovals; rw [r2]; exact ha.revocations

/-- A validator that knows an address when it sees `https`. -/
def Demo.https (u : String) : Bool := "https://".toList.isPrefixOf u.toList

/-- **C101 is violated** by a new logo: an installation with it would be refused, the update is
accepted. -/
theorem C101_violated_logo : ∃ (s₀ : State Nat) (ms : List Msg), init Demo.https 0 Demo.admin Demo.args = some s₀ ∧
    replies Demo.env s₀ ms = [.mgmt (.ok .unit)] ∧ icrc7Logo (run Demo.env s₀ ms) = some "logo.png" ∧
    init Demo.https 0 Demo.admin { Demo.args with logo := some "logo.png" } = none ∧
    ¬ Acceptable Demo.https (run Demo.env s₀ ms) := by
  refine ⟨Demo.s0, [.call Demo.admin 0 (.updateCollectionMetadata { logo := some "logo.png" })], rfl, rfl, rfl, by decide,
    fun h => absurd (h.logo "logo.png" rfl) (by decide)⟩

/-- **C101 is violated** by a new window that an installation would refuse; from then on every
transfer of a token by its holder traps. -/
theorem C101_violated_window : ∃ (s₀ : State Nat) (ms : List Msg), init Demo.https 0 Demo.admin Demo.args = some s₀ ∧
    icrc7TxWindow (run Demo.env s₀ ms) = some (2 ^ 64) ∧
    init Demo.https 0 Demo.admin { Demo.args with txWindow := some (2 ^ 64) } = none ∧
    ¬ Acceptable Demo.https (run Demo.env s₀ ms) ∧ Owner (run Demo.env s₀ ms) 1 = some Demo.alice ∧
    (step Demo.env (run Demo.env s₀ ms) (.call [1] (Demo.ms 200) (.transfer [{ to_ := Demo.bob, tid := 1 }]))).2 = .trapped := by
  refine ⟨Demo.s0, [Demo.mintMsg, .call Demo.admin 0 (.updateCollectionMetadata { txWindow := some (2 ^ 64) })], rfl, rfl,
    by decide, fun h => absurd (h.window _ rfl) (by decide), rfl, rfl⟩

/-- The hypotheses are met by an acceptable update. -/
example : UpdatesAcceptable Demo.https
    [Demo.mintMsg, .call Demo.admin 0 (.updateCollectionMetadata { logo := some "https://example.org/l.png" })] := by
  intro m hm c now a h
  rcases List.mem_cons.1 hm with rfl | hm
  · cases h
  · rw [List.mem_singleton.1 hm] at h
    cases h
    exact ⟨fun u hu => by cases hu; decide, fun w hw => by cases hw⟩

end Verif
