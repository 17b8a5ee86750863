import Verif.Lemmas.Pending
import Verif.Lemmas.ApprovalTables
import Verif.Props.Demo
/-!
# Administration: permissions, mutual exclusion, upgrades, configuration
(C29–C32, C38–C40, C59)
-/
namespace Verif

open Spec

variable {H : Type}

/-! ## C29: permission checks guard administration -/

/-- **C29.** Whoever lacks the permission a method asks for is rejected, and the
state does not change. -/
theorem C29_rejected (E : Env H) (s : State H) {c : Principal} {now : Nat} {call : Call} {x : Permission}
    (hneed : adminPermission call = some x) (hno : ¬ Holds s c x) :
    step E s (.call c now call) = (s, .rejected) := by
  have hn : call.needs = some x := by
    cases call <;> simp_all [adminPermission, Call.needs]
  simp only [step, execCall, hn]
  rw [if_neg (fun h => hno (holds_iff.2 h))]

/-- bob may not mint, change metadata or the settings, grant, revoke or upload. -/
example : ¬ Holds Demo.s1 [2] .minting ∧ adminPermission (.mint [{ owner := Demo.bob }]) = some .minting ∧
    Holds Demo.s1 Demo.admin .minting := by
  refine ⟨fun h => absurd (holds_iff.1 h) (by decide), rfl, holds_iff.2 (by decide)⟩

private theorem step_pending {E : Env H} {s : State H} {m : Msg} {p : Pending} (hp : p ∈ (step E s m).1.pending) :
    p ∈ s.pending ∨ ∃ now call, m = .call p.caller now call ∧ adminPermission call = some .updateUploads ∧
      Holds s p.caller .updateUploads := by
  have key := (step_steps E s m).induct
    (P := fun t => (∀ p ∈ t.pending, p ∈ s.pending ∨ ∃ now call, m = .call p.caller now call ∧
        adminPermission call = some .updateUploads ∧ Holds s p.caller .updateUploads) ∧
      ((∀ c now call, m = .call c now call → adminPermission call = some .updateUploads → t.perms = s.perms)))
    (hp := ⟨fun p h => .inl h, fun _ _ _ _ _ => rfl⟩)
    (hmicro := by
      rintro t t' ⟨h1, h2⟩ hm
      refine ⟨?_, ?_⟩
      · intro p hp
        rcases micro_pending hm hp with h | ⟨now, call, rfl, hn, hh⟩
        · exact h1 p h
        · have ha : adminPermission call = some .updateUploads := by
            cases call <;> simp_all [adminPermission, Call.needs]
          refine .inr ⟨now, call, rfl, ha, ?_⟩
          have := h2 _ _ _ rfl ha
          unfold Holds at hh ⊢
          rwa [this] at hh
      · intro c now call hm' ha
        rcases micro_perms hm with h | ⟨_, _, _, _, rfl, _⟩ | ⟨_, _, _, _, rfl, _⟩
        · rw [h]; exact h2 _ _ _ hm' ha
        · cases hm'; cases ha
        · cases hm'; cases ha)
  exact key.1 p hp

/-- **C29.** What continues after a suspension was started by a caller who held
the permission at that time: every suspended call of a history stems from an
upload call in it, made by a holder of UpdateUploads. -/
theorem C29_suspended (E : Env H) {v : String → Bool} {hid : H} {inst : Principal} {a : InitArgs} {s₀ : State H}
    (h0 : init v hid inst a = some s₀) (msgs : List Msg) {p : Pending} (hp : p ∈ (run E s₀ msgs).pending) :
    ∃ pre now call post, msgs = pre ++ .call p.caller now call :: post ∧
      adminPermission call = some .updateUploads ∧ Holds (run E s₀ pre) p.caller .updateUploads := by
  induction hn : msgs.length generalizing msgs with
  | zero =>
    have : msgs = [] := List.length_eq_zero_iff.1 hn
    subst this
    rw [init_eq h0] at hp
    simp [run] at hp
  | succ n ih =>
    have hne : msgs ≠ [] := by intro h; subst h; simp at hn
    have hsplit := List.dropLast_concat_getLast hne
    rw [← hsplit, run_append] at hp
    rcases step_pending hp with h | ⟨now, call, hm, ha, hh⟩
    · obtain ⟨pre, now, call, post, he, h1, h2⟩ := ih msgs.dropLast h (by simp; omega)
      refine ⟨pre, now, call, post ++ [msgs.getLast hne], ?_, h1, h2⟩
      exact hsplit.symm.trans (by rw [he]; simp)
    · refine ⟨msgs.dropLast, now, call, [], ?_, ha, hh⟩
      rw [← hm, hsplit]

/-- **C29.** The arrival of an answer does nothing unless some call is suspended,
and then touches only uploads, storage canisters and redirections. -/
theorem C29_resume (E : Env H) (s : State H) (now i : Nat) (ans : Answer) :
    (s.pending = [] → step E s (.resume now i ans) = (s, .none)) ∧
    Untouched s (step E s (.resume now i ans)).1 ∧ SameApprovals s (step E s (.resume now i ans)).1 ∧
    (step E s (.resume now i ans)).1.cfg = s.cfg ∧ (step E s (.resume now i ans)).1.perms = s.perms := by
  refine ⟨fun h => by simp [step, h], ?_⟩
  simp only [step]
  split
  · exact ⟨⟨fun _ => rfl, fun _ => rfl, fun _ => rfl, rfl⟩, ⟨fun _ _ _ => .rfl, fun _ _ _ => .rfl⟩, rfl, rfl⟩
  · rename_i p _
    obtain ⟨_, _, _, _, he⟩ := resumeBody_eq E { s with pending := s.pending.eraseIdx i } now p ans
    simp only [he]
    exact ⟨⟨fun _ => rfl, fun _ => rfl, fun _ => rfl, rfl⟩, ⟨fun _ _ _ => .rfl, fun _ _ _ => .rfl⟩, rfl, rfl⟩

/-- A suspended upload. -/
def Demo.sUp : State Nat := run env s1 [.call admin (ms 200) (.initUpload "/a.png" 10)]

theorem Demo.sUp_reach : Reachable env Demo.sUp := Demo.s1_reach.run _

example : Demo.sUp.pending = [.init Demo.admin "/a.png" 10 []] := by decide

/-! ## C30: permissions change only through authorities -/

private theorem holds_grant {s : State H} {p q : Principal} {x y : Permission} {t : State H}
    (h : t.perms = grantPermission s.perms p x) : Holds t q y ↔ Holds s q y ∨ (q = p ∧ y = x) := by
  unfold Holds
  rw [h, grantPermission]
  constructor
  · rintro ⟨l, hl, hy⟩
    rw [Map.get_set] at hl
    split at hl
    · rename_i hpq
      have hpq : p = q := by simpa using hpq
      subst hpq
      simp at hl
      subst hl
      rcases List.mem_append.1 hy with h | h
      · left
        cases hg : s.perms.get p with
        | none => rw [hg] at h; simp at h
        | some l => rw [hg] at h; exact ⟨l, rfl, h⟩
      · right; simp at h; exact ⟨rfl, h⟩
    · exact .inl ⟨l, hl, hy⟩
  · rintro (⟨l, hl, hy⟩ | ⟨rfl, rfl⟩)
    · rw [Map.get_set]
      split
      · rename_i hpq
        have hpq : p = q := by simpa using hpq
        subst hpq
        exact ⟨_, rfl, by simp [hl, hy]⟩
      · exact ⟨l, hl, hy⟩
    · exact ⟨_, Map.get_set_self _ _ _, by simp⟩

private theorem holds_revoke {s : State H} {p q : Principal} {x y : Permission} {t : State H}
    (h : t.perms = revokePermission s.perms p x) : Holds t q y ↔ Holds s q y ∧ ¬ (q = p ∧ y = x) := by
  unfold Holds
  rw [h, revokePermission]
  cases hg : s.perms.get p with
  | none =>
    dsimp only
    constructor
    · rintro ⟨l, hl, hy⟩
      refine ⟨⟨l, hl, hy⟩, ?_⟩
      rintro ⟨rfl, _⟩
      rw [hg] at hl; cases hl
    · exact fun h => h.1
  | some l₀ =>
    dsimp only
    constructor
    · rintro ⟨l, hl, hy⟩
      rw [Map.get_set] at hl
      split at hl
      · rename_i hpq
        have hpq : p = q := by simpa using hpq
        subst hpq
        simp at hl
        subst hl
        simp at hy
        exact ⟨⟨l₀, hg, hy.1⟩, fun h => hy.2 h.2⟩
      · rename_i hpq
        refine ⟨⟨l, hl, hy⟩, ?_⟩
        rintro ⟨rfl, _⟩
        simp at hpq
    · rintro ⟨⟨l, hl, hy⟩, hne⟩
      rw [Map.get_set]
      split
      · rename_i hpq
        have hpq : p = q := by simpa using hpq
        subst hpq
        rw [hg] at hl
        cases hl
        refine ⟨_, rfl, ?_⟩
        simp
        exact ⟨hy, fun h => hne ⟨rfl, h⟩⟩
      · exact ⟨l, hl, hy⟩

/-- What a message does to permissions. -/
private theorem step_holds (E : Env H) (s : State H) (m : Msg) :
    (∀ q y, Holds (step E s m).1 q y ↔ Holds s q y) ∨
    (∃ c now p x, m = .call c now (.grant p x) ∧ Holds s c .manageAuthorities ∧
      ∀ q y, Holds (step E s m).1 q y ↔ Holds s q y ∨ (q = p ∧ y = x)) ∨
    (∃ c now p x, m = .call c now (.revoke p x) ∧ Holds s c .manageAuthorities ∧
      ∀ q y, Holds (step E s m).1 q y ↔ Holds s q y ∧ ¬ (q = p ∧ y = x)) := by
  by_cases hg : ∃ c now p x, m = .call c now (.grant p x)
  · obtain ⟨c, now, p, x, rfl⟩ := hg
    by_cases hh : Holds s c .manageAuthorities
    · cases hgd : s.guards with
      | nil =>
        refine .inr (.inl ⟨c, now, p, x, rfl, hh, fun q y => holds_grant ?_⟩)
        simp [step, execCall, Call.needs, holds_iff.1 hh, exec, grant, withGuard, guardEnter_free hgd, ofMgmt, guardLeave]
      | cons g gs =>
        refine .inl fun q y => ?_
        simp [step, execCall, Call.needs, holds_iff.1 hh, exec_busy (E := E) (s := s) (by simp [hgd]) (call := .grant p x) rfl]
    · refine .inl fun q y => ?_
      rw [C29_rejected E s (call := .grant p x) rfl hh]
  by_cases hr : ∃ c now p x, m = .call c now (.revoke p x)
  · obtain ⟨c, now, p, x, rfl⟩ := hr
    by_cases hh : Holds s c .manageAuthorities
    · cases hgd : s.guards with
      | nil =>
        refine .inr (.inr ⟨c, now, p, x, rfl, hh, fun q y => holds_revoke ?_⟩)
        simp [step, execCall, Call.needs, holds_iff.1 hh, exec, revoke, withGuard, guardEnter_free hgd, ofMgmt, guardLeave]
      | cons g gs =>
        refine .inl fun q y => ?_
        simp [step, execCall, Call.needs, holds_iff.1 hh, exec_busy (E := E) (s := s) (by simp [hgd]) (call := .revoke p x) rfl]
    · refine .inl fun q y => ?_
      rw [C29_rejected E s (call := .revoke p x) rfl hh]
  · left
    have : (step E s m).1.perms = s.perms := (step_steps E s m).induct (P := fun t => t.perms = s.perms) (hp := rfl)
      (hmicro := by
        intro t t' ht hm
        rcases micro_perms hm with h | ⟨c, now, p, x, h, _⟩ | ⟨c, now, p, x, h, _⟩
        · rw [h, ht]
        · exact absurd ⟨c, now, p, x, h⟩ hg
        · exact absurd ⟨c, now, p, x, h⟩ hr)
    intro q y
    unfold Holds
    rw [this]

/-- **C30.** A principal gains a permission only in a `grant_permission` of exactly
that permission to exactly that principal, by a holder of ManageAuthorities. -/
theorem C30_gained (E : Env H) (s : State H) (m : Msg) {p : Principal} {x : Permission}
    (hno : ¬ Holds s p x) (hyes : Holds (step E s m).1 p x) :
    ∃ c now, m = .call c now (.grant p x) ∧ Holds s c .manageAuthorities := by
  rcases step_holds E s m with h | ⟨c, now, q, y, hm, hh, h⟩ | ⟨c, now, q, y, hm, hh, h⟩
  · exact absurd ((h p x).1 hyes) hno
  · rcases (h p x).1 hyes with h | ⟨rfl, rfl⟩
    · exact absurd h hno
    · exact ⟨c, now, hm, hh⟩
  · exact absurd ((h p x).1 hyes).1 hno

/-- **C30.** A principal loses a permission only in a `revoke_permission` of
exactly that permission from exactly that principal, by a holder of
ManageAuthorities. -/
theorem C30_lost (E : Env H) (s : State H) (m : Msg) {p : Principal} {x : Permission}
    (hyes : Holds s p x) (hno : ¬ Holds (step E s m).1 p x) :
    ∃ c now, m = .call c now (.revoke p x) ∧ Holds s c .manageAuthorities := by
  rcases step_holds E s m with h | ⟨c, now, q, y, hm, hh, h⟩ | ⟨c, now, q, y, hm, hh, h⟩
  · exact absurd ((h p x).2 hyes) hno
  · exact absurd ((h p x).2 (.inl hyes)) hno
  · by_cases hpq : p = q ∧ x = y
    · obtain ⟨rfl, rfl⟩ := hpq; exact ⟨c, now, hm, hh⟩
    · exact absurd ((h p x).2 ⟨hyes, hpq⟩) hno

/-- **C30**, over histories: whoever holds a permission was given it at the
installation or by a later grant of an authority. -/
theorem C30_history (E : Env H) (s₀ : State H) (msgs : List Msg) {p : Principal} {x : Permission}
    (h : Holds (run E s₀ msgs) p x) :
    Holds s₀ p x ∨ ∃ pre c now post, msgs = pre ++ .call c now (.grant p x) :: post ∧
      Holds (run E s₀ pre) c .manageAuthorities := by
  induction msgs generalizing s₀ with
  | nil => exact .inl h
  | cons m ms ih =>
    rcases ih (step E s₀ m).1 h with h1 | ⟨pre, c, now, post, he, hh⟩
    · by_cases h0 : Holds s₀ p x
      · exact .inl h0
      · obtain ⟨c, now, rfl, hh⟩ := C30_gained E s₀ m h0 h1
        exact .inr ⟨[], c, now, ms, rfl, hh⟩
    · exact .inr ⟨m :: pre, c, now, post, by rw [he]; rfl, hh⟩

/-- The administrator lets bob mint. -/
def Demo.grantMsg : Msg := .call admin (ms 200) (.grant [2] .minting)

example : ¬ Holds Demo.s1 [2] .minting ∧ Holds (step Demo.env Demo.s1 Demo.grantMsg).1 [2] .minting := by
  refine ⟨fun h => absurd (holds_iff.1 h) (by decide), holds_iff.2 (by decide)⟩

example : Holds Demo.s1 Demo.admin .readUploads ∧
    ¬ Holds (step Demo.env Demo.s1 (.call Demo.admin 0 (.revoke Demo.admin .readUploads))).1 Demo.admin .readUploads := by
  refine ⟨holds_iff.2 (by decide), fun h => absurd (holds_iff.1 h) (by decide)⟩

/-! ## C31: revoked permissions are gone -/

/-- **C31.** After an accepted revocation the permission is gone, however often it
was granted, and nothing else about permissions changed. -/
theorem C31_revoked (E : Env H) (s s' : State H) {c p : Principal} {now : Nat} {x : Permission}
    (h : step E s (.call c now (.revoke p x)) = (s', .mgmt (.ok .unit))) :
    ¬ Holds s' p x ∧ (∀ q y, (q, y) ≠ (p, x) → (Holds s' q y ↔ Holds s q y)) ∧
    ∀ c', Holds s' c' .manageAuthorities → hasPermissionQuery s' c' p x = some false := by
  have hh : Holds s c .manageAuthorities := by
    refine Classical.byContradiction fun hno => ?_
    rw [C29_rejected E s (call := .revoke p x) rfl hno] at h
    cases h
  have hf : s.guards = [] := by
    refine Classical.byContradiction fun hb => ?_
    simp only [step, execCall, Call.needs, holds_iff.1 hh, if_true] at h
    rw [exec_busy hb (call := .revoke p x) rfl] at h
    cases h
  have hs : s'.perms = revokePermission s.perms p x := by
    simp [step, execCall, Call.needs, holds_iff.1 hh, exec, revoke, withGuard, guardEnter_free hf, ofMgmt, guardLeave] at h
    rw [← h]
  have key := fun q y => holds_revoke (q := q) (y := y) hs
  have hno : ¬ Holds s' p x := fun hx => ((key p x).1 hx).2 ⟨rfl, rfl⟩
  refine ⟨hno, ?_, ?_⟩
  · intro q y hne
    rw [key]
    exact ⟨fun h => h.1, fun h => ⟨h, fun he => hne (by rw [he.1, he.2])⟩⟩
  · intro c' hc'
    rw [holds_iff] at hc' hno
    simp [hasPermissionQuery, guarded, hc', hno]

/-- **C31.** After an accepted grant the permission is held, and nothing else about
permissions changed. -/
theorem C31_granted (E : Env H) (s s' : State H) {c p : Principal} {now : Nat} {x : Permission}
    (h : step E s (.call c now (.grant p x)) = (s', .mgmt (.ok .unit))) :
    Holds s' p x ∧ (∀ q y, (q, y) ≠ (p, x) → (Holds s' q y ↔ Holds s q y)) ∧
    ∀ c', Holds s' c' .manageAuthorities → hasPermissionQuery s' c' p x = some true := by
  have hh : Holds s c .manageAuthorities := by
    refine Classical.byContradiction fun hno => ?_
    rw [C29_rejected E s (call := .grant p x) rfl hno] at h
    cases h
  have hf : s.guards = [] := by
    refine Classical.byContradiction fun hb => ?_
    simp only [step, execCall, Call.needs, holds_iff.1 hh, if_true] at h
    rw [exec_busy hb (call := .grant p x) rfl] at h
    cases h
  have hs : s'.perms = grantPermission s.perms p x := by
    simp [step, execCall, Call.needs, holds_iff.1 hh, exec, grant, withGuard, guardEnter_free hf, ofMgmt, guardLeave] at h
    rw [← h]
  have key := fun q y => holds_grant (q := q) (y := y) hs
  have hyes : Holds s' p x := (key p x).2 (.inr ⟨rfl, rfl⟩)
  refine ⟨hyes, ?_, ?_⟩
  · intro q y hne
    rw [key]
    exact ⟨fun h => h.elim id (fun he => absurd (by rw [he.1, he.2]) hne), .inl⟩
  · intro c' hc'
    rw [holds_iff] at hc' hyes
    simp [hasPermissionQuery, guarded, hc', hyes]

/-- **C31.** Grants and revocations by an authority are accepted whenever no other
management call is in progress. -/
theorem C31_accepted (E : Env H) (s : State H) {c p : Principal} {now : Nat} {x : Permission}
    (hh : Holds s c .manageAuthorities) (hf : s.guards = []) :
    (step E s (.call c now (.grant p x))).2 = .mgmt (.ok .unit) ∧
    (step E s (.call c now (.revoke p x))).2 = .mgmt (.ok .unit) := by
  constructor
  · simp [step, execCall, Call.needs, holds_iff.1 hh, exec, grant, withGuard, guardEnter_free hf, ofMgmt]
  · simp [step, execCall, Call.needs, holds_iff.1 hh, exec, revoke, withGuard, guardEnter_free hf, ofMgmt]

/-- Granted twice, revoked once: gone. -/
example : (step Demo.env (run Demo.env Demo.s1 [Demo.grantMsg, Demo.grantMsg])
      (.call Demo.admin (Demo.ms 300) (.revoke [2] .minting))).2 = .mgmt (.ok .unit) ∧
    Holds (run Demo.env Demo.s1 [Demo.grantMsg, Demo.grantMsg]) [2] .minting ∧ Demo.s1.guards = [] := by
  refine ⟨by rfl, holds_iff.2 (by decide), by decide⟩

/-! ## C32: management calls exclude each other -/

/-- **C32.** At most one call is suspended at any time. -/
theorem C32_one (E : Env H) (s : State H) (hr : Reachable E s) : s.pending.length ≤ 1 := by
  rcases hr.pendInv.pend with h | ⟨p, h, _⟩ <;> simp [h]

/-- **C32.** While a call is suspended every management call is refused without
effect. -/
theorem C32_excluded (E : Env H) (s : State H) (hr : Reachable E s) (hp : s.pending ≠ [])
    {c : Principal} {now : Nat} {call : Call} (hm : managementCall call = true) :
    (step E s (.call c now call)).1 = s ∧
    ((step E s (.call c now call)).2 = .rejected ∨
      (step E s (.call c now call)).2 = .mgmt (.error .concurrentManagementCall)) := by
  have hg : s.guards ≠ [] := by
    rcases hr.pendInv.pend with h | ⟨p, _, h⟩
    · exact absurd h hp
    · simp [h]
  simp only [step, execCall]
  split
  · split
    · rw [exec_busy hg hm]; exact ⟨rfl, .inr rfl⟩
    · exact ⟨rfl, .inl rfl⟩
  · rw [exec_busy hg hm]; exact ⟨rfl, .inr rfl⟩

/-- **C32.** When the suspended call finishes, successfully, with an error or by a
trap, nothing is suspended any more and no later call is turned away because of
it. -/
theorem C32_released (E : Env H) (s : State H) (hr : Reachable E s) {i : Nat} {p : Pending}
    (hp : s.pending[i]? = some p) {m : Msg} (hm : m = .resumeTrap i ∨ ∃ now ans, m = .resume now i ans)
    (c : Principal) (now : Nat) (call : Call) :
    (step E s m).1.pending = [] ∧
    (step E (step E s m).1 (.call c now call)).2 ≠ .mgmt (.error .concurrentManagementCall) := by
  obtain ⟨h1, h2⟩ := hr.pendInv.leave hp
  have : (step E s m).1.pending = [] ∧ (step E s m).1.guards = [] := by
    rcases hm with rfl | ⟨now, ans, rfl⟩
    · simp [step, hp, guardLeave, h1, h2]
    · obtain ⟨_, _, _, _, he⟩ := resumeBody_eq E { s with pending := s.pending.eraseIdx i } now p ans
      simp only [step, hp, he]
      simp [guardLeave, h1, h2]
  exact ⟨this.1, execCall_free this.2⟩

/-- No upgrade happens while a call is suspended. -/
def Spec.CalmUpgrades (E : Env H) (s : State H) : List Msg → Prop
  | [] => True
  | m :: ms => (m = .upgrade → s.pending = []) ∧ CalmUpgrades E (step E s m).1 ms

private theorem guards_calm {E : Env H} {m : Msg} {s s' : State H} (hm : Micro E m s s')
    (hinv : PendInv s) (h : s.pending = [] → s.guards = []) (hu : m = .upgrade → s.pending = []) :
    s'.pending = [] → s'.guards = [] := by
  cases hm with
  | mint reqs md h' perm free batch cap memos hmd => rw [mintInsert_eq]; exact h
  | suspend p perm free hp hcall => intro hh; simp at hh
  | @resume _ now i ans p hp =>
    obtain ⟨_, _, _, _, he⟩ := resumeBody_eq E { s with pending := s.pending.eraseIdx i } now p ans
    rw [he]
    intro _
    simp [guardLeave, (hinv.leave hp).2]
  | @resumeTrap _ i p hp =>
    intro _
    simp [guardLeave, (hinv.leave hp).2]
  | upgrade => intro _; exact h (hu rfl)
  | _ => exact h

private theorem guards_calm_steps {E : Env H} {m : Msg} {s s' : State H} (hs : Steps E m s s')
    (hinv : PendInv s) (h : s.pending = [] → s.guards = []) (hu : m = .upgrade → s.pending = []) :
    s'.pending = [] → s'.guards = [] := by
  have := hs.induct (P := fun t => PendInv t ∧ (t.pending = [] → t.guards = []) ∧ (m = .upgrade → t.pending = []))
    (hp := ⟨hinv, h, hu⟩) (hmicro := by
      rintro t t' ⟨h1, h2, h3⟩ hm
      refine ⟨pendInv_micro h1 hm, guards_calm hm h1 h2 h3, ?_⟩
      rintro rfl
      cases hm with
      | upgrade => rfl
      | _ => exact h3 rfl)
  exact this.2.1

/-- **C32**, the part that holds: as long as no upgrade interrupts a suspended
call, a management call is turned away only while another one is suspended.
Missing: upgrades during a suspension (`C32_violated`). -/
theorem C32_admitted_partial (E : Env H) {v : String → Bool} {hid : H} {inst : Principal} {a : InitArgs}
    {s₀ : State H} (h0 : init v hid inst a = some s₀) (msgs : List Msg) (hcalm : CalmUpgrades E s₀ msgs)
    (hp : (run E s₀ msgs).pending = []) (c : Principal) (now : Nat) (call : Call) :
    (step E (run E s₀ msgs) (.call c now call)).2 ≠ .mgmt (.error .concurrentManagementCall) := by
  have key : ∀ (msgs : List Msg) (s : State H), PendInv s → (s.pending = [] → s.guards = []) →
      CalmUpgrades E s msgs → ((run E s msgs).pending = [] → (run E s msgs).guards = []) := by
    intro msgs
    induction msgs with
    | nil => intro s _ h _; exact h
    | cons m ms ih =>
      intro s hinv h hc
      refine ih _ ?_ (guards_calm_steps (step_steps E s m) hinv h hc.1) hc.2
      exact (step_steps E s m).induct (P := PendInv) (hp := hinv) (hmicro := fun _ _ h hm => pendInv_micro h hm)
  refine execCall_free (key msgs s₀ (pendInv_init h0) ?_ hcalm hp)
  intro _
  rw [init_eq h0]

/-- **C32 fails across upgrades.** The guard entry of a call that is suspended
during an upgrade is saved with the state, the call itself is not. From then on,
in every continuation, no call is ever suspended or admitted again. -/
theorem C32_stuck_after_upgrade (E : Env H) (s : State H) (hr : Reachable E s) (hp : s.pending ≠ [])
    (msgs : List Msg) {c : Principal} {now : Nat} {call : Call} (hm : managementCall call = true) :
    (run E (step E s .upgrade).1 msgs).pending = [] ∧
    ((step E (run E (step E s .upgrade).1 msgs) (.call c now call)).2 = .rejected ∨
      (step E (run E (step E s .upgrade).1 msgs) (.call c now call)).2 = .mgmt (.error .concurrentManagementCall)) := by
  have hg : s.guards ≠ [] := by
    rcases hr.pendInv.pend with h | ⟨p, _, h⟩
    · exact absurd h hp
    · simp [h]
  have key : (run E (step E s .upgrade).1 msgs).pending = [] ∧ (run E (step E s .upgrade).1 msgs).guards ≠ [] :=
    run_induct (E := E) (P := fun t => t.pending = [] ∧ t.guards ≠ [])
      (fun m t t' h hmi => by
        have := micro_guards hmi h.2 h.1
        exact ⟨this.2, by rw [this.1]; exact h.2⟩) msgs ⟨rfl, hg⟩
  refine ⟨key.1, ?_⟩
  generalize run E (step E s .upgrade).1 msgs = t at key
  simp only [step, execCall]
  split
  · split
    · rw [exec_busy key.2 hm]; exact .inr rfl
    · exact .inl rfl
  · rw [exec_busy key.2 hm]; exact .inr rfl

/-- **C32 is violated**: an upgrade while an upload is waiting for its storage
canister locks out all later administration, for ever; here even the
installer's. -/
theorem C32_violated : ∃ (s : State Nat), Reachable Demo.env s ∧ s.pending = [] ∧
    Holds s Demo.admin .minting ∧ ∀ (msgs : List Msg) (c : Principal) (now : Nat) (reqs : List MintReq),
      (step Demo.env (run Demo.env s msgs) (.call c now (.mint reqs))).2 = .rejected ∨
      (step Demo.env (run Demo.env s msgs) (.call c now (.mint reqs))).2 = .mgmt (.error .concurrentManagementCall) :=
  ⟨(step Demo.env Demo.sUp .upgrade).1, Demo.sUp_reach.step _, rfl, holds_iff.2 (by decide), fun msgs c now reqs =>
    (C32_stuck_after_upgrade Demo.env Demo.sUp Demo.sUp_reach (by decide) msgs (call := .mint reqs) rfl).2⟩

/-- A call is suspended, excludes another one, and releases the guard when its
answer arrives. -/
example : Demo.sUp.pending ≠ [] ∧
    (step Demo.env Demo.sUp Demo.grantMsg).2 = .mgmt (.error .concurrentManagementCall) ∧
    (step Demo.env (step Demo.env Demo.sUp (.resume (Demo.ms 300) 0 {})).1 Demo.grantMsg).2 = .mgmt (.ok .unit) := by
  refine ⟨by decide, by rfl, by rfl⟩

example : CalmUpgrades Demo.env Demo.s0
    [Demo.mintMsg, .call Demo.admin (Demo.ms 200) (.initUpload "/a.png" 10), .resume (Demo.ms 300) 0 {}, .upgrade] := by
  simp only [CalmUpgrades]
  refine ⟨nofun, nofun, nofun, fun _ => by decide, trivial⟩

/-! ## C38: upgrades preserve state -/

private theorem foldl_set_get (l : List (String × String)) (r : Map String String) (k : String)
    (hn : l.Pairwise fun a b => (a.1 == b.1) = false) :
    (l.foldl (fun r e => r.set e.1 e.2) r).get k = ((⟨l⟩ : Map String String).get k).or (r.get k) := by
  induction l generalizing r with
  | nil => rfl
  | cons e l ih =>
    rw [List.pairwise_cons] at hn
    rw [List.foldl_cons, ih _ hn.2, Map.get_set]
    show _ = (Map.getL (e :: l) k).or _
    by_cases hk : (e.1 == k) = true
    · have hnone : (⟨l⟩ : Map String String).get k = none := by
        rw [Map.get_eq_none]
        intro e' he'
        have := hn.1 e' he'
        simp at hk this ⊢
        subst hk
        exact fun h => this h.symm
      rw [hnone, if_pos hk]
      simp [Map.getL, hk]
    · rw [if_neg hk]
      simp only [Map.getL]
      rw [if_neg hk]
      rfl

/-- The router serves exactly the saved redirections. -/
structure RouteInv (s : State H) : Prop where
  nodup : s.redirects.NodupKeys
  same : ∀ k, s.router.get k = s.redirects.get k

theorem upgrade_router {s : State H} (h : s.redirects.NodupKeys) (k : String) :
    (upgrade s).router.get k = s.redirects.get k := by
  unfold upgrade
  dsimp only
  rw [foldl_set_get _ _ _ h]
  simp

theorem routeInv_micro {E : Env H} {m : Msg} {s s' : State H} (h : RouteInv s) (hm : Micro E m s s') : RouteInv s' := by
  cases hm with
  | mint reqs md h' perm free batch cap memos hmd => rw [mintInsert_eq]; exact ⟨h.nodup, h.same⟩
  | @resume _ now i ans p hp =>
    refine ⟨?_, ?_⟩ <;> simp only [resumeBody, guardLeave] <;> repeat' split
    all_goals try exact h.nodup
    all_goals try exact h.same
    · exact Map.nodup_set h.nodup _ _
    · intro k
      simp only [Map.get_set, h.same k]
  | upgrade => exact ⟨h.nodup, fun k => upgrade_router h.nodup k⟩
  | _ => exact ⟨h.nodup, h.same⟩

theorem Reachable.routeInv {E : Env H} {s : State H} (h : Reachable E s) : RouteInv s :=
  h.induct (fun _ _ _ _ _ h0 => by rw [init_eq h0]; exact ⟨Map.nodup_empty, fun _ => rfl⟩)
    (fun _ _ _ hp hm => routeInv_micro hp hm)

/-- **C38.** An upgrade at any point of any history changes no answer of any query,
no redirection and no recorded transaction. -/
theorem C38_upgrade (E : Env H) (s : State H) (hr : Reachable E s) :
    SameAnswers s (step E s .upgrade).1 ∧ (step E s .upgrade).1.log = s.log ∧
    (step E s .upgrade).1.hid = s.hid := by
  refine ⟨?_, rfl, rfl⟩
  constructor <;> try (intros; rfl)
  intro path
  have : (step E s .upgrade).1.router.get path = s.router.get path := by
    rw [hr.routeInv.same]; exact upgrade_router hr.routeInv.nodup path
  unfold httpRequest
  rw [this]

/-- A finalized upload whose redirection survives the upgrade. -/
def Demo.sFin : State Nat := run env s1
  [.call admin (ms 200) (.initUpload "/a.png" 10),
   .resume (ms 201) 0 { created := some { id := [5], installed := true }, newInitOk := true },
   .call admin (ms 202) (.storeChunk "/a.png"), .resume (ms 203) 0 {},
   .call admin (ms 204) (.finalizeUpload "/a.png"), .resume (ms 205) 0 {}]

theorem Demo.sFin_reach : Reachable env Demo.sFin := Demo.s1_reach.run _

example : httpRequest (step Demo.env Demo.sFin .upgrade).1 "/a.png" = .redirect "https://aaaaa-aa.raw.icp0.io/a.png" := by
  decide

/-! ## C39: installation arguments are the configuration -/

/-- **C39**, the part that holds: after the installation every configuration query
except `icrc7_permitted_drift` answers the corresponding argument. Missing:
`icrc7_permitted_drift` (`C39_drift`, `C39_violated`) and the entries of
`collection_metadata` (`C39_violated_metadata`). -/
theorem C39_config_partial {v : String → Bool} {hid : H} {inst : Principal} {a : InitArgs} {s : State H}
    (h : init v hid inst a = some s) :
    icrc7Symbol s = a.symbol ∧ icrc7Name s = a.name ∧ icrc7Description s = a.description ∧ icrc7Logo s = a.logo ∧
    icrc7SupplyCap s = a.supplyCap ∧ icrc7MaxQueryBatchSize s = a.maxQueryBatch ∧
    icrc7MaxUpdateBatchSize s = a.maxUpdateBatch ∧ icrc7MaxTakeValue s = a.maxTake ∧
    icrc7DefaultTakeValue s = a.defaultTake ∧ icrc7MaxMemoSize s = a.maxMemo ∧
    icrc7AtomicBatchTransfers s = a.atomicBatch ∧ icrc7TxWindow s = a.txWindow ∧
    icrc37MaxApprovals s = a.maxApprovals ∧ icrc37MaxRevokeApprovals s = a.maxRevoke ∧ totalSupply s = 0 := by
  rw [init_eq h]
  exact ⟨rfl, rfl, rfl, rfl, rfl, rfl, rfl, rfl, rfl, rfl, rfl, rfl, rfl, rfl, rfl⟩

/-- **C39.** The drift a new canister announces and uses is the argument
`max_canister_storage_threshold`, whatever `permitted_drift` was given. -/
theorem C39_drift {v : String → Bool} {hid : H} {inst : Principal} {a : InitArgs} {s : State H}
    (h : init v hid inst a = some s) : icrc7PermittedDrift s = a.maxStorageThreshold := by
  rw [init_eq h]; rfl

/-- **C39 is violated**: installed with a permitted drift of one minute, the
canister announces none. -/
theorem C39_violated : ∃ (a : InitArgs) (s : State Nat), init (fun _ => true) 0 [1] a = some s ∧
    a.permittedDrift = some 60000000000 ∧ icrc7PermittedDrift s = none :=
  ⟨{ permittedDrift := some 60000000000 }, _, rfl, rfl, rfl⟩

/-- **C39 is violated** for `collection_metadata`: the metadata given at the
installation are not shown, as the argument makes no difference. -/
theorem C39_violated_metadata : (∀ (H : Type) (v : String → Bool) (hid : H) (inst : Principal) (a : InitArgs)
      (m : List (String × Value)), init v hid inst { a with collectionMetadata := m } = init v hid inst a) ∧
    ∃ (a : InitArgs) (s : State Nat), init (fun _ => true) 0 [1] a = some s ∧
      a.collectionMetadata = [("website", .text "https://example.org")] ∧
      "website" ∉ (icrc7CollectionMetadata s).map Prod.fst :=
  ⟨fun _ _ _ _ _ _ => rfl, { collectionMetadata := [("website", .text "https://example.org")] }, _, rfl, rfl, by decide⟩

private theorem holds_foldl (c : Principal) (xs : List Permission) (ps : Map Principal (List Permission)) (q : Principal)
    (y : Permission) :
    hasPermission (xs.foldl (fun ps x => grantPermission ps c x) ps) q y = true ↔
      hasPermission ps q y = true ∨ (q = c ∧ y ∈ xs) := by
  induction xs generalizing ps with
  | nil => simp
  | cons x xs ih =>
    rw [List.foldl_cons, ih]
    have h1 : hasPermission (grantPermission ps c x) q y = true ↔ hasPermission ps q y = true ∨ (q = c ∧ y = x) := by
      unfold grantPermission hasPermission
      rw [Map.get_set]
      split
      · rename_i hpq
        have hpq : c = q := by simpa using hpq
        subst hpq
        cases hg : ps.get c with
        | none => simp
        | some l => simp
      · rename_i hpq
        have hne : q ≠ c := fun he => hpq (by simp [he])
        simp [hne]
    rw [h1]
    simp
    constructor
    · rintro ((h | h) | h)
      · exact .inl h
      · exact .inr ⟨h.1, .inl h.2⟩
      · exact .inr ⟨h.1, .inr h.2⟩
    · rintro (h | ⟨h1, h2 | h2⟩)
      · exact .inl (.inl h)
      · exact .inl (.inr ⟨h1, h2⟩)
      · exact .inr ⟨h1, h2⟩

/-- **C39.** Right after the installation exactly the permissions of the arguments
are held; in test mode the installer holds all of them too. -/
theorem C39_permissions {v : String → Bool} {hid : H} {inst : Principal} {a : InitArgs} {s : State H}
    (h : init v hid inst a = some s) (p : Principal) (x : Permission) :
    Holds s p x ↔ (∃ l, a.perms.get p = some l ∧ x ∈ l) ∨ (a.testMode = true ∧ p = inst) := by
  rw [holds_iff, init_eq h]
  dsimp only
  have harg : (∃ l, a.perms.get p = some l ∧ x ∈ l) ↔ hasPermission a.perms p x = true := by
    unfold hasPermission
    cases a.perms.get p <;> simp
  rw [harg]
  cases a.testMode with
  | false => simp
  | true =>
    simp only [if_true]
    rw [holds_foldl]
    have : x ∈ testPermissions := by cases x <;> decide
    simp [this]

/-- **C39.** When an installation is accepted: the logo is a valid URL, the time
window fits 64 bits, and the approval limits are not zero. -/
theorem C39_accepted (v : String → Bool) (hid : H) (inst : Principal) (a : InitArgs) :
    (∃ s, init v hid inst a = some s) ↔
      (∀ u, a.logo = some u → v u = true) ∧ (∀ w, a.txWindow = some w → w < 18446744073709551616) ∧
      a.maxRevoke ≠ some 0 ∧ a.maxApprovals ≠ some 0 := by
  unfold init
  constructor
  · rintro ⟨s, h⟩
    split at h
    · cases h
    rename_i h1
    split at h
    · cases h
    rename_i h2
    split at h
    · cases h
    rename_i h3
    split at h
    · cases h
    rename_i h4
    refine ⟨?_, ?_, h3, h4⟩
    · intro u hu
      rw [hu] at h1
      simpa using h1
    · intro w hw
      rw [hw] at h2
      simp [U64] at h2
      exact Nat.lt_of_not_le (of_decide_eq_false h2)
  · rintro ⟨h1, h2, h3, h4⟩
    rw [if_neg, if_neg, if_neg h3, if_neg h4]
    · exact ⟨_, rfl⟩
    · cases hw : a.txWindow with
      | none => simp
      | some w => have := h2 w hw; simp [U64]; exact decide_eq_false (Nat.not_le.2 this)
    · cases hl : a.logo with
      | none => simp
      | some u => simpa using h1 u hl

example : Holds Demo.s0 Demo.admin .minting ∧ ¬ Holds Demo.s0 [2] .minting := by
  refine ⟨holds_iff.2 (by decide), fun h => absurd (holds_iff.1 h) (by decide)⟩

/-! ## C40: collection metadata updates change exactly the given fields -/

/-- The settings after an update, field by field. -/
theorem applyUpdate_eq (c : Config) (a : UpdateCollArg) : applyUpdate c a =
    { c with description := a.description.or c.description,
             symbol := a.symbol.getD c.symbol,
             name := a.name.getD c.name,
             logo := a.logo.or c.logo,
             supplyCap := a.supplyCap.or c.supplyCap,
             maxQueryBatch := a.maxQueryBatch.or c.maxQueryBatch,
             maxUpdateBatch := a.maxUpdateBatch.or c.maxUpdateBatch,
             maxTake := a.maxTake.or c.maxTake,
             defaultTake := a.defaultTake.or c.defaultTake,
             maxMemo := a.maxMemo.or c.maxMemo,
             atomicBatch := a.atomicBatch.or c.atomicBatch,
             txWindow := a.txWindow.or c.txWindow,
             permittedDrift := a.permittedDrift.or c.permittedDrift,
             maxStorageThreshold := a.maxStorageThreshold.or c.maxStorageThreshold } := by
  have e0 : ∀ (o : Option String) (c : Config), setIf o (fun v c => { c with description := some v }) c =
      { c with description := o.or c.description } := by intro o c; cases o <;> rfl
  have e1 : ∀ (o : Option String) (c : Config), setIf o (fun v c => { c with symbol := v }) c =
      { c with symbol := o.getD c.symbol } := by intro o c; cases o <;> rfl
  have e2 : ∀ (o : Option String) (c : Config), setIf o (fun v c => { c with name := v }) c =
      { c with name := o.getD c.name } := by intro o c; cases o <;> rfl
  have e3 : ∀ (o : Option String) (c : Config), setIf o (fun v c => { c with logo := some v }) c =
      { c with logo := o.or c.logo } := by intro o c; cases o <;> rfl
  have e4 : ∀ (o : Option Nat) (c : Config), setIf o (fun v c => { c with supplyCap := some v }) c =
      { c with supplyCap := o.or c.supplyCap } := by intro o c; cases o <;> rfl
  have e5 : ∀ (o : Option Nat) (c : Config), setIf o (fun v c => { c with maxQueryBatch := some v }) c =
      { c with maxQueryBatch := o.or c.maxQueryBatch } := by intro o c; cases o <;> rfl
  have e6 : ∀ (o : Option Nat) (c : Config), setIf o (fun v c => { c with maxUpdateBatch := some v }) c =
      { c with maxUpdateBatch := o.or c.maxUpdateBatch } := by intro o c; cases o <;> rfl
  have e7 : ∀ (o : Option Nat) (c : Config), setIf o (fun v c => { c with maxTake := some v }) c =
      { c with maxTake := o.or c.maxTake } := by intro o c; cases o <;> rfl
  have e8 : ∀ (o : Option Nat) (c : Config), setIf o (fun v c => { c with defaultTake := some v }) c =
      { c with defaultTake := o.or c.defaultTake } := by intro o c; cases o <;> rfl
  have e9 : ∀ (o : Option Nat) (c : Config), setIf o (fun v c => { c with maxMemo := some v }) c =
      { c with maxMemo := o.or c.maxMemo } := by intro o c; cases o <;> rfl
  have e10 : ∀ (o : Option Bool) (c : Config), setIf o (fun v c => { c with atomicBatch := some v }) c =
      { c with atomicBatch := o.or c.atomicBatch } := by intro o c; cases o <;> rfl
  have e11 : ∀ (o : Option Nat) (c : Config), setIf o (fun v c => { c with txWindow := some v }) c =
      { c with txWindow := o.or c.txWindow } := by intro o c; cases o <;> rfl
  have e12 : ∀ (o : Option Nat) (c : Config), setIf o (fun v c => { c with permittedDrift := some v }) c =
      { c with permittedDrift := o.or c.permittedDrift } := by intro o c; cases o <;> rfl
  have e13 : ∀ (o : Option Nat) (c : Config), setIf o (fun v c => { c with maxStorageThreshold := some v }) c =
      { c with maxStorageThreshold := o.or c.maxStorageThreshold } := by intro o c; cases o <;> rfl
  simp only [applyUpdate, e0, e1, e2, e3, e4, e5, e6, e7, e8, e9, e10, e11, e12, e13]

/-- **C40**, the part that holds: an accepted `update_collection_metadata` sets the
fields present in the request and changes nothing else. Missing: the field
`collection_metadata` (`C40_metadata_ignored`, `C40_violated`). -/
theorem C40_exact_partial (E : Env H) (s s' : State H) {c : Principal} {now : Nat} {a : UpdateCollArg} {r : MgmtOk}
    (h : step E s (.call c now (.updateCollectionMetadata a)) = (s', .mgmt (.ok r))) :
    icrc7Description s' = a.description.or (icrc7Description s) ∧
    icrc7Symbol s' = a.symbol.getD (icrc7Symbol s) ∧
    icrc7Name s' = a.name.getD (icrc7Name s) ∧
    icrc7Logo s' = a.logo.or (icrc7Logo s) ∧
    icrc7SupplyCap s' = a.supplyCap.or (icrc7SupplyCap s) ∧
    icrc7MaxQueryBatchSize s' = a.maxQueryBatch.or (icrc7MaxQueryBatchSize s) ∧
    icrc7MaxUpdateBatchSize s' = a.maxUpdateBatch.or (icrc7MaxUpdateBatchSize s) ∧
    icrc7MaxTakeValue s' = a.maxTake.or (icrc7MaxTakeValue s) ∧
    icrc7DefaultTakeValue s' = a.defaultTake.or (icrc7DefaultTakeValue s) ∧
    icrc7MaxMemoSize s' = a.maxMemo.or (icrc7MaxMemoSize s) ∧
    icrc7AtomicBatchTransfers s' = a.atomicBatch.or (icrc7AtomicBatchTransfers s) ∧
    icrc7TxWindow s' = a.txWindow.or (icrc7TxWindow s) ∧
    icrc7PermittedDrift s' = a.permittedDrift.or (icrc7PermittedDrift s) ∧
    s'.cfg.maxStorageThreshold = a.maxStorageThreshold.or s.cfg.maxStorageThreshold ∧
    icrc37MaxApprovals s' = icrc37MaxApprovals s ∧ icrc37MaxRevokeApprovals s' = icrc37MaxRevokeApprovals s ∧
    s' = { s with cfg := s'.cfg } := by
  have hh : Holds s c .updateCollectionMetadata := by
    refine Classical.byContradiction fun hno => ?_
    rw [C29_rejected E s (call := .updateCollectionMetadata a) rfl hno] at h
    cases h
  have hf : s.guards = [] := by
    refine Classical.byContradiction fun hb => ?_
    simp only [step, execCall, Call.needs, holds_iff.1 hh, if_true] at h
    rw [exec_busy hb (call := .updateCollectionMetadata a) rfl] at h
    cases h
  have hs : s' = { s with cfg := applyUpdate s.cfg a } := by
    simp [step, execCall, Call.needs, holds_iff.1 hh, exec, updateCollectionMetadata, withGuard, guardEnter_free hf,
      ofMgmt, guardLeave] at h
    rw [← h.1]
    cases s; simp at hf; simp [hf]
  subst hs
  simp only [icrc7Description, icrc7Symbol, icrc7Name, icrc7Logo, icrc7SupplyCap, icrc7MaxQueryBatchSize,
    icrc7MaxUpdateBatchSize, icrc7MaxTakeValue, icrc7DefaultTakeValue, icrc7MaxMemoSize, icrc7AtomicBatchTransfers,
    icrc7TxWindow, icrc7PermittedDrift, icrc37MaxApprovals, icrc37MaxRevokeApprovals, applyUpdate_eq, and_self]

/-- **C40.** The update is accepted whenever the caller holds the permission and no
other management call is in progress. -/
theorem C40_accepted (E : Env H) (s : State H) {c : Principal} {now : Nat} {a : UpdateCollArg}
    (hh : Holds s c .updateCollectionMetadata) (hf : s.guards = []) :
    (step E s (.call c now (.updateCollectionMetadata a))).2 = .mgmt (.ok .unit) := by
  simp [step, execCall, Call.needs, holds_iff.1 hh, exec, updateCollectionMetadata, withGuard, guardEnter_free hf, ofMgmt]

/-- **C40.** The field `collection_metadata` of the request makes no difference. -/
theorem C40_metadata_ignored (E : Env H) (s : State H) (c : Principal) (now : Nat) (a : UpdateCollArg)
    (m : Option (List (String × Value))) :
    step E s (.call c now (.updateCollectionMetadata { a with collectionMetadata := m })) =
      step E s (.call c now (.updateCollectionMetadata a)) := rfl

/-- **C40 is violated** for the field `collection_metadata`: the request to add a
website to the collection's metadata is answered `Ok`, and nothing changes. -/
theorem C40_violated : ∃ (s : State Nat) (a : UpdateCollArg), Reachable Demo.env s ∧
    a.collectionMetadata = some [("website", .text "https://example.org")] ∧
    (step Demo.env s (.call Demo.admin (Demo.ms 200) (.updateCollectionMetadata a))).2 = .mgmt (.ok .unit) ∧
    (step Demo.env s (.call Demo.admin (Demo.ms 200) (.updateCollectionMetadata a))).1 = s ∧
    "website" ∉ (icrc7CollectionMetadata
      (step Demo.env s (.call Demo.admin (Demo.ms 200) (.updateCollectionMetadata a))).1).map Prod.fst :=
  ⟨Demo.s1, { collectionMetadata := some [("website", .text "https://example.org")] }, Demo.s1_reach, rfl, rfl, rfl,
    by decide⟩

/-- A new name and a new cap; the rest stays. -/
example : (step Demo.env Demo.s1 (.call Demo.admin (Demo.ms 200)
    (.updateCollectionMetadata { name := some "new", supplyCap := some 5 }))).2 = .mgmt (.ok .unit) := by rfl

/-! ## C59: the collection metadata page -/

/-- **C59.** `icrc7_collection_metadata` lists exactly the settings that are set,
with the values the single queries give. -/
theorem C59_entries (s : State H) (k : String) (v : Value) :
    (k, v) ∈ icrc7CollectionMetadata s ↔
      (k = "icrc7:symbol" ∧ v = .text (icrc7Symbol s)) ∨
      (k = "icrc7:name" ∧ v = .text (icrc7Name s)) ∨
      (k = "icrc7:total_supply" ∧ v = .nat (totalSupply s)) ∨
      (k = "icrc7:description" ∧ ∃ d, icrc7Description s = some d ∧ v = .text d) ∨
      (k = "icrc7:logo" ∧ ∃ d, icrc7Logo s = some d ∧ v = .text d) ∨
      (k = "icrc7:supply_cap" ∧ ∃ n, icrc7SupplyCap s = some n ∧ v = .nat n) ∨
      (k = "icrc7:max_query_batch_size" ∧ ∃ n, icrc7MaxQueryBatchSize s = some n ∧ v = .nat n) ∨
      (k = "icrc7:max_update_batch_size" ∧ ∃ n, icrc7MaxUpdateBatchSize s = some n ∧ v = .nat n) ∨
      (k = "icrc7:default_take_value" ∧ ∃ n, icrc7DefaultTakeValue s = some n ∧ v = .nat n) ∨
      (k = "icrc7:max_take_value" ∧ ∃ n, icrc7MaxTakeValue s = some n ∧ v = .nat n) ∨
      (k = "icrc7:max_memo_size" ∧ ∃ n, icrc7MaxMemoSize s = some n ∧ v = .nat n) ∨
      (k = "icrc7:atomic_batch_transfers" ∧ ∃ b, icrc7AtomicBatchTransfers s = some b ∧
        v = .text (if b then "true" else "false")) ∨
      (k = "icrc7:tx_window" ∧ ∃ n, icrc7TxWindow s = some n ∧ v = .nat n) ∨
      (k = "icrc7:permitted_drift" ∧ ∃ n, icrc7PermittedDrift s = some n ∧ v = .nat n) := by
  have opt : ∀ (key : String) (o : Option Value), (k, v) ∈ (o.map fun w => (key, w)).toList ↔ k = key ∧ o = some v := by
    intro key o
    cases o with
    | none => simp
    | some w => simp; exact fun _ => eq_comm
  unfold icrc7CollectionMetadata
  dsimp only
  rw [(sortBy_perm _ _).mem_iff]
  simp only [List.mem_append, opt, List.mem_cons, List.not_mem_nil, or_false, Prod.mk.injEq, Option.map_eq_some_iff,
    icrc7Description, icrc7Symbol, icrc7Name, icrc7Logo, icrc7SupplyCap, icrc7MaxQueryBatchSize,
    icrc7MaxUpdateBatchSize, icrc7MaxTakeValue, icrc7DefaultTakeValue, icrc7MaxMemoSize, icrc7AtomicBatchTransfers,
    icrc7TxWindow, icrc7PermittedDrift, eq_comm (b := v), or_assoc]

/-- **C59.** The keys are listed in increasing order, hence each at most once. -/
theorem C59_sorted (s : State H) :
    ((icrc7CollectionMetadata s).map Prod.fst).Pairwise fun a b => a ≤ b ∧ a ≠ b := by
  unfold icrc7CollectionMetadata
  dsimp only
  have opt : ∀ (key : String) (o : Option Value), ((o.map fun w => (key, w)).toList.map Prod.fst).Sublist [key] := by
    intro key o
    cases o with
    | none => simp
    | some w => simp
  have hsorted := fun l => sortBy_sorted (A := String × Value) (le := fun a b => decide (a.1 ≤ b.1))
    (by intro a b h; simp at h ⊢; exact (String.le_total _ _).resolve_left (fun h' => String.not_le.2 h h'))
    (by intro a b c h1 h2; simp at h1 h2 ⊢; exact String.le_trans h1 h2) l
  refine List.Pairwise.and ?_ ?_
  · rw [List.pairwise_map]
    exact (hsorted _).imp (fun h => by simpa using h)
  · refine (List.Perm.nodup_iff ((sortBy_perm _ _).map _)).2 ?_
    refine List.Nodup.sublist (l₂ := ["icrc7:symbol", "icrc7:name", "icrc7:total_supply"] ++ ["icrc7:description"] ++
      ["icrc7:logo"] ++ ["icrc7:supply_cap"] ++ ["icrc7:max_query_batch_size"] ++ ["icrc7:max_update_batch_size"] ++
      ["icrc7:default_take_value"] ++ ["icrc7:max_take_value"] ++ ["icrc7:max_memo_size"] ++
      ["icrc7:atomic_batch_transfers"] ++ ["icrc7:tx_window"] ++ ["icrc7:permitted_drift"]) ?_ (by decide)
    simp only [List.map_append]
    repeat' apply List.Sublist.append
    all_goals first | exact opt _ _ | exact List.Sublist.refl _

example : icrc7CollectionMetadata Demo.s1 =
    [("icrc7:name", .text ""), ("icrc7:symbol", .text ""), ("icrc7:total_supply", .nat 3)] := by decide

end Verif
