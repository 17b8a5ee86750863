import Verif.Lemmas.Replay
import Verif.Spec.Admin
/-!
# Suspended management calls and the guard that serialises them
-/
namespace Verif

open Spec

variable {H : Type}

/-- At most one call is suspended, and it holds the guard; the guard set has at
most one element. -/
structure PendInv (s : State H) : Prop where
  pend : s.pending = [] ∨ ∃ p, s.pending = [p] ∧ s.guards = [p.caller]
  one : s.guards.length ≤ 1

theorem pendInv_init {v : String → Bool} {hid : H} {c : Principal} {a : InitArgs} {s : State H}
    (h : init v hid c a = some s) : PendInv s := by
  rw [init_eq h]; exact ⟨.inl rfl, by simp⟩

theorem pendInv_of_eq {s s' : State H} (h : PendInv s) (hp : s'.pending = s.pending) (hg : s'.guards = s.guards) :
    PendInv s' := by
  constructor
  · rw [hp, hg]; exact h.pend
  · rw [hg]; exact h.one

theorem PendInv.leave {s : State H} (h : PendInv s) {i : Nat} {p : Pending} (hp : s.pending[i]? = some p) :
    s.pending.eraseIdx i = [] ∧ s.guards = [p.caller] := by
  rcases h.pend with h0 | ⟨q, h0, hg⟩
  · rw [h0] at hp; simp at hp
  · rw [h0] at hp ⊢
    cases i with
    | zero => simp at hp; subst hp; exact ⟨rfl, hg⟩
    | succ i => simp at hp

theorem pendInv_micro {E : Env H} {m : Msg} {s s' : State H} (h : PendInv s) (hm : Micro E m s s') : PendInv s' := by
  cases hm with
  | mint reqs md h' perm free batch cap memos hmd => rw [mintInsert_eq]; exact pendInv_of_eq h rfl rfl
  | @suspend _ c now call p perm free hp hcall =>
    have h0 : s.pending = [] := by
      rcases h.pend with h0 | ⟨q, _, hg⟩
      · exact h0
      · rw [free] at hg; cases hg
    exact ⟨.inr ⟨p, by simp [h0], by rw [hp]⟩, by simp⟩
  | @resume _ now i ans p hp =>
    obtain ⟨_, _, _, _, he⟩ := resumeBody_eq E { s with pending := s.pending.eraseIdx i } now p ans
    rw [he]
    obtain ⟨h1, h2⟩ := h.leave hp
    exact ⟨.inl h1, by simp [guardLeave, h2]⟩
  | @resumeTrap _ i p hp =>
    obtain ⟨h1, h2⟩ := h.leave hp
    exact ⟨.inl h1, by simp [guardLeave, h2]⟩
  | upgrade => exact ⟨.inl rfl, h.one⟩
  | _ => exact pendInv_of_eq h rfl rfl

theorem Reachable.pendInv {E : Env H} {s : State H} (h : Reachable E s) : PendInv s :=
  h.induct (fun _ _ _ _ _ h0 => pendInv_init h0) (fun _ _ _ hp hm => pendInv_micro hp hm)

/-- What is answered to a management call while the guard is taken. -/
theorem exec_busy {E : Env H} {s : State H} (hb : s.guards ≠ []) {c : Principal} {now : Nat} {call : Call}
    (hm : managementCall call = true) :
    exec E s c now call = (s, .mgmt (.error .concurrentManagementCall)) := by
  cases call with
  | updateCollectionMetadata a => simp [exec, updateCollectionMetadata, withGuard, guardEnter_busy hb, ofMgmt]
  | mint reqs => simp [exec, mint, withGuard, guardEnter_busy hb, ofMgmt]
  | updateNftMetadata tid kvs => simp [exec, updateNftMetadata, withGuard, guardEnter_busy hb, ofMgmt]
  | burn tid => simp [exec, burnNft, withGuard, guardEnter_busy hb, ofMgmt]
  | grant p x => simp [exec, grant, withGuard, guardEnter_busy hb, ofMgmt]
  | revoke p x => simp [exec, revoke, withGuard, guardEnter_busy hb, ofMgmt]
  | initUpload path size => simp [exec, initUpload, withGuardAsync, guardEnter_busy hb, ofStarted]
  | storeChunk path => simp [exec, storeChunk, withGuardAsync, guardEnter_busy hb, ofStarted]
  | finalizeUpload path => simp [exec, finalizeUpload, withGuardAsync, guardEnter_busy hb, ofStarted]
  | cancelUpload path => simp [exec, cancelUpload, withGuardAsync, guardEnter_busy hb, ofStarted]
  | _ => cases hm

private theorem ofMgmt_free {s : State H} (hf : s.guards = []) {c : Principal} {body : State H → Option (MgmtRes H)}
    (hb : ∀ t, ∀ u, body t = some u → u.2 ≠ .error .concurrentManagementCall) :
    (ofMgmt s (withGuard s c body)).2 ≠ .mgmt (.error .concurrentManagementCall) := by
  unfold withGuard
  rw [guardEnter_free hf]
  dsimp only
  cases hbd : body { s with guards := [c] } with
  | none => simp [ofMgmt]
  | some u =>
    have := hb _ _ hbd
    obtain ⟨u1, u2⟩ := u
    simp only [ofMgmt]
    intro h
    injection h with h
    exact this h

private theorem ofStarted_free {s : State H} (hf : s.guards = []) {c : Principal}
    {body : State H → State H × (Except MgmtErr MgmtOk ⊕ Pending)}
    (hb : ∀ t, (body t).2 ≠ .inl (.error .concurrentManagementCall)) :
    (ofStarted (withGuardAsync s c body)).2 ≠ .mgmt (.error .concurrentManagementCall) := by
  unfold withGuardAsync
  rw [guardEnter_free hf]
  dsimp only
  have := hb { s with guards := [c] }
  generalize body { s with guards := [c] } = q at this
  obtain ⟨u, r⟩ := q
  cases r with
  | inl r =>
    simp only [ofStarted]
    intro h
    injection h with h
    exact this (by rw [h])
  | inr p => simp [ofStarted]

private theorem callStorage_ne (s : State H) (key : String) (u : Upload) (p : Pending) :
    (callStorage s key u p).2 ≠ .inl (.error .concurrentManagementCall) := by
  unfold callStorage
  split
  · simp
  · split <;> simp

/-- No management call is turned away while the guard is free. -/
theorem exec_free {E : Env H} {s : State H} (hf : s.guards = []) {c : Principal} {now : Nat} {call : Call} :
    (exec E s c now call).2 ≠ .mgmt (.error .concurrentManagementCall) := by
  have batch : ∀ (o : Option (State H × List (Except TokErr Nat))),
      (ofBatch s o).2 ≠ .mgmt (.error .concurrentManagementCall) := by
    intro o; cases o <;> simp [ofBatch]
  cases call with
  | transfer args => exact batch _
  | approveTokens args => exact batch _
  | approveCollection args => exact batch _
  | revokeTokens args =>
    simp only [exec]
    split <;> simp
  | revokeCollection args => exact batch _
  | transferFrom args => exact batch _
  | updateCollectionMetadata a =>
    refine ofMgmt_free hf ?_
    intro t u h
    simp at h
    rw [← h]; simp
  | mint reqs =>
    refine ofMgmt_free hf ?_
    intro t u h
    split at h
    · simp at h; rw [← h]; simp
    split at h
    · simp at h; rw [← h]; simp
    split at h
    · cases h
    · simp at h; rw [← h]; simp
    dsimp only at h
    split at h
    · cases h
    split at h
    · simp at h; rw [← h]; simp
    · simp at h; rw [← h]; simp
  | updateNftMetadata tid kvs =>
    refine ofMgmt_free hf ?_
    intro t u h
    split at h
    · simp at h; rw [← h]; simp
    dsimp only at h
    split at h
    · cases h
    split at h
    · simp at h; rw [← h]; simp
    · simp at h; rw [← h]; simp
  | burn tid =>
    refine ofMgmt_free hf ?_
    intro t u h
    split at h
    · simp at h; rw [← h]; simp
    split at h
    · simp at h; rw [← h]; simp
    split at h
    · simp at h; rw [← h]; simp
    · simp at h; rw [← h]; simp
  | initUpload path size =>
    refine ofStarted_free hf ?_
    intro t
    split
    · simp
    split <;> simp
  | storeChunk path =>
    refine ofStarted_free hf ?_
    intro t
    split
    · simp
    split
    · simp
    · exact callStorage_ne _ _ _ _
    · exact callStorage_ne _ _ _ _
  | finalizeUpload path =>
    refine ofStarted_free hf ?_
    intro t
    split
    · simp
    split
    · simp
    · simp
    · exact callStorage_ne _ _ _ _
  | cancelUpload path =>
    refine ofStarted_free hf ?_
    intro t
    split
    · simp
    split
    · simp
    · exact callStorage_ne _ _ _ _
    · exact callStorage_ne _ _ _ _
  | grant p x =>
    refine ofMgmt_free hf ?_
    intro t u h
    simp at h
    rw [← h]; simp
  | revoke p x =>
    refine ofMgmt_free hf ?_
    intro t u h
    simp at h
    rw [← h]; simp

theorem execCall_free {E : Env H} {s : State H} (hf : s.guards = []) {c : Principal} {now : Nat} {call : Call} :
    (step E s (.call c now call)).2 ≠ .mgmt (.error .concurrentManagementCall) := by
  simp only [step, execCall]
  split
  · split
    · exact exec_free hf
    · simp
  · exact exec_free hf

/-- The guard set is changed only by a suspension and by the end of a suspended
call. -/
theorem micro_guards {E : Env H} {m : Msg} {s s' : State H} (h : Micro E m s s') (hg : s.guards ≠ []) (hp : s.pending = []) :
    s'.guards = s.guards ∧ s'.pending = [] := by
  cases h with
  | mint reqs md h' perm free batch cap memos hmd => exact absurd free hg
  | suspend p perm free hp hcall => exact absurd free hg
  | resume p hp' => rw [hp] at hp'; simp at hp'
  | resumeTrap p hp' => rw [hp] at hp'; simp at hp'
  | upgrade => exact ⟨rfl, rfl⟩
  | _ => exact ⟨rfl, hp⟩

/-- How the set of suspended calls grows. -/
theorem micro_pending {E : Env H} {m : Msg} {s s' : State H} (h : Micro E m s s') {p : Pending} (hp : p ∈ s'.pending) :
    p ∈ s.pending ∨ ∃ now call, m = .call p.caller now call ∧ call.needs = some .updateUploads ∧
      Holds s p.caller .updateUploads := by
  cases h with
  | mint reqs md h' perm free batch cap memos hmd => rw [mintInsert_eq] at hp; exact .inl hp
  | @suspend _ c now call q perm free hq hcall =>
    rcases List.mem_append.1 hp with h | h
    · exact .inl h
    · simp at h
      subst h
      subst hq
      refine .inr ⟨now, call, rfl, ?_, holds_iff.2 perm⟩
      rcases hcall with ⟨_, _, rfl, _⟩ | ⟨_, _, rfl, _⟩ | ⟨_, _, rfl, _⟩ | ⟨_, _, rfl, _⟩ <;> rfl
  | @resume _ now i ans q hq =>
    obtain ⟨_, _, _, _, he⟩ := resumeBody_eq E { s with pending := s.pending.eraseIdx i } now q ans
    rw [he] at hp
    exact .inl (List.mem_of_mem_eraseIdx hp)
  | @resumeTrap _ i q hq => exact .inl (List.mem_of_mem_eraseIdx hp)
  | upgrade => cases hp
  | _ => exact .inl hp

end Verif
