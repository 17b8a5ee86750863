import Verif.Lemmas.Background
import Verif.Lemmas.Pending
import Verif.Spec.Moments
/-!
# Waiting calls and trades do not meet: helper lemmas
-/
namespace Verif.Spec.Moments

open Background

variable {H : Type}

/-- The state while a call of `c` waits. -/
def hold (c : Principal) (p : Pending) (s : State H) : State H := { s with guards := [c], pending := [p] }

/-- Two states agree behind the floor. -/
structure SameBack (s s' : State H) : Prop where
  perms : s'.perms = s.perms
  subs : s'.subs = s.subs
  redirects : s'.redirects = s.redirects
  guards : s'.guards = s.guards
  uploads : s'.uploads = s.uploads
  mdata : s'.mdata = s.mdata
  router : s'.router = s.router
  pending : s'.pending = s.pending

theorem SameBack.rfl' (s : State H) : SameBack s s := ⟨rfl, rfl, rfl, rfl, rfl, rfl, rfl, rfl⟩

theorem SameBack.trans {s t u : State H} (h : SameBack s t) (h' : SameBack t u) : SameBack s u :=
  ⟨h'.perms.trans h.perms, h'.subs.trans h.subs, h'.redirects.trans h.redirects, h'.guards.trans h.guards,
    h'.uploads.trans h.uploads, h'.mdata.trans h.mdata, h'.router.trans h.router, h'.pending.trans h.pending⟩

theorem ext_back {s s' : State H} (h : SameBack s s') (hf : floor s' = floor s) : s' = s := by
  have := floor_iff.2 hf
  cases s; cases s'
  obtain ⟨h1, h2, h3, h4, h5, h6, h7, h8⟩ := h
  obtain ⟨g1, g2, g3, g4, g5, g6, g7, g8, g9⟩ := this
  dsimp only at *
  subst h1 h2 h3 h4 h5 h6 h7 h8 g1 g2 g3 g4 g5 g6 g7 g8 g9
  rfl

theorem micro_back {E : Env H} {m : Msg} (ht : isTrade m = true) {s s' : State H} (hm : Micro E m s s') : SameBack s s' := by
  cases hm with
  | mint => cases ht
  | mintCut => cases ht
  | updateMeta => cases ht
  | updateMetaCut => cases ht
  | burn => cases ht
  | config => cases ht
  | grant => cases ht
  | revoke => cases ht
  | suspend p perm free hp hcall =>
    rcases hcall with ⟨_, _, h, _⟩ | ⟨_, _, h, _⟩ | ⟨_, _, h, _⟩ | ⟨_, _, h, _⟩ <;> subst h <;> cases ht
  | dropUpload key u perm free hu hst hgone hcall =>
    rcases hcall with h | h | h <;> subst h <;> cases ht
  | resume => cases ht
  | resumeTrap => cases ht
  | upgrade => cases ht
  | _ => exact ⟨rfl, rfl, rfl, rfl, rfl, rfl, rfl, rfl⟩

theorem trade_back (E : Env H) (s : State H) {m : Msg} (ht : isTrade m = true) : SameBack s (step E s m).1 :=
  Steps.induct (P := SameBack s) (fun _ _ h hm => h.trans (micro_back ht hm)) (step_steps E s m) (SameBack.rfl' s)

theorem floor_hold (c : Principal) (p : Pending) (s : State H) : floor (hold c p s) = floor s := rfl

/-- A trade goes on as usual while a call waits. -/
theorem trade_hold (E : Env H) (s : State H) {m : Msg} (ht : isTrade m = true) (c : Principal) (p : Pending) :
    step E (hold c p s) m = (hold c p (step E s m).1, (step E s m).2) := by
  have h1 := trade_floor E s ht
  have h2 := trade_floor E (hold c p s) ht
  rw [floor_hold, h1] at h2
  have e1 : floor (step E (hold c p s) m).1 = floor (step E s m).1 := (congrArg Prod.fst h2).symm
  have e2 : (step E (hold c p s) m).2 = (step E s m).2 := (congrArg Prod.snd h2).symm
  have b := trade_back E s ht
  have b' := trade_back E (hold c p s) ht
  refine Prod.ext (ext_back ⟨?_, ?_, ?_, ?_, ?_, ?_, ?_, ?_⟩ e1) e2
  · exact b'.perms.trans b.perms.symm
  · exact b'.subs.trans b.subs.symm
  · exact b'.redirects.trans b.redirects.symm
  · exact b'.guards
  · exact b'.uploads.trans b.uploads.symm
  · exact b'.mdata.trans b.mdata.symm
  · exact b'.router.trans b.router.symm
  · exact b'.pending

theorem ofBatch_waits {s : State H} {x : Option (State H × List (Except TokErr Nat))} :
    (ofBatch s x).2 ≠ .suspended := by
  unfold ofBatch; split <;> simp

theorem ofMgmt_waits {s : State H} {x : Option (MgmtRes H)} : (ofMgmt s x).2 ≠ .suspended := by
  unfold ofMgmt; split <;> simp

theorem async_back {s s' : State H} (h : SameBack s s') (h0 : s.pending = []) {c : Principal}
    {b : State H → State H × (Except MgmtErr MgmtOk ⊕ Pending)}
    (hb : ∀ t t' : State H, SameBack t t' → ∀ p, (b t).2 = .inr p → b t = (t, .inr p) ∧ b t' = (t', .inr p))
    (hw : (ofStarted (withGuardAsync s c b)).2 = .suspended) :
    ∃ p, ofStarted (withGuardAsync s c b) = (hold c p s, .suspended) ∧
      ofStarted (withGuardAsync s' c b) = (hold c p s', .suspended) := by
  unfold withGuardAsync at hw ⊢
  by_cases hg : s.guards = []
  · have e : ∀ t : State H, t.guards = [] → guardEnter t c = some { t with guards := [c] } := by
      intro t ht; simp [guardEnter, ht, maxConcurrent]
    have hg' : s'.guards = [] := h.guards.trans hg
    rw [e s hg, e s' hg'] at *
    dsimp only at hw ⊢
    cases hx : (b { s with guards := [c] }).2 with
    | inl r =>
      exfalso
      have : b { s with guards := [c] } = ((b { s with guards := [c] }).1, .inl r) := Prod.ext rfl hx
      rw [this] at hw
      cases hw
    | inr p =>
      obtain ⟨h1, h2⟩ := hb { s with guards := [c] } { s' with guards := [c] }
        ⟨h.perms, h.subs, h.redirects, rfl, h.uploads, h.mdata, h.router, h.pending⟩ p hx
      rw [h1, h2]
      refine ⟨p, ?_, ?_⟩
      · simp [ofStarted, hold, h0]
      · simp [ofStarted, hold, h.pending, h0]
  · exfalso
    rw [guardEnter_busy hg] at hw
    cases hw

theorem callStorage_back {t t' : State H} (h : SameBack t t') {key : String} {u : Upload} {q p : Pending}
    (hx : (callStorage t key u q).2 = .inr p) :
    callStorage t key u q = (t, .inr p) ∧ callStorage t' key u q = (t', .inr p) := by
  unfold callStorage at hx ⊢
  rw [h.subs]
  cases hs : getSub t.subs u.canister with
  | none => rw [hs] at hx; cases hx
  | some x =>
    rw [hs] at hx
    dsimp only at hx ⊢
    by_cases hi : x.installed = true
    · rw [if_pos hi] at hx ⊢
      cases hx
      exact ⟨rfl, by rw [if_pos hi]⟩
    · rw [if_neg hi] at hx; cases hx

/-- Whether a call has to wait depends on what is behind the floor only. -/
theorem start_back {E : Env H} {s s' : State H} (h : SameBack s s') (h0 : s.pending = []) {m : Msg}
    (hw : (step E s m).2 = .suspended) :
    ∃ c p, step E s m = (hold c p s, .suspended) ∧ step E s' m = (hold c p s', .suspended) := by
  cases m with
  | resume now i ans => simp [step, h0] at hw
  | resumeTrap i => simp [step, h0] at hw
  | upgrade => cases hw
  | call c now call =>
    have key : (exec E s c now call).2 = .suspended → ∃ p, exec E s c now call = (hold c p s, .suspended) ∧
        exec E s' c now call = (hold c p s', .suspended) := by
      intro hw
      cases call with
      | transfer args => exact absurd hw ofBatch_waits
      | approveTokens args => exact absurd hw ofBatch_waits
      | approveCollection args => exact absurd hw ofBatch_waits
      | revokeCollection args => exact absurd hw ofBatch_waits
      | transferFrom args => exact absurd hw ofBatch_waits
      | revokeTokens args =>
        simp only [exec] at hw
        split at hw <;> cases hw
      | updateCollectionMetadata a => exact absurd hw ofMgmt_waits
      | mint a => exact absurd hw ofMgmt_waits
      | updateNftMetadata a b => exact absurd hw ofMgmt_waits
      | burn a => exact absurd hw ofMgmt_waits
      | grant a b => exact absurd hw ofMgmt_waits
      | revoke a b => exact absurd hw ofMgmt_waits
      | initUpload path size =>
        refine async_back h h0 ?_ hw
        intro t t' ht p hx
        rw [ht.uploads, ht.subs]
        split at hx
        · cases hx
        · rename_i hc
          split at hx
          · cases hx
          · rename_i hz
            cases hx
            rw [if_neg hc, if_neg hz, if_neg hc, if_neg hz]
            exact ⟨rfl, rfl⟩
      | storeChunk path =>
        refine async_back h h0 ?_ hw
        intro t t' ht p hx
        rw [ht.uploads]
        cases hu : t.uploads.get path with
        | none => rw [hu] at hx; cases hx
        | some u =>
          rw [hu] at hx
          dsimp only at hx ⊢
          cases hst : u.state <;> rw [hst] at hx <;> dsimp only at hx ⊢
          · exact callStorage_back ht hx
          · exact callStorage_back ht hx
          · cases hx
      | finalizeUpload path =>
        refine async_back h h0 ?_ hw
        intro t t' ht p hx
        rw [ht.uploads]
        cases hu : t.uploads.get path with
        | none => rw [hu] at hx; cases hx
        | some u =>
          rw [hu] at hx
          dsimp only at hx ⊢
          cases hst : u.state <;> rw [hst] at hx <;> dsimp only at hx ⊢
          · cases hx
          · exact callStorage_back ht hx
          · cases hx
      | cancelUpload path =>
        refine async_back h h0 ?_ hw
        intro t t' ht p hx
        rw [ht.uploads]
        cases hu : t.uploads.get path with
        | none => rw [hu] at hx; cases hx
        | some u =>
          rw [hu] at hx
          dsimp only at hx ⊢
          cases hst : u.state <;> rw [hst] at hx <;> dsimp only at hx ⊢
          · exact callStorage_back ht hx
          · exact callStorage_back ht hx
          · cases hx
    simp only [step, execCall] at hw ⊢
    cases hn : call.needs with
    | none =>
      rw [hn] at hw
      obtain ⟨p, hp⟩ := key hw
      exact ⟨c, p, hp⟩
    | some q =>
      rw [hn] at hw
      dsimp only at hw ⊢
      rw [h.perms]
      by_cases hq : hasPermission s.perms c q = true
      · rw [if_pos hq] at hw
        obtain ⟨p, hp⟩ := key hw
        rw [if_pos hq, if_pos hq]
        exact ⟨c, p, hp⟩
      · rw [if_neg hq] at hw; cases hw

theorem managementCall_of_wait {E : Env H} {s : State H} {c : Principal} {now : Nat} {call : Call}
    (hw : (step E s (.call c now call)).2 = .suspended) : managementCall call = true := by
  cases call with
  | transfer args => exact absurd hw ofBatch_waits
  | approveTokens args => exact absurd hw ofBatch_waits
  | approveCollection args => exact absurd hw ofBatch_waits
  | revokeCollection args => exact absurd hw ofBatch_waits
  | transferFrom args => exact absurd hw ofBatch_waits
  | revokeTokens args =>
    simp only [step, execCall, Call.needs, exec] at hw
    split at hw <;> cases hw
  | _ => rfl

/-- The time at which a waiting call was made makes no difference. -/
theorem start_time {E : Env H} {s : State H} {c : Principal} {now : Nat} {call : Call}
    (hw : (step E s (.call c now call)).2 = .suspended) (t : State H) (now' : Nat) :
    step E t (.call c now' call) = step E t (.call c now call) := by
  have key : (exec E s c now call).2 = .suspended := by
    simp only [step, execCall] at hw
    split at hw
    · split at hw
      · exact hw
      · cases hw
    · exact hw
  cases call with
  | transfer args => exact absurd key ofBatch_waits
  | approveTokens args => exact absurd key ofBatch_waits
  | approveCollection args => exact absurd key ofBatch_waits
  | revokeCollection args => exact absurd key ofBatch_waits
  | transferFrom args => exact absurd key ofBatch_waits
  | revokeTokens args =>
    simp only [exec] at key
    split at key <;> cases key
  | updateCollectionMetadata a => exact absurd key ofMgmt_waits
  | mint a => exact absurd key ofMgmt_waits
  | updateNftMetadata a b => exact absurd key ofMgmt_waits
  | burn a => exact absurd key ofMgmt_waits
  | grant a b => exact absurd key ofMgmt_waits
  | revoke a b => exact absurd key ofMgmt_waits
  | _ => rfl

theorem async_pending {s : State H} (h0 : s.pending = []) {c : Principal}
    {b : State H → State H × (Except MgmtErr MgmtOk ⊕ Pending)} (hb : ∀ t : State H, (b t).1.pending = t.pending)
    (hw : (ofStarted (withGuardAsync s c b)).2 ≠ .suspended) : (ofStarted (withGuardAsync s c b)).1.pending = [] := by
  unfold withGuardAsync at hw ⊢
  cases hg : guardEnter s c with
  | none => exact h0
  | some s₁ =>
    have h1 : s₁.pending = [] := by
      unfold guardEnter at hg
      split at hg
      · cases hg
      · cases hg; exact h0
    rw [hg] at hw
    have h2 := hb s₁
    rcases hx : b s₁ with ⟨s₂, r | p⟩
    · rw [hx] at h2
      simp only [ofStarted, guardLeave, hx]
      exact h2.trans h1
    · simp only [hx] at hw
      exact absurd rfl hw

theorem callStorage_pending (t : State H) (key : String) (u : Upload) (q : Pending) :
    (callStorage t key u q).1.pending = t.pending := by
  unfold callStorage
  split
  · rfl
  · split <;> rfl

/-- A call that does not have to wait leaves none waiting. -/
theorem pending_of_reply {E : Env H} {s : State H} (h0 : s.pending = []) {m : Msg}
    (hw : (step E s m).2 ≠ .suspended) : (step E s m).1.pending = [] := by
  have key : (∀ c now call, m = .call c now call → (∀ path size, call ≠ .initUpload path size) ∧
      (∀ path, call ≠ .storeChunk path ∧ call ≠ .finalizeUpload path ∧ call ≠ .cancelUpload path)) →
      (step E s m).1.pending = [] := by
    intro hm
    refine Steps.induct (P := fun t => t.pending = []) ?_ (step_steps E s m) h0
    intro t t' ht hmic
    cases hmic with
    | suspend p perm free hp hcall =>
      obtain ⟨h1, h2⟩ := hm _ _ _ rfl
      rcases hcall with ⟨_, _, h, _⟩ | ⟨_, _, h, _⟩ | ⟨_, _, h, _⟩ | ⟨_, _, h, _⟩
      · exact absurd h (h1 _ _)
      · exact absurd h (h2 _).1
      · exact absurd h (h2 _).2.1
      · exact absurd h (h2 _).2.2
    | mint => rw [mintInsert_eq]; exact ht
    | resume p hp => rw [ht] at hp; simp at hp
    | resumeTrap p hp => rw [ht] at hp; simp at hp
    | upgrade => rfl
    | _ => exact ht
  cases m with
  | resume now i ans => exact key (fun _ _ _ h => by cases h)
  | resumeTrap i => exact key (fun _ _ _ h => by cases h)
  | upgrade => exact key (fun _ _ _ h => by cases h)
  | call c now call =>
    have low : call.needs = some .updateUploads → ((exec E s c now call).2 ≠ .suspended → (exec E s c now call).1.pending = []) →
        (step E s (.call c now call)).1.pending = [] := by
      intro hn h
      simp only [step, execCall, hn] at hw ⊢
      split
      · rename_i hq
        rw [if_pos hq] at hw
        exact h hw
      · exact h0
    cases call with
    | initUpload path size =>
      refine low rfl fun hw => async_pending h0 ?_ hw
      intro t
      split
      · rfl
      · split <;> rfl
    | storeChunk path =>
      refine low rfl fun hw => async_pending h0 ?_ hw
      intro t
      split
      · rfl
      · split <;> first | rfl | exact callStorage_pending _ _ _ _
    | finalizeUpload path =>
      refine low rfl fun hw => async_pending h0 ?_ hw
      intro t
      split
      · rfl
      · split <;> first | rfl | exact callStorage_pending _ _ _ _
    | cancelUpload path =>
      refine low rfl fun hw => async_pending h0 ?_ hw
      intro t
      split
      · rfl
      · split <;> first | rfl | exact callStorage_pending _ _ _ _
    | _ => exact key (fun _ _ _ h => by cases h; exact ⟨(fun _ _ h => by cases h), fun _ => ⟨(fun h => by cases h), (fun h => by cases h), fun h => by cases h⟩⟩)

/-- While a call waits, everything but a trade and the end of the wait is turned away. -/
theorem busy_hold (E : Env H) (s : State H) {m : Msg} (ht : isTrade m = false) (he : endsWait m = false)
    (c : Principal) (p : Pending) :
    (step E (hold c p s) m).1 = hold c p s ∧ settled (step E (hold c p s) m).2 = false := by
  cases m with
  | upgrade => cases he
  | resume now i ans =>
    cases i with
    | zero => cases he
    | succ i => exact ⟨rfl, rfl⟩
  | resumeTrap i =>
    cases i with
    | zero => cases he
    | succ i => exact ⟨rfl, rfl⟩
  | call c' now call =>
    have hb : (hold c p s).guards ≠ [] := by simp [hold]
    have hm : managementCall call = true := by
      cases call <;> first | rfl | cases ht
    simp only [step, execCall]
    rw [exec_busy hb hm]
    split
    · split <;> exact ⟨rfl, rfl⟩
    · exact ⟨rfl, rfl⟩

/-- The end of the wait. -/
theorem end_hold (E : Env H) (s : State H) {m : Msg} (he : endsWait m = true) (c : Principal) (p : Pending) :
    (step E (hold c p s) m).1.pending = [] := by
  cases m with
  | call => cases he
  | upgrade => rfl
  | resume now i ans =>
    cases i with
    | succ i => cases he
    | zero =>
      obtain ⟨_, _, _, _, h⟩ := resumeBody_eq E { hold c p s with pending := (hold c p s).pending.eraseIdx 0 } now p ans
      show (guardLeave (resumeBody E { hold c p s with pending := (hold c p s).pending.eraseIdx 0 } now p ans).1
        p.caller).pending = []
      rw [h]
      rfl
  | resumeTrap i =>
    cases i with
    | succ i => cases he
    | zero => rfl

theorem trade_settled {m : Msg} (ht : isTrade m = true) : endsWait m = false := by
  cases m <;> first | rfl | cases ht

end Verif.Spec.Moments
