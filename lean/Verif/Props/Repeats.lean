import Verif.Lemmas.Repeats
import Verif.Lemmas.Batch
import Verif.Model.Dedup
import Verif.Props.Demo
/-!
# C99: a request is executed at most once
-/
namespace Verif

open Spec

variable {H : Type}

/-- Records of a run that are the same request are far apart. -/
private theorem log_apart {E : Env H} {validUrl : String → Bool} {hid : H} {c : Principal} {a : InitArgs} {s₀ : State H} {W : Nat}
    (h0 : init validUrl hid c a = some s₀) (hr : Recognises E.ledger hid W) (ms : List Msg) :
    (run E s₀ ms).log.Pairwise fun t' t => SameRequest t t' → t'.ts + W < t.ts := by
  obtain ⟨l, hl, he⟩ := run_told E ms s₀
  rw [init_eq h0] at hl he
  rw [show (run E s₀ ms).log = l from by rw [init_eq h0]; simpa using he]
  exact recorded_pairwise hr hl

private theorem log_timed {E : Env H} {validUrl : String → Bool} {hid : H} {c : Principal} {a : InitArgs} {s₀ : State H}
    {W D : Nat} (h0 : init validUrl hid c a = some s₀) {ms : List Msg} (hs : SettingsWithin E s₀ ms W D) :
    ∀ t ∈ (run E s₀ ms).log, Timed W D t := by
  obtain ⟨l, hl, ht⟩ := run_timed ms s₀ hs
  rw [show s₀.log = [] from by rw [init_eq h0]] at hl
  rw [hl]
  simpa using ht

private theorem too_close {W D B : Nat} {t t' : Tx} (hw : W + 2 * D ≤ B) (h : Timed W D t) (h' : Timed W D t') (hc : t.createdAt ≠ none)
    (hs : SameRequest t t') : ¬ t'.ts + B < t.ts := by
  obtain ⟨c, hc⟩ := Option.ne_none_iff_exists'.1 hc
  have h1 := h c hc
  have h2 := h' c (by rw [hs] at hc; exact hc)
  omega

/-- C99: whatever messages arrive, if the ledger recognises requests for as long as it is told to
at the installation, and that is at least as long as the settings of the collection accept a
creation time, then no two records of the log with a creation time are the same request. -/
theorem C99_log_partial {E : Env H} {validUrl : String → Bool} {hid : H} {c : Principal} {a : InitArgs} {s₀ : State H}
    (h0 : init validUrl hid c a = some s₀) (hr : Recognises E.ledger hid (ledgerWindow a)) {ms : List Msg} {W D : Nat}
    (hs : SettingsWithin E s₀ ms W D) (hw : W + 2 * D ≤ ledgerWindow a) :
    (run E s₀ ms).log.Pairwise fun t' t => t.createdAt ≠ none → ¬ SameRequest t t' := by
  have ht := log_timed h0 hs
  refine (List.Pairwise.and_mem.1 (log_apart h0 hr ms)).imp ?_
  rintro t' t ⟨hm', hm, h⟩ hc hsame
  exact too_close hw (ht t hm) (ht t' hm') hc hsame (h hsame)

/-- No message appends to the log a request that is in it already. -/
private theorem not_again {E : Env H} {validUrl : String → Bool} {hid : H} {c₀ : Principal} {a : InitArgs} {s₀ : State H}
    (h0 : init validUrl hid c₀ a = some s₀) (hr : Recognises E.ledger hid (ledgerWindow a)) {ms : List Msg} {W D : Nat}
    (hs : SettingsWithin E s₀ ms W D) (hw : W + 2 * D ≤ ledgerWindow a)
    {m : Msg} {t x : Tx}
    (hat : x.createdAt ≠ none) (hx : ∀ k, x.createdAt = some k →
      k ≤ x.ts + Drift (run E s₀ ms) ∧ x.ts ≤ k + Window (run E s₀ ms) + Drift (run E s₀ ms))
    (ht : t ∈ (run E s₀ ms).log) (hsame : SameRequest x t) (h : (step E (run E s₀ ms) m).1.log = (run E s₀ ms).log ++ [x]) : False := by
  have hap := log_apart h0 hr (ms ++ [m])
  rw [run_append, show run E (run E s₀ ms) [m] = (step E (run E s₀ ms) m).1 from rfl, h] at hap
  have hset := hs ms [] (by simp)
  refine too_close hw ?_ (log_timed h0 hs t ht) hat hsame ((List.pairwise_append.1 hap).2.2 t ht _ (List.mem_singleton.2 rfl) hsame)
  intro k hk
  have := hx k hk
  omega

/-- C99 for `icrc7_transfer`: a transfer that is in the log already is not executed again, whoever
holds the token now. -/
theorem C99_transfer_partial {E : Env H} {validUrl : String → Bool} {hid : H} {c₀ : Principal} {a : InitArgs} {s₀ : State H}
    (h0 : init validUrl hid c₀ a = some s₀) (hr : Recognises E.ledger hid (ledgerWindow a)) {ms : List Msg} {W D : Nat}
    (hs : SettingsWithin E s₀ ms W D) (hw : W + 2 * D ≤ ledgerWindow a)
    {s' : State H} {c : Principal} {now : Nat} {arg : TransferArg} {r} {o : Account} {t : Tx}
    (hown : Owner (run E s₀ ms) arg.tid = some o) (ht : t ∈ (run E s₀ ms).log) (hsame : SameRequest (xferTx now arg o) t)
    (h : step E (run E s₀ ms) (.call c now (.transfer [arg])) = (s', .batch [r])) : Untouched (run E s₀ ms) s' := by
  rcases transfer_one h with ⟨_, rfl, _⟩ | ⟨_, h1⟩
  · exact ⟨fun _ => rfl, fun _ => rfl, fun _ => rfl, rfl⟩
  cases transferNft_out h1 with
  | refused w h' e => exact ⟨fun _ => rfl, fun _ => rfl, fun _ => rfl, rfl⟩
  | duplicate w nft h' d tok add => exact ⟨fun _ => rfl, fun _ => rfl, fun _ => rfl, rfl⟩
  | moved w nft h' i tok own toOk diff memo timing add =>
    exfalso
    have ho : nft.owner = o := by
      rw [Owner, tok] at hown
      exact Option.some.inj hown
    have hx : transferTx now (arg.createdAt.getD now) arg nft = xferTx now arg o := by rw [← ho]; rfl
    refine not_again h0 hr hs hw (by simp [xferTx]) ?_ ht hsame (m := .call c now (.transfer [arg])) (by rw [h, ← hx]; rfl)
    rintro k hk
    cases hk
    exact transferTiming_timed timing

/-- C99 for `icrc37_transfer_from`, with a creation time. -/
theorem C99_transfer_from_partial {E : Env H} {validUrl : String → Bool} {hid : H} {c₀ : Principal} {a : InitArgs} {s₀ : State H}
    (h0 : init validUrl hid c₀ a = some s₀) (hr : Recognises E.ledger hid (ledgerWindow a)) {ms : List Msg} {W D : Nat}
    (hs : SettingsWithin E s₀ ms W D) (hw : W + 2 * D ≤ ledgerWindow a)
    {s' : State H} {c : Principal} {now : Nat} {arg : TransferFromArg} {r} {t : Tx}
    (hat : arg.createdAt ≠ none) (ht : t ∈ (run E s₀ ms).log) (hsame : SameRequest (fromRequest now c arg) t)
    (h : step E (run E s₀ ms) (.call c now (.transferFrom [arg])) = (s', .batch [r])) :
    Untouched (run E s₀ ms) s' := by
  cases transferFrom_out (transferFrom_one h) with
  | moved w nft h' i tok own auth diff toOk timing =>
    refine (not_again h0 hr hs hw hat ?_ ht hsame (m := .call c now (.transferFrom [arg])) (by rw [h]; rfl)).elim
    · exact verifyTimingOpt_timed timing
  | _ => exact ⟨fun _ => rfl, fun _ => rfl, fun _ => rfl, rfl⟩

/-- C99 for `icrc37_approve_tokens`. -/
theorem C99_approve_partial {E : Env H} {validUrl : String → Bool} {hid : H} {c₀ : Principal} {a : InitArgs} {s₀ : State H}
    (h0 : init validUrl hid c₀ a = some s₀) (hr : Recognises E.ledger hid (ledgerWindow a)) {ms : List Msg} {W D : Nat}
    (hs : SettingsWithin E s₀ ms W D) (hw : W + 2 * D ≤ ledgerWindow a)
    {s' : State H} {c : Principal} {now : Nat} {arg : ApproveTokenArg} {r} {t : Tx}
    (ht : t ∈ (run E s₀ ms).log) (hsame : SameRequest (approveRequest now c arg) t)
    (h : step E (run E s₀ ms) (.call c now (.approveTokens [arg])) = (s', .batch [r])) :
    Untouched (run E s₀ ms) s' ∧ SameApprovals (run E s₀ ms) s' := by
  cases approveToken_out (approve_one h) with
  | approved w owner h' i own eqv sp room timing =>
    refine (not_again h0 hr hs hw (by simp [approveRequest]) ?_ ht hsame (m := .call c now (.approveTokens [arg])) (by rw [h]; rfl)).elim
    · rintro k hk
      cases hk
      exact verifyTiming_timed timing
  | _ => exact ⟨⟨fun _ => rfl, fun _ => rfl, fun _ => rfl, rfl⟩, ⟨fun _ _ _ => .rfl, fun _ _ _ => .rfl⟩⟩

/-- C99 for `icrc37_approve_collection`. -/
theorem C99_approve_collection_partial {E : Env H} {validUrl : String → Bool} {hid : H} {c₀ : Principal} {a : InitArgs} {s₀ : State H}
    (h0 : init validUrl hid c₀ a = some s₀) (hr : Recognises E.ledger hid (ledgerWindow a)) {ms : List Msg} {W D : Nat}
    (hs : SettingsWithin E s₀ ms W D) (hw : W + 2 * D ≤ ledgerWindow a)
    {s' : State H} {c : Principal} {now : Nat} {arg : ApprovalInfo} {r} {t : Tx}
    (ht : t ∈ (run E s₀ ms).log) (hsame : SameRequest (approveAllRequest now c arg) t)
    (h : step E (run E s₀ ms) (.call c now (.approveCollection [arg])) = (s', .batch [r])) :
    Untouched (run E s₀ ms) s' ∧ SameApprovals (run E s₀ ms) s' := by
  cases approveCollection_out (approveColl_one h) with
  | approved w h' i sp holds room timing =>
    refine (not_again h0 hr hs hw (by simp [approveAllRequest]) ?_ ht hsame (m := .call c now (.approveCollection [arg])) (by rw [h]; rfl)).elim
    · rintro k hk
      cases hk
      exact verifyTiming_timed timing
  | _ => exact ⟨⟨fun _ => rfl, fun _ => rfl, fun _ => rfl, rfl⟩, ⟨fun _ _ _ => .rfl, fun _ _ _ => .rfl⟩⟩

/-- C99 for `icrc37_revoke_token_approvals`, with a creation time. -/
theorem C99_revoke_partial {E : Env H} {validUrl : String → Bool} {hid : H} {c₀ : Principal} {a : InitArgs} {s₀ : State H}
    (h0 : init validUrl hid c₀ a = some s₀) (hr : Recognises E.ledger hid (ledgerWindow a)) {ms : List Msg} {W D : Nat}
    (hs : SettingsWithin E s₀ ms W D) (hw : W + 2 * D ≤ ledgerWindow a)
    {s' : State H} {c : Principal} {now : Nat} {arg : RevokeTokenArg} {r} {t : Tx}
    (hat : arg.createdAt ≠ none) (ht : t ∈ (run E s₀ ms).log) (hsame : SameRequest (revokeRequest now c arg) t)
    (h : step E (run E s₀ ms) (.call c now (.revokeTokens [arg])) = (s', .batch [r])) :
    Untouched (run E s₀ ms) s' ∧ SameApprovals (run E s₀ ms) s' := by
  cases revokeToken_out (revoke_one h) with
  | revoked owner h' i m own eqv hm timing =>
    refine (not_again h0 hr hs hw hat ?_ ht hsame (m := .call c now (.revokeTokens [arg])) (by rw [h]; rfl)).elim
    · exact verifyTimingOpt_timed timing
  | _ => exact ⟨⟨fun _ => rfl, fun _ => rfl, fun _ => rfl, rfl⟩, ⟨fun _ _ _ => .rfl, fun _ _ _ => .rfl⟩⟩

/-- C99 for `icrc37_revoke_collection_approvals`, with a creation time. -/
theorem C99_revoke_collection_partial {E : Env H} {validUrl : String → Bool} {hid : H} {c₀ : Principal} {a : InitArgs} {s₀ : State H}
    (h0 : init validUrl hid c₀ a = some s₀) (hr : Recognises E.ledger hid (ledgerWindow a)) {ms : List Msg} {W D : Nat}
    (hs : SettingsWithin E s₀ ms W D) (hw : W + 2 * D ≤ ledgerWindow a)
    {s' : State H} {c : Principal} {now : Nat} {arg : RevokeCollArg} {r} {t : Tx}
    (hat : arg.createdAt ≠ none) (ht : t ∈ (run E s₀ ms).log) (hsame : SameRequest (revokeAllRequest now c arg) t)
    (h : step E (run E s₀ ms) (.call c now (.revokeCollection [arg])) = (s', .batch [r])) :
    Untouched (run E s₀ ms) s' ∧ SameApprovals (run E s₀ ms) s' := by
  cases revokeCollection_out (revokeColl_one h) with
  | revoked w h' i m hm timing =>
    refine (not_again h0 hr hs hw hat ?_ ht hsame (m := .call c now (.revokeCollection [arg])) (by rw [h]; rfl)).elim
    · exact verifyTimingOpt_timed timing
  | _ => exact ⟨⟨fun _ => rfl, fun _ => rfl, fun _ => rfl, rfl⟩, ⟨fun _ _ _ => .rfl, fun _ _ _ => .rfl⟩⟩

/-- Records stay in the log. -/
private theorem log_stays {E : Env H} {s : State H} {t : Tx} (ms : List Msg) (h : t ∈ s.log) : t ∈ (run E s ms).log := by
  obtain ⟨l, _, hl⟩ := run_told E ms s
  rw [hl]
  exact List.mem_append_left _ h

private theorem run_mid {E : Env H} {s : State H} {pre post : List Msg} {m : Msg} :
    run E s (pre ++ m :: post) = run E (step E (run E s pre) m).1 post := by
  rw [run_append]
  rfl

/-- C99 for two copies of an `icrc7_transfer`: after the first one moved the token, the second one
does nothing, if the token is held by the same account as before the first. -/
theorem C99_transfer_twice_partial {E : Env H} {validUrl : String → Bool} {hid : H} {c₀ : Principal} {a : InitArgs} {s₀ : State H}
    (h0 : init validUrl hid c₀ a = some s₀) (hr : Recognises E.ledger hid (ledgerWindow a)) {pre post : List Msg} {W D : Nat}
    {c : Principal} {now now' k : Nat} {arg : TransferArg} {s₁ s' : State H} {r r'} {o : Account} (hat : arg.createdAt = some k)
    (hs : SettingsWithin E s₀ (pre ++ .call c now (.transfer [arg]) :: post) W D) (hw : W + 2 * D ≤ ledgerWindow a)
    (h1 : step E (run E s₀ pre) (.call c now (.transfer [arg])) = (s₁, .batch [r]))
    (hmoved : Owner s₁ arg.tid ≠ Owner (run E s₀ pre) arg.tid)
    (ho : Owner (run E s₀ pre) arg.tid = some o) (ho' : Owner (run E s₁ post) arg.tid = some o)
    (h2 : step E (run E s₁ post) (.call c now' (.transfer [arg])) = (s', .batch [r'])) : Untouched (run E s₁ post) s' := by
  have hrun : run E s₀ (pre ++ .call c now (.transfer [arg]) :: post) = run E s₁ post := by rw [run_mid, h1]
  rw [← hrun] at h2 ho' ⊢
  rcases transfer_one h1 with ⟨_, rfl, _⟩ | ⟨_, h1'⟩
  · exact absurd rfl hmoved
  cases transferNft_out h1' with
  | refused w h' e => exact absurd rfl hmoved
  | duplicate w nft h' d tok add => exact absurd rfl hmoved
  | moved w nft h' i tok own toOk diff memo timing add =>
    have hn : nft.owner = o := by
      rw [Owner, tok] at ho
      exact Option.some.inj ho
    refine C99_transfer_partial h0 hr hs hw ho' (t := xferTx now arg o) ?_ ?_ h2
    · rw [hrun]
      refine log_stays _ (List.mem_append_right _ (List.mem_singleton.2 ?_))
      rw [← hn]
      rfl
    · simp only [SameRequest, xferTx, hat, Option.getD_some]

/-- C99 for two copies of an `icrc37_transfer_from` with a creation time. -/
theorem C99_transfer_from_twice_partial {E : Env H} {validUrl : String → Bool} {hid : H} {c₀ : Principal} {a : InitArgs} {s₀ : State H}
    (h0 : init validUrl hid c₀ a = some s₀) (hr : Recognises E.ledger hid (ledgerWindow a)) {pre post : List Msg} {W D : Nat}
    {c : Principal} {now now' i : Nat} {arg : TransferFromArg} {s₁ s' : State H} {r'} (hat : arg.createdAt ≠ none)
    (hs : SettingsWithin E s₀ (pre ++ .call c now (.transferFrom [arg]) :: post) W D) (hw : W + 2 * D ≤ ledgerWindow a)
    (h1 : step E (run E s₀ pre) (.call c now (.transferFrom [arg])) = (s₁, .batch [.ok i]))
    (h2 : step E (run E s₁ post) (.call c now' (.transferFrom [arg])) = (s', .batch [r'])) :
    Untouched (run E s₁ post) s' := by
  have hrun : run E s₀ (pre ++ .call c now (.transferFrom [arg]) :: post) = run E s₁ post := by rw [run_mid, h1]
  rw [← hrun] at h2 ⊢
  refine C99_transfer_from_partial h0 hr hs hw hat (t := fromRequest now c arg) ?_ rfl h2
  rw [hrun]
  cases transferFrom_out (transferFrom_one h1) with
  | moved w nft h' i tok own auth diff toOk timing => exact log_stays _ (List.mem_append_right _ (List.mem_singleton.2 rfl))

/-- C99 for two copies of an `icrc37_approve_tokens`: an approval that was ended in between is not given again. -/
theorem C99_approve_twice_partial {E : Env H} {validUrl : String → Bool} {hid : H} {c₀ : Principal} {a : InitArgs} {s₀ : State H}
    (h0 : init validUrl hid c₀ a = some s₀) (hr : Recognises E.ledger hid (ledgerWindow a)) {pre post : List Msg} {W D : Nat}
    {c : Principal} {now now' i : Nat} {arg : ApproveTokenArg} {s₁ s' : State H} {r'}
    (hs : SettingsWithin E s₀ (pre ++ .call c now (.approveTokens [arg]) :: post) W D) (hw : W + 2 * D ≤ ledgerWindow a)
    (h1 : step E (run E s₀ pre) (.call c now (.approveTokens [arg])) = (s₁, .batch [.ok i]))
    (h2 : step E (run E s₁ post) (.call c now' (.approveTokens [arg])) = (s', .batch [r'])) :
    Untouched (run E s₁ post) s' ∧ SameApprovals (run E s₁ post) s' := by
  have hrun : run E s₀ (pre ++ .call c now (.approveTokens [arg]) :: post) = run E s₁ post := by rw [run_mid, h1]
  rw [← hrun] at h2 ⊢
  refine C99_approve_partial h0 hr hs hw (t := approveRequest now c arg) ?_ rfl h2
  rw [hrun]
  cases approveToken_out (approve_one h1) with
  | approved w owner h' i own eqv sp room timing => exact log_stays _ (List.mem_append_right _ (List.mem_singleton.2 rfl))

/-- C99 for two copies of an `icrc37_approve_collection`. -/
theorem C99_approve_collection_twice_partial {E : Env H} {validUrl : String → Bool} {hid : H} {c₀ : Principal} {a : InitArgs} {s₀ : State H}
    (h0 : init validUrl hid c₀ a = some s₀) (hr : Recognises E.ledger hid (ledgerWindow a)) {pre post : List Msg} {W D : Nat}
    {c : Principal} {now now' i : Nat} {arg : ApprovalInfo} {s₁ s' : State H} {r'}
    (hs : SettingsWithin E s₀ (pre ++ .call c now (.approveCollection [arg]) :: post) W D) (hw : W + 2 * D ≤ ledgerWindow a)
    (h1 : step E (run E s₀ pre) (.call c now (.approveCollection [arg])) = (s₁, .batch [.ok i]))
    (h2 : step E (run E s₁ post) (.call c now' (.approveCollection [arg])) = (s', .batch [r'])) :
    Untouched (run E s₁ post) s' ∧ SameApprovals (run E s₁ post) s' := by
  have hrun : run E s₀ (pre ++ .call c now (.approveCollection [arg]) :: post) = run E s₁ post := by rw [run_mid, h1]
  rw [← hrun] at h2 ⊢
  refine C99_approve_collection_partial h0 hr hs hw (t := approveAllRequest now c arg) ?_ rfl h2
  rw [hrun]
  cases approveCollection_out (approveColl_one h1) with
  | approved w h' i sp holds room timing => exact log_stays _ (List.mem_append_right _ (List.mem_singleton.2 rfl))

/-- C99 for two copies of an `icrc37_revoke_token_approvals` with a creation time. -/
theorem C99_revoke_twice_partial {E : Env H} {validUrl : String → Bool} {hid : H} {c₀ : Principal} {a : InitArgs} {s₀ : State H}
    (h0 : init validUrl hid c₀ a = some s₀) (hr : Recognises E.ledger hid (ledgerWindow a)) {pre post : List Msg} {W D : Nat}
    {c : Principal} {now now' i : Nat} {arg : RevokeTokenArg} {s₁ s' : State H} {r'} (hat : arg.createdAt ≠ none)
    (hs : SettingsWithin E s₀ (pre ++ .call c now (.revokeTokens [arg]) :: post) W D) (hw : W + 2 * D ≤ ledgerWindow a)
    (h1 : step E (run E s₀ pre) (.call c now (.revokeTokens [arg])) = (s₁, .batch [.ok i]))
    (h2 : step E (run E s₁ post) (.call c now' (.revokeTokens [arg])) = (s', .batch [r'])) :
    Untouched (run E s₁ post) s' ∧ SameApprovals (run E s₁ post) s' := by
  have hrun : run E s₀ (pre ++ .call c now (.revokeTokens [arg]) :: post) = run E s₁ post := by rw [run_mid, h1]
  rw [← hrun] at h2 ⊢
  refine C99_revoke_partial h0 hr hs hw hat (t := revokeRequest now c arg) ?_ rfl h2
  rw [hrun]
  cases revokeToken_out (revoke_one h1) with
  | revoked owner h' i m own eqv hm timing => exact log_stays _ (List.mem_append_right _ (List.mem_singleton.2 rfl))

/-- C99 for two copies of an `icrc37_revoke_collection_approvals` with a creation time. -/
theorem C99_revoke_collection_twice_partial {E : Env H} {validUrl : String → Bool} {hid : H} {c₀ : Principal} {a : InitArgs} {s₀ : State H}
    (h0 : init validUrl hid c₀ a = some s₀) (hr : Recognises E.ledger hid (ledgerWindow a)) {pre post : List Msg} {W D : Nat}
    {c : Principal} {now now' i : Nat} {arg : RevokeCollArg} {s₁ s' : State H} {r'} (hat : arg.createdAt ≠ none)
    (hs : SettingsWithin E s₀ (pre ++ .call c now (.revokeCollection [arg]) :: post) W D) (hw : W + 2 * D ≤ ledgerWindow a)
    (h1 : step E (run E s₀ pre) (.call c now (.revokeCollection [arg])) = (s₁, .batch [.ok i]))
    (h2 : step E (run E s₁ post) (.call c now' (.revokeCollection [arg])) = (s', .batch [r'])) :
    Untouched (run E s₁ post) s' ∧ SameApprovals (run E s₁ post) s' := by
  have hrun : run E s₀ (pre ++ .call c now (.revokeCollection [arg]) :: post) = run E s₁ post := by rw [run_mid, h1]
  rw [← hrun] at h2 ⊢
  refine C99_revoke_collection_partial h0 hr hs hw hat (t := revokeAllRequest now c arg) ?_ rfl h2
  rw [hrun]
  cases revokeCollection_out (revokeColl_one h1) with
  | revoked w h' i m hm timing => exact log_stays _ (List.mem_append_right _ (List.mem_singleton.2 rfl))

/-- C99, in terms of the configuration: a window is configured at the installation and not raised
later, and twice the permitted drift is less than a million windows. -/
theorem C99_configured_partial {E : Env H} {validUrl : String → Bool} {hid : H} {c : Principal} {a : InitArgs} {s₀ : State H}
    (h0 : init validUrl hid c a = some s₀) (hr : Recognises E.ledger hid (ledgerWindow a)) {ms : List Msg} {w D : Nat}
    (ha : a.txWindow = some w) (hs : SettingsWithin E s₀ ms w D) (hw : 2 * D ≤ 999999 * w) :
    (run E s₀ ms).log.Pairwise fun t' t => t.createdAt ≠ none → ¬ SameRequest t t' :=
  C99_log_partial h0 hr hs (by rw [ledgerWindow, ha]; dsimp only; omega)

namespace Repeat
open Demo

instance (t t' : Tx) : Decidable (SameRequest t t') := inferInstanceAs (Decidable (t = _))

/-- A ledger that remembers what it recorded, and for `W` nanoseconds refuses the same request. -/
def remember (W : Nat) : Ledger (List Tx) :=
  ⟨fun h t => if ∃ t' ∈ h, SameRequest t t' ∧ t.ts ≤ t'.ts + W then (h, .error (.duplicate 0)) else (h ++ [t], .ok h.length)⟩

theorem remember_recorded {W : Nat} {l h : List Tx} (hr : Recorded (remember W) [] l h) : h = l := by
  induction hr with
  | start => rfl
  | accepted _ hadd ih =>
    simp only [remember] at hadd
    split at hadd
    · cases hadd
    · cases hadd; rw [ih]
  | refused _ hadd ih =>
    simp only [remember] at hadd
    split at hadd
    · cases hadd; exact ih
    · cases hadd

theorem remember_recognises (W : Nat) : Recognises (remember W) [] W := by
  intro l h t i hl hadd t' ht' hs
  rw [remember_recorded hl] at hadd
  simp only [remember] at hadd
  split at hadd
  · cases hadd
  · rename_i hno
    refine Nat.lt_of_not_le fun hle => hno ⟨t', ht', hs, hle⟩

def world (W : Nat) : Env (List Tx) := ⟨remember W, [9], fun _ => "aaaaa-aa"⟩

/-- `alice` sends token 1 to `bob`, the request being made at 200 ms. -/
def send (now : Nat) : Msg := .call [1] (ms now) (.transfer [{ to_ := bob, tid := 1, createdAt := some (ms 200) }])

/-- `bob` sends it back, and `alice`'s request arrives once more. -/
def story : List Msg :=
  [mintMsg, send 200, .call [2] (ms 400) (.transfer [{ to_ := alice, tid := 1 }]), send 600]

/-- A window of ten seconds. -/
def windowed : InitArgs := { args with txWindow := some 10000000000 }

/-- A window of a tenth of a microsecond. -/
def narrow : InitArgs := { args with txWindow := some 100 }

def sWindowed : State (List Tx) := (init (fun _ => true) [] admin windowed).get rfl
def sNarrow : State (List Tx) := (init (fun _ => true) [] admin narrow).get rfl
def sDefault : State (List Tx) := (init (fun _ => true) [] admin args).get rfl

theorem within_of {E : Env H} {s₀ : State H} {ms : List Msg} {W D : Nat}
    (h : ∀ k ∈ List.range (ms.length + 1), Window (run E s₀ (ms.take k)) ≤ W ∧ Drift (run E s₀ (ms.take k)) ≤ D) :
    SettingsWithin E s₀ ms W D := by
  rintro pre post rfl
  have := h pre.length (List.mem_range.2 (by rw [List.length_append]; omega))
  rwa [List.take_left] at this

theorem windowed_within : SettingsWithin (world (ledgerWindow windowed)) sWindowed story 10000000000 50000000 :=
  within_of (by decide)

end Repeat

open Repeat

/-- With a window of ten seconds configured, the request that arrives again is answered with the
number of its first execution and does nothing. -/
example : (run (world (ledgerWindow windowed)) sWindowed story).log.Pairwise (fun t' t => t.createdAt ≠ none → ¬ SameRequest t t') ∧
    (run (world (ledgerWindow windowed)) sWindowed story).log.length = 5 ∧
    Owner (run (world (ledgerWindow windowed)) sWindowed story) 1 = some Demo.alice ∧
    (replies (world (ledgerWindow windowed)) sWindowed story).drop 1 = [.batch [.ok 3], .batch [.ok 4], .batch [.ok 0]] :=
  ⟨C99_configured_partial (validUrl := fun _ => true) (a := windowed) rfl (remember_recognises _) rfl windowed_within (by decide),
    by decide, by decide, rfl⟩

/-- The request that arrives again meets the conditions of `C99_transfer_partial`. -/
example : ∃ s', step (world (ledgerWindow windowed)) (run (world (ledgerWindow windowed)) sWindowed (story.take 3)) (send 600) =
      (s', .batch [.ok 0]) ∧
    Untouched (run (world (ledgerWindow windowed)) sWindowed (story.take 3)) s' :=
  ⟨_, rfl, C99_transfer_partial (validUrl := fun _ => true) (a := windowed) (s₀ := sWindowed) (ms := story.take 3)
    (c := [1]) (now := Demo.ms 600) (arg := { to_ := Demo.bob, tid := 1, createdAt := some (Demo.ms 200) }) rfl (remember_recognises _)
    (within_of (by decide)) (show 10000000000 + 2 * 50000000 ≤ ledgerWindow windowed by decide) (o := Demo.alice)
    (by decide) (t := (run (world (ledgerWindow windowed)) sWindowed (story.take 3)).log[3]'(by decide)) (List.getElem_mem _)
    (by decide) rfl⟩

namespace Repeat
open Demo

/-- The same with `icrc37_transfer_from`, `alice` moving the own token. -/
def take (now : Nat) : Msg :=
  .call [1] (ms now) (.transferFrom [{ from_ := alice, to_ := bob, tid := 1, createdAt := some (ms 200) }])

def tale : List Msg := [mintMsg, take 200, .call [2] (ms 400) (.transfer [{ to_ := alice, tid := 1 }])]

end Repeat

/-- The request that arrives again meets the conditions of `C99_transfer_from_partial`. -/
example : ∃ s', step (world (ledgerWindow windowed)) (run (world (ledgerWindow windowed)) sWindowed tale) (take 600) =
      (s', .batch [.error (.generic 1)]) ∧
    Untouched (run (world (ledgerWindow windowed)) sWindowed tale) s' :=
  ⟨_, rfl, C99_transfer_from_partial (validUrl := fun _ => true) (a := windowed) (s₀ := sWindowed) (ms := tale) (c := [1])
    (now := Demo.ms 600) (arg := { from_ := Demo.alice, to_ := Demo.bob, tid := 1, createdAt := some (Demo.ms 200) }) rfl (remember_recognises _)
    (within_of (by decide)) (show 10000000000 + 2 * 50000000 ≤ ledgerWindow windowed by decide) (by simp)
    (t := (run (world (ledgerWindow windowed)) sWindowed tale).log[3]'(by decide)) (List.getElem_mem _)
    (by decide) rfl⟩

namespace Repeat
open Demo

/-- `alice` lets `carol` move token 1 and all tokens, and ends both, all requests being made at 200 ms. -/
def allow (now : Nat) : Msg := .call [1] (ms now) (.approveTokens [{ tid := 1, info := { spender := carol, createdAt := ms 200 } }])
def allowAll (now : Nat) : Msg := .call [1] (ms now) (.approveCollection [{ spender := carol, createdAt := ms 200 }])
def end_ (now : Nat) : Msg := .call [1] (ms now) (.revokeTokens [{ tid := 1, createdAt := some (ms 200) }])
def endAll (now : Nat) : Msg := .call [1] (ms now) (.revokeCollection [{ createdAt := some (ms 200) }])

def saga : List Msg := [mintMsg, allow 200, allowAll 210, end_ 300, endAll 310]

/-- The collection after these messages. -/
def sSaga : State (List Tx) := run (world (ledgerWindow windowed)) sWindowed saga

end Repeat

/-- All four requests, arriving again, meet the conditions of the theorems above; approvals that
were ended are not given again. -/
example : sSaga.log.map (·.op) = [.mint, .mint, .mint, .approve, .approveColl, .revoke, .revokeColl] ∧
    (∀ s' r, step (world (ledgerWindow windowed)) sSaga (allow 400) = (s', .batch [r]) → Untouched sSaga s' ∧ SameApprovals sSaga s') ∧
    (∀ s' r, step (world (ledgerWindow windowed)) sSaga (allowAll 400) = (s', .batch [r]) → Untouched sSaga s' ∧ SameApprovals sSaga s') ∧
    (∀ s' r, step (world (ledgerWindow windowed)) sSaga (end_ 400) = (s', .batch [r]) → Untouched sSaga s' ∧ SameApprovals sSaga s') ∧
    (∀ s' r, step (world (ledgerWindow windowed)) sSaga (endAll 400) = (s', .batch [r]) → Untouched sSaga s' ∧ SameApprovals sSaga s') := by
  have hs : SettingsWithin (world (ledgerWindow windowed)) sWindowed saga 10000000000 50000000 := within_of (by decide)
  have h0 : init (fun _ => true) [] Demo.admin windowed = some sWindowed := rfl
  have hr := remember_recognises (ledgerWindow windowed)
  have hw : 10000000000 + 2 * 50000000 ≤ ledgerWindow windowed := by decide
  refine ⟨by decide, fun s' r h => ?_, fun s' r h => ?_, fun s' r h => ?_, fun s' r h => ?_⟩
  · exact C99_approve_partial h0 hr hs hw (t := sSaga.log[3]'(by decide)) (List.getElem_mem _) (by decide) h
  · exact C99_approve_collection_partial h0 hr hs hw (t := sSaga.log[4]'(by decide)) (List.getElem_mem _) (by decide) h
  · exact C99_revoke_partial h0 hr hs hw (by simp) (t := sSaga.log[5]'(by decide)) (List.getElem_mem _) (by decide) h
  · exact C99_revoke_collection_partial h0 hr hs hw (by simp) (t := sSaga.log[6]'(by decide)) (List.getElem_mem _) (by decide) h

/-- The two copies of `alice`'s transfer meet the conditions of `C99_transfer_twice_partial`. -/
example : ∃ s₁ s', step (world (ledgerWindow windowed)) (run (world (ledgerWindow windowed)) sWindowed [Demo.mintMsg]) (send 200) =
      (s₁, .batch [.ok 3]) ∧
    step (world (ledgerWindow windowed)) (run (world (ledgerWindow windowed)) s₁ (story.drop 2 |>.take 1)) (send 600) = (s', .batch [.ok 0]) ∧
    Untouched (run (world (ledgerWindow windowed)) s₁ (story.drop 2 |>.take 1)) s' :=
  ⟨_, _, rfl, rfl, C99_transfer_twice_partial (validUrl := fun _ => true) (a := windowed) (s₀ := sWindowed) (pre := [Demo.mintMsg])
    (post := story.drop 2 |>.take 1) (c := [1]) (now := Demo.ms 200) (now' := Demo.ms 600) (k := Demo.ms 200) (o := Demo.alice)
    (arg := { to_ := Demo.bob, tid := 1, createdAt := some (Demo.ms 200) }) rfl (remember_recognises _) rfl
    (within_of (by decide)) (show 10000000000 + 2 * 50000000 ≤ ledgerWindow windowed by decide) rfl (by decide) (by decide) (by decide) rfl⟩

/-- The two copies of `alice`'s approval meet the conditions of `C99_approve_twice_partial`. -/
example : ∃ s₁ s', step (world (ledgerWindow windowed)) (run (world (ledgerWindow windowed)) sWindowed [Demo.mintMsg]) (allow 200) =
      (s₁, .batch [.ok 3]) ∧
    step (world (ledgerWindow windowed)) (run (world (ledgerWindow windowed)) s₁ [end_ 300]) (allow 400) = (s', .batch [.error (.generic 1)]) ∧
    Untouched (run (world (ledgerWindow windowed)) s₁ [end_ 300]) s' ∧ SameApprovals (run (world (ledgerWindow windowed)) s₁ [end_ 300]) s' :=
  ⟨_, _, rfl, rfl, C99_approve_twice_partial (validUrl := fun _ => true) (a := windowed) (s₀ := sWindowed) (pre := [Demo.mintMsg])
    (post := [end_ 300]) (c := [1]) (now := Demo.ms 200) (now' := Demo.ms 400) (i := 3)
    (arg := { tid := 1, info := { spender := Demo.carol, createdAt := Demo.ms 200 } }) rfl (remember_recognises _)
    (within_of (by decide)) (show 10000000000 + 2 * 50000000 ≤ ledgerWindow windowed by decide) rfl rfl⟩

/-- C99 fails as stated: if no window is configured, creation times up to ten seconds old are
accepted, but the ledger is told to recognise requests for no time at all. -/
theorem C99_violated_default : ∃ (E : Env (List Tx)) (s₀ : State (List Tx)),
    init (fun _ => true) [] Demo.admin Demo.args = some s₀ ∧ Recognises E.ledger [] (ledgerWindow Demo.args) ∧
    SettingsWithin E s₀ story 10000000000 50000000 ∧
    Owner (run E s₀ (story.take 3)) 1 = some Demo.alice ∧ Owner (run E s₀ story) 1 = some Demo.bob ∧
    ∃ t ∈ (run E s₀ (story.take 3)).log, ∃ t', (run E s₀ story).log = (run E s₀ (story.take 3)).log ++ [t'] ∧
      SameRequest t' t ∧ t'.createdAt = some (Demo.ms 200) :=
  ⟨world (ledgerWindow Demo.args), sDefault, rfl, remember_recognises _, within_of (by decide), by decide, by decide,
    (run (world (ledgerWindow Demo.args)) sDefault (story.take 3)).log[3]'(by decide), List.getElem_mem _,
    (run (world (ledgerWindow Demo.args)) sDefault story).log[5]'(by decide), by decide, by decide, by decide⟩

namespace Repeat
open Demo

/-- The window is raised to ten seconds before the transfer. -/
def raised : List Msg :=
  [mintMsg, .call admin (ms 150) (.updateCollectionMetadata { txWindow := some 10000000000 })] ++ story.tail

end Repeat

/-- Nor does the ledger learn that the window was raised. -/
theorem C99_violated_raised : ∃ (E : Env (List Tx)) (s₀ : State (List Tx)),
    init (fun _ => true) [] Demo.admin narrow = some s₀ ∧ Recognises E.ledger [] (ledgerWindow narrow) ∧
    Window (run E s₀ (raised.take 4)) = 10000000000 ∧ Drift (run E s₀ (raised.take 4)) = 50000000 ∧
    Owner (run E s₀ (raised.take 4)) 1 = some Demo.alice ∧ Owner (run E s₀ raised) 1 = some Demo.bob ∧
    ∃ t ∈ (run E s₀ (raised.take 4)).log, ∃ t', (run E s₀ raised).log = (run E s₀ (raised.take 4)).log ++ [t'] ∧
      SameRequest t' t ∧ t'.createdAt = some (Demo.ms 200) :=
  ⟨world (ledgerWindow narrow), sNarrow, rfl, remember_recognises _, by decide, by decide, by decide, by decide,
    (run (world (ledgerWindow narrow)) sNarrow (raised.take 4)).log[3]'(by decide), List.getElem_mem _,
    (run (world (ledgerWindow narrow)) sNarrow raised).log[5]'(by decide), by decide, by decide, by decide⟩

namespace Repeat
open Demo

/-- `bob` sends the token back to another account of `alice`'s principal. -/
def elsewhere : List Msg :=
  [mintMsg, send 200, .call [2] (ms 400) (.transfer [{ to_ := alice1, tid := 1 }]), send 600]

end Repeat

/-- The account the token is taken from is not part of the request: if the token came back to
another account of the caller, the same request takes it from there once more, although the
ledger recognises requests for long enough. -/
theorem C99_violated_account : ∃ (E : Env (List Tx)) (s₀ : State (List Tx)),
    init (fun _ => true) [] Demo.admin windowed = some s₀ ∧ Recognises E.ledger [] (ledgerWindow windowed) ∧
    SettingsWithin E s₀ elsewhere 10000000000 50000000 ∧ 10000000000 + 2 * 50000000 ≤ ledgerWindow windowed ∧
    Owner (run E s₀ (elsewhere.take 1)) 1 = some Demo.alice ∧ Owner (run E s₀ (elsewhere.take 2)) 1 = some Demo.bob ∧
    Owner (run E s₀ (elsewhere.take 3)) 1 = some Demo.alice1 ∧ Owner (run E s₀ elsewhere) 1 = some Demo.bob :=
  ⟨world (ledgerWindow windowed), sWindowed, rfl, remember_recognises _, within_of (by decide), by decide, by decide, by decide,
    by decide, by decide⟩

end Verif
