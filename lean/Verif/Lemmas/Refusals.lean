import Verif.Lemmas.Forgets
import Verif.Lemmas.Strangers
import Verif.Spec.Refusals
/-!
# Lemmas: refused calls
-/
namespace Verif

open Spec

variable {H : Type}

theorem addTx_forgets {L : Ledger H} (hL : ForgetsRefused L) {s s' : State H} {t : Tx} {e : LedgerErr}
    (h : addTx L s t = (s', .error e)) : s' = s := by
  obtain ⟨h', h1, rfl⟩ := addTx_err h
  cases hL _ _ _ _ h1
  rfl

/-- Nothing but the limiter's table changed. -/
def OnlyLimiter (s s' : State H) : Prop := ∃ w, s' = { s with windows := w }

private theorem only_self {s : State H} {w : Map Nat (List Nat)} : OnlyLimiter s { s with windows := w } := ⟨_, rfl⟩

theorem OnlyLimiter.refl (s : State H) : OnlyLimiter s s := ⟨s.windows, rfl⟩

theorem OnlyLimiter.trans (s t u : State H) (h : OnlyLimiter s t) (h' : OnlyLimiter t u) : OnlyLimiter s u := by
  obtain ⟨w, rfl⟩ := h
  obtain ⟨w', rfl⟩ := h'
  exact ⟨w', rfl⟩

theorem refused_transfer {L : Ledger H} (hL : ForgetsRefused L) {s s' : State H} {c : Principal} {now : Nat} {arg : TransferArg} {e}
    (h : transferNft L s c now arg = some (s', .error e)) : OnlyLimiter s s' := by
  unfold transferNft at h
  rw [guardWindow_eq] at h
  dsimp only at h
  repeat' split at h
  all_goals first
    | cases h; done
    | (cases h; exact only_self)
    | (rename_i hadd _; cases h; cases addTx_forgets hL hadd; exact only_self)
    | (rename_i hadd; cases h; cases addTx_forgets hL hadd; exact only_self)

theorem refused_approve {L : Ledger H} (hL : ForgetsRefused L) {s s' : State H} {c : Principal} {now : Nat} {arg : ApproveTokenArg} {e}
    (h : approveToken L s c now arg = some (s', .error e)) : OnlyLimiter s s' := by
  unfold approveToken at h
  rw [guardWindow_eq] at h
  dsimp only at h
  repeat' split at h
  all_goals first
    | cases h; done
    | (cases h; exact only_self)
    | (rename_i hadd; cases h; cases addTx_forgets hL hadd; exact only_self)

theorem refused_revoke {L : Ledger H} (hL : ForgetsRefused L) {s s' : State H} {c : Principal} {now : Nat} {arg : RevokeTokenArg} {e}
    (h : revokeToken L s c now arg = some (s', .error e)) : OnlyLimiter s s' := by
  unfold revokeToken at h
  dsimp only at h
  repeat' split at h
  all_goals first
    | cases h; done
    | (cases h; exact .refl _)
    | (rename_i hadd; cases h; cases addTx_forgets hL hadd; exact .refl _)

theorem refused_approveColl {L : Ledger H} (hL : ForgetsRefused L) {s s' : State H} {c : Principal} {now : Nat} {info : ApprovalInfo} {e}
    (h : approveCollection L s c now info = (s', .error e)) : OnlyLimiter s s' := by
  unfold approveCollection at h
  rw [guardWindow_eq] at h
  dsimp only at h
  repeat' split at h
  all_goals first
    | cases h; done
    | (cases h; exact only_self)
    | (rename_i hadd; cases h; cases addTx_forgets hL hadd; exact only_self)

theorem refused_revokeColl {L : Ledger H} (hL : ForgetsRefused L) {s s' : State H} {c : Principal} {now : Nat} {arg : RevokeCollArg} {e}
    (h : revokeCollection L s c now arg = (s', .error e)) : OnlyLimiter s s' := by
  unfold revokeCollection at h
  rw [guardWindow_eq] at h
  dsimp only at h
  repeat' split at h
  all_goals first
    | cases h; done
    | (cases h; exact only_self)
    | (rename_i hadd; cases h; cases addTx_forgets hL hadd; exact only_self)

theorem checkTok_live {s : State H} {now tid : Nat} {sp : Account} (h : ∀ a, TokenApproval s tid sp a → Live a now) :
    ∃ b, checkTokenApproval s now tid sp = some (s, b) := by
  unfold checkTokenApproval
  cases hm : s.tokAppr.get tid with
  | none => exact ⟨_, rfl⟩
  | some m =>
    cases ha : m.get sp with
    | none => exact ⟨false, by simp [ha]⟩
    | some a =>
      have : expired a now = false := not_expired_iff.2 (h a ⟨m, hm, ha⟩)
      exact ⟨true, by simp [ha, this]⟩

theorem checkColl_live {s : State H} {now : Nat} {o sp : Account} (h : ∀ a, CollApproval s o sp a → Live a now) :
    ∃ b, checkCollApproval s now o sp = (s, b) := by
  unfold checkCollApproval
  cases hm : s.collAppr.get o with
  | none => exact ⟨_, rfl⟩
  | some m =>
    cases ha : m.get sp with
    | none => exact ⟨false, by simp [ha]⟩
    | some a =>
      have : expired a now = false := not_expired_iff.2 (h a ⟨m, hm, ha⟩)
      exact ⟨true, by simp [ha, this]⟩

theorem refused_transferFrom {L : Ledger H} (hL : ForgetsRefused L) {s s' : State H} {c : Principal} {now : Nat} {arg : TransferFromArg} {e}
    (hn : NoneLapsed s now c) (h : transferFrom L s c now arg = some (s', .error e)) : OnlyLimiter s s' := by
  unfold transferFrom at h
  rw [guardWindow_eq] at h
  generalize (guardWindow s now arg.tid).1.windows = w at h
  dsimp only at h
  split at h
  · cases h; exact only_self
  · split at h
    · cases h; exact only_self
    · split at h
      · cases h; exact only_self
      · rename_i nft hg
        obtain ⟨b, hb⟩ := checkTok_live (s := { s with windows := w }) (now := now) (tid := arg.tid) (sp := ⟨c, arg.spenderSub⟩)
          (fun a ha => hn.1 _ _ a ha rfl)
        obtain ⟨b', hb'⟩ := checkColl_live (s := { s with windows := w }) (now := now) (o := nft.owner) (sp := ⟨c, arg.spenderSub⟩)
          (fun a ha => hn.2 _ _ a ha rfl)
        rw [hb] at h
        simp only [hb'] at h
        repeat' split at h
        all_goals first
          | cases h; done
          | (cases h; exact only_self)
          | (rename_i hadd; cases h; cases addTx_forgets hL hadd; exact only_self)

theorem refused_burn {E : Env H} (hL : ForgetsRefused E.ledger) {s s' : State H} {c : Principal} {now tid : Nat} {e}
    (h : burnNft E s c now tid = some (s', .error e)) : s' = s := by
  rcases withGuard_out h with ⟨_, rfl, _⟩ | ⟨free, s1, hb, rfl⟩
  · rfl
  dsimp only at hb
  repeat' split at hb
  all_goals first
    | cases hb; done
    | (cases hb; rw [guardLeave_self _ _ rfl, with_guards_nil free])
    | (rename_i hadd; cases hb; cases addTx_forgets hL hadd; rw [guardLeave_self _ _ rfl, with_guards_nil free])

theorem NoneLapsed.win {s s' : State H} (h : OnlyLimiter s s') {now : Nat} {c : Principal} (hn : NoneLapsed s now c) :
    NoneLapsed s' now c := by
  obtain ⟨w, rfl⟩ := h
  exact hn

/-- A refused call leaves nothing behind but marks of the rate limiter. -/
theorem refused_step {E : Env H} (hL : ForgetsRefused E.ledger) {s : State H} {c : Principal} {now : Nat} {call : Call}
    (hp : PlainlyRefused E s c now call) : OnlyLimiter s (step E s (.call c now call)).1 := by
  obtain ⟨hr, hst, hn⟩ := hp
  have hbatch : ∀ o : Option (State H × List (Except TokErr Nat)), Refused (ofBatch s o).2 →
      (∀ s' rs, o = some (s', rs) → (∀ r ∈ rs, ∃ e, r = .error e) → OnlyLimiter s s') → OnlyLimiter s (ofBatch s o).1 := by
    intro o h1 h2
    cases o with
    | none => exact .refl _
    | some p => exact h2 p.1 p.2 rfl h1
  have hmgmt : ∀ o : Option (MgmtRes H), Refused (ofMgmt s o).2 →
      (∀ s' e, o = some (s', .error e) → OnlyLimiter s s') → OnlyLimiter s (ofMgmt s o).1 := by
    intro o h1 h2
    cases o with
    | none => exact .refl _
    | some p =>
      obtain ⟨s', r⟩ := p
      cases r with
      | ok _ => exact h1.elim
      | error e => exact h2 s' e rfl
  have hup : ∀ {o : Started H}, UploadOut s c call o → Refused (ofStarted o).2 →
      ((ofStarted o).2 = .mgmt (.error .storageCanisterError) → ∃ tid, call = .burn tid) → OnlyLimiter s (ofStarted o).1 := by
    intro o ho h1 h2
    cases ho with
    | refused => exact .refl _
    | dropped key u _ _ _ _ hcall =>
      obtain ⟨tid, ht⟩ := h2 rfl
      rcases hcall with h | h | h <;> (rw [ht] at h; cases h)
    | suspended => exact h1.elim
  simp only [step, execCall] at hr hst ⊢
  cases hneed : call.needs with
  | some p =>
    simp only [hneed] at hr hst ⊢
    by_cases hp : hasPermission s.perms c p = true
    · rw [if_pos hp] at hr hst ⊢
      cases call with
      | updateCollectionMetadata a =>
        refine hmgmt _ hr fun s' e h => ?_
        rcases updateCollectionMetadata_out h with ⟨_, rfl, _⟩ | ⟨_, h, _⟩
        · exact .refl _
        · cases h
      | mint reqs =>
        refine hmgmt _ hr fun s' e h => ?_
        cases mint_out h with
        | refused => exact .refl _
        | cut md h' n =>
          obtain ⟨tid, ht⟩ := hst (by simp only [exec, h, ofMgmt])
          cases ht
      | updateNftMetadata tid kvs =>
        refine hmgmt _ hr fun s' e h => ?_
        cases updateNftMetadata_out h with
        | refused => exact .refl _
        | cut token md h' =>
          obtain ⟨tid, ht⟩ := hst (by simp only [exec, h, ofMgmt])
          cases ht
      | grant p x =>
        refine hmgmt _ hr fun s' e h => ?_
        rcases grant_out h with ⟨_, rfl, _⟩ | ⟨_, h, _⟩
        · exact .refl _
        · cases h
      | revoke p x =>
        refine hmgmt _ hr fun s' e h => ?_
        rcases revoke_out h with ⟨_, rfl, _⟩ | ⟨_, h, _⟩
        · exact .refl _
        · cases h
      | initUpload path size => exact hup (initUpload_out s c path size) hr hst
      | storeChunk path => exact hup (storeChunk_out s c path) hr hst
      | finalizeUpload path => exact hup (finalizeUpload_out s c path) hr hst
      | cancelUpload path => exact hup (cancelUpload_out s c path) hr hst
      | _ => cases hneed
    · rw [if_neg hp]
      exact .refl _
  | none =>
    simp only [hneed] at hr hst ⊢
    cases call with
    | transfer args =>
      refine hbatch _ hr fun s' rs h hall => ?_
      rcases icrc7Transfer_out h with ⟨_, rfl, _⟩ | ⟨_, _, ⟨_, rfl, _⟩ | ⟨_, _, hb⟩⟩
      · exact .refl _
      · exact .refl _
      · exact runBatch_refused OnlyLimiter .refl .trans _ (fun _ _ _ _ _ hf => refused_transfer hL hf) hb hall
    | approveTokens args =>
      exact hbatch _ hr fun s' rs h hall =>
        runBatch_refused OnlyLimiter .refl .trans _ (fun _ _ _ _ _ hf => refused_approve hL hf) h hall
    | approveCollection args =>
      exact hbatch _ hr fun s' rs h hall =>
        runBatch_refused OnlyLimiter .refl .trans _ (fun _ _ _ _ _ hf => refused_approveColl hL (Option.some.inj hf)) h hall
    | revokeCollection args =>
      exact hbatch _ hr fun s' rs h hall =>
        runBatch_refused OnlyLimiter .refl .trans _ (fun _ _ _ _ _ hf => refused_revokeColl hL (Option.some.inj hf)) h hall
    | transferFrom args =>
      refine hbatch _ hr fun s' rs h hall => ?_
      have := runBatch_refused (fun a b : State H => NoneLapsed a now c → OnlyLimiter a b ∧ NoneLapsed b now c)
        (fun a ha => ⟨.refl a, ha⟩)
        (fun a b d h1 h2 ha => ⟨.trans _ _ _ (h1 ha).1 (h2 (h1 ha).2).1, (h2 (h1 ha).2).2⟩) _
        (fun _ _ _ _ _ hf ha => ⟨refused_transferFrom hL ha hf, NoneLapsed.win (refused_transferFrom hL ha hf) ha⟩) h hall
      exact (this (hn ⟨args, rfl⟩)).1
    | revokeTokens args =>
      simp only [exec] at hr ⊢
      cases hrev : icrc37RevokeTokens E.ledger s c now args with
      | none => exact .refl _
      | some p =>
        obtain ⟨s', r⟩ := p
        rw [hrev] at hr
        unfold icrc37RevokeTokens at hrev
        cases args with
        | nil => cases hrev
        | cons a as =>
          dsimp only at hrev
          rw [guardWindow_eq] at hrev
          generalize (guardWindow s now a.tid).1.windows = w at hrev
          dsimp only at hrev
          split at hrev
          · cases hrev; exact only_self
          · split at hrev
            · cases hrev
            · rename_i hb
              cases hrev
              exact .trans _ _ _ only_self
                (runBatch_refused OnlyLimiter .refl .trans _ (fun _ _ _ _ _ hf => refused_revoke hL hf) hb hr)
    | burn tid =>
      refine hmgmt _ hr fun s' e h => ?_
      rw [refused_burn hL h]
      exact .refl _
    | _ => cases hneed

end Verif
