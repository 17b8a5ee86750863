import Verif.Lemmas.Approvals
import Verif.Lemmas.Batch
import Verif.Lemmas.Decide
import Verif.Spec.Strangers
/-!
# Lemmas: calls of strangers
-/
namespace Verif

open Spec

variable {H : Type}

theorem Spec.Stranger.win {s : State H} {c : Principal} (h : Stranger s c) (w : Map Nat (List Nat)) :
    Stranger { s with windows := w } c := ⟨h.1, h.2, h.3, h.4, h.5⟩

/-- Nothing but the limiter's table changed and the item was refused. -/
def ItemRefused (s s' : State H) (r : Except TokErr Nat) : Prop :=
  (∃ w, s' = { s with windows := w }) ∧ ∃ e, r = .error e

private theorem refusedSelf {s : State H} {w : Map Nat (List Nat)} {e : TokErr} :
    ItemRefused s { s with windows := w } (.error e) := ⟨⟨_, rfl⟩, _, rfl⟩

theorem stranger_transfer {L : Ledger H} {s s' : State H} {c : Principal} {now : Nat} {arg : TransferArg} {r}
    (hs : Stranger s c) (h : transferNft L s c now arg = some (s', r)) : ItemRefused s s' r := by
  unfold transferNft at h
  rw [guardWindow_eq] at h
  dsimp only at h
  split at h
  · simp at h; obtain ⟨rfl, rfl⟩ := h; exact refusedSelf
  · split at h
    · simp at h; obtain ⟨rfl, rfl⟩ := h; exact refusedSelf
    · rename_i nft hg
      have hne := hs.ownsNothing arg.tid nft.owner (owner_of_get hg)
      split at h
      · cases h
      · simp at h; obtain ⟨rfl, rfl⟩ := h; exact refusedSelf
      · rw [if_pos (.inl hne)] at h
        simp at h; obtain ⟨rfl, rfl⟩ := h; exact refusedSelf

theorem stranger_approve {L : Ledger H} {s s' : State H} {c : Principal} {now : Nat} {arg : ApproveTokenArg} {r}
    (hs : Stranger s c) (h : approveToken L s c now arg = some (s', r)) : ItemRefused s s' r := by
  unfold approveToken at h
  rw [guardWindow_eq] at h
  dsimp only at h
  split at h
  · simp at h; obtain ⟨rfl, rfl⟩ := h; exact refusedSelf
  · split at h
    · simp at h; obtain ⟨rfl, rfl⟩ := h; exact refusedSelf
    · split at h
      · simp at h; obtain ⟨rfl, rfl⟩ := h; exact refusedSelf
      · rename_i owner ho
        have hne : (owner == (⟨c, arg.info.fromSub⟩ : Account)) = false := by
          cases hb : owner == (⟨c, arg.info.fromSub⟩ : Account) with
          | false => rfl
          | true => exact absurd ((Account.beq_iff.1 hb).1) (hs.ownsNothing arg.tid owner ho)
        rw [if_pos hne] at h
        simp at h; obtain ⟨rfl, rfl⟩ := h; exact refusedSelf

theorem stranger_revoke {L : Ledger H} {s s' : State H} {c : Principal} {now : Nat} {arg : RevokeTokenArg} {r}
    (hs : Stranger s c) (h : revokeToken L s c now arg = some (s', r)) : ItemRefused s s' r := by
  unfold revokeToken at h
  dsimp only at h
  split at h
  · simp at h; obtain ⟨rfl, rfl⟩ := h; exact ⟨⟨s.windows, rfl⟩, _, rfl⟩
  · split at h
    · simp at h; obtain ⟨rfl, rfl⟩ := h; exact ⟨⟨s.windows, rfl⟩, _, rfl⟩
    · rename_i owner ho
      have hne : (owner == (⟨c, arg.fromSub⟩ : Account)) = false := by
        cases hb : owner == (⟨c, arg.fromSub⟩ : Account) with
        | false => rfl
        | true => exact absurd ((Account.beq_iff.1 hb).1) (hs.ownsNothing arg.tid owner ho)
      rw [if_pos hne] at h
      simp at h; obtain ⟨rfl, rfl⟩ := h; exact ⟨⟨s.windows, rfl⟩, _, rfl⟩

theorem stranger_approveColl {L : Ledger H} {s : State H} {c : Principal} {now : Nat} {info : ApprovalInfo}
    (hi : s.tokens.NodupKeys) (hs : Stranger s c) :
    ItemRefused s (approveCollection L s c now info).1 (approveCollection L s c now info).2 := by
  have hno : (s.tokens.entries.any fun e => decide (e.2.owner.owner = c)) = false := by
    rw [List.any_eq_false]
    intro e he hd
    exact hs.ownsNothing e.1 e.2.owner (owner_of_get (Map.get_of_mem hi he)) (of_decide_eq_true hd)
  unfold approveCollection
  rw [guardWindow_eq]
  dsimp only
  split
  · exact refusedSelf
  · split
    · exact refusedSelf
    · split
      · exact refusedSelf
      · rw [if_pos (by simp [hno])]
        exact refusedSelf

theorem stranger_revokeColl {L : Ledger H} {s : State H} {c : Principal} {now : Nat} {arg : RevokeCollArg}
    (hs : Stranger s c) :
    ItemRefused s (revokeCollection L s c now arg).1 (revokeCollection L s c now arg).2 := by
  unfold revokeCollection
  rw [guardWindow_eq]
  dsimp only
  split
  · exact refusedSelf
  · split
    · exact refusedSelf
    · simp only [hs.neverGranted]
      exact refusedSelf

theorem stranger_transferFrom {L : Ledger H} {s s' : State H} {c : Principal} {now : Nat} {arg : TransferFromArg} {r}
    (hs : Stranger s c) (h : transferFrom L s c now arg = some (s', r)) : ItemRefused s s' r := by
  unfold transferFrom at h
  rw [guardWindow_eq] at h
  dsimp only at h
  split at h
  · simp at h; obtain ⟨rfl, rfl⟩ := h; exact refusedSelf
  · split at h
    · simp at h; obtain ⟨rfl, rfl⟩ := h; exact refusedSelf
    · split at h
      · simp at h; obtain ⟨rfl, rfl⟩ := h; exact refusedSelf
      · rename_i nft hg
        split at h
        · simp at h; obtain ⟨rfl, rfl⟩ := h; exact refusedSelf
        · split at h
          · simp at h; obtain ⟨rfl, rfl⟩ := h; exact refusedSelf
          · generalize hw : (guardWindow s now arg.tid).1.windows = w at h
            have hct : checkTokenApproval { s with windows := w } now arg.tid ⟨c, arg.spenderSub⟩ =
                some ({ s with windows := w }, false) := by
              unfold checkTokenApproval
              cases hm : s.tokAppr.get arg.tid with
              | none => rfl
              | some m =>
                cases ha : m.get ⟨c, arg.spenderSub⟩ with
                | none => simp [ha]
                | some a => exact absurd rfl (hs.noTokenApproval arg.tid ⟨c, arg.spenderSub⟩ a ⟨m, hm, ha⟩)
            have hcc : checkCollApproval { s with windows := w } now nft.owner ⟨c, arg.spenderSub⟩ =
                ({ s with windows := w }, false) := by
              unfold checkCollApproval
              cases hm : s.collAppr.get nft.owner with
              | none => rfl
              | some m =>
                cases ha : m.get ⟨c, arg.spenderSub⟩ with
                | none => simp [ha]
                | some a => exact absurd rfl (hs.noCollApproval nft.owner ⟨c, arg.spenderSub⟩ a ⟨m, hm, ha⟩)
            rw [hct] at h
            simp only [hcc] at h
            have hcond : (!(nft.owner == arg.from_) ||
                (!((⟨c, arg.spenderSub⟩ : Account) == arg.from_) && !false && !false)) = true := by
              cases hf : nft.owner == arg.from_ with
              | false => rfl
              | true =>
                cases hsp : (⟨c, arg.spenderSub⟩ : Account) == arg.from_ with
                | false => rfl
                | true =>
                  have h1 := (Account.beq_iff.1 hf).1
                  have h2 := (Account.beq_iff.1 hsp).1
                  exact absurd (h1.trans h2.symm) (hs.ownsNothing arg.tid nft.owner (owner_of_get hg))
            rw [if_pos hcond] at h
            simp at h; obtain ⟨rfl, rfl⟩ := h; exact refusedSelf

theorem stranger_batch {A : Type} {f : State H → A → Option (State H × Except TokErr Nat)}
    (P : State H → Prop) (hP : ∀ s w, P s → P { s with windows := w })
    (hf : ∀ s a s' r, P s → f s a = some (s', r) → ItemRefused s s' r) (args : List A) :
    ∀ {s s' : State H} {rs}, P s → runBatch f s args = some (s', rs) →
      (∃ w, s' = { s with windows := w }) ∧ ∀ r ∈ rs, ∃ e, r = .error e := by
  induction args with
  | nil =>
    intro s s' rs _ h
    simp [runBatch] at h; obtain ⟨rfl, rfl⟩ := h
    exact ⟨⟨s.windows, rfl⟩, by simp⟩
  | cons a as ih =>
    intro s s' rs hs h
    obtain ⟨t, r, rs', h1, h2, rfl⟩ := runBatch_cons h
    obtain ⟨⟨w, rfl⟩, e, rfl⟩ := hf s a t r hs h1
    obtain ⟨⟨w', rfl⟩, hrs⟩ := ih (hP _ w hs) h2
    refine ⟨⟨w', rfl⟩, ?_⟩
    intro r hr
    rcases List.mem_cons.1 hr with rfl | hr
    · exact ⟨_, rfl⟩
    · exact hrs r hr

/-- The whole effect and reply of a stranger's call. -/
theorem stranger_step {E : Env H} {s : State H} {c : Principal} (now : Nat) (call : Call)
    (hi : s.tokens.NodupKeys) (hs : Stranger s c) :
    (∃ w, (step E s (.call c now call)).1 = { s with windows := w }) ∧ Refused (step E s (.call c now call)).2 := by
  have hrej : ∀ p, call.needs = some p → (∃ w, (step E s (.call c now call)).1 = { s with windows := w }) ∧
      Refused (step E s (.call c now call)).2 := by
    intro p hp
    have : hasPermission s.perms c p = false := by
      cases h : hasPermission s.perms c p with
      | false => rfl
      | true => exact absurd (holds_iff.2 h) (hs.noPermission p)
    simp only [step, execCall, hp, this]
    exact ⟨⟨s.windows, rfl⟩, trivial⟩
  have hbatch : ∀ o, (∀ s' rs, o = some (s', rs) → (∃ w, s' = { s with windows := w }) ∧ ∀ r ∈ rs, ∃ e, r = .error e) →
      (∃ w, (ofBatch s o).1 = { s with windows := w }) ∧ Refused (ofBatch s o).2 := by
    intro o h
    cases o with
    | none => exact ⟨⟨s.windows, rfl⟩, trivial⟩
    | some p => exact h p.1 p.2 rfl
  cases call with
  | transfer args =>
    refine hbatch _ fun s' rs h => ?_
    unfold icrc7Transfer at h
    split at h
    · simp at h; obtain ⟨rfl, rfl⟩ := h; exact ⟨⟨s.windows, rfl⟩, by simp⟩
    · split at h
      · cases h
      · split at h
        · simp at h; obtain ⟨rfl, rfl⟩ := h; exact ⟨⟨s.windows, rfl⟩, by simp⟩
        · split at h
          · simp at h; obtain ⟨rfl, rfl⟩ := h; exact ⟨⟨s.windows, rfl⟩, by simp⟩
          · exact stranger_batch (fun t => Stranger t c) (fun _ w h => h.win w)
              (fun _ _ _ _ ht hh => stranger_transfer ht hh) _ hs h
  | approveTokens args =>
    exact hbatch _ fun s' rs h => stranger_batch (fun t => Stranger t c) (fun _ w h => h.win w)
      (fun _ _ _ _ ht hh => stranger_approve ht hh) _ hs h
  | approveCollection args =>
    refine hbatch _ fun s' rs h => stranger_batch (fun t => Stranger t c ∧ t.tokens.NodupKeys)
      (fun _ w h => ⟨h.1.win w, h.2⟩) ?_ _ ⟨hs, hi⟩ h
    intro t a t' r ht hh
    simp at hh
    have := stranger_approveColl (L := E.ledger) (now := now) (info := a) ht.2 ht.1
    rw [hh] at this
    exact this
  | revokeCollection args =>
    refine hbatch _ fun s' rs h => stranger_batch (fun t => Stranger t c) (fun _ w h => h.win w) ?_ _ hs h
    intro t a t' r ht hh
    simp at hh
    have := stranger_revokeColl (L := E.ledger) (now := now) (arg := a) ht
    rw [hh] at this
    exact this
  | transferFrom args =>
    exact hbatch _ fun s' rs h => stranger_batch (fun t => Stranger t c) (fun _ w h => h.win w)
      (fun _ _ _ _ ht hh => stranger_transferFrom ht hh) _ hs h
  | revokeTokens args =>
    simp only [step, execCall, Call.needs, exec, icrc37RevokeTokens]
    cases args with
    | nil => exact ⟨⟨s.windows, rfl⟩, trivial⟩
    | cons a as =>
      dsimp only
      rw [show (guardWindow s now a.tid).1 = { s with windows := (guardWindow s now a.tid).1.windows } from rfl]
      generalize (guardWindow s now a.tid).1.windows = w
      generalize (guardWindow s now a.tid).2 = b
      dsimp only
      cases b with
      | false => exact ⟨⟨w, rfl⟩, trivial⟩
      | true =>
        simp only [Bool.not_true, if_false, Bool.false_eq_true]
        cases hb : runBatch (fun s a => revokeToken E.ledger s c now a) { s with windows := w }
            ((a :: as).take (maxRevoke s.cfg)) with
        | none => exact ⟨⟨s.windows, rfl⟩, trivial⟩
        | some p =>
          obtain ⟨s', rs⟩ := p
          obtain ⟨⟨w', rfl⟩, h⟩ := stranger_batch (fun t => Stranger t c) (fun _ w h => h.win w)
            (fun _ _ _ _ ht hh => stranger_revoke ht hh) _ (hs.win w) hb
          exact ⟨⟨w', rfl⟩, h⟩
  | burn tid =>
    simp only [step, execCall, Call.needs, exec, burnNft, withGuard]
    by_cases hf : s.guards = []
    · rw [guardEnter_free hf]
      dsimp only
      cases ht : s.tokens.get tid with
      | none => exact ⟨⟨s.windows, by simp [ofMgmt, guardLeave, hf]⟩, trivial⟩
      | some t =>
        have := hs.ownsNothing tid t.owner (owner_of_get ht)
        dsimp only
        rw [if_pos (fun h => this h.symm)]
        exact ⟨⟨s.windows, by simp [ofMgmt, guardLeave, hf]⟩, trivial⟩
    · have : guardEnter s c = none := by
        unfold guardEnter
        rw [if_pos]
        unfold maxConcurrent
        exact List.length_pos_iff.2 hf
      rw [this]
      exact ⟨⟨s.windows, rfl⟩, trivial⟩
  | updateCollectionMetadata a => exact hrej _ rfl
  | mint reqs => exact hrej _ rfl
  | updateNftMetadata tid kvs => exact hrej _ rfl
  | initUpload path size => exact hrej _ rfl
  | storeChunk path => exact hrej _ rfl
  | finalizeUpload path => exact hrej _ rfl
  | cancelUpload path => exact hrej _ rfl
  | grant p x => exact hrej _ rfl
  | revoke p x => exact hrej _ rfl

/-- A token approval asked for by a stranger is answered, and charged to the token. -/
theorem stranger_approve_charged {L : Ledger H} {s : State H} {c : Principal} {now : Nat} {arg : ApproveTokenArg}
    (hs : Stranger s c) : ∃ e, approveToken L s c now arg = some ((guardWindow s now arg.tid).1, .error e) := by
  unfold approveToken
  rw [guardWindow_eq]
  dsimp only
  split
  · exact ⟨_, rfl⟩
  · split
    · exact ⟨_, rfl⟩
    · split
      · exact ⟨_, rfl⟩
      · rename_i owner ho
        have hne : (owner == (⟨c, arg.info.fromSub⟩ : Account)) = false := by
          cases hb : owner == (⟨c, arg.info.fromSub⟩ : Account) with
          | false => rfl
          | true => exact absurd ((Account.beq_iff.1 hb).1) (hs.ownsNothing arg.tid owner ho)
        rw [if_pos hne]
        exact ⟨_, rfl⟩

/-- The same for a collection approval, charged to token 0. -/
theorem approveColl_charged (L : Ledger H) (s : State H) (c : Principal) (now : Nat) (info : ApprovalInfo)
    (hi : s.tokens.NodupKeys) (hs : Stranger s c) :
    ∃ e, approveCollection L s c now info = ((guardWindow s now 0).1, .error e) := by
  have hno : (s.tokens.entries.any fun e => decide (e.2.owner.owner = c)) = false := by
    rw [List.any_eq_false]
    intro e he hd
    exact hs.ownsNothing e.1 e.2.owner (owner_of_get (Map.get_of_mem hi he)) (of_decide_eq_true hd)
  unfold approveCollection
  rw [guardWindow_eq]
  dsimp only
  split
  · exact ⟨_, rfl⟩
  · split
    · exact ⟨_, rfl⟩
    · split
      · exact ⟨_, rfl⟩
      · rw [if_pos (by simp [hno])]
        exact ⟨_, rfl⟩

/-- Five charges at time `t` on a token without recent calls fill its window. -/
theorem fiveCharges {s : State H} {t tid : Nat} (h0 : recentCalls s t tid = 0) :
    let g := fun s : State H => (guardWindow s t tid).1
    (g (g (g (g (g s))))).windows.get tid = some (List.replicate 5 t) := by
  intro g
  have hf : ((s.windows.get tid).getD []).filter (fun ts => decide (t - ts < slidingWindowNs)) = [] :=
    List.eq_nil_of_length_eq_zero h0
  have h1 : (g s).windows.get tid = some [t] := by
    simp [g, guardWindow, windowStep, hf, slidingWindowCalls, Map.get_set_self]
  have next : ∀ k (s : State H), k < 5 → s.windows.get tid = some (List.replicate k t) →
      (g s).windows.get tid = some (List.replicate (k + 1) t) := by
    intro k s hk h
    have hfil : (List.replicate k t).filter (fun ts => decide (t - ts < slidingWindowNs)) = List.replicate k t := by
      rw [List.filter_eq_self]
      intro x hx
      rw [List.eq_of_mem_replicate hx]
      simp [slidingWindowNs]
    simp only [g, guardWindow, windowStep, h, Option.getD_some, hfil, slidingWindowCalls, List.length_replicate]
    rw [if_neg (by omega), Map.get_set_self, List.replicate_succ']
  exact next 4 _ (by omega) (next 3 _ (by omega) (next 2 _ (by omega) (next 1 _ (by omega) h1)))

theorem recent_of_five {s : State H} {t now tid : Nat} (h : s.windows.get tid = some (List.replicate 5 t))
    (hnow : now < t + 60000000) : recentCalls s now tid = 5 := by
  unfold recentCalls
  rw [h, Option.getD_some, List.filter_eq_self.2, List.length_replicate]
  intro x hx
  rw [List.eq_of_mem_replicate hx]
  exact decide_eq_true (by omega)

theorem flood_coll {E : Env H} {s : State H} {x : Principal} {t : Nat} (info : ApprovalInfo)
    (hne : s.tokens.NodupKeys) (hx : Stranger s x) (hfree : recentCalls s t 0 = 0) :
    (step E s (.call x t (.approveCollection (List.replicate 5 info)))).1.windows.get 0 = some (List.replicate 5 t) := by
  have one : ∀ w, ∃ e, approveCollection E.ledger { s with windows := w } x t info =
      ((guardWindow { s with windows := w } t 0).1, .error e) :=
    fun w => approveColl_charged E.ledger { s with windows := w } x t info hne (hx.win w)
  have hfive := fiveCharges hfree
  dsimp only at hfive
  obtain ⟨e1, h1⟩ := one s.windows
  generalize hw1 : (guardWindow s t 0).1.windows = w1 at *
  have g1 : (guardWindow s t 0).1 = { s with windows := w1 } := by rw [← hw1]; rfl
  obtain ⟨e2, h2⟩ := one w1
  generalize hw2 : (guardWindow { s with windows := w1 } t 0).1.windows = w2 at *
  have g2 : (guardWindow { s with windows := w1 } t 0).1 = { s with windows := w2 } := by rw [← hw2]; rfl
  obtain ⟨e3, h3⟩ := one w2
  generalize hw3 : (guardWindow { s with windows := w2 } t 0).1.windows = w3 at *
  have g3 : (guardWindow { s with windows := w2 } t 0).1 = { s with windows := w3 } := by rw [← hw3]; rfl
  obtain ⟨e4, h4⟩ := one w3
  generalize hw4 : (guardWindow { s with windows := w3 } t 0).1.windows = w4 at *
  have g4 : (guardWindow { s with windows := w3 } t 0).1 = { s with windows := w4 } := by rw [← hw4]; rfl
  obtain ⟨e5, h5⟩ := one w4
  change approveCollection E.ledger s x t info = ((guardWindow s t 0).1, .error e1) at h1
  rw [g1] at h1
  rw [g2] at h2
  rw [g3] at h3
  rw [g4] at h4
  rw [g1, g2, g3, g4] at hfive
  simp only [step, execCall, Call.needs, exec, icrc37ApproveCollection, List.replicate, runBatch, h1, h2, h3, h4, h5,
    ofBatch]
  exact hfive

theorem full_approveColl {E : Env H} {s : State H} {c : Principal} {now : Nat} {info : ApprovalInfo}
    (h : 5 ≤ recentCalls s now 0) :
    ∃ s' e, step E s (.call c now (.approveCollection [info])) = (s', .batch [.error e]) := by
  have hg : (guardWindow s now 0).2 = false := by
    rw [guardWindow_snd]; exact decide_eq_false (by omega)
  refine ⟨(guardWindow s now 0).1, .generic 0, ?_⟩
  simp [step, execCall, Call.needs, exec, icrc37ApproveCollection, runBatch, approveCollection, hg, ofBatch]

theorem full_revokeColl {E : Env H} {s : State H} {c : Principal} {now : Nat} {arg : RevokeCollArg}
    (h : 5 ≤ recentCalls s now 0) (hlim : 1 ≤ maxRevoke s.cfg) :
    ∃ s' e, step E s (.call c now (.revokeCollection [arg])) = (s', .batch [.error e]) := by
  have hg : (guardWindow s now 0).2 = false := by
    rw [guardWindow_snd]; exact decide_eq_false (by omega)
  obtain ⟨n, hn⟩ : ∃ n, maxRevoke s.cfg = n + 1 := ⟨maxRevoke s.cfg - 1, by omega⟩
  refine ⟨(guardWindow s now 0).1, .generic 0, ?_⟩
  simp [step, execCall, Call.needs, exec, icrc37RevokeCollection, runBatch, revokeCollection, hg, ofBatch, hn]

end Verif
