import Verif.Spec.Errors
import Verif.Lemmas.Windows
import Verif.Lemmas.ApprovalTables
import Verif.Props.Demo
/-!
# C63: error replies are true
-/
namespace Verif

open Spec

variable {H : Type}

private theorem guard_false {s : State H} {now tid : Nat} (h : (!(guardWindow s now tid).2) = true) :
    5 ≤ recentCalls s now tid := by
  rw [guardWindow_snd] at h
  simp at h; omega

private theorem timing_says {s : State H} {now created : Nat} {e : TokErr} (hs : SaneTimes s now created)
    (h : verifyTiming s.cfg created now = some e) : TimeSays s now created e := by
  rw [verifyTiming_eq hs] at h
  split at h
  · cases h; exact ⟨rfl, by assumption⟩
  · split at h
    · cases h; assumption
    · cases h

private theorem timingOpt_says {s : State H} {now : Nat} {created : Option Nat} {e : TokErr}
    (hs : ∀ t, created = some t → SaneTimes s now t)
    (h : verifyTimingOpt s.cfg created now = some e) : ∃ t, created = some t ∧ TimeSays s now t e := by
  cases created with
  | none => cases h
  | some t => exact ⟨t, rfl, timing_says (hs t rfl) h⟩

private theorem refuses_of {E : Env H} {s s' s₀ : State H} {t : Tx} {e : LedgerErr}
    (h : addTx E.ledger s t = (s', .error e)) (hh : s.hid = s₀.hid := by rfl) : Refuses E s₀ t := by
  obtain ⟨h', hl, _⟩ := addTx_err h
  exact ⟨e, by rw [← hh, hl]⟩

private theorem refuses_val {E : Env H} {s s' s₀ : State H} {t : Tx} {e : LedgerErr}
    (h : addTx E.ledger s t = (s', .error e)) (hh : s.hid = s₀.hid := by rfl) :
    (E.ledger.add s₀.hid t).2 = .error e := by
  obtain ⟨h', hl, _⟩ := addTx_err h
  rw [← hh, hl]

private theorem not_exists {s : State H} {tid : Nat} (h : ownerOf s tid = none) : ¬ TokenExists s tid := by
  rintro ⟨o, ho⟩
  rw [show Owner s tid = ownerOf s tid from rfl, h] at ho
  cases ho

private theorem time_ne {s : State H} {now created : Nat} {e : TokErr} (h : TimeSays s now created e) :
    e = .tooOld ∨ ∃ n, e = .createdInFuture n := by
  cases e <;> simp [TimeSays] at h ⊢

private theorem ne_same {a b : Account} (h : (a == b) = false) : ¬ SameAccount a b := by
  rw [sameAccount_iff, h]; simp

/-- C63: an error reply to an `icrc37_approve_tokens` item is true. -/
theorem C63_approve_tokens {E : Env H} {s s' : State H} {c : Principal} {now : Nat} {arg : ApproveTokenArg} {e : TokErr}
    (hr : Reachable E s) (hs : SaneTimes s now arg.info.createdAt) (hl : ApprovalLimit s < 2 ^ 32)
    (h : step E s (.call c now (.approveTokens [arg])) = (s', .batch [.error e])) : ApproveSays E s c now arg e := by
  have h := approve_one h
  unfold approveToken at h
  have hg := @guard_false _ s now arg.tid
  rw [guardWindow_eq] at h hg
  generalize (guardWindow s now arg.tid).1.windows = w at h hg
  generalize (guardWindow s now arg.tid).2 = ok at h hg
  dsimp only at h hg
  split at h
  · simp only [Option.some.injEq, Prod.mk.injEq, Except.error.injEq] at h
    rw [← h.2]; exact hg (by assumption)
  split at h
  · rename_i hx
    simp only [Option.some.injEq, Prod.mk.injEq, Except.error.injEq] at h
    have := timing_says hs hx
    rw [← h.2]
    rcases time_ne this with rfl | ⟨n, rfl⟩ <;> exact this
  split at h
  · rename_i hx
    simp only [Option.some.injEq, Prod.mk.injEq, Except.error.injEq] at h
    rw [← h.2]; exact not_exists (s := s) hx
  rename_i o ho
  split at h
  · rename_i hx
    simp only [Option.some.injEq, Prod.mk.injEq, Except.error.injEq] at h
    rw [← h.2]; exact ⟨o, ho, ne_same hx⟩
  split at h
  · rename_i hx
    simp only [Option.some.injEq, Prod.mk.injEq, Except.error.injEq] at h
    rw [← h.2]; exact sameAccount_iff.2 hx
  split at h
  · rename_i hx
    simp only [Option.some.injEq, Prod.mk.injEq, Except.error.injEq] at h
    rw [← h.2]; left
    rw [maxApprovals_eq hl] at hx
    exact tokenSpenders_of hr.apprInv hx
  split at h
  · rename_i hx
    simp only [Option.some.injEq, Prod.mk.injEq, Except.error.injEq] at h
    rw [← h.2]; exact .inr (refuses_of hx)
  · split at h
    · cases h
    · simp at h

/-- C63: an error reply to an `icrc37_approve_collection` item is true. -/
theorem C63_approve_collection {E : Env H} {s s' : State H} {c : Principal} {now : Nat} {info : ApprovalInfo} {e : TokErr}
    (hr : Reachable E s) (hs : SaneTimes s now info.createdAt) (hl : ApprovalLimit s < 2 ^ 32)
    (h : step E s (.call c now (.approveCollection [info])) = (s', .batch [.error e])) : ApproveCollSays E s c now info e := by
  have h := congrArg some (approveColl_one h)
  unfold approveCollection at h
  have hg := @guard_false _ s now 0
  rw [guardWindow_eq] at h hg
  generalize (guardWindow s now 0).1.windows = w at h hg
  generalize (guardWindow s now 0).2 = ok at h hg
  dsimp only at h hg
  split at h
  · simp only [Option.some.injEq, Prod.mk.injEq, Except.error.injEq] at h
    rw [← h.2]; exact hg (by assumption)
  split at h
  · rename_i hx
    simp only [Option.some.injEq, Prod.mk.injEq, Except.error.injEq] at h
    have := timing_says hs hx
    rw [← h.2]
    rcases time_ne this with rfl | ⟨n, rfl⟩ <;> exact this
  split at h
  · rename_i hx
    simp only [Option.some.injEq, Prod.mk.injEq, Except.error.injEq] at h
    rw [← h.2]; exact sameAccount_iff.2 hx
  split at h
  · rename_i hx
    simp only [Option.some.injEq, Prod.mk.injEq, Except.error.injEq] at h
    rw [← h.2]; left
    intro tid o ho heq
    obtain ⟨t, ht, rfl⟩ := owner_get ho
    obtain ⟨k, _, hk⟩ := Map.mem_of_get ht
    rw [Bool.not_eq_true', List.any_eq_false] at hx
    exact hx _ hk (by simpa using heq)
  split at h
  · rename_i hx
    simp only [Option.some.injEq, Prod.mk.injEq, Except.error.injEq] at h
    rw [← h.2]; right; left
    rw [maxApprovals_eq hl] at hx
    exact collSpenders_of hr.apprInv hx
  split at h
  · rename_i hx
    simp only [Option.some.injEq, Prod.mk.injEq, Except.error.injEq] at h
    rw [← h.2]; exact .inr (.inr (refuses_of hx))
  · simp at h

/-- C63: an error reply to an `icrc37_revoke_token_approvals` item is true. -/
theorem C63_revoke_tokens {E : Env H} {s s' : State H} {c : Principal} {now : Nat} {arg : RevokeTokenArg} {e : TokErr}
    (hs : ∀ t, arg.createdAt = some t → SaneTimes s now t)
    (h : step E s (.call c now (.revokeTokens [arg])) = (s', .batch [.error e])) : RevokeSays E s c now arg e := by
  have h := revoke_one h
  unfold revokeToken at h
  rw [guardWindow_eq] at h
  generalize (guardWindow s now arg.tid).1.windows = w at h
  dsimp only at h
  split at h
  · rename_i hx
    simp only [Option.some.injEq, Prod.mk.injEq, Except.error.injEq] at h
    have hh := timingOpt_says hs hx
    rw [← h.2]
    obtain ⟨t, ht, this⟩ := hh
    rcases time_ne this with rfl | ⟨n, rfl⟩ <;> exact ⟨t, ht, this⟩
  split at h
  · rename_i hx
    simp only [Option.some.injEq, Prod.mk.injEq, Except.error.injEq] at h
    rw [← h.2]; exact not_exists (s := s) hx
  rename_i o ho
  split at h
  · rename_i hx
    simp only [Option.some.injEq, Prod.mk.injEq, Except.error.injEq] at h
    rw [← h.2]; exact ⟨o, ho, ne_same hx⟩
  split at h
  · rename_i hx
    simp only [Option.some.injEq, Prod.mk.injEq, Except.error.injEq] at h
    rw [← h.2]; intro sp a ⟨m, hm, _⟩
    rw [hx] at hm; cases hm
  split at h
  · rename_i hx
    simp only [Option.some.injEq, Prod.mk.injEq, Except.error.injEq] at h
    rw [← h.2]; exact refuses_of hx
  · split at h
    · cases h
    · simp at h

/-- C63: the error of a whole `icrc37_revoke_token_approvals` call is the rate
limit of its first token. -/
theorem C63_revoke_tokens_call {E : Env H} {s s' : State H} {c : Principal} {now : Nat} {args : List RevokeTokenArg}
    {e : TokErr} (h : step E s (.call c now (.revokeTokens args)) = (s', .batchErr e)) :
    e = .generic 0 ∧ ∃ a as, args = a :: as ∧ 5 ≤ recentCalls s now a.tid := by
  simp only [step, execCall, Call.needs, exec, icrc37RevokeTokens] at h
  cases args with
  | nil => simp at h
  | cons a as =>
    dsimp only at h
    have hg := @guard_false _ s now a.tid
    cases hok : (guardWindow s now a.tid).2 with
    | false =>
      rw [guardWindow_eq, hok] at h
      simp at h
      exact ⟨h.2.symm, a, as, rfl, hg (by rw [hok]; rfl)⟩
    | true =>
      rw [guardWindow_eq, hok] at h
      simp only [Bool.not_true, Bool.false_eq_true, if_false] at h
      generalize hb : runBatch _ _ _ = o at h
      cases o with
      | none => simp at h
      | some p => simp at h

/-- C63: an error reply to an `icrc37_revoke_collection_approvals` item is true. -/
theorem C63_revoke_collection {E : Env H} {s s' : State H} {c : Principal} {now : Nat} {arg : RevokeCollArg} {e : TokErr}
    (hs : ∀ t, arg.createdAt = some t → SaneTimes s now t)
    (h : step E s (.call c now (.revokeCollection [arg])) = (s', .batch [.error e])) : RevokeCollSays E s c now arg e := by
  have h := congrArg some (revokeColl_one h)
  unfold revokeCollection at h
  have hg := @guard_false _ s now 0
  rw [guardWindow_eq] at h hg
  generalize (guardWindow s now 0).1.windows = w at h hg
  generalize (guardWindow s now 0).2 = ok at h hg
  dsimp only at h hg
  split at h
  · simp only [Option.some.injEq, Prod.mk.injEq, Except.error.injEq] at h
    rw [← h.2]; exact hg (by assumption)
  split at h
  · rename_i hx
    simp only [Option.some.injEq, Prod.mk.injEq, Except.error.injEq] at h
    have hh := timingOpt_says hs hx
    rw [← h.2]
    obtain ⟨t, ht, this⟩ := hh
    rcases time_ne this with rfl | ⟨n, rfl⟩ <;> exact ⟨t, ht, this⟩
  split at h
  · rename_i hx
    simp only [Option.some.injEq, Prod.mk.injEq, Except.error.injEq] at h
    rw [← h.2]; intro sp a ⟨m, hm, _⟩
    rw [hx] at hm; cases hm
  split at h
  · rename_i hx
    simp only [Option.some.injEq, Prod.mk.injEq, Except.error.injEq] at h
    rw [← h.2]; exact refuses_of hx
  · simp at h

private theorem mentionsGo_iff (l : List Char) : mentionsDuplicate.go "duplicate".toList l = true ↔
    ∃ before after, l = before ++ "duplicate".toList ++ after := by
  induction l with
  | nil =>
    constructor
    · intro h; exact absurd h (by decide)
    · rintro ⟨b, a, h⟩
      have := congrArg List.length h
      simp at this
  | cons c cs ih =>
    simp only [mentionsDuplicate.go, Bool.or_eq_true, ih, List.isPrefixOf_iff_prefix]
    constructor
    · rintro (⟨a, h⟩ | ⟨b, a, h⟩)
      · exact ⟨[], a, by simpa using h.symm⟩
      · exact ⟨c :: b, a, by simp [h]⟩
    · rintro ⟨b, a, h⟩
      cases b with
      | nil => exact .inl ⟨a, by simpa using h.symm⟩
      | cons d b =>
        simp only [List.cons_append, List.cons.injEq] at h
        exact .inr ⟨b, a, h.2⟩

private theorem mentions_iff (msg : String) : mentionsDuplicate msg = true ↔
    Mentions msg ['d', 'u', 'p', 'l', 'i', 'c', 'a', 't', 'e'] := by
  unfold mentionsDuplicate
  rw [mentionsGo_iff]
  constructor
  · rintro ⟨b, a, h⟩
    obtain ⟨l1, a', h1, h2, _⟩ := List.map_eq_append_iff.1 h
    obtain ⟨b', w, h3, _, h5⟩ := List.map_eq_append_iff.1 h2
    exact ⟨b', w, a', by rw [h1, h3], by rw [h5]; rfl⟩
  · rintro ⟨b, w, a, h, hw⟩
    refine ⟨b.map Char.toLower, a.map Char.toLower, ?_⟩
    rw [h, List.map_append, List.map_append, hw]; rfl

/-- C63: an error reply to an `icrc37_transfer_from` item is true, except for the
index in `Duplicate` (`C63_duplicate_violated`). -/
theorem C63_transfer_from_partial {E : Env H} {s s' : State H} {c : Principal} {now : Nat} {arg : TransferFromArg} {e : TokErr}
    (hs : ∀ t, arg.createdAt = some t → SaneTimes s now t)
    (h : step E s (.call c now (.transferFrom [arg])) = (s', .batch [.error e])) : TransferFromSays E s c now arg e := by
  have h := transferFrom_one h
  unfold transferFrom at h
  have hg := @guard_false _ s now arg.tid
  rw [guardWindow_eq] at h hg
  generalize (guardWindow s now arg.tid).1.windows = w at h hg
  generalize (guardWindow s now arg.tid).2 = ok at h hg
  dsimp only at h hg
  split at h
  · simp only [Option.some.injEq, Prod.mk.injEq, Except.error.injEq] at h
    rw [← h.2]; exact hg (by assumption)
  split at h
  · rename_i hx
    simp only [Option.some.injEq, Prod.mk.injEq, Except.error.injEq] at h
    have hh := timingOpt_says hs hx
    rw [← h.2]
    obtain ⟨t, ht, this⟩ := hh
    rcases time_ne this with rfl | ⟨n, rfl⟩ <;> exact ⟨t, ht, this⟩
  split at h
  · rename_i hx
    simp only [Option.some.injEq, Prod.mk.injEq, Except.error.injEq] at h
    rw [← h.2]; exact not_exists (s := s) (by unfold ownerOf; rw [hx]; rfl)
  rename_i nft tok
  have ho : Owner s arg.tid = some nft.owner := by unfold Owner; rw [tok]; rfl
  split at h
  · rename_i hx
    simp only [Option.some.injEq, Prod.mk.injEq, Except.error.injEq] at h
    rw [← h.2]; exact .inl (sameAccount_iff.2 hx)
  split at h
  · rename_i hx
    simp only [Option.some.injEq, Prod.mk.injEq, Except.error.injEq] at h
    rw [← h.2]; exact .inr (sameAccount_iff.2 hx)
  split at h
  · cases h
  rename_i s1 hasTok hchk
  obtain ⟨ta, rfl, hta, htok⟩ := checkTokenApproval_out hchk
  obtain ⟨ca, hs2, hca, hcollb⟩ := checkCollApproval_out
    { s with windows := w, tokAppr := ta } now nft.owner ⟨c, arg.spenderSub⟩
  rw [hs2] at h
  generalize (checkCollApproval { s with windows := w, tokAppr := ta } now nft.owner
    ⟨c, arg.spenderSub⟩).2 = hasColl at h hcollb
  split at h
  · rename_i hx
    simp only [Option.some.injEq, Prod.mk.injEq, Except.error.injEq] at h
    rw [← h.2]; refine ⟨nft.owner, ho, ?_⟩
    simp only [Bool.or_eq_true, Bool.not_eq_true', Bool.and_eq_true] at hx
    rcases hx with hx | ⟨⟨h1, h2⟩, h3⟩
    · exact .inl (ne_same hx)
    · by_cases hof : (nft.owner == arg.from_) = true
      · right
        rintro (hm | hm | hm)
        · rw [BEq.trans hm hof] at h1; cases h1
        · have := htok.2 hm; rw [h2] at this; cases this
        · have := hcollb.2 hm; rw [h3] at this; cases this
      · left; rw [sameAccount_iff]; exact hof
  split at h
  · rename_i hx
    simp only [Option.some.injEq, Prod.mk.injEq, Except.error.injEq] at h
    rw [← h.2]; have := refuses_of (s₀ := s) hx
    have hled := refuses_val (s₀ := s) hx
    change (E.ledger.add s.hid (fromTx c now arg)).2 = _ at hled
    unfold transferFromLedgerErr
    split
    · split
      · rename_i hm
        exact ⟨_, hled, (mentions_iff _).1 hm⟩
      · rename_i hm
        refine ⟨this, ?_⟩
        rintro ⟨msg, h1, h2⟩
        rw [h1] at hled; cases hled
        exact hm ((mentions_iff _).2 h2)
    · rename_i hne
      refine ⟨this, ?_⟩
      rintro ⟨msg, h1, h2⟩
      rw [h1] at hled; cases hled
      exact hne _ rfl
  · simp at h

/-- C63: an error reply to an `icrc7_transfer` item is true, except that
`InvalidRecipient` is also the answer to a caller who does not own the token
(`C63_violated`). -/
theorem C63_transfer_partial {E : Env H} {s s' : State H} {c : Principal} {now : Nat} {arg : TransferArg} {e : TokErr}
    (hs : SaneLimits s now)
    (h : step E s (.call c now (.transfer [arg])) = (s', .batch [.error e])) : TransferSays E s c now arg e := by
  by_cases hc : c = anonymous
  · have := icrc7Transfer_out (L := E.ledger) (s := s) (c := c) (now := now) (args := [arg]) (by
      simp only [step, execCall, Call.needs, exec] at h; exact batch_of_ofBatch h)
    rcases this with ⟨h, _⟩ | ⟨_, hu, ⟨_, _, hr⟩ | ⟨_, hc', _⟩⟩
    · cases h
    · simp at hr; subst hr; exact .inl hc
    · exact absurd hc hc'
  by_cases hb : BatchLimit s = 0
  · have := icrc7Transfer_out (L := E.ledger) (s := s) (c := c) (now := now) (args := [arg]) (by
      simp only [step, execCall, Call.needs, exec] at h; exact batch_of_ofBatch h)
    rcases this with ⟨h, _⟩ | ⟨_, hu, ⟨_, _, hr⟩ | ⟨_, hc', hb'⟩⟩
    · cases h
    · simp at hr; subst hr; exact .inr (.inr (.inr hb))
    · rw [show s.cfg.maxUpdateBatch.getD 100 = 0 from hb] at hb'
      simp [runBatch] at hb'
  rw [transfer_single hs (by omega) hc, transferNft_eq hs] at h
  dsimp only [Option.map, ofBatch] at h
  split at h
  · simp at h; rw [← h.2]; right; left; assumption
  split at h
  · rename_i hx; simp at h; rw [← h.2]
    exact not_exists (s := s) (by unfold ownerOf; rw [hx]; rfl)
  rename_i nft tok
  have ho : Owner s arg.tid = some nft.owner := by unfold Owner; rw [tok]; rfl
  split at h
  · rename_i hx; simp at h; rw [← h.2]
    right; right; left
    cases hm : arg.memo with
    | none => exact absurd (fun m h => by rw [hm] at h; cases h) hx
    | some m =>
      refine ⟨m, rfl, ?_⟩
      by_cases hlt : MemoLimit s < m.length
      · exact hlt
      · exact absurd (fun m' h => by rw [hm] at h; cases h; omega) hx
  split at h
  · rename_i hx; simp at h; rw [← h.2]
    refine ⟨_, ho, ?_⟩
    rcases hx with hx | hx | hx
    · exact .inl hx
    · exact .inr (.inl hx)
    · exact .inr (.inr (sameAccount_iff.2 hx))
  split at h
  · simp at h; rw [← h.2]; exact ⟨rfl, by assumption⟩
  split at h
  · simp at h; rw [← h.2]; assumption
  generalize hadd : addTx _ _ _ = r at h
  obtain ⟨s2, r⟩ := r
  cases r with
  | ok i => simp at h
  | error e' =>
    cases e' with
    | duplicate d => simp at h
    | icrc3 msg => simp at h; rw [← h.2]; exact ⟨_, ho, refuses_of hadd⟩
    | other => simp at h; rw [← h.2]; exact ⟨_, ho, refuses_of hadd⟩

/-- The errors of `icrc7_transfer` as ICRC-7 describes them: `InvalidRecipient` says
something about the recipient. -/
def InvalidRecipientTruthful (E : Env H) : Prop :=
  ∀ (s s' : State H) (c : Principal) (now : Nat) (arg : TransferArg) (o : Account), Reachable E s →
    Owner s arg.tid = some o →
    step E s (.call c now (.transfer [arg])) = (s', .batch [.error .invalidRecipient]) →
    arg.to_.owner = anonymous ∨ SameAccount o arg.to_

/-- C63 is violated: bob, who does not own token 1, is told that the recipient carol
is invalid; alice's transfer to carol is accepted. -/
theorem C63_violated : ¬ InvalidRecipientTruthful Demo.env ∧
    (step Demo.env Demo.s1 (.call [2] (Demo.ms 200) (.transfer [{ to_ := Demo.carol, tid := 1 }]))).2 =
      .batch [.error .invalidRecipient] ∧
    (step Demo.env Demo.s1 (.call [1] (Demo.ms 200) (.transfer [{ to_ := Demo.carol, tid := 1 }]))).2 =
      .batch [.ok 3] := by
  refine ⟨fun h => ?_, rfl, rfl⟩
  have := h Demo.s1 _ [2] (Demo.ms 200) { to_ := Demo.carol, tid := 1 } Demo.alice Demo.s1_reach rfl rfl
  revert this; decide

/-- A ledger that accepts three transactions and calls all others duplicates of the
first. -/
def dupEnv : Env Nat :=
  ⟨⟨fun h _ => if h < 3 then (h + 1, .ok h) else (h, .error (.icrc3 "Duplicate of 0"))⟩, [9], fun _ => "aaaaa-aa"⟩

/-- C63 is violated: `Duplicate` of `icrc37_transfer_from` names transaction 2
whatever the ledger says; here transaction 2 is the mint of token 3. -/
theorem C63_duplicate_violated : ∃ s : State Nat, Reachable dupEnv s ∧
    (step dupEnv s (.call [1] (Demo.ms 200) (.transferFrom [{ from_ := Demo.alice, to_ := Demo.bob, tid := 1 }]))).2 =
      .batch [.error (.duplicate 2)] ∧
    (s.log[2]?).map (fun t => (t.op, t.tid)) = some (.mint, some 3) :=
  ⟨_, ⟨fun _ => true, 0, Demo.admin, Demo.args, Demo.s0, [Demo.mintMsg], rfl, rfl⟩, rfl, rfl⟩

/-- Every kind of error, as answered to concrete calls. -/
example : SaneLimits Demo.s1 (Demo.ms 200) ∧ SaneTimes Demo.s1 (Demo.ms 200) (Demo.ms 200) ∧
    ApprovalLimit Demo.s1 < 2 ^ 32 ∧
    (step Demo.env Demo.s1 (.call [1] (Demo.ms 200) (.transfer [{ to_ := Demo.bob, tid := 8 }]))).2 =
      .batch [.error .nonExistingTokenId] ∧
    (step Demo.env Demo.s1 (.call [2] (Demo.ms 200)
      (.approveTokens [{ tid := 1, info := { spender := Demo.carol, createdAt := Demo.ms 200 } }]))).2 =
      .batch [.error .unauthorized] ∧
    (step Demo.env Demo.s1 (.call [1] (Demo.ms 200)
      (.approveTokens [{ tid := 1, info := { spender := ⟨anonymous, none⟩, createdAt := Demo.ms 200 } }]))).2 =
      .batch [.error .invalidSpender] ∧
    (step Demo.env Demo.s1 (.call [3] (Demo.ms 200)
      (.approveCollection [{ spender := Demo.bob, createdAt := Demo.ms 200 }]))).2 = .batch [.error (.generic 1)] ∧
    (step Demo.env Demo.s1 (.call [1] (Demo.ms 200) (.revokeTokens [{ tid := 1 }]))).2 =
      .batch [.error .approvalDoesNotExist] ∧
    (step Demo.env Demo.s1 (.call [1] (Demo.ms 200) (.revokeCollection [{}]))).2 =
      .batch [.error .approvalDoesNotExist] ∧
    (step Demo.env Demo.s1 Demo.takeMsg).2 = .batch [.error .unauthorized] :=
  ⟨⟨by decide, by decide, by decide, by decide⟩, ⟨by decide, by decide⟩, by decide, rfl, rfl, rfl, rfl, rfl, rfl, rfl⟩

/-! ## Management methods -/

private theorem mintTxs_refused {E : Env H} {now : Nat} (reqs : List MintReq) : ∀ {s s' : State H} {tid : Nat},
    mintTxs E.ledger s now tid reqs = (s', false) →
    ∃ h t e, (E.ledger.add h t).2 = .error e ∧ t.op = .mint ∧ t.ts = now ∧
      ∃ r ∈ reqs, t.to_ = some r.owner ∧ t.memo = r.memo := by
  induction reqs with
  | nil => intro s s' tid h; simp [mintTxs] at h
  | cons r rs ih =>
    intro s s' tid h
    simp only [mintTxs] at h
    split at h
    · rename_i hadd
      obtain ⟨h', hl, _⟩ := addTx_err hadd
      exact ⟨_, mintTx now tid r, _, by rw [hl], rfl, rfl, r, by simp, rfl, rfl⟩
    · obtain ⟨h', t, e, h1, h2, h3, q, hq, h4⟩ := ih h
      exact ⟨h', t, e, h1, h2, h3, q, by simp [hq], h4⟩

private theorem checkMemos_bad {s : State H} (reqs : List MintReq) (h : checkMemos s.cfg reqs = some false) :
    ∃ r ∈ reqs, ∃ m, r.memo = some m ∧ MemoLimit s < m.length := by
  induction reqs with
  | nil => simp [checkMemos] at h
  | cons r rs ih =>
    simp only [checkMemos] at h
    split at h
    · cases h
    · rename_i hm
      unfold checkMemo at hm
      split at hm
      · cases hm
      · rename_i m he
        dsimp only at hm
        split at hm
        · cases hm
        · refine ⟨r, by simp, m, he, ?_⟩
          rw [show s.cfg.maxMemo.getD defaultMaxMemo = MemoLimit s from rfl] at hm
          simpa using hm
    · obtain ⟨q, hq, hh⟩ := ih h
      exact ⟨q, by simp [hq], hh⟩

/-- C63: an error reply to `mint` is true. (A batch over the batch limit is reported
as exceeding the supply cap.) -/
theorem C63_mint {E : Env H} {s s' : State H} {c : Principal} {now : Nat} {reqs : List MintReq} {e : MgmtErr}
    (h : step E s (.call c now (.mint reqs)) = (s', .mgmt (.error e))) : MintSays E s now reqs e := by
  simp only [step, execCall, Call.needs, exec] at h
  split at h <;> try (simp at h; done)
  cases ho : mint E s c now reqs with
  | none => simp [ho, ofMgmt] at h
  | some p =>
    obtain ⟨p1, p2⟩ := p
    simp [ho, ofMgmt] at h
    obtain ⟨rfl, rfl⟩ := h
    rcases withGuard_out ho with ⟨hg, _, he⟩ | ⟨free, s1, hb, _⟩
    · cases he; exact hg
    dsimp only at hb
    split at hb
    · rename_i hx
      simp only [Option.some.injEq, Prod.mk.injEq, Except.error.injEq] at hb
      rw [← hb.2]; exact .inl hx
    split at hb
    · rename_i hx
      simp only [Option.some.injEq, Prod.mk.injEq, Except.error.injEq] at hb
      rw [← hb.2]; exact .inr hx
    split at hb
    · cases hb
    · rename_i hx
      simp only [Option.some.injEq, Prod.mk.injEq, Except.error.injEq] at hb
      rw [← hb.2]; exact checkMemos_bad (s := s) reqs hx
    split at hb
    · cases hb
    split at hb
    · rename_i hx
      simp only [Option.some.injEq, Prod.mk.injEq, Except.error.injEq] at hb
      rw [← hb.2]; exact mintTxs_refused reqs hx
    · simp at hb

/-- C63: an error reply to `update_nft_metadata` is true. -/
theorem C63_update_nft_metadata {E : Env H} {s s' : State H} {c : Principal} {now tid : Nat} {kvs} {e : MgmtErr}
    (h : step E s (.call c now (.updateNftMetadata tid kvs)) = (s', .mgmt (.error e))) : UpdateSays E s now tid e := by
  simp only [step, execCall, Call.needs, exec] at h
  split at h <;> try (simp at h; done)
  cases ho : updateNftMetadata E s c now tid kvs with
  | none => simp [ho, ofMgmt] at h
  | some p =>
    obtain ⟨p1, p2⟩ := p
    simp [ho, ofMgmt] at h
    obtain ⟨rfl, rfl⟩ := h
    rcases withGuard_out ho with ⟨hg, _, he⟩ | ⟨free, s1, hb, _⟩
    · cases he; exact hg
    dsimp only at hb
    split at hb
    · rename_i hx
      simp only [Option.some.injEq, Prod.mk.injEq, Except.error.injEq] at hb
      rw [← hb.2]; exact not_exists (s := s) (by unfold ownerOf; rw [hx]; rfl)
    split at hb
    · cases hb
    split at hb
    · rename_i hx
      simp only [Option.some.injEq, Prod.mk.injEq, Except.error.injEq] at hb
      rw [← hb.2]; exact ⟨_, refuses_of hx, rfl, rfl, rfl⟩
    · simp at hb

/-- C63: an error reply to `burn_nft` is true. -/
theorem C63_burn {E : Env H} {s s' : State H} {c : Principal} {now tid : Nat} {e : MgmtErr}
    (h : step E s (.call c now (.burn tid)) = (s', .mgmt (.error e))) : BurnSays E s c now tid e := by
  simp only [step, execCall, Call.needs, exec] at h
  cases ho : burnNft E s c now tid with
  | none => simp [ho, ofMgmt] at h
  | some p =>
    obtain ⟨p1, p2⟩ := p
    simp [ho, ofMgmt] at h
    obtain ⟨rfl, rfl⟩ := h
    rcases withGuard_out ho with ⟨hg, _, he⟩ | ⟨free, s1, hb, _⟩
    · cases he; exact hg
    dsimp only at hb
    split at hb
    · rename_i hx
      simp only [Option.some.injEq, Prod.mk.injEq, Except.error.injEq] at hb
      rw [← hb.2]; exact not_exists (s := s) (by unfold ownerOf; rw [hx]; rfl)
    rename_i t ht
    have ho : Owner s tid = some t.owner := by unfold Owner; rw [ht]; rfl
    split at hb
    · rename_i hx
      simp only [Option.some.injEq, Prod.mk.injEq, Except.error.injEq] at hb
      rw [← hb.2]; exact ⟨_, ho, Ne.symm hx⟩
    split at hb
    · rename_i hx
      simp only [Option.some.injEq, Prod.mk.injEq, Except.error.injEq] at hb
      rw [← hb.2]; exact ⟨_, ho, refuses_of hx⟩
    · simp at hb

/-- Errors of the management methods. -/
example :
    (step Demo.env Demo.s1 (.call [2] (Demo.ms 200) (.burn 1))).2 = .mgmt (.error .notTokenOwner) ∧
    (step Demo.env Demo.s1 (.call [2] (Demo.ms 200) (.burn 9))).2 = .mgmt (.error .tokenDoesNotExist) ∧
    (step (Demo.shortEnv 3) Demo.s1 Demo.burnMsg).2 = .mgmt (.error .storageCanisterError) ∧
    (step (Demo.shortEnv 3) Demo.s1 Demo.mintMsg).2 = .mgmt (.error .storageCanisterError) ∧
    (step Demo.env Demo.s1 (.call Demo.admin (Demo.ms 200) (.updateNftMetadata 9 []))).2 =
      .mgmt (.error .tokenDoesNotExist) :=
  ⟨rfl, rfl, rfl, rfl, rfl⟩

end Verif
