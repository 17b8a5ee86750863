import Verif.Lemmas.Windows
import Verif.Props.Batches
/-!
# C23, C24, C41, C55: time window, rate limit, memo limit, transfers that succeed
-/
namespace Verif

open Spec

variable {H : Type}

/-! ## C55 -/

/-- C55: the holder of a token can send it. If the caller is the owner's
principal, the recipient is another account and not the anonymous principal's,
the memo and the time are within their limits, fewer than five calls on the token
were admitted in the last 60 ms, and the ledger accepts the transaction with
index `i`, then the item is answered with `i` and the token belongs to `to`. -/
theorem C55_transfer_succeeds {E : Env H} {s : State H} {c : Principal} {now i : Nat} {arg : TransferArg} {o : Account}
    (hr : Reachable E s) (hs : SaneLimits s now) (hb : 1 ≤ BatchLimit s) (hc : c ≠ anonymous)
    (hrate : recentCalls s now arg.tid < 5) (ho : Owner s arg.tid = some o) (hown : o.owner = c)
    (hto : arg.to_.owner ≠ anonymous) (hdiff : ¬ SameAccount o arg.to_)
    (hmemo : ∀ m, arg.memo = some m → m.length ≤ MemoLimit s)
    (htime : InWindow s now (arg.createdAt.getD now))
    (hled : (E.ledger.add s.hid (xferTx now arg o)).2 = .ok i) :
    ∃ s', step E s (.call c now (.transfer [arg])) = (s', .batch [.ok i]) ∧ Owner s' arg.tid = some arg.to_ ∧
      s'.log = s.log ++ [xferTx now arg o] := by
  obtain ⟨t, ht, rfl⟩ := owner_get ho
  rw [transfer_single hs hb hc, transferNft_eq hs]
  have hx : xferTx now arg t.owner = transferTx now (arg.createdAt.getD now) arg t := rfl
  rw [hx] at hled ⊢
  obtain ⟨h', hadd⟩ : ∃ h', E.ledger.add s.hid (transferTx now (arg.createdAt.getD now) arg t) = (h', .ok i) :=
    ⟨_, by rw [← hled]⟩
  dsimp only
  rw [if_neg (by omega), ht]
  dsimp only
  rw [if_neg (not_not_intro hmemo), if_neg, if_neg (by have := htime.1; omega), if_neg (by have := htime.2; omega)]
  · have : addTx E.ledger (guardWindow s now arg.tid).1 (transferTx now (arg.createdAt.getD now) arg t) =
        ({ (guardWindow s now arg.tid).1 with hid := h', log := s.log ++ [transferTx now (arg.createdAt.getD now) arg t] },
          .ok i) := by
      unfold addTx
      rw [show (guardWindow s now arg.tid).1.hid = s.hid from rfl, hadd]
      rfl
    rw [this]
    refine ⟨_, rfl, ?_, rfl⟩
    unfold Owner moveToken
    dsimp only
    rw [hr.tokInv.ids _ _ ht, Map.get_set]
    simp
  · rw [sameAccount_iff] at hdiff
    simp only [not_or]
    exact ⟨by simpa using hown, hto, hdiff⟩

/-- The hypotheses are met by a plain transfer. -/
example : SaneLimits Demo.s1 (Demo.ms 200) ∧ 1 ≤ BatchLimit Demo.s1 ∧ recentCalls Demo.s1 (Demo.ms 200) 1 < 5 ∧
    InWindow Demo.s1 (Demo.ms 200) (Demo.ms 200) ∧ Owner Demo.s1 1 = some Demo.alice ∧
    ¬ SameAccount Demo.alice Demo.bob ∧
    (Demo.env.ledger.add Demo.s1.hid (xferTx (Demo.ms 200) { to_ := Demo.bob, tid := 1 } Demo.alice)).2 = .ok 3 :=
  ⟨⟨by decide, by decide, by decide, by decide⟩, by decide, by decide, ⟨by decide, by decide⟩, rfl, by decide, rfl⟩

/-! ## C23 -/

private theorem transfer_reply {E : Env H} {s s' : State H} {c : Principal} {now : Nat} {arg : TransferArg} {r}
    (h : step E s (.call c now (.transfer [arg])) = (s', .batch [r])) :
    (r = .error (.generic 0)) ∨ transferNft E.ledger s c now arg = some (s', r) := by
  simp only [step, execCall, Call.needs, exec] at h
  rcases icrc7Transfer_out (batch_of_ofBatch h) with ⟨h, _⟩ | ⟨_, hu, ⟨_, rfl, hr⟩ | ⟨_, hc, hb⟩⟩
  · cases h
  · simp at hr; exact .inl hr
  · right
    generalize s.cfg.maxUpdateBatch.getD 100 = mx at hb
    cases mx with
    | zero => simp [runBatch] at hb
    | succ n =>
      rw [List.take_succ_cons, List.take_nil] at hb
      obtain ⟨r', h1, h2⟩ := runBatch_one hb
      simp at h2; subst h2; exact h1

/-- C23: an `icrc7_transfer` item is accepted only if its creation time (the
current time if absent) is in the window, and answered `TooOld` or
`CreatedInFuture` only if it is outside, on that side; `CreatedInFuture` carries
the current time. -/
theorem C23_transfer {E : Env H} {s s' : State H} {c : Principal} {now : Nat} {arg : TransferArg} {r}
    (hs : SaneLimits s now) (h : step E s (.call c now (.transfer [arg])) = (s', .batch [r])) :
    (∀ i, r = .ok i → InWindow s now (arg.createdAt.getD now)) ∧
    (r = .error .tooOld → arg.createdAt.getD now + (Window s + Drift s) < now) ∧
    (∀ n, r = .error (.createdInFuture n) → n = now ∧ now + Drift s < arg.createdAt.getD now) := by
  rcases transfer_reply h with rfl | h
  · refine ⟨?_, ?_, ?_⟩ <;> (intros; simp at *)
  · rw [transferNft_eq hs] at h
    simp only [Option.some.injEq] at h
    split at h
    · simp at h; obtain ⟨_, rfl⟩ := h; refine ⟨?_, ?_, ?_⟩ <;> (intros; simp at *)
    split at h
    · simp at h; obtain ⟨_, rfl⟩ := h; refine ⟨?_, ?_, ?_⟩ <;> (intros; simp at *)
    split at h
    · simp at h; obtain ⟨_, rfl⟩ := h; refine ⟨?_, ?_, ?_⟩ <;> (intros; simp at *)
    split at h
    · simp at h; obtain ⟨_, rfl⟩ := h; refine ⟨?_, ?_, ?_⟩ <;> (intros; simp at *)
    split at h
    · rename_i hf
      simp only [Prod.mk.injEq] at h
      obtain ⟨_, rfl⟩ := h
      refine ⟨fun i hi => (by cases hi), fun hi => (by cases hi), ?_⟩
      intro n hn
      simp at hn
      exact ⟨hn.symm, hf⟩
    rename_i hf
    split at h
    · rename_i hp
      simp only [Prod.mk.injEq] at h
      obtain ⟨_, rfl⟩ := h
      exact ⟨fun i hi => (by cases hi), fun _ => hp, fun n hn => (by cases hn)⟩
    rename_i hp
    have hin : InWindow s now (arg.createdAt.getD now) := ⟨by omega, by omega⟩
    refine ⟨fun _ _ => hin, ?_, ?_⟩
    · split at h <;> (simp only [Prod.mk.injEq] at h; obtain ⟨_, rfl⟩ := h; intro hh; cases hh)
    · split at h <;> (simp only [Prod.mk.injEq] at h; obtain ⟨_, rfl⟩ := h; intro _ hh; cases hh)

/-- C23: an item that would be accepted with no creation time is answered
`CreatedInFuture { now }` if its creation time is too late, and `TooOld` if it is
too early. -/
theorem C23_transfer_outside {E : Env H} {s s₁ : State H} {c : Principal} {now t i : Nat} {arg : TransferArg}
    (hs : SaneLimits s now)
    (hwould : step E s (.call c now (.transfer [{ arg with createdAt := none }])) = (s₁, .batch [.ok i])) :
    (now + Drift s < t → ∃ s', step E s (.call c now (.transfer [{ arg with createdAt := some t }])) =
      (s', .batch [.error (.createdInFuture now)])) ∧
    (t + (Window s + Drift s) < now → ∃ s', step E s (.call c now (.transfer [{ arg with createdAt := some t }])) =
      (s', .batch [.error .tooOld])) := by
  have hw := hwould
  simp only [step, execCall, Call.needs, exec] at hw
  have hone : 1 ≤ BatchLimit s ∧ c ≠ anonymous := by
    rcases icrc7Transfer_out (batch_of_ofBatch hw) with ⟨h, _⟩ | ⟨_, hu, ⟨_, _, hr⟩ | ⟨_, hc, hb⟩⟩
    · cases h
    · simp at hr
    · refine ⟨?_, hc⟩
      unfold BatchLimit
      generalize s.cfg.maxUpdateBatch.getD 100 = mx at hb ⊢
      cases mx with
      | zero => simp [runBatch] at hb
      | succ n => omega
  rw [transfer_single hs hone.1 hone.2, transferNft_eq hs] at hwould
  have hpre : recentCalls s now arg.tid < 5 ∧ ∃ nft, s.tokens.get arg.tid = some nft ∧
      (∀ m, arg.memo = some m → m.length ≤ MemoLimit s) ∧
      ¬ (nft.owner.owner ≠ c ∨ arg.to_.owner = anonymous ∨ (nft.owner == arg.to_) = true) := by
    dsimp only [Option.map, ofBatch] at hwould
    split at hwould
    · simp at hwould
    rename_i hr
    split at hwould
    · simp at hwould
    rename_i nft hn
    split at hwould
    · simp at hwould
    rename_i hm
    split at hwould
    · simp at hwould
    rename_i hc
    exact ⟨by omega, nft, hn, Decidable.not_not.1 hm, hc⟩
  obtain ⟨hrate, nft, hn, hm, hc⟩ := hpre
  constructor
  · intro ht
    rw [transfer_single hs hone.1 hone.2, transferNft_eq hs]
    dsimp only [Option.map, ofBatch]
    rw [if_neg (by omega), hn]
    dsimp only
    rw [if_neg (not_not_intro hm), if_neg hc, if_pos (by simpa using ht)]
    exact ⟨_, rfl⟩
  · intro ht
    rw [transfer_single hs hone.1 hone.2, transferNft_eq hs]
    dsimp only [Option.map, ofBatch]
    rw [if_neg (by omega), hn]
    dsimp only
    rw [if_neg (not_not_intro hm), if_neg hc, if_neg (by simp; omega), if_pos (by simpa using ht)]
    exact ⟨_, rfl⟩

/-- Times too early, too late and in between (the defaults are 10 s and 50 ms). -/
example :
    (step Demo.env Demo.s1 (.call [1] (Demo.ms 20000) (.transfer [{ to_ := Demo.bob, tid := 1, createdAt := some (Demo.ms 9949) }]))).2
      = .batch [.error .tooOld] ∧
    (step Demo.env Demo.s1 (.call [1] (Demo.ms 20000) (.transfer [{ to_ := Demo.bob, tid := 1, createdAt := some (Demo.ms 9950) }]))).2
      = .batch [.ok 3] ∧
    (step Demo.env Demo.s1 (.call [1] (Demo.ms 20000) (.transfer [{ to_ := Demo.bob, tid := 1, createdAt := some (Demo.ms 20051) }]))).2
      = .batch [.error (.createdInFuture (Demo.ms 20000))] ∧ SaneLimits Demo.s1 (Demo.ms 20000) :=
  ⟨rfl, rfl, rfl, ⟨by decide, by decide, by decide, by decide⟩⟩

/-- C23 at the edge of its range: a configured window or drift that does not fit 64
bits lets no `icrc7_transfer` item through at all (instead of letting all through). -/
theorem C23_unrepresentable {E : Env H} {s s' : State H} {c : Principal} {now i : Nat} {arg : TransferArg}
    (hs : 2 ^ 64 ≤ Window s ∨ 2 ^ 64 ≤ Drift s) :
    step E s (.call c now (.transfer [arg])) ≠ (s', .batch [.ok i]) := by
  intro h
  rcases transfer_reply h with h | h
  · cases h
  have hcfg : (guardWindow s now arg.tid).1.cfg = s.cfg := by rw [guardWindow_eq]
  have ht : ∀ t, transferTiming s.cfg now t ≠ some none := by
    intro t ht
    unfold transferTiming at ht
    have conv : ∀ (o : Option Nat) (d k : Nat), o.elim (some d) toU64? = some k → d < 2 ^ 64 → o.getD d < 2 ^ 64 := by
      intro o d k ho hd
      cases o with
      | none => exact hd
      | some n =>
        simp only [Option.elim_some, toU64?] at ho
        split at ho
        · rename_i hlt; exact hlt
        · cases ho
    split at ht
    · cases ht
    · rename_i d hd
      split at ht
      · cases ht
      · split at ht
        · cases ht
        · rename_i w hw
          have h1 : Drift s < 2 ^ 64 := conv _ _ _ hd (by decide)
          have h2 : Window s < 2 ^ 64 := conv _ _ _ hw (by decide)
          omega
  unfold transferNft at h
  dsimp only at h
  rw [hcfg] at h
  split at h
  · cases h
  split at h
  · cases h
  split at h
  · cases h
  · cases h
  split at h
  · cases h
  split at h
  · cases h
  · cases h
  · rename_i hno; exact ht _ hno

example : ∃ s : State Nat, Reachable Demo.env s ∧ Window s = 2 ^ 64 ∧
    (step Demo.env s (.call [1] (Demo.ms 200) (.transfer [{ to_ := Demo.bob, tid := 1 }]))).2 = .trapped := by
  refine ⟨run Demo.env Demo.s0 [Demo.mintMsg, .call Demo.admin (Demo.ms 100) (.updateCollectionMetadata { txWindow := some (2 ^ 64) })],
    ⟨_, _, _, _, _, _, Demo.s0_init, rfl⟩, ?_, ?_⟩ <;> rfl

/-- C23 at the edge of its range, for approvals: a drift that does not fit 64 bits
stands for the default drift of 50 ms, a window that does not stands for none, so
nothing created before the call is accepted. -/
theorem C23_approve_unrepresentable {E : Env H} {s s' : State H} {c : Principal} {now i : Nat} {arg : ApproveTokenArg}
    (h : step E s (.call c now (.approveTokens [arg])) = (s', .batch [.ok i])) :
    (2 ^ 64 ≤ Window s → arg.info.createdAt < 2 ^ 64 → now ≤ arg.info.createdAt) ∧
    (2 ^ 64 ≤ Drift s → now + 50000000 < 2 ^ 64 → arg.info.createdAt ≤ now + 50000000) := by
  cases approveToken_out (approve_one h) with
  | approved w owner h' i own eqv sp room timing =>
    unfold verifyTiming toU64Or u64add at timing
    change (if _ > (now + if Drift s < U64 then Drift s else _) % U64 then _ else
      if (_ + if Window s < U64 then Window s else 0) % U64 < now then _ else _) = none at timing
    rw [show U64 = 2 ^ 64 from rfl, show defaultDrift = 50000000 from rfl] at timing
    have h1 : ¬ arg.info.createdAt > (now + if Drift s < 2 ^ 64 then Drift s else 50000000) % 2 ^ 64 := by
      intro hx; rw [if_pos hx] at timing; cases timing
    rw [if_neg h1] at timing
    have h2 : ¬ (arg.info.createdAt + if Window s < 2 ^ 64 then Window s else 0) % 2 ^ 64 < now := by
      intro hx; rw [if_pos hx] at timing; cases timing
    refine ⟨fun hw hc => ?_, fun hd hc => ?_⟩
    · rw [if_neg (Nat.not_lt.2 hw), Nat.add_zero, Nat.mod_eq_of_lt hc] at h2
      omega
    · rw [if_neg (Nat.not_lt.2 hd), Nat.mod_eq_of_lt hc] at h1
      omega

/-- A drift of 2^64 ns: 50 ms are allowed, 51 are not. -/
example : ∃ s, Reachable Demo.env s ∧ 2 ^ 64 ≤ Drift s ∧
    (step Demo.env s (.call [1] (Demo.ms 200)
      (.approveTokens [{ tid := 2, info := { spender := Demo.carol, createdAt := Demo.ms 250 } }]))).2 = .batch [.ok 3] ∧
    (step Demo.env s (.call [1] (Demo.ms 200)
      (.approveTokens [{ tid := 2, info := { spender := Demo.carol, createdAt := Demo.ms 251 } }]))).2 =
        .batch [.error (.createdInFuture (Demo.ms 200))] :=
  ⟨run Demo.env Demo.s0 [Demo.mintMsg, .call Demo.admin (Demo.ms 100) (.updateCollectionMetadata { permittedDrift := some (2 ^ 64) })],
    ⟨_, _, _, _, _, _, Demo.s0_init, rfl⟩, by decide, rfl, rfl⟩

/-- C23 for `icrc37_approve_tokens`. -/
theorem C23_approve_tokens {E : Env H} {s s' : State H} {c : Principal} {now i : Nat} {arg : ApproveTokenArg}
    (hs : SaneTimes s now arg.info.createdAt)
    (h : step E s (.call c now (.approveTokens [arg])) = (s', .batch [.ok i])) :
    InWindow37 s now arg.info.createdAt := by
  cases approveToken_out (approve_one h) with
  | approved w owner h' i own eqv sp room timing => exact verifyTiming_none hs timing

/-- C23 for `icrc37_approve_collection`. -/
theorem C23_approve_collection {E : Env H} {s s' : State H} {c : Principal} {now i : Nat} {info : ApprovalInfo}
    (hs : SaneTimes s now info.createdAt)
    (h : step E s (.call c now (.approveCollection [info])) = (s', .batch [.ok i])) :
    InWindow37 s now info.createdAt := by
  cases approveCollection_out (approveColl_one h) with
  | approved w h' i sp holds room timing => exact verifyTiming_none hs timing

/-- C23 for `icrc37_revoke_token_approvals`. -/
theorem C23_revoke_tokens {E : Env H} {s s' : State H} {c : Principal} {now i t : Nat} {arg : RevokeTokenArg}
    (hs : SaneTimes s now t) (ht : arg.createdAt = some t)
    (h : step E s (.call c now (.revokeTokens [arg])) = (s', .batch [.ok i])) : InWindow37 s now t := by
  cases revokeToken_out (revoke_one h) with
  | revoked owner h' i m own eqv hm timing =>
    rw [ht] at timing
    exact verifyTiming_none hs timing

/-- C23 for `icrc37_revoke_collection_approvals`. -/
theorem C23_revoke_collection {E : Env H} {s s' : State H} {c : Principal} {now i t : Nat} {arg : RevokeCollArg}
    (hs : SaneTimes s now t) (ht : arg.createdAt = some t)
    (h : step E s (.call c now (.revokeCollection [arg])) = (s', .batch [.ok i])) : InWindow37 s now t := by
  cases revokeCollection_out (revokeColl_one h) with
  | revoked w h' i m hm timing =>
    rw [ht] at timing
    exact verifyTiming_none hs timing

/-- C23 for `icrc37_transfer_from`. -/
theorem C23_transfer_from {E : Env H} {s s' : State H} {c : Principal} {now i t : Nat} {arg : TransferFromArg}
    (hs : SaneTimes s now t) (ht : arg.createdAt = some t)
    (h : step E s (.call c now (.transferFrom [arg])) = (s', .batch [.ok i])) : InWindow37 s now t := by
  cases transferFrom_out (transferFrom_one h) with
  | moved w nft h' i tok own auth diff toOk timing =>
    rw [ht] at timing
    exact verifyTiming_none hs timing

/-- Approvals in and out of the window. -/
example : SaneTimes Demo.s1 (Demo.ms 20000) (Demo.ms 10000) ∧
    (step Demo.env Demo.s1 (.call [1] (Demo.ms 20000)
      (.approveTokens [{ tid := 2, info := { spender := Demo.carol, createdAt := Demo.ms 10000 } }]))).2 = .batch [.ok 3] ∧
    (step Demo.env Demo.s1 (.call [1] (Demo.ms 20000)
      (.approveTokens [{ tid := 2, info := { spender := Demo.carol, createdAt := Demo.ms 9999 } }]))).2 = .batch [.error .tooOld] :=
  ⟨⟨by decide, by decide⟩, rfl, rfl⟩

/-! ## C41 -/

private theorem checkMemo_long {cfg : Config} {m : Blob} (h : cfg.maxMemo.getD 1000000 < m.length) :
    checkMemo cfg (some m) = none ∨ checkMemo cfg (some m) = some false := by
  unfold checkMemo
  dsimp only
  split
  · exact .inl rfl
  · right
    rw [show cfg.maxMemo.getD defaultMaxMemo = cfg.maxMemo.getD 1000000 from rfl, decide_eq_false (by omega)]

/-- C41: an `icrc7_transfer` item with a memo over the limit is refused and has no
effect. -/
theorem C41_transfer_long {E : Env H} {s s' : State H} {c : Principal} {now : Nat} {arg : TransferArg} {m : Blob} {r}
    (hm : arg.memo = some m) (hlen : MemoLimit s < m.length)
    (h : step E s (.call c now (.transfer [arg])) = (s', .batch [r])) :
    (∃ e, r = .error e) ∧ Untouched s s' ∧ SameApprovals s s' := by
  have herr : ∃ e, r = .error e := by
    rcases transfer_reply h with rfl | h
    · exact ⟨_, rfl⟩
    · have hcfg : (guardWindow s now arg.tid).1.cfg = s.cfg := rfl
      have hl := checkMemo_long (cfg := s.cfg) (m := m) hlen
      simp only [transferNft, hm, hcfg] at h
      split at h
      · simp only [Option.some.injEq, Prod.mk.injEq] at h; exact ⟨_, h.2.symm⟩
      split at h
      · simp only [Option.some.injEq, Prod.mk.injEq] at h; exact ⟨_, h.2.symm⟩
      rcases hl with hl | hl
      · rw [hl] at h; cases h
      · rw [hl] at h
        simp only [Option.some.injEq, Prod.mk.injEq] at h; exact ⟨_, h.2.symm⟩
  obtain ⟨e, rfl⟩ := herr
  exact ⟨⟨e, rfl⟩, C10_transfer h (by simp)⟩

/-- C41: a memo within the limit is never refused for its size: an item the
limiter lets through is then not answered with the generic error 0, the error of
an overlong memo. Missing: limits of 2^32 and more (`C41_violated_wide`). -/
theorem C41_transfer_short_partial {E : Env H} {s s' : State H} {c : Principal} {now : Nat} {arg : TransferArg} {r}
    (hs : SaneLimits s now) (hb : 1 ≤ BatchLimit s) (hc : c ≠ anonymous)
    (hm : ∀ m, arg.memo = some m → m.length ≤ MemoLimit s) (hrate : recentCalls s now arg.tid < 5)
    (h : step E s (.call c now (.transfer [arg])) = (s', .batch [r])) : r ≠ .error (.generic 0) := by
  rw [transfer_single hs hb hc, transferNft_eq hs] at h
  dsimp only [Option.map, ofBatch] at h
  rw [if_neg (by omega)] at h
  split at h
  · simp at h; rw [← h.2]; simp
  rw [if_neg (not_not_intro hm)] at h
  split at h
  · simp at h; rw [← h.2]; simp
  split at h
  · simp at h; rw [← h.2]; simp
  split at h
  · simp at h; rw [← h.2]; simp
  split at h <;> (simp at h; rw [← h.2]; simp)

private theorem checkMemos_long {s : State H} (reqs : List MintReq) {req : MintReq}
    {m : Blob} (hq : req ∈ reqs) (hm : req.memo = some m) (hlen : MemoLimit s < m.length) :
    checkMemos s.cfg reqs ≠ some true := by
  induction reqs with
  | nil => cases hq
  | cons r rs ih =>
    simp only [checkMemos]
    rcases List.mem_cons.1 hq with rfl | hq
    · rw [hm]
      rcases checkMemo_long (cfg := s.cfg) (m := m) hlen with h | h <;> rw [h] <;> simp
    · cases checkMemo s.cfg r.memo with
      | none => simp
      | some b => cases b with
        | false => simp
        | true => exact ih hq

private theorem checkMemos_short {s : State H} {now : Nat} (hs : SaneLimits s now) (reqs : List MintReq)
    (h : ∀ req ∈ reqs, ∀ m, req.memo = some m → m.length ≤ MemoLimit s) : checkMemos s.cfg reqs = some true := by
  induction reqs with
  | nil => rfl
  | cons r rs ih =>
    simp only [checkMemos]
    rw [checkMemo_eq hs, decide_eq_true (h r (by simp))]
    exact ih fun q hq => h q (by simp [hq])

/-- C41 for `mint`: a request with a memo over the limit makes the whole call
fail and have no effect. -/
theorem C41_mint_long {E : Env H} {s s' : State H} {c : Principal} {now : Nat} {reqs : List MintReq} {req : MintReq}
    {m : Blob} {r} (hq : req ∈ reqs) (hm : req.memo = some m) (hlen : MemoLimit s < m.length)
    (h : step E s (.call c now (.mint reqs)) = (s', r)) : s' = s ∧ ∀ v, r ≠ .mgmt (.ok v) := by
  simp only [step, execCall, Call.needs, exec] at h
  split at h
  · cases ho : mint E s c now reqs with
    | none => simp [ho, ofMgmt] at h; exact ⟨h.1.symm, by rw [← h.2]; simp⟩
    | some p =>
      obtain ⟨p1, p2⟩ := p
      have hl := checkMemos_long reqs hq hm hlen
      have hout := mint_out ho
      simp [ho, ofMgmt] at h
      obtain ⟨rfl, rfl⟩ := h
      cases hout with
      | refused e why => exact ⟨rfl, by simp⟩
      | cut md h' n free hn hmd memos => exact absurd memos hl
      | minted md h' free batch cap memos hmd => exact absurd memos hl
  · simp at h; exact ⟨h.1.symm, by rw [← h.2]; simp⟩

/-- C41 for `mint`: memos within the limit are never refused as invalid. -/
theorem C41_mint_short_partial {E : Env H} {s s' : State H} {c : Principal} {now : Nat} {reqs : List MintReq} {r}
    (hs : SaneLimits s now) (hm : ∀ req ∈ reqs, ∀ m, req.memo = some m → m.length ≤ MemoLimit s)
    (h : step E s (.call c now (.mint reqs)) = (s', r)) : r ≠ .mgmt (.error .invalidMemo) := by
  simp only [step, execCall, Call.needs, exec] at h
  split at h
  · cases ho : mint E s c now reqs with
    | none => simp [ho, ofMgmt] at h; rw [← h.2]; simp
    | some p =>
      obtain ⟨p1, p2⟩ := p
      have hl := checkMemos_short hs reqs hm
      have hout := mint_out ho
      simp [ho, ofMgmt] at h
      obtain ⟨rfl, rfl⟩ := h
      cases hout with
      | refused e why =>
        intro he
        simp at he
        have := why he
        rw [hl] at this
        cases this
      | cut => simp
      | minted => simp
  · simp at h; rw [← h.2]; simp

/-- C41 is false for a configured limit of 2^32: no memo at all is accepted, by
`icrc7_transfer` or by `mint`; the calls trap. -/
theorem C41_violated_wide : ∃ s : State Nat, Reachable Demo.env s ∧ 1 ≤ MemoLimit s ∧ Holds s Demo.admin .minting ∧
    Owner s 1 = some Demo.alice ∧
    (step Demo.env s (.call [1] (Demo.ms 200) (.transfer [{ to_ := Demo.bob, tid := 1, memo := some [1] }]))).2 = .trapped ∧
    (step Demo.env s (.call Demo.admin (Demo.ms 200) (.mint [{ owner := Demo.bob, memo := some [1] }]))).2 = .trapped ∧
    (step Demo.env s (.call Demo.admin (Demo.ms 200) (.mint [{ owner := Demo.bob }]))).2 = .mgmt (.ok (.id 4)) :=
  ⟨_, Demo.s1_reach.run [.call Demo.admin (Demo.ms 150) (.updateCollectionMetadata { maxMemo := some (2 ^ 32) })],
    by decide, holds_iff.2 (by decide), rfl, rfl, rfl, rfl⟩

/-- A collection with a memo limit of three bytes. -/
def memoDemo : State Nat := run Demo.env Demo.s1
  [.call Demo.admin (Demo.ms 150) (.updateCollectionMetadata { maxMemo := some 3 })]

example : SaneLimits memoDemo (Demo.ms 200) ∧ MemoLimit memoDemo = 3 ∧
    (step Demo.env memoDemo (.call [1] (Demo.ms 200) (.transfer [{ to_ := Demo.bob, tid := 1, memo := some [1, 2, 3, 4] }]))).2 =
      .batch [.error (.generic 0)] ∧
    (step Demo.env memoDemo (.call [1] (Demo.ms 200) (.transfer [{ to_ := Demo.bob, tid := 1, memo := some [1, 2, 3] }]))).2 =
      .batch [.ok 3] ∧
    (step Demo.env memoDemo (.call Demo.admin (Demo.ms 200) (.mint [{ owner := Demo.bob, memo := some [1, 2, 3, 4] }]))).2 =
      .mgmt (.error .invalidMemo) ∧
    (step Demo.env memoDemo (.call Demo.admin (Demo.ms 200) (.mint [{ owner := Demo.bob, memo := some [1, 2, 3] }]))).2 =
      .mgmt (.ok (.id 4)) :=
  ⟨⟨by decide, by decide, by decide, by decide⟩, rfl, rfl, rfl, rfl, rfl⟩

/-! ## C24 -/

/-- The times of the calls of `ts` the limiter of one token admits, starting with
history `w`. -/
def admissions : List Nat → List Nat → List Nat
  | _, [] => []
  | w, t :: ts => if (windowStep w t).2 then t :: admissions (windowStep w t).1 ts else admissions (windowStep w t).1 ts

/-- What the limiter's history says about the admitted calls `A`, the last time
being at most `T`. -/
private structure LimInv (A : List Nat) (T : Nat) (w : List Nat) : Prop where
  bound : ∀ t, inInterval A t ≤ 5
  le : ∀ a ∈ A, a ≤ T
  kept : (A.filter (fun x => decide (T - x < 60000000))).Sublist w

private theorem filter_le (A w : List Nat) {T now : Nat} (hT : T ≤ now)
    (h : (A.filter (fun x => decide (T - x < 60000000))).Sublist w) :
    (A.filter (fun x => decide (now - x < 60000000))).Sublist (w.filter (fun x => decide (now - x < 60000000))) := by
  have := h.filter fun x => decide (now - x < 60000000)
  rw [List.filter_filter] at this
  have he : A.filter (fun x => decide (now - x < 60000000)) =
      A.filter fun x => decide (now - x < 60000000) && decide (T - x < 60000000) := by
    apply List.filter_congr
    intro x _
    by_cases hx : now - x < 60000000
    · have : T - x < 60000000 := by omega
      simp [hx, this]
    · simp [hx]
  rw [he]
  exact this

private theorem limInv_step {A w : List Nat} {T now : Nat} (h : LimInv A T w) (hT : T ≤ now) :
    LimInv (A ++ List.replicate (windowStep w now).2.toNat now) now (windowStep w now).1 := by
  have hk := filter_le A w hT h.kept
  unfold windowStep slidingWindowCalls slidingWindowNs
  dsimp only
  split
  · rename_i hfull
    simp only [Bool.toNat_false, List.replicate_zero, List.append_nil]
    exact ⟨h.bound, fun a ha => Nat.le_trans (h.le a ha) hT, hk⟩
  · rename_i hfree
    simp only [Bool.toNat_true, List.replicate_one]
    refine ⟨?_, ?_, ?_⟩
    · intro t
      unfold inInterval
      rw [List.countP_append]
      have hb := h.bound t
      unfold inInterval at hb
      by_cases hin : t ≤ now ∧ now < t + 60000000
      · have hle : A.countP (fun x => decide (t ≤ x) && decide (x < t + 60000000)) ≤
            (A.filter fun x => decide (now - x < 60000000)).length := by
          rw [← List.countP_eq_length_filter]
          apply List.countP_mono_left
          intro x hx hc
          simp at hc ⊢
          have := h.le x hx
          omega
        have := hk.length_le
        simp [hin]
        omega
      · have : List.countP (fun x => decide (t ≤ x) && decide (x < t + 60000000)) [now] = 0 := by
          simp
          intro h1
          simp only [not_and] at hin
          have := hin h1
          omega
        omega
    · intro a ha
      simp at ha
      rcases ha with ha | rfl
      · exact Nat.le_trans (h.le a ha) hT
      · exact Nat.le_refl _
    · rw [List.filter_append]
      apply List.Sublist.append hk
      simp

private theorem limInv_nil (T : Nat) (w : List Nat) : LimInv [] T w := ⟨by simp [inInterval], by simp, by simp⟩

private theorem limInv_admissions (ts : List Nat) : ∀ {A w : List Nat} {T : Nat}, LimInv A T w →
    (T :: ts).Pairwise (· ≤ ·) → ∀ t, inInterval (A ++ admissions w ts) t ≤ 5 := by
  induction ts with
  | nil => intro A w T h _ t; simpa [admissions] using h.bound t
  | cons x xs ih =>
    intro A w T h hp t
    have hx : T ≤ x := (List.pairwise_cons.1 hp).1 x (by simp)
    have := ih (limInv_step h hx) (List.pairwise_cons.1 hp).2 t
    simp only [admissions]
    cases hb : (windowStep w x).2 with
    | false => simpa [hb] using this
    | true => simpa [hb] using this

private theorem limInv_win {now : Nat} {w w' : List Nat} {k : Nat} (h : Win now w k w') :
    ∀ {A : List Nat} {T : Nat}, T ≤ now → LimInv A T w →
      ∃ T', T' ≤ now ∧ LimInv (A ++ List.replicate k now) T' w' := by
  induction h with
  | refl => intro A T hT h; exact ⟨T, hT, by simpa using h⟩
  | step _ ih =>
    intro A T hT h
    obtain ⟨T', hT', h'⟩ := ih hT h
    refine ⟨now, Nat.le_refl _, ?_⟩
    have := limInv_step h' hT'
    rw [List.append_assoc, List.replicate_append_replicate] at this
    exact this

private theorem inInterval_sublist {A B : List Nat} (h : A.Sublist B) (t : Nat) : inInterval A t ≤ inInterval B t :=
  h.countP_le

private theorem limInv_run {E : Env H} {tid : Nat} (ms : List Msg) : ∀ {s : State H} {A : List Nat} {T : Nat},
    LimInv A T (winOf s tid) → (T :: callTimes ms).Pairwise (· ≤ ·) →
    ∃ B, (acceptedTimes E tid s ms).Sublist B ∧ ∀ t, inInterval (A ++ B) t ≤ 5 := by
  induction ms with
  | nil => intro s A T h _; exact ⟨[], by simp [acceptedTimes], by simpa using h.bound⟩
  | cons m ms ih =>
    intro s A T h hp
    have other : (∀ c now call, m ≠ .call c now call) → acceptedTimes E tid s (m :: ms) =
        acceptedTimes E tid (step E s m).1 ms → callTimes (m :: ms) = callTimes ms →
        ∃ B, (acceptedTimes E tid s (m :: ms)).Sublist B ∧ ∀ t, inInterval (A ++ B) t ≤ 5 := by
      intro hm he hc
      rw [he]
      rw [hc] at hp
      refine ih ?_ hp
      unfold winOf
      rw [step_windows_other hm]
      exact h
    cases m with
    | resume => exact other (by simp) rfl rfl
    | resumeTrap => exact other (by simp) rfl rfl
    | upgrade => exact other (by simp) rfl rfl
    | call c now call =>
      simp only [callTimes] at hp
      obtain ⟨hp1, hp2⟩ := List.pairwise_cons.1 hp
      obtain ⟨k, hw, hk, _⟩ := step_win_call (E := E) (s := s) (c := c) (now := now) (call := call) tid rfl
      obtain ⟨T', hT', h'⟩ := limInv_win hw (hp1 now (by simp)) h
      have hp3 : (T' :: callTimes ms).Pairwise (· ≤ ·) := by
        refine List.pairwise_cons.2 ⟨fun x hx => ?_, (List.pairwise_cons.1 hp2).2⟩
        exact Nat.le_trans hT' ((List.pairwise_cons.1 hp2).1 x hx)
      obtain ⟨B, hB, hb⟩ := ih h' hp3
      refine ⟨List.replicate k now ++ B, ?_, ?_⟩
      · simp only [acceptedTimes]
        exact List.Sublist.append (List.replicate_sublist_replicate _ |>.2 hk) hB
      · simpa [List.append_assoc] using hb

/-- C24: in any history, from any state, whose calls come at non-decreasing times, no more than five
calls on one token are accepted in any interval `[t, t + 60 ms)`. -/
theorem C24_at_most_five {E : Env H} (s₀ : State H) (msgs : List Msg) (hmono : (callTimes msgs).Pairwise (· ≤ ·))
    (tid t : Nat) : inInterval (acceptedTimes E tid s₀ msgs) t ≤ 5 := by
  obtain ⟨B, hB, hb⟩ := limInv_run (E := E) (tid := tid) (s := s₀) msgs (limInv_nil 0 (winOf s₀ tid))
    (List.pairwise_cons.2 ⟨fun _ _ => Nat.zero_le _, hmono⟩)
  exact Nat.le_trans (inInterval_sublist hB t) (by simpa using hb t)

/-- C24: of any sequence of calls on one token at non-decreasing times, no more than
five are admitted in any interval `[t, t + 60 ms)`. -/
theorem C24_limiter (ts : List Nat) (hmono : ts.Pairwise (· ≤ ·)) (t : Nat) :
    inInterval (admissions [] ts) t ≤ 5 := by
  have := limInv_admissions ts (limInv_nil 0 []) (List.pairwise_cons.2 ⟨fun _ _ => Nat.zero_le _, hmono⟩) t
  simpa using this

/-- What the limiter remembers was admitted. -/
private theorem hist_adm (ts : List Nat) : ∀ {w : List Nat},
    (ts.foldl (fun w t => (windowStep w t).1) w).Sublist (w ++ admissions w ts) := by
  induction ts with
  | nil => intro w; simp [admissions]
  | cons y ys ih =>
    intro w
    simp only [List.foldl_cons]
    refine List.Sublist.trans ih ?_
    rw [show admissions w (y :: ys) = if (windowStep w y).2 then y :: admissions (windowStep w y).1 ys
      else admissions (windowStep w y).1 ys from rfl]
    cases hb : (windowStep w y).2 with
    | false =>
      simp only [Bool.false_eq_true, if_false]
      refine List.Sublist.append ?_ (List.Sublist.refl _)
      unfold windowStep at hb ⊢
      dsimp only at hb ⊢
      split
      · exact List.filter_sublist
      · rename_i hn; simp [hn] at hb
    | true =>
      simp only [if_true]
      rw [List.append_cons]
      refine List.Sublist.append ?_ (List.Sublist.refl _)
      unfold windowStep at hb ⊢
      dsimp only at hb ⊢
      split
      · rename_i hn; simp [hn] at hb
      · exact List.Sublist.append List.filter_sublist (List.Sublist.refl _)

/-- C24: a call is refused only if at least five earlier calls on the token were
admitted less than 60 ms before it. -/
theorem C24_refused_only_after_five (ts : List Nat) (now : Nat)
    (h : (windowStep (ts.foldl (fun w t => (windowStep w t).1) []) now).2 = false) :
    5 ≤ (admissions [] ts).countP fun x => decide (now - x < 60000000) := by
  have hs := hist_adm ts (w := [])
  rw [List.nil_append] at hs
  generalize ts.foldl (fun w t => (windowStep w t).1) [] = w at h hs
  have := (hs.filter fun x => decide (now - x < 60000000)).length_le
  rw [List.countP_eq_length_filter]
  unfold windowStep slidingWindowCalls slidingWindowNs at h
  dsimp only at h
  split at h
  · rename_i hn; omega
  · cases h

/-- C24: with five or more accepted calls in the last 60 ms remembered, a transfer of
the token is refused, and with fewer it is not refused by the limiter (`C55`). -/
theorem C24_refused {E : Env H} {s : State H} {c : Principal} {now : Nat} {arg : TransferArg}
    (hs : SaneLimits s now) (hb : 1 ≤ BatchLimit s) (hc : c ≠ anonymous) (h5 : 5 ≤ recentCalls s now arg.tid) :
    ∃ s' e, step E s (.call c now (.transfer [arg])) = (s', .batch [.error e]) := by
  rw [transfer_single hs hb hc, transferNft_eq hs]
  dsimp only
  rw [if_pos (by omega)]
  exact ⟨_, _, rfl⟩

/-- C24: the limiter remembers nothing but calls: on a canister with history `ms`, the
calls on a token that count against the limit at `now` are no more than the calls
on that token that the history contains in the 60 ms before. -/
theorem C24_remembered {E : Env H} {v : String → Bool} {hid : H} {c : Principal} {a : InitArgs} {s₀ : State H}
    (h0 : init v hid c a = some s₀) (ms : List Msg) (now tid : Nat) :
    recentCalls (run E s₀ ms) now tid ≤ (askedTimes tid ms).countP fun t => decide (now - t < 60000000) := by
  have h := winOf_run (E := E) (tid := tid) (s := s₀) (B := []) ms (by rw [init_eq h0]; exact List.Sublist.refl _)
  rw [List.nil_append] at h
  rw [List.countP_eq_length_filter]
  exact (h.filter _).length_le

/-- C24: the holder of a token on which fewer than five calls were made in the last
60 ms, whatever else happened, is not held up: a transfer that meets the other
conditions (see C55) is accepted. -/
theorem C24_quiet_token_moves {E : Env H} {v : String → Bool} {hid : H} {a : InitArgs} {s₀ : State H} {c₀ c : Principal}
    (h0 : init v hid c₀ a = some s₀) (ms : List Msg) {now i : Nat} {arg : TransferArg} {o : Account}
    (hquiet : ((askedTimes arg.tid ms).countP fun t => decide (now - t < 60000000)) < 5)
    (hs : SaneLimits (run E s₀ ms) now) (hb : 1 ≤ BatchLimit (run E s₀ ms)) (hc : c ≠ anonymous)
    (ho : Owner (run E s₀ ms) arg.tid = some o) (hown : o.owner = c)
    (hto : arg.to_.owner ≠ anonymous) (hdiff : ¬ SameAccount o arg.to_)
    (hmemo : ∀ m, arg.memo = some m → m.length ≤ MemoLimit (run E s₀ ms))
    (htime : InWindow (run E s₀ ms) now (arg.createdAt.getD now))
    (hled : (E.ledger.add (run E s₀ ms).hid (xferTx now arg o)).2 = .ok i) :
    ∃ s', step E (run E s₀ ms) (.call c now (.transfer [arg])) = (s', .batch [.ok i]) ∧
      Owner s' arg.tid = some arg.to_ := by
  obtain ⟨s', h1, h2, _⟩ := C55_transfer_succeeds ⟨v, hid, c₀, a, s₀, ms, h0, rfl⟩ hs hb hc
    (Nat.lt_of_le_of_lt (C24_remembered h0 ms now arg.tid) hquiet) ho hown hto hdiff hmemo htime hled
  exact ⟨s', h1, h2⟩

/-- Six transfers of token 1 between two accounts of alice within 60 ms: the sixth
is refused, and 60 ms after the first the token can be moved again. -/
def busy : List Msg := (List.range 7).map fun k =>
  .call [1] (Demo.ms (if k = 6 then 260 else 200 + k))
    (.transfer [{ to_ := if k % 2 = 0 ∧ k ≠ 6 then Demo.alice1 else Demo.alice, tid := 1 }])

example : acceptedTimes Demo.env 1 Demo.s1 busy = [200, 201, 202, 203, 204, 260].map Demo.ms ∧
    (callTimes busy).Pairwise (· ≤ ·) ∧
    inInterval (acceptedTimes Demo.env 1 Demo.s1 busy) (Demo.ms 200) = 5 := ⟨rfl, by decide, rfl⟩

/-- Token 1 was called for six times by then, four of the calls being less than 60 ms old. -/
example : askedTimes 1 (busy.take 6) = [200, 201, 202, 203, 204, 205].map Demo.ms ∧
    ((askedTimes 1 (busy.take 6)).countP fun t => decide (Demo.ms 261 - t < 60000000)) = 4 := ⟨rfl, by decide⟩

end Verif
