import Verif.Lemmas.Batch
/-!
# `icrc7_transfer` of one item, unfolded
-/
namespace Verif

open Spec

variable {H : Type}

theorem pow64 : (2 : Nat) ^ 64 = U64 := by decide
theorem pow32 : (2 : Nat) ^ 32 = USIZE := by decide

theorem u64add_lt {a b : Nat} (h : a + b < U64) : u64add a b = a + b := Nat.mod_eq_of_lt h

theorem guardWindow_snd (s : State H) (now tid : Nat) :
    (guardWindow s now tid).2 = decide (recentCalls s now tid < 5) := by
  unfold guardWindow windowStep recentCalls slidingWindowCalls slidingWindowNs
  dsimp only
  split
  · rename_i h; simp; exact h
  · rename_i h; simp; omega

theorem transferTiming_eq {s : State H} {now t : Nat} (hs : SaneLimits s now) :
    transferTiming s.cfg now t =
      some (if now + Drift s < t then some (.createdInFuture now)
            else if t + (Window s + Drift s) < now then some .tooOld else none) := by
  have h1 := hs.future
  have h2 := hs.past
  rw [pow64] at h1 h2
  have hd : s.cfg.permittedDrift.elim (some defaultDrift) toU64? = some (Drift s) := by
    unfold Drift at h1 ⊢
    cases hp : s.cfg.permittedDrift with
    | none => rfl
    | some d => rw [hp] at h1; simp [toU64?]; simp at h1; omega
  have hw : s.cfg.txWindow.elim (some defaultTxWindow) toU64? = some (Window s) := by
    unfold Window at h2 ⊢
    cases hp : s.cfg.txWindow with
    | none => rfl
    | some d => rw [hp] at h2; simp [toU64?]; simp at h2; omega
  unfold transferTiming
  rw [hd, hw]
  dsimp only
  rw [u64add_lt h1, u64add_lt h2]
  by_cases hf : now + Drift s < t
  · rw [if_pos hf, if_pos hf]
  · rw [if_neg hf, if_neg hf]
    by_cases ho : t + (Window s + Drift s) < now
    · rw [if_pos ho, if_pos (by omega)]
    · rw [if_neg ho, if_neg (by omega)]

theorem checkMemo_eq {s : State H} {now : Nat} (hs : SaneLimits s now) (memo : Option Blob) :
    checkMemo s.cfg memo = some (decide (∀ m, memo = some m → m.length ≤ MemoLimit s)) := by
  have h := hs.memo
  rw [pow32] at h
  unfold checkMemo
  cases memo with
  | none => simp
  | some m =>
    dsimp only
    have : s.cfg.maxMemo.getD defaultMaxMemo = MemoLimit s := rfl
    rw [this, if_neg (by omega)]
    simp

/-- `icrc7_transfer` with one item is `transfer_nft`. -/
theorem transfer_single {E : Env H} {s : State H} {c : Principal} {now : Nat} {arg : TransferArg}
    (hs : SaneLimits s now) (hb : 1 ≤ BatchLimit s) (hc : c ≠ anonymous) :
    step E s (.call c now (.transfer [arg])) =
      ofBatch s ((transferNft E.ledger s c now arg).map fun p => (p.1, [p.2])) := by
  have hu := hs.batch
  rw [pow32] at hu
  simp only [step, execCall, Call.needs, exec]
  unfold icrc7Transfer
  have hm : s.cfg.maxUpdateBatch.getD defaultMaxUpdateBatch = BatchLimit s := rfl
  simp only [List.isEmpty_cons, Bool.false_eq_true, if_false, hm, toUsize?, hu, if_true]
  rw [if_neg (by simp; omega), if_neg hc]
  obtain ⟨n, hn⟩ : ∃ n, BatchLimit s = n + 1 := ⟨BatchLimit s - 1, by omega⟩
  rw [hn, List.take_succ_cons, List.take_nil]
  simp only [runBatch]
  cases transferNft E.ledger s c now arg <;> rfl

theorem transferNft_eq {L : Ledger H} {s : State H} {c : Principal} {now : Nat} {arg : TransferArg}
    (hs : SaneLimits s now) :
    transferNft L s c now arg =
      let s1 := (guardWindow s now arg.tid).1
      some (
        if 5 ≤ recentCalls s now arg.tid then (s1, .error (.generic 0))
        else match s.tokens.get arg.tid with
        | none => (s1, .error .nonExistingTokenId)
        | some nft =>
          if ¬ ∀ m, arg.memo = some m → m.length ≤ MemoLimit s then (s1, .error (.generic 0))
          else if nft.owner.owner ≠ c ∨ arg.to_.owner = anonymous ∨ (nft.owner == arg.to_) = true then
            (s1, .error .invalidRecipient)
          else if now + Drift s < arg.createdAt.getD now then (s1, .error (.createdInFuture now))
          else if arg.createdAt.getD now + (Window s + Drift s) < now then (s1, .error .tooOld)
          else match addTx L s1 (transferTx now (arg.createdAt.getD now) arg nft) with
            | (s2, .ok i) => (moveToken s2 nft arg.to_, .ok i)
            | (s2, .error (.duplicate d)) => (s2, .ok d)
            | (s2, .error _) => (s2, .error (.generic 2))) := by
  unfold transferNft
  have h2 := guardWindow_snd s now arg.tid
  rw [guardWindow_eq] at h2 ⊢
  dsimp only at h2 ⊢
  generalize (guardWindow s now arg.tid).1.windows = w at h2 ⊢
  generalize (guardWindow s now arg.tid).2 = ok at h2 ⊢
  subst h2
  by_cases hr : 5 ≤ recentCalls s now arg.tid
  · simp [hr]
  · rw [if_neg hr, if_neg (by simp; omega)]
    cases ht : s.tokens.get arg.tid with
    | none => rfl
    | some nft =>
      dsimp only
      rw [checkMemo_eq hs, transferTiming_eq hs]
      by_cases hm : ∀ m, arg.memo = some m → m.length ≤ MemoLimit s
      · rw [decide_eq_true hm, if_neg (not_not_intro hm)]
        dsimp only
        by_cases hc : nft.owner.owner ≠ c ∨ arg.to_.owner = anonymous ∨ (nft.owner == arg.to_) = true
        · rw [if_pos hc, if_pos hc]
        · rw [if_neg hc, if_neg hc]
          by_cases h1 : now + Drift s < arg.createdAt.getD now
          · rw [if_pos h1, if_pos h1]
          · rw [if_neg h1, if_neg h1]
            by_cases h3 : arg.createdAt.getD now + (Window s + Drift s) < now
            · rw [if_pos h3, if_pos h3]
            · rw [if_neg h3, if_neg h3]
              dsimp only
              cases addTx L { s with windows := w } (transferTx now (arg.createdAt.getD now) arg nft) with
              | mk s2 r =>
                cases r with
                | ok i => rfl
                | error e => cases e <;> rfl
      · rw [decide_eq_false hm, if_pos hm]

theorem verifyTiming_eq {s : State H} {now created : Nat} (hs : SaneTimes s now created) :
    verifyTiming s.cfg created now =
      if now + Drift s < created then some (.createdInFuture now)
      else if created + Window s < now then some .tooOld else none := by
  have h1 := hs.future
  have h2 := hs.past
  rw [pow64] at h1 h2
  unfold verifyTiming
  have e1 : toU64Or (s.cfg.permittedDrift.getD defaultDrift) defaultDrift = Drift s := by
    unfold toU64Or
    rw [show s.cfg.permittedDrift.getD defaultDrift = Drift s from rfl, if_pos (by omega)]
  have e2 : toU64Or (s.cfg.txWindow.getD defaultTxWindow) 0 = Window s := by
    unfold toU64Or
    rw [show s.cfg.txWindow.getD defaultTxWindow = Window s from rfl, if_pos (by omega)]
  rw [e1, e2, u64add_lt h1, u64add_lt h2]

theorem verifyTiming_none {s : State H} {now created : Nat} (hs : SaneTimes s now created)
    (h : verifyTiming s.cfg created now = none) : InWindow37 s now created := by
  rw [verifyTiming_eq hs] at h
  split at h
  · cases h
  · split at h
    · cases h
    · exact ⟨by omega, by omega⟩

theorem verifyTiming_of {s : State H} {now created : Nat} (hs : SaneTimes s now created)
    (h : InWindow37 s now created) : verifyTiming s.cfg created now = none := by
  rw [verifyTiming_eq hs, if_neg (by have := h.1; omega), if_neg (by have := h.2; omega)]

theorem verifyTimingOpt_of {s : State H} {now : Nat} {created : Option Nat}
    (h : ∀ t, created = some t → SaneTimes s now t ∧ InWindow37 s now t) :
    verifyTimingOpt s.cfg created now = none := by
  cases created with
  | none => rfl
  | some t => exact verifyTiming_of (h t rfl).1 (h t rfl).2

end Verif
