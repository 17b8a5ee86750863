import Verif.Spec.Answers
import Verif.Lemmas.Metadata
import Verif.Lemmas.Approvals
import Verif.Lemmas.Batch
/-!
# Lemmas for Props/Answers: which calls panic
-/
namespace Verif

open Spec

variable {H : Type}

mutual
theorem storable_iff : ∀ v : Value, Storable v ↔ v.inRange = true
  | .blob _ => ⟨fun _ => rfl, fun _ => .blob _⟩
  | .text _ => ⟨fun _ => rfl, fun _ => .text _⟩
  | .nat n => by
    simp only [Value.inRange, decide_eq_true_eq]
    exact ⟨fun h => by cases h with | nat h => exact h, fun h => .nat h⟩
  | .int i => by
    simp only [Value.inRange, decide_eq_true_eq]
    exact ⟨fun h => by cases h with | int h1 h2 => exact ⟨h1, h2⟩, fun h => .int h.1 h.2⟩
  | .array vs => by
    simp only [Value.inRange]
    rw [← storableL_iff vs]
    exact ⟨fun h => by cases h with | array h => exact h, .array⟩
  | .map kvs => by
    simp only [Value.inRange]
    rw [← storableM_iff kvs]
    exact ⟨fun h => by cases h with | map h => exact h, .map⟩
theorem storableL_iff : ∀ vs : List Value, (∀ v ∈ vs, Storable v) ↔ Value.inRangeL vs = true
  | [] => by simp [Value.inRangeL]
  | v :: vs => by
    simp only [List.forall_mem_cons, Value.inRangeL, Bool.and_eq_true]
    rw [storable_iff v, storableL_iff vs]
theorem storableM_iff : ∀ kvs : List (String × Value),
    (∀ e ∈ kvs, Storable e.2) ↔ Value.inRangeM kvs = true
  | [] => by simp [Value.inRangeM]
  | (k, v) :: kvs => by
    simp only [List.forall_mem_cons, Value.inRangeM, Bool.and_eq_true]
    rw [storable_iff v, storableM_iff kvs]
end

theorem runBatch_none {A R S : Type} {f : S → A → Option (S × R)} (I : S → Prop) (args : List A)
    (hI : ∀ s a s' r, a ∈ args → I s → f s a = some (s', r) → I s') :
    ∀ {s : S}, I s → runBatch f s args = none → ∃ a ∈ args, ∃ t, I t ∧ f t a = none := by
  induction args with
  | nil => intro s _ h; cases h
  | cons a as ih =>
    intro s hs h
    unfold runBatch at h
    split at h
    · rename_i hn; exact ⟨a, by simp, s, hs, hn⟩
    · rename_i s1 r1 h1
      split at h
      · rename_i h2
        obtain ⟨b, hb, t, ht, hn⟩ := ih (fun s a s' r ha => hI s a s' r (by simp [ha]))
          (hI _ _ _ _ (by simp) hs h1) h2
        exact ⟨b, by simp [hb], t, ht, hn⟩
      · cases h

theorem runBatch_keeps {A R S : Type} {f : S → A → Option (S × R)} (I : S → Prop) (args : List A)
    (hI : ∀ s a s' r, a ∈ args → I s → f s a = some (s', r) → I s') :
    ∀ {s s' : S} {rs}, I s → runBatch f s args = some (s', rs) → I s' := by
  induction args with
  | nil => intro s s' rs hs h; cases h; exact hs
  | cons a as ih =>
    intro s s' rs hs h
    obtain ⟨s1, r1, rs1, h1, h2, _⟩ := runBatch_cons h
    exact ih (fun s a s' r ha => hI s a s' r (by simp [ha])) (hI _ _ _ _ (by simp) hs h1) h2

theorem runBatch_total {A R S : Type} {f : S → A → S × R} (args : List A) :
    ∀ {s : S}, runBatch (fun s a => some (f s a)) s args ≠ none := by
  induction args with
  | nil => intro s h; cases h
  | cons a as ih =>
    intro s h
    unfold runBatch at h
    dsimp only at h
    split at h
    · rename_i h2; exact ih h2
    · cases h

/-- Approvals are only stored under ids of 64 bits. -/
def ApprKeys (s : State H) : Prop := ∀ tid m, s.tokAppr.get tid = some m → tid < 2 ^ 64

theorem approveToken_keys {L : Ledger H} {s s' : State H} {c : Principal} {now : Nat} {arg : ApproveTokenArg} {r}
    (hk : ApprKeys s) (h : approveToken L s c now arg = some (s', r)) : ApprKeys s' := by
  by_cases hw : arg.tid < 2 ^ 64
  · cases approveToken_out h with
    | refused => exact hk
    | approved =>
      intro tid m hm
      dsimp only at hm
      rw [Map.get_set] at hm
      split at hm
      · rename_i he; rw [← eq_of_beq he]; exact hw
      · exact hk _ _ hm
  · have hout := approveToken_out h
    cases hout with
    | refused => exact hk
    | approved w owner h' i own eqv sp room timing add =>
      exfalso
      unfold approveToken at h
      rw [guardWindow_eq] at h
      generalize (guardWindow s now arg.tid).1.windows = w' at h
      generalize (guardWindow s now arg.tid).2 = ok at h
      dsimp only at h
      split at h
      · simp at h
      split at h
      · simp at h
      split at h
      · simp at h
      split at h
      · simp at h
      split at h
      · simp at h
      split at h
      · simp at h
      split at h
      · simp at h
      · rw [putTokAppr, if_neg (show ¬ arg.tid < U64 from hw)] at h
        cases h

theorem micro_apprKeys {E : Env H} {m : Msg} {s s' : State H}
    (hm : ∀ c now args, m ≠ .call c now (.approveTokens args)) (h : Micro E m s s') (hk : ApprKeys s) :
    ApprKeys s' := by
  have keep : ∀ {tid : Nat} {x m'}, s.tokAppr.get tid = some m' →
      ∀ {t : State H}, t.tokAppr = s.tokAppr.set tid x → ApprKeys t := by
    intro tid x m' hg t ht k y hy
    rw [ht, Map.get_set] at hy
    split at hy
    · rename_i he; rw [← eq_of_beq he]; exact hk _ _ hg
    · exact hk _ _ hy
  cases h with
  | approve => exact absurd rfl (hm _ _ _)
  | pruneTok arg harg m a hg => exact keep hg rfl
  | revokeTok arg owner h i m harg own eqv hg => exact keep hg rfl
  | xferFrom arg =>
    intro k y hy
    dsimp only at hy
    rw [Map.get_del] at hy
    split at hy
    · cases hy
    · exact hk _ _ hy
  | mint reqs => rw [mintInsert_eq]; exact hk
  | @resume _ now i ans p hp =>
    obtain ⟨a, b, c, d, he⟩ := resumeBody_eq E { s with pending := s.pending.eraseIdx i } now p ans
    rw [he]
    exact hk
  | _ => exact hk

theorem step_apprKeys {E : Env H} {s : State H} (hk : ApprKeys s) (m : Msg) : ApprKeys (step E s m).1 := by
  by_cases hm : ∃ c now args, m = .call c now (.approveTokens args)
  · obtain ⟨c, now, args, rfl⟩ := hm
    simp only [step, execCall, Call.needs, exec]
    cases h : icrc37ApproveTokens E.ledger s c now args with
    | none => exact hk
    | some p =>
      obtain ⟨s', rs⟩ := p
      exact runBatch_keeps ApprKeys args (fun _ _ _ _ _ hk h => approveToken_keys hk h) hk h
  · have hm' : ∀ c now args, m ≠ .call c now (.approveTokens args) :=
      fun c now args h => hm ⟨c, now, args, h⟩
    exact (step_steps E s m).induct (fun _ _ hk h => micro_apprKeys hm' h hk) hk

theorem Reachable.apprKeys {E : Env H} {s : State H} (h : Reachable E s) : ApprKeys s := by
  obtain ⟨v, hid, c, a, s₀, ms, h0', rfl⟩ := h
  have h0 : ApprKeys s₀ := by
    rw [init_eq h0']
    intro tid m hm
    simp at hm
  clear h0'
  induction ms generalizing s₀ with
  | nil => exact h0
  | cons m ms ih => exact ih _ (step_apprKeys h0 m)

/-! ## Items -/

theorem memo_none {cfg : Config} {m : Option Blob} :
    checkMemo cfg m = none ↔ m ≠ none ∧ 2 ^ 32 ≤ cfg.maxMemo.getD 1000000 := by
  unfold checkMemo
  cases m with
  | none => simp
  | some m =>
    by_cases h : USIZE ≤ cfg.maxMemo.getD defaultMaxMemo
    · simp only [h, if_true, true_iff]; exact ⟨by simp, h⟩
    · simp only [h, if_false, reduceCtorEq, false_iff]
      rintro ⟨_, h'⟩
      exact h h'

theorem toU64_none {o : Option Nat} {d : Nat} (hd : d < 2 ^ 64) :
    o.elim (some d) toU64? = none ↔ 2 ^ 64 ≤ o.getD d := by
  cases o with
  | none => simp only [Option.elim_none, Option.getD_none, reduceCtorEq, false_iff]; omega
  | some n =>
    simp only [Option.elim_some, Option.getD_some, toU64?]
    by_cases h : n < U64
    · simp only [h, if_true, reduceCtorEq, false_iff]
      have : n < 2 ^ 64 := h
      omega
    · simp only [h, if_false, true_iff]
      have : ¬ n < 2 ^ 64 := h
      omega

theorem toU64_some {o : Option Nat} {d k : Nat} (hk : o.elim (some d) toU64? = some k) : k = o.getD d := by
  cases o with
  | none => simp at hk; exact hk.symm
  | some n =>
    simp only [Option.elim_some, toU64?] at hk
    split at hk
    · simp at hk; exact hk.symm
    · cases hk

theorem timing_none {s : State H} {now time : Nat} :
    transferTiming s.cfg now time = none ↔
      2 ^ 64 ≤ Drift s ∨ (time ≤ (now + Drift s) % 2 ^ 64 ∧ 2 ^ 64 ≤ Window s) := by
  unfold transferTiming
  cases hd : s.cfg.permittedDrift.elim (some defaultDrift) toU64? with
  | none =>
    have := (toU64_none (by decide)).1 hd
    simp only [true_iff]
    exact .inl this
  | some d =>
    have hd1 : d = Drift s := toU64_some hd
    have hd2 : ¬ 2 ^ 64 ≤ Drift s := fun h => by
      have := (toU64_none (o := s.cfg.permittedDrift) (d := defaultDrift) (by decide)).2 h
      rw [this] at hd
      cases hd
    subst hd1
    dsimp only
    by_cases hf : time > u64add now (Drift s)
    · rw [if_pos hf]
      have : ¬ time ≤ (now + Drift s) % 2 ^ 64 := Nat.not_le.2 hf
      simp only [reduceCtorEq, false_iff]
      rintro (h | h)
      · exact hd2 h
      · exact this h.1
    · rw [if_neg hf]
      have hle : time ≤ (now + Drift s) % 2 ^ 64 := Nat.le_of_not_lt hf
      cases hw : s.cfg.txWindow.elim (some defaultTxWindow) toU64? with
      | none =>
        have := (toU64_none (by decide)).1 hw
        simp only [true_iff]
        exact .inr ⟨hle, this⟩
      | some w =>
        have hw2 : ¬ 2 ^ 64 ≤ Window s := fun h => by
          have := (toU64_none (o := s.cfg.txWindow) (d := defaultTxWindow) (by decide)).2 h
          rw [this] at hw
          cases hw
        dsimp only
        constructor
        · intro h; split at h <;> cases h
        · rintro (h | h)
          · exact absurd h hd2
          · exact absurd h.2 hw2

/-- The exact conditions under which one `icrc7_transfer` item panics. -/
theorem transferNft_none {L : Ledger H} {s : State H} {c : Principal} {now : Nat} {arg : TransferArg} :
    transferNft L s c now arg = none ↔
      (guardWindow s now arg.tid).2 = true ∧ ∃ nft, s.tokens.get arg.tid = some nft ∧
        ((arg.memo ≠ none ∧ 2 ^ 32 ≤ MemoLimit s) ∨
          (checkMemo s.cfg arg.memo = some true ∧ nft.owner.owner = c ∧ arg.to_.owner ≠ anonymous ∧
            (nft.owner == arg.to_) = false ∧
            (2 ^ 64 ≤ Drift s ∨ (arg.createdAt.getD now ≤ (now + Drift s) % 2 ^ 64 ∧ 2 ^ 64 ≤ Window s)))) := by
  unfold transferNft
  rw [guardWindow_eq]
  generalize (guardWindow s now arg.tid).1.windows = w
  generalize (guardWindow s now arg.tid).2 = ok
  dsimp only
  cases ok with
  | false => simp
  | true =>
    simp only [Bool.not_true, Bool.false_eq_true, if_false, true_and]
    cases hg : s.tokens.get arg.tid with
    | none => simp
    | some nft =>
      simp only [Option.some.injEq, exists_eq_left']
      cases hm : checkMemo s.cfg arg.memo with
      | none =>
        simp only [true_iff]
        exact .inl (memo_none.1 hm)
      | some b =>
        have hm2 : ¬ (arg.memo ≠ none ∧ 2 ^ 32 ≤ MemoLimit s) := fun h => by
          have := memo_none (cfg := s.cfg) |>.2 h
          rw [this] at hm
          cases hm
        cases b with
        | false => simp [hm2]
        | true =>
          simp only [hm2, false_or, true_and]
          by_cases hc : nft.owner.owner ≠ c ∨ arg.to_.owner = anonymous ∨ (nft.owner == arg.to_) = true
          · rw [if_pos hc]
            simp only [reduceCtorEq, false_iff]
            rintro ⟨h1, h2, h3, _⟩
            rcases hc with h | h | h
            · exact h h1
            · exact h2 h
            · rw [h] at h3; cases h3
          · rw [if_neg hc]
            have hc1 : nft.owner.owner = c := Classical.not_not.1 fun h => hc (.inl h)
            have hc2 : arg.to_.owner ≠ anonymous := fun h => hc (.inr (.inl h))
            have hc3 : (nft.owner == arg.to_) = false := by
              cases h : nft.owner == arg.to_ with
              | false => rfl
              | true => exact absurd (.inr (.inr h)) hc
            simp only [hc1, hc2, hc3, ne_eq, not_false_eq_true, true_and]
            rw [← timing_none]
            show (match transferTiming s.cfg now (arg.createdAt.getD now) with | none => _ | some (some _) => _ | some none => _) = none ↔ _
            cases transferTiming s.cfg now (arg.createdAt.getD now) with
            | none => simp
            | some o =>
              cases o with
              | some e => simp
              | none =>
                simp only [reduceCtorEq, iff_false]
                intro h
                split at h <;> cases h

theorem transferNft_cfg {L : Ledger H} {s s' : State H} {c : Principal} {now : Nat} {arg : TransferArg} {r}
    (h : transferNft L s c now arg = some (s', r)) : s'.cfg = s.cfg := by
  cases transferNft_out h <;> rfl

theorem approveToken_none {L : Ledger H} {s : State H} {c : Principal} {now : Nat} {arg : ApproveTokenArg}
    (h : approveToken L s c now arg = none) : 2 ^ 64 ≤ arg.tid ∧ Owner s arg.tid ≠ none := by
  unfold approveToken at h
  rw [guardWindow_eq] at h
  generalize (guardWindow s now arg.tid).1.windows = w' at h
  generalize (guardWindow s now arg.tid).2 = ok at h
  dsimp only at h
  split at h
  · simp at h
  split at h
  · simp at h
  split at h
  · simp at h
  rename_i o ho
  have ho : Owner s arg.tid = some o := ho
  split at h
  · simp at h
  split at h
  · simp at h
  split at h
  · simp at h
  split at h
  · simp at h
  · unfold putTokAppr at h
    by_cases hw : arg.tid < U64
    · rw [if_pos hw] at h; cases h
    · exact ⟨Nat.le_of_not_lt hw, by rw [ho]; simp⟩

theorem approveToken_tokens {L : Ledger H} {s s' : State H} {c : Principal} {now : Nat} {arg : ApproveTokenArg} {r}
    (h : approveToken L s c now arg = some (s', r)) : s'.tokens = s.tokens := by
  cases approveToken_out h <;> rfl

theorem putTokAppr_some {s : State H} {tid : Nat} {m} (h : tid < 2 ^ 64) :
    putTokAppr s tid m = some { s with tokAppr := s.tokAppr.set tid m } := if_pos h

theorem revokeToken_some {L : Ledger H} {s : State H} {c : Principal} {now : Nat} {arg : RevokeTokenArg}
    (hk : ApprKeys s) : revokeToken L s c now arg ≠ none := by
  intro h
  unfold revokeToken at h
  dsimp only at h
  split at h
  · simp at h
  split at h
  · simp at h
  split at h
  · simp at h
  split at h
  · simp at h
  rename_i m hm
  split at h
  · simp at h
  · rw [putTokAppr_some (hk _ _ hm)] at h
    cases h

theorem revokeToken_keys {L : Ledger H} {s s' : State H} {c : Principal} {now : Nat} {arg : RevokeTokenArg} {r}
    (hk : ApprKeys s) (h : revokeToken L s c now arg = some (s', r)) : ApprKeys s' := by
  cases revokeToken_out h with
  | refused => exact hk
  | revoked owner h i m own eqv hm =>
    intro k y hy
    dsimp only at hy
    rw [Map.get_set] at hy
    split at hy
    · rename_i he; rw [← eq_of_beq he]; exact hk _ _ hm
    · exact hk _ _ hy

theorem transferFrom_some {L : Ledger H} {s : State H} {c : Principal} {now : Nat} {arg : TransferFromArg}
    (hk : ApprKeys s) : transferFrom L s c now arg ≠ none := by
  intro h
  unfold transferFrom at h
  rw [guardWindow_eq] at h
  generalize (guardWindow s now arg.tid).1.windows = w' at h
  generalize (guardWindow s now arg.tid).2 = ok at h
  dsimp only at h
  split at h
  · simp at h
  split at h
  · simp at h
  split at h
  · simp at h
  split at h
  · simp at h
  split at h
  · simp at h
  split at h
  · rename_i hn
    unfold checkTokenApproval at hn
    split at hn
    · simp at hn
    rename_i m hm
    split at hn
    · simp at hn
    split at hn
    · rw [putTokAppr_some (hk _ _ hm)] at hn
      cases hn
    · simp at hn
  split at h
  · simp at h
  split at h <;> simp at h

theorem transferFrom_keys {L : Ledger H} {s s' : State H} {c : Principal} {now : Nat} {arg : TransferFromArg} {r}
    (hk : ApprKeys s) (h : transferFrom L s c now arg = some (s', r)) : ApprKeys s' := by
  cases transferFrom_out h with
  | refused w h ta ca e hta hca =>
    rcases hta with rfl | ⟨m, a, hm, _, _, rfl⟩
    · exact hk
    · intro k y hy
      dsimp only at hy
      rw [Map.get_set] at hy
      split at hy
      · rename_i he; rw [← eq_of_beq he]; exact hk _ _ hm
      · exact hk _ _ hy
  | moved =>
    intro k y hy
    dsimp only at hy
    rw [Map.get_del] at hy
    split at hy
    · cases hy
    · exact hk _ _ hy

theorem checkMemos_none {cfg : Config} (reqs : List MintReq) (h : checkMemos cfg reqs = none) :
    (∃ r ∈ reqs, r.memo ≠ none) ∧ 2 ^ 32 ≤ cfg.maxMemo.getD 1000000 := by
  induction reqs with
  | nil => cases h
  | cons r rs ih =>
    unfold checkMemos at h
    split at h
    · rename_i hm
      have := memo_none.1 hm
      exact ⟨⟨r, by simp, this.1⟩, this.2⟩
    · cases h
    · obtain ⟨⟨q, hq, hq2⟩, h2⟩ := ih h
      exact ⟨⟨q, by simp [hq], hq2⟩, h2⟩

theorem checkMemos_wide {cfg : Config} (hw : 2 ^ 32 ≤ cfg.maxMemo.getD 1000000) (reqs : List MintReq)
    (h : ∃ r ∈ reqs, r.memo ≠ none) : checkMemos cfg reqs = none := by
  induction reqs with
  | nil => obtain ⟨r, hr, _⟩ := h; simp at hr
  | cons r rs ih =>
    unfold checkMemos
    by_cases hm : r.memo = none
    · have : checkMemo cfg r.memo = some true := by rw [hm]; rfl
      rw [this]
      refine ih ?_
      obtain ⟨q, hq, hq2⟩ := h
      rcases List.mem_cons.1 hq with rfl | hq
      · exact absurd hm hq2
      · exact ⟨q, hq, hq2⟩
    · rw [memo_none.2 ⟨hm, hw⟩]

theorem checkMemos_bare {cfg : Config} (reqs : List MintReq) (h : ∀ r ∈ reqs, r.memo = none) :
    checkMemos cfg reqs = some true := by
  induction reqs with
  | nil => rfl
  | cons r rs ih =>
    have hr := h r (by simp)
    unfold checkMemos
    have : checkMemo cfg r.memo = some true := by rw [hr]; rfl
    rw [this]
    exact ih fun q hq => h q (by simp [hq])

end Verif
