import Verif.Lemmas.Decide
import Verif.Spec.Limits
/-!
# The rate limiter's table over a message
-/
namespace Verif

open Spec

variable {H : Type}

/-- The history of one token goes from `w` to `w'` by calls at time `now`, of
which `k` were admitted. -/
inductive Win (now : Nat) (w : List Nat) : Nat → List Nat → Prop
  | refl : Win now w 0 w
  | step {k w'} : Win now w k w' → Win now w (k + (windowStep w' now).2.toNat) (windowStep w' now).1

theorem Win.trans {now : Nat} {w w' w'' : List Nat} {k l : Nat} (h : Win now w k w') (h' : Win now w' l w'') :
    Win now w (k + l) w'' := by
  induction h' with
  | refl => exact h
  | step _ ih => rw [← Nat.add_assoc]; exact .step ih

theorem Win.one (now : Nat) (w : List Nat) : Win now w (windowStep w now).2.toNat (windowStep w now).1 := by
  have := Win.step (now := now) (w := w) .refl
  rwa [Nat.zero_add] at this

/-- The history of token `tid`. -/
def winOf (s : State H) (tid : Nat) : List Nat := (s.windows.get tid).getD []

/-- The entry of `tid0` was charged once, at `now`, and the result `r` is `Ok` only
if the call was admitted. -/
def Charged (now tid0 : Nat) (s s' : State H) (ok : Bool) : Prop :=
  s'.windows = (guardWindow s now tid0).1.windows ∧ (ok = true → (guardWindow s now tid0).2 = true)

theorem Charged.win {now tid0 : Nat} {s s' : State H} {ok : Bool} (h : Charged now tid0 s s' ok) (tid : Nat) :
    ∃ k, Win now (winOf s tid) k (winOf s' tid) ∧ (if tid0 = tid ∧ ok = true then 1 else 0) ≤ k ∧
      k ≤ if tid0 = tid then 1 else 0 := by
  have hw : winOf s' tid = if tid0 = tid then (windowStep (winOf s tid0) now).1 else winOf s tid := by
    unfold winOf
    rw [h.1]
    unfold guardWindow
    dsimp only
    rw [Map.get_set]
    by_cases he : tid0 = tid
    · simp [he]
    · simp [he]
  by_cases he : tid0 = tid
  · subst he
    rw [hw, if_pos rfl]
    refine ⟨_, .one _ _, ?_, by rw [if_pos rfl]; exact Bool.toNat_le _⟩
    split
    · rename_i hok
      have := h.2 hok.2
      unfold guardWindow at this
      dsimp only at this
      rw [show (windowStep (winOf s tid0) now).2 = true from this]
      exact Nat.le_refl 1
    · omega
  · rw [hw, if_neg he]
    exact ⟨0, .refl, by simp [he], Nat.zero_le _⟩

/-- What is remembered after some calls was remembered before or comes from them. -/
theorem Win.sublist {now : Nat} {w w' : List Nat} {k : Nat} (h : Win now w k w') :
    w'.Sublist (w ++ List.replicate k now) := by
  induction h with
  | refl => simp
  | @step k w' _ ih =>
    rw [← List.replicate_append_replicate, ← List.append_assoc]
    unfold windowStep
    dsimp only
    split
    · simp only [Bool.toNat_false, List.replicate_zero, List.append_nil]
      exact List.filter_sublist.trans ih
    · simp only [Bool.toNat_true, List.replicate_one]
      exact List.Sublist.append (List.filter_sublist.trans ih) (List.Sublist.refl _)

theorem addTx_windows {L : Ledger H} {s s' : State H} {t r} (h : addTx L s t = (s', r)) : s'.windows = s.windows := by
  cases r with
  | ok i => obtain ⟨_, _, rfl⟩ := addTx_ok h; rfl
  | error e => obtain ⟨_, _, rfl⟩ := addTx_err h; rfl

theorem transferNft_charged {L : Ledger H} {s s' : State H} {c : Principal} {now : Nat} {arg : TransferArg} {r}
    (h : transferNft L s c now arg = some (s', r)) : Charged now arg.tid s s' (okB r) := by
  unfold transferNft at h
  unfold Charged
  generalize guardWindow s now arg.tid = g at h ⊢
  obtain ⟨s1, ok⟩ := g
  dsimp only at h ⊢
  have fin : ∀ {s2 : State H} {r2 : Except TokErr Nat}, some (s2, r2) = some (s', r) → s2.windows = s1.windows →
      (okB r2 = true → ok = true) → s'.windows = s1.windows ∧ (okB r = true → ok = true) := by
    intro s2 r2 he hw hr
    simp at he
    obtain ⟨rfl, rfl⟩ := he
    exact ⟨hw, hr⟩
  split at h
  · exact fin h rfl (by simp [okB])
  rename_i hok
  have hok' : ok = true := by simpa using hok
  split at h
  · exact fin h rfl (fun _ => hok')
  split at h
  · cases h
  · exact fin h rfl (fun _ => hok')
  split at h
  · exact fin h rfl (fun _ => hok')
  split at h
  · cases h
  · exact fin h rfl (fun _ => hok')
  split at h
  · rename_i hadd
    have hw := addTx_windows hadd
    exact fin h hw (fun _ => hok')
  · rename_i hadd
    have hw := addTx_windows hadd
    exact fin h hw (fun _ => hok')
  · rename_i hadd
    have hw := addTx_windows hadd
    exact fin h hw (fun _ => hok')

theorem approveToken_charged {L : Ledger H} {s s' : State H} {c : Principal} {now : Nat} {arg : ApproveTokenArg} {r}
    (h : approveToken L s c now arg = some (s', r)) : Charged now arg.tid s s' (okB r) := by
  unfold approveToken at h
  unfold Charged
  generalize guardWindow s now arg.tid = g at h ⊢
  obtain ⟨s1, ok⟩ := g
  dsimp only at h ⊢
  have fin : ∀ {s2 : State H} {r2 : Except TokErr Nat}, some (s2, r2) = some (s', r) → s2.windows = s1.windows →
      (okB r2 = true → ok = true) → s'.windows = s1.windows ∧ (okB r = true → ok = true) := by
    intro s2 r2 he hw hr
    simp at he
    obtain ⟨rfl, rfl⟩ := he
    exact ⟨hw, hr⟩
  split at h
  · exact fin h rfl (by simp [okB])
  rename_i hok
  have hok' : ok = true := by simpa using hok
  split at h
  · exact fin h rfl (fun _ => hok')
  split at h
  · exact fin h rfl (fun _ => hok')
  split at h
  · exact fin h rfl (fun _ => hok')
  split at h
  · exact fin h rfl (fun _ => hok')
  split at h
  · exact fin h rfl (fun _ => hok')
  split at h
  · rename_i hadd
    have hw := addTx_windows hadd
    exact fin h hw (fun _ => hok')
  · rename_i hadd
    split at h
    · cases h
    · rename_i hput
      unfold putTokAppr at hput
      split at hput
      · simp at hput
        refine fin h ?_ (fun _ => hok')
        rw [← hput]
        have hw := addTx_windows hadd
        exact hw
      · cases hput

theorem approveCollection_charged {L : Ledger H} {s s' : State H} {c : Principal} {now : Nat} {info : ApprovalInfo} {r}
    (h : approveCollection L s c now info = (s', r)) : Charged now 0 s s' (okB r) := by
  unfold approveCollection at h
  unfold Charged
  generalize guardWindow s now 0 = g at h ⊢
  obtain ⟨s1, ok⟩ := g
  dsimp only at h ⊢
  have fin : ∀ {s2 : State H} {r2 : Except TokErr Nat}, (s2, r2) = (s', r) → s2.windows = s1.windows →
      (okB r2 = true → ok = true) → s'.windows = s1.windows ∧ (okB r = true → ok = true) := by
    intro s2 r2 he hw hr
    simp at he
    obtain ⟨rfl, rfl⟩ := he
    exact ⟨hw, hr⟩
  split at h
  · exact fin h rfl (by simp [okB])
  rename_i hok
  have hok' : ok = true := by simpa using hok
  split at h
  · exact fin h rfl (fun _ => hok')
  split at h
  · exact fin h rfl (fun _ => hok')
  split at h
  · exact fin h rfl (fun _ => hok')
  split at h
  · exact fin h rfl (fun _ => hok')
  split at h
  · rename_i hadd
    have hw := addTx_windows hadd
    exact fin h hw (fun _ => hok')
  · rename_i hadd
    have hw := addTx_windows hadd
    exact fin h hw (fun _ => hok')

theorem revokeCollection_charged {L : Ledger H} {s s' : State H} {c : Principal} {now : Nat} {arg : RevokeCollArg} {r}
    (h : revokeCollection L s c now arg = (s', r)) : Charged now 0 s s' (okB r) := by
  unfold revokeCollection at h
  unfold Charged
  generalize guardWindow s now 0 = g at h ⊢
  obtain ⟨s1, ok⟩ := g
  dsimp only at h ⊢
  have fin : ∀ {s2 : State H} {r2 : Except TokErr Nat}, (s2, r2) = (s', r) → s2.windows = s1.windows →
      (okB r2 = true → ok = true) → s'.windows = s1.windows ∧ (okB r = true → ok = true) := by
    intro s2 r2 he hw hr
    simp at he
    obtain ⟨rfl, rfl⟩ := he
    exact ⟨hw, hr⟩
  split at h
  · exact fin h rfl (by simp [okB])
  rename_i hok
  have hok' : ok = true := by simpa using hok
  split at h
  · exact fin h rfl (fun _ => hok')
  split at h
  · exact fin h rfl (fun _ => hok')
  split at h
  · rename_i hadd
    have hw := addTx_windows hadd
    exact fin h hw (fun _ => hok')
  · rename_i hadd
    have hw := addTx_windows hadd
    exact fin h hw (fun _ => hok')

theorem checkTokenApproval_windows {s s' : State H} {now tid : Nat} {sp : Account} {b : Bool}
    (h : checkTokenApproval s now tid sp = some (s', b)) : s'.windows = s.windows := by
  unfold checkTokenApproval at h
  split at h
  · simp at h; rw [← h.1]
  split at h
  · simp at h; rw [← h.1]
  split at h
  · split at h
    · cases h
    · rename_i hput
      unfold putTokAppr at hput
      split at hput
      · simp at hput h
        rw [← h.1, ← hput]
      · cases hput
  · simp at h; rw [← h.1]

theorem checkCollApproval_windows (s : State H) (now : Nat) (o sp : Account) :
    (checkCollApproval s now o sp).1.windows = s.windows := by
  unfold checkCollApproval
  split
  · rfl
  split
  · rfl
  split <;> rfl

theorem transferFrom_charged {L : Ledger H} {s s' : State H} {c : Principal} {now : Nat} {arg : TransferFromArg} {r}
    (h : transferFrom L s c now arg = some (s', r)) : Charged now arg.tid s s' (okB r) := by
  unfold transferFrom at h
  unfold Charged
  generalize guardWindow s now arg.tid = g at h ⊢
  obtain ⟨s1, ok⟩ := g
  dsimp only at h ⊢
  have fin : ∀ {s2 : State H} {r2 : Except TokErr Nat}, some (s2, r2) = some (s', r) → s2.windows = s1.windows →
      (okB r2 = true → ok = true) → s'.windows = s1.windows ∧ (okB r = true → ok = true) := by
    intro s2 r2 he hw hr
    simp at he
    obtain ⟨rfl, rfl⟩ := he
    exact ⟨hw, hr⟩
  split at h
  · exact fin h rfl (by simp [okB])
  rename_i hok
  have hok' : ok = true := by simpa using hok
  split at h
  · exact fin h rfl (fun _ => hok')
  split at h
  · exact fin h rfl (fun _ => hok')
  rename_i nft _
  split at h
  · exact fin h rfl (fun _ => hok')
  split at h
  · exact fin h rfl (fun _ => hok')
  split at h
  · cases h
  rename_i s2 hasTok htok
  have hw2 := checkTokenApproval_windows htok
  have hw3 := checkCollApproval_windows s2 now nft.owner ⟨c, arg.spenderSub⟩
  rw [hw2] at hw3
  generalize checkCollApproval s2 now nft.owner ⟨c, arg.spenderSub⟩ = p at h hw3
  obtain ⟨s3, hasColl⟩ := p
  dsimp only at h hw3
  split at h
  · exact fin h hw3 (fun _ => hok')
  split at h
  · rename_i hadd
    have hw := (addTx_windows hadd).trans hw3
    exact fin h hw (fun _ => hok')
  · rename_i hadd
    refine fin h ?_ (fun _ => hok')
    have hw := (addTx_windows hadd).trans hw3
    split <;> exact hw

theorem revokeToken_windows {L : Ledger H} {s s' : State H} {c : Principal} {now : Nat} {arg : RevokeTokenArg} {r}
    (h : revokeToken L s c now arg = some (s', r)) : s'.windows = s.windows := by
  cases revokeToken_out h <;> rfl

/-- A batch charges its items' tokens; every accepted item was admitted. -/
theorem runBatch_win {A : Type} {f : State H → A → Option (State H × Except TokErr Nat)} {key : A → Nat} {now tid : Nat}
    (hf : ∀ s a s' r, f s a = some (s', r) → Charged now (key a) s s' (okB r)) (args : List A) :
    ∀ {s s' : State H} {rs}, runBatch f s args = some (s', rs) →
      ∃ k, Win now (winOf s tid) k (winOf s' tid) ∧
        ((args.zip rs).filter fun p => decide (key p.1 = tid) && okB p.2).length ≤ k ∧
        k ≤ args.countP (fun a => decide (key a = tid)) := by
  induction args with
  | nil =>
    intro s s' rs h
    simp [runBatch] at h
    rw [h.1]
    exact ⟨0, .refl, by simp⟩
  | cons a as ih =>
    intro s s' rs h
    obtain ⟨t, r, rs', h1, h2, rfl⟩ := runBatch_cons h
    obtain ⟨k1, w1, l1, u1⟩ := (hf s a t r h1).win tid
    obtain ⟨k2, w2, l2, u2⟩ := ih h2
    refine ⟨k1 + k2, w1.trans w2, ?_, ?_⟩
    case refine_2 =>
      rw [List.countP_cons]
      by_cases hk : key a = tid
      · simp [hk] at u1 ⊢; omega
      · simp [hk] at u1 ⊢; omega
    rw [List.zip_cons_cons, List.filter_cons]
    split
    · rename_i hc
      simp at hc
      rw [if_pos ⟨hc.1, hc.2⟩] at l1
      simp only [List.length_cons]
      omega
    · omega

theorem okCount_take {A : Type} (key : A → Nat) (tid n : Nat) (args : List A) (rs : List (Except TokErr Nat))
    (h : rs.length = (args.take n).length) : okCount key tid args rs = okCount key tid (args.take n) rs := by
  unfold okCount
  have : args.zip rs = (args.take n).zip rs := by
    have hz : ∀ (l l' : List A) (rs : List (Except TokErr Nat)), rs.length = l.length → (l ++ l').zip rs = l.zip rs := by
      intro l l' rs hl
      have := List.zip_append (l₁ := l) (r₁ := l') (l₂ := rs) (r₂ := []) hl.symm
      simpa using this
    have := hz (args.take n) (args.drop n) rs h
    rwa [List.take_append_drop] at this
  rw [this]

private theorem same_win {now tid : Nat} {s s' : State H} (h : s'.windows = s.windows) :
    ∃ k, Win now (winOf s tid) k (winOf s' tid) ∧ 0 ≤ k ∧ ∀ n, k ≤ n := by
  refine ⟨0, ?_, Nat.le_refl 0, Nat.zero_le⟩
  unfold winOf
  rw [h]
  exact .refl

private theorem batch_win {A : Type} {f : State H → A → Option (State H × Except TokErr Nat)} {key : A → Nat} {now tid : Nat}
    (hf : ∀ s a s' r, f s a = some (s', r) → Charged now (key a) s s' (okB r)) (args : List A) (n : Nat)
    {s s' : State H} {rs} (h : runBatch f s (args.take n) = some (s', rs)) :
    ∃ k, Win now (winOf s tid) k (winOf s' tid) ∧ okCount key tid args rs ≤ k ∧
      k ≤ args.countP (fun a => decide (key a = tid)) := by
  rw [okCount_take key tid n args rs (runBatch_length _ h)]
  obtain ⟨k, h1, h2, h3⟩ := runBatch_win (tid := tid) hf _ h
  exact ⟨k, h1, h2, Nat.le_trans h3 (List.take_sublist _ _).countP_le⟩

private theorem batch_win' {A : Type} {f : State H → A → Option (State H × Except TokErr Nat)} {key : A → Nat} {now tid : Nat}
    (hf : ∀ s a s' r, f s a = some (s', r) → Charged now (key a) s s' (okB r)) (args : List A)
    {s s' : State H} {rs} (h : runBatch f s args = some (s', rs)) :
    ∃ k, Win now (winOf s tid) k (winOf s' tid) ∧ okCount key tid args rs ≤ k ∧
      k ≤ args.countP (fun a => decide (key a = tid)) := runBatch_win hf _ h

/-- A call charges the history of a token at its own time, at least once for every
accepted call on it. -/
theorem exec_win {E : Env H} {s s' : State H} {c : Principal} {now : Nat} {call : Call} {r : Reply} (tid : Nat)
    (h : exec E s c now call = (s', r)) :
    ∃ k, Win now (winOf s tid) k (winOf s' tid) ∧ acceptedCount tid (.call c now call) r ≤ k ∧
      k ≤ askedCount tid call := by
  have hbatch : ∀ {o : Option (State H × List (Except TokErr Nat))}, ofBatch s o = (s', r) →
      (r = .trapped ∧ s' = s) ∨ (∃ rs, r = .batch rs ∧ o = some (s', rs)) := by
    intro o ho
    cases o with
    | none => simp [ofBatch] at ho; exact .inl ⟨ho.2.symm, ho.1.symm⟩
    | some p => obtain ⟨p1, p2⟩ := p; simp [ofBatch] at ho; obtain ⟨rfl, rfl⟩ := ho; exact .inr ⟨_, rfl, rfl⟩
  have hmgmt : ∀ {o : Option (MgmtRes H)}, ofMgmt s o = (s', r) →
      (∀ s1 r1, o = some (s1, r1) → s1.windows = s.windows) → s'.windows = s.windows := by
    intro o ho hw
    cases o with
    | none => simp [ofMgmt] at ho; rw [ho.1]
    | some p => obtain ⟨p1, p2⟩ := p; simp [ofMgmt] at ho; rw [← ho.1]; exact hw _ _ rfl
  have hup : ∀ {o : Started H}, UploadOut s c call o → ofStarted o = (s', r) → s'.windows = s.windows := by
    intro o ho he
    cases ho with
    | refused => simp [ofStarted] at he; rw [he.1]
    | dropped => simp [ofStarted] at he; rw [← he.1]
    | suspended => simp [ofStarted] at he; rw [← he.1]
  have other : s'.windows = s.windows → acceptedCount tid (.call c now call) r = 0 →
      ∃ k, Win now (winOf s tid) k (winOf s' tid) ∧ acceptedCount tid (.call c now call) r ≤ k ∧ k ≤ askedCount tid call := by
    intro hw ha
    obtain ⟨k, h1, h2, h3⟩ := same_win (now := now) (tid := tid) hw
    exact ⟨k, h1, by rw [ha]; exact h2, h3 _⟩
  have coll : ∀ {A : Type} {args : List A} {n : Nat}, (∃ k, Win now (winOf s tid) k (winOf s' tid) ∧ n ≤ k ∧
      k ≤ args.countP (fun _ => decide (0 = tid))) → ∃ k, Win now (winOf s tid) k (winOf s' tid) ∧ n ≤ k ∧
      k ≤ if tid = 0 then args.length else 0 := by
    rintro A args n ⟨k, h1, h2, h3⟩
    refine ⟨k, h1, h2, ?_⟩
    by_cases h0 : tid = 0
    · simp [h0] at h3 ⊢; exact h3
    · have : ¬ 0 = tid := fun h => h0 h.symm
      simp [h0, this] at h3 ⊢; exact h3
  cases call with
  | transfer args =>
    rcases hbatch h with ⟨rfl, rfl⟩ | ⟨rs, rfl, hb⟩
    · exact ⟨0, .refl, Nat.le_refl 0, Nat.zero_le _⟩
    · rcases icrc7Transfer_out hb with ⟨rfl, rfl, rfl⟩ | ⟨_, hu, ⟨_, rfl, rfl⟩ | ⟨_, hc, hb⟩⟩
      · exact ⟨0, .refl, Nat.le_refl 0, Nat.zero_le _⟩
      · refine ⟨0, .refl, ?_, Nat.zero_le _⟩
        cases args with
        | nil => exact Nat.le_refl 0
        | cons a as => simp [acceptedCount, okCount, okB]
      · exact batch_win (fun _ _ _ _ hf => transferNft_charged hf) args _ hb
  | approveTokens args =>
    rcases hbatch h with ⟨rfl, rfl⟩ | ⟨rs, rfl, hb⟩
    · exact ⟨0, .refl, Nat.le_refl 0, Nat.zero_le _⟩
    · exact batch_win' (fun _ _ _ _ hf => approveToken_charged hf) args hb
  | approveCollection args =>
    rcases hbatch h with ⟨rfl, rfl⟩ | ⟨rs, rfl, hb⟩
    · exact ⟨0, .refl, Nat.le_refl 0, Nat.zero_le _⟩
    · exact coll (batch_win' (key := fun _ => 0) (tid := tid) (fun _ _ _ _ hf => approveCollection_charged (Option.some.inj hf)) args hb)
  | revokeTokens args =>
    simp only [exec] at h
    split at h
    · simp at h; obtain ⟨rfl, rfl⟩ := h; refine ⟨0, .refl, ?_, Nat.zero_le _⟩; cases args <;> exact Nat.le_refl 0
    · rename_i s2 rs2 ho
      simp at h
      obtain ⟨rfl, rfl⟩ := h
      unfold icrc37RevokeTokens at ho
      split at ho
      · cases ho
      rename_i a as
      dsimp only at ho
      split at ho
      · simp at ho
      rename_i hok
      split at ho
      · cases ho
      rename_i s3 rs3 hb
      simp at ho
      obtain ⟨rfl, rfl⟩ := ho
      have hw : s3.windows = (guardWindow s now a.tid).1.windows := by
        have : ∀ (l : List RevokeTokenArg) {s s' : State H} {rs},
            runBatch (fun s a => revokeToken E.ledger s c now a) s l = some (s', rs) → s'.windows = s.windows := by
          intro l
          induction l with
          | nil => intro s s' rs h; simp [runBatch] at h; rw [h.1]
          | cons x xs ih =>
            intro s s' rs h
            obtain ⟨t, r, rs', h1, h2, rfl⟩ := runBatch_cons h
            rw [ih h2, revokeToken_windows h1]
        exact this _ hb
      have hch : Charged now a.tid s s3 true := ⟨hw, fun _ => by simpa using hok⟩
      obtain ⟨k, h1, h2, h3⟩ := hch.win tid
      exact ⟨k, h1, by simpa [acceptedCount] using h2, h3⟩
    · rename_i s2 e ho
      simp at h
      obtain ⟨rfl, rfl⟩ := h
      unfold icrc37RevokeTokens at ho
      split at ho
      · cases ho
      rename_i a as
      dsimp only at ho
      split at ho
      · simp at ho
        obtain ⟨rfl, _⟩ := ho
        have hch : Charged now a.tid s (guardWindow s now a.tid).1 false := ⟨rfl, by simp⟩
        obtain ⟨k, h1, _, h3⟩ := hch.win tid
        exact ⟨k, h1, Nat.zero_le _, h3⟩
      · split at ho <;> simp at ho
  | revokeCollection args =>
    rcases hbatch h with ⟨rfl, rfl⟩ | ⟨rs, rfl, hb⟩
    · exact ⟨0, .refl, Nat.le_refl 0, Nat.zero_le _⟩
    · exact coll (batch_win (key := fun _ => 0) (tid := tid) (fun _ _ _ _ hf => revokeCollection_charged (Option.some.inj hf)) args _ hb)
  | transferFrom args =>
    rcases hbatch h with ⟨rfl, rfl⟩ | ⟨rs, rfl, hb⟩
    · exact ⟨0, .refl, Nat.le_refl 0, Nat.zero_le _⟩
    · exact batch_win' (fun _ _ _ _ hf => transferFrom_charged hf) args hb
  | updateCollectionMetadata a =>
    exact other (hmgmt h fun s1 r1 h1 => by
      rcases updateCollectionMetadata_out h1 with ⟨_, rfl, _⟩ | ⟨_, _, rfl⟩ <;> rfl) rfl
  | mint reqs =>
    exact other (hmgmt h fun s1 r1 h1 => by
      cases mint_out h1 with
      | refused => rfl
      | cut => rfl
      | minted => rw [mintInsert_eq]) rfl
  | updateNftMetadata t kvs => exact other (hmgmt h fun s1 r1 h1 => by cases updateNftMetadata_out h1 <;> rfl) rfl
  | burn t => exact other (hmgmt h fun s1 r1 h1 => by cases burnNft_out h1 <;> rfl) rfl
  | initUpload path size => exact other (hup (initUpload_out s c path size) h) rfl
  | storeChunk path => exact other (hup (storeChunk_out s c path) h) rfl
  | finalizeUpload path => exact other (hup (finalizeUpload_out s c path) h) rfl
  | cancelUpload path => exact other (hup (cancelUpload_out s c path) h) rfl
  | grant p x =>
    exact other (hmgmt h fun s1 r1 h1 => by rcases grant_out h1 with ⟨_, rfl, _⟩ | ⟨_, _, rfl⟩ <;> rfl) rfl
  | revoke p x =>
    exact other (hmgmt h fun s1 r1 h1 => by rcases revoke_out h1 with ⟨_, rfl, _⟩ | ⟨_, _, rfl⟩ <;> rfl) rfl

theorem acceptedCount_rejected (tid : Nat) (m : Msg) : acceptedCount tid m .rejected = 0 := by
  cases m with
  | call c now call => cases call <;> first | rfl | (rename_i l; cases l <;> rfl)
  | resume => rfl
  | resumeTrap => rfl
  | upgrade => rfl

theorem step_win_call {E : Env H} {s s' : State H} {c : Principal} {now : Nat} {call : Call} {r : Reply} (tid : Nat)
    (h : step E s (.call c now call) = (s', r)) :
    ∃ k, Win now (winOf s tid) k (winOf s' tid) ∧ acceptedCount tid (.call c now call) r ≤ k ∧
      k ≤ askedCount tid call := by
  simp only [step, execCall] at h
  split at h
  · split at h
    · exact exec_win tid h
    · simp at h
      obtain ⟨rfl, rfl⟩ := h
      exact ⟨0, .refl, by rw [acceptedCount_rejected]; exact Nat.le_refl 0, Nat.zero_le _⟩
  · exact exec_win tid h

/-- Messages other than calls leave the limiter alone. -/
theorem step_windows_other {E : Env H} {s : State H} {m : Msg} (hm : ∀ c now call, m ≠ .call c now call) :
    (step E s m).1.windows = s.windows := by
  cases m with
  | call c now call => exact absurd rfl (hm c now call)
  | resume now i ans =>
    simp only [step]
    split
    · rfl
    · rename_i p _
      obtain ⟨_, _, _, _, he⟩ := resumeBody_eq E { s with pending := s.pending.eraseIdx i } now p ans
      dsimp only
      rw [he]
      rfl
  | resumeTrap i => simp only [step]; split <;> rfl
  | upgrade => rfl

/-- What the limiter remembers about a token after a history was remembered before
or comes from a call of the history. -/
theorem winOf_run {E : Env H} {tid : Nat} (ms : List Msg) : ∀ {s : State H} {B : List Nat},
    (winOf s tid).Sublist B → (winOf (run E s ms) tid).Sublist (B ++ askedTimes tid ms) := by
  induction ms with
  | nil => intro s B h; simpa [askedTimes, run] using h
  | cons m ms ih =>
    intro s B h
    change (winOf (run E (step E s m).1 ms) tid).Sublist _
    have other : (∀ c now call, m ≠ .call c now call) → askedTimes tid (m :: ms) = askedTimes tid ms →
        (winOf (run E (step E s m).1 ms) tid).Sublist (B ++ askedTimes tid (m :: ms)) := by
      intro hm he
      rw [he]
      refine ih ?_
      unfold winOf
      rw [step_windows_other hm]
      exact h
    cases m with
    | resume => exact other (by simp) rfl
    | resumeTrap => exact other (by simp) rfl
    | upgrade => exact other (by simp) rfl
    | call c now call =>
      obtain ⟨k, hw, _, hk⟩ := step_win_call (E := E) (s := s) (c := c) (now := now) (call := call) tid rfl
      simp only [askedTimes]
      rw [← List.append_assoc]
      exact ih (hw.sublist.trans (List.Sublist.append h ((List.replicate_sublist_replicate _).2 hk)))

end Verif
