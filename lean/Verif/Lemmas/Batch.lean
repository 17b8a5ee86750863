import Verif.Lemmas.Owners
/-!
# Batches
-/
namespace Verif

open Spec

variable {H : Type}

theorem runBatch_length {A R S : Type} {f : S → A → Option (S × R)} (args : List A) :
    ∀ {s s' : S} {rs : List R}, runBatch f s args = some (s', rs) → rs.length = args.length := by
  induction args with
  | nil => intro s s' rs h; simp [runBatch] at h; rw [h.2]; rfl
  | cons a as ih =>
    intro s s' rs h
    simp only [runBatch] at h
    split at h
    · cases h
    · split at h
      · cases h
      · rename_i s2 rs2 hb
        simp at h
        rw [← h.2, List.length_cons, List.length_cons, ih hb]

theorem runBatch_cons {A R S : Type} {f : S → A → Option (S × R)} {a : A} {as : List A} {s s' : S} {rs : List R}
    (h : runBatch f s (a :: as) = some (s', rs)) :
    ∃ t r rs', f s a = some (t, r) ∧ runBatch f t as = some (s', rs') ∧ rs = r :: rs' := by
  simp only [runBatch] at h
  split at h
  · cases h
  · rename_i t r hf
    split at h
    · cases h
    · rename_i s2 rs2 hb
      simp at h
      obtain ⟨rfl, rfl⟩ := h
      exact ⟨t, r, rs2, hf, hb, rfl⟩

theorem runBatch_one {A R S : Type} {f : S → A → Option (S × R)} {a : A} {s s' : S} {rs : List R}
    (h : runBatch f s [a] = some (s', rs)) : ∃ r, f s a = some (s', r) ∧ rs = [r] := by
  obtain ⟨t, r, rs', h1, h2, rfl⟩ := runBatch_cons h
  simp [runBatch] at h2
  obtain ⟨rfl, rfl⟩ := h2
  exact ⟨r, h1, rfl⟩

/-- A relation every refused item satisfies holds for a batch of refused items. -/
theorem runBatch_refused {A S : Type} {f : S → A → Option (S × Except TokErr Nat)} (R : S → S → Prop)
    (hrefl : ∀ s, R s s) (htrans : ∀ s t u, R s t → R t u → R s u) (args : List A)
    (hf : ∀ s a s' e, a ∈ args → f s a = some (s', .error e) → R s s') :
    ∀ {s s' : S} {rs}, runBatch f s args = some (s', rs) → (∀ r ∈ rs, ∃ e, r = .error e) → R s s' := by
  induction args with
  | nil => intro s s' rs h _; simp [runBatch] at h; rw [← h.1]; exact hrefl _
  | cons a as ih =>
    intro s s' rs h hall
    obtain ⟨t, r, rs', h1, h2, rfl⟩ := runBatch_cons h
    obtain ⟨e, rfl⟩ := hall r (by simp)
    exact htrans _ _ _ (hf s a t e (by simp) h1)
      (ih (fun s a s' e ha => hf s a s' e (by simp [ha])) h2 (fun r hr => hall r (by simp [hr])))

/-- A batch is the sequence of its one-item messages. -/
theorem runBatch_singles {A : Type} {E : Env H} {f : State H → A → Option (State H × Except TokErr Nat)}
    (msg : A → Msg) (I : State H → Prop) (args : List A)
    (hone : ∀ s a s' r, I s → f s a = some (s', r) → step E s (msg a) = (s', .batch [r]) ∧ I s') :
    ∀ {s s' : State H} {rs}, I s → runBatch f s args = some (s', rs) →
      run E s (args.map msg) = s' ∧ replies E s (args.map msg) = rs.map fun r => .batch [r] := by
  induction args with
  | nil => intro s s' rs _ h; simp [runBatch] at h; obtain ⟨rfl, rfl⟩ := h; exact ⟨rfl, rfl⟩
  | cons a as ih =>
    intro s s' rs hI h
    obtain ⟨t, r, rs', h1, h2, rfl⟩ := runBatch_cons h
    obtain ⟨h3, h4⟩ := hone s a t r hI h1
    obtain ⟨h5, h6⟩ := ih h4 h2
    constructor
    · simp only [List.map_cons, run, h3]; exact h5
    · simp only [List.map_cons, replies, h3]; rw [h6]

theorem batch_of_ofBatch {s s' : State H} {o rs} (h : ofBatch s o = (s', .batch rs)) : o = some (s', rs) := by
  cases o with
  | none => simp [ofBatch] at h
  | some p => obtain ⟨p1, p2⟩ := p; simp [ofBatch] at h; obtain ⟨rfl, rfl⟩ := h; rfl

/-- The outcomes of `icrc7_transfer`. -/
theorem icrc7Transfer_out {L : Ledger H} {s s' : State H} {c : Principal} {now : Nat} {args : List TransferArg} {rs}
    (h : icrc7Transfer L s c now args = some (s', rs)) :
    (args = [] ∧ s' = s ∧ rs = []) ∨
    (args ≠ [] ∧ s.cfg.maxUpdateBatch.getD 100 < USIZE ∧
      (((s.cfg.atomicBatch = some true ∧ s.cfg.maxUpdateBatch.getD 100 < args.length) ∨ c = anonymous) ∧
        s' = s ∧ rs = [.error (.generic 0)] ∨
       (¬ (s.cfg.atomicBatch = some true ∧ s.cfg.maxUpdateBatch.getD 100 < args.length) ∧ c ≠ anonymous ∧
        runBatch (fun s a => transferNft L s c now a) s (args.take (s.cfg.maxUpdateBatch.getD 100)) = some (s', rs)))) := by
  unfold icrc7Transfer at h
  split at h
  · rename_i he
    simp at he h
    exact .inl ⟨he, h.1.symm, h.2⟩
  · rename_i he
    simp at he
    right
    refine ⟨he, ?_⟩
    split at h
    · cases h
    · rename_i mx hmx
      unfold toUsize? at hmx
      split at hmx
      · rename_i hlt
        simp at hmx
        subst hmx
        refine ⟨hlt, ?_⟩
        split at h
        · rename_i hat
          simp at h hat
          have : s.cfg.atomicBatch = some true := by
            cases hb : s.cfg.atomicBatch with
            | none => simp [hb] at hat
            | some b => simp [hb] at hat; simp [hat.1]
          exact .inl ⟨.inl ⟨this, hat.2⟩, h.1.symm, h.2.symm⟩
        · rename_i hat
          split at h
          · rename_i hc
            simp at h
            exact .inl ⟨.inr hc, h.1.symm, h.2.symm⟩
          · rename_i hc
            right
            refine ⟨?_, hc, h⟩
            rintro ⟨h1, h2⟩
            apply hat
            simp [h1]
            exact h2
      · cases hmx

/-- `icrc7_transfer` with one item that was answered. -/
theorem transfer_one {E : Env H} {s s' : State H} {c : Principal} {now : Nat} {arg : TransferArg} {r}
    (h : step E s (.call c now (.transfer [arg])) = (s', .batch [r])) :
    (∃ e, s' = s ∧ r = .error e) ∨ (c ≠ anonymous ∧ transferNft E.ledger s c now arg = some (s', r)) := by
  simp only [step, execCall, Call.needs, exec] at h
  rcases icrc7Transfer_out (batch_of_ofBatch h) with ⟨h, _⟩ | ⟨_, hu, ⟨_, rfl, hr⟩ | ⟨_, hc, hb⟩⟩
  · cases h
  · simp at hr; exact .inl ⟨_, rfl, hr⟩
  · right
    refine ⟨hc, ?_⟩
    generalize s.cfg.maxUpdateBatch.getD 100 = mx at hb
    cases mx with
    | zero => simp [runBatch] at hb
    | succ n =>
      rw [List.take_succ_cons, List.take_nil] at hb
      obtain ⟨r', h1, h2⟩ := runBatch_one hb
      simp at h2; subst h2; exact h1

theorem transferFrom_one {E : Env H} {s s' : State H} {c : Principal} {now : Nat} {arg : TransferFromArg} {r}
    (h : step E s (.call c now (.transferFrom [arg])) = (s', .batch [r])) :
    transferFrom E.ledger s c now arg = some (s', r) := by
  simp only [step, execCall, Call.needs, exec] at h
  obtain ⟨r', h1, h2⟩ := runBatch_one (batch_of_ofBatch h)
  simp at h2; subst h2; exact h1

theorem approve_one {E : Env H} {s s' : State H} {c : Principal} {now : Nat} {arg : ApproveTokenArg} {r}
    (h : step E s (.call c now (.approveTokens [arg])) = (s', .batch [r])) :
    approveToken E.ledger s c now arg = some (s', r) := by
  simp only [step, execCall, Call.needs, exec] at h
  obtain ⟨r', h1, h2⟩ := runBatch_one (batch_of_ofBatch h)
  simp at h2; subst h2; exact h1

theorem approveColl_one {E : Env H} {s s' : State H} {c : Principal} {now : Nat} {info : ApprovalInfo} {r}
    (h : step E s (.call c now (.approveCollection [info])) = (s', .batch [r])) :
    approveCollection E.ledger s c now info = (s', r) := by
  simp only [step, execCall, Call.needs, exec] at h
  obtain ⟨r', h1, h2⟩ := runBatch_one (batch_of_ofBatch h)
  simp at h1 h2; subst h2; exact h1

theorem revokeColl_one {E : Env H} {s s' : State H} {c : Principal} {now : Nat} {arg : RevokeCollArg} {r}
    (h : step E s (.call c now (.revokeCollection [arg])) = (s', .batch [r])) :
    revokeCollection E.ledger s c now arg = (s', r) := by
  simp only [step, execCall, Call.needs, exec, icrc37RevokeCollection] at h
  generalize maxRevoke s.cfg = mx at h
  have hb := batch_of_ofBatch h
  cases mx with
  | zero => simp [runBatch] at hb
  | succ n =>
    rw [List.take_succ_cons, List.take_nil] at hb
    obtain ⟨r', h1, h2⟩ := runBatch_one hb
    simp at h1 h2; subst h2; exact h1

theorem revokeTokens_of_step {E : Env H} {s s' : State H} {c : Principal} {now : Nat} {args : List RevokeTokenArg} {rs}
    (h : step E s (.call c now (.revokeTokens args)) = (s', .batch rs)) :
    ∃ a as, args = a :: as ∧
      runBatch (fun s a => revokeToken E.ledger s c now a) (guardWindow s now a.tid).1
        (args.take (maxRevoke s.cfg)) = some (s', rs) := by
  simp only [step, execCall, Call.needs, exec] at h
  split at h
  · simp at h
  · rename_i s2 rs2 ho
    simp at h
    obtain ⟨rfl, rfl⟩ := h
    unfold icrc37RevokeTokens at ho
    split at ho
    · cases ho
    · rename_i a as
      dsimp only at ho
      split at ho
      · simp at ho
      · split at ho
        · cases ho
        · rename_i s3 rs3 hb
          simp at ho
          obtain ⟨rfl, rfl⟩ := ho
          exact ⟨a, as, rfl, hb⟩
  · simp at h

theorem revoke_one {E : Env H} {s s' : State H} {c : Principal} {now : Nat} {arg : RevokeTokenArg} {r}
    (h : step E s (.call c now (.revokeTokens [arg])) = (s', .batch [r])) :
    revokeToken E.ledger (guardWindow s now arg.tid).1 c now arg = some (s', r) := by
  obtain ⟨a, as, he, hb⟩ := revokeTokens_of_step h
  simp at he
  obtain ⟨rfl, rfl⟩ := he
  generalize maxRevoke s.cfg = mx at hb
  cases mx with
  | zero => simp [runBatch] at hb
  | succ n =>
    rw [List.take_succ_cons, List.take_nil] at hb
    obtain ⟨r', h1, h2⟩ := runBatch_one hb
    simp at h1 h2; subst h2; exact h1

end Verif
