import Verif.Lemmas.Justified
import Verif.Spec.Repeats
/-!
# The ledger is asked for exactly the records of the log
-/
namespace Verif

open Spec

variable {H : Type}

theorem Spec.Recorded.trans {L : Ledger H} {h h' h'' : H} {l l' : List Tx} (h1 : Recorded L h l h') (h2 : Recorded L h' l' h'') :
    Recorded L h (l ++ l') h'' := by
  induction h2 with
  | start => rw [List.append_nil]; exact h1
  | accepted _ hadd ih => rw [← List.append_assoc]; exact .accepted ih hadd
  | refused _ hadd ih => exact .refused ih hadd

/-- Between the two states the ledger was asked for transactions, and those it accepted were
appended to the log. -/
def Told (L : Ledger H) (s s' : State H) : Prop := ∃ l, Recorded L s.hid l s'.hid ∧ s'.log = s.log ++ l

theorem Told.same {L : Ledger H} {s s' : State H} (h1 : s'.hid = s.hid) (h2 : s'.log = s.log) : Told L s s' :=
  ⟨[], by rw [h1]; exact .start, by rw [h2]; simp⟩

theorem Told.refl {L : Ledger H} (s : State H) : Told L s s := .same rfl rfl

theorem Told.trans {L : Ledger H} {s s' s'' : State H} (h1 : Told L s s') (h2 : Told L s' s'') : Told L s s'' := by
  obtain ⟨l, hl, he⟩ := h1
  obtain ⟨l', hl', he'⟩ := h2
  exact ⟨l ++ l', hl.trans hl', by rw [he', he, List.append_assoc]⟩

theorem addTx_told {L : Ledger H} {s s' : State H} {t : Tx} {r} (h : addTx L s t = (s', r)) : Told L s s' := by
  cases r with
  | ok i =>
    obtain ⟨h', ha, rfl⟩ := addTx_ok h
    exact ⟨[t], .accepted (l := []) .start ha, rfl⟩
  | error e =>
    obtain ⟨h', ha, rfl⟩ := addTx_err h
    exact ⟨[], .refused .start ha, by simp⟩

theorem addTx_via {L : Ledger H} {s s₁ s₂ s' : State H} {t : Tx} {r} (h : addTx L s₁ t = (s₂, r)) (h1 : s₁.hid = s.hid)
    (h2 : s₁.log = s.log) (h3 : s'.hid = s₂.hid) (h4 : s'.log = s₂.log) : Told L s s' :=
  ((Told.same h1 h2).trans (addTx_told h)).trans (.same h3 h4)

theorem putTokAppr_same {s s' : State H} {tid : Nat} {m} (h : putTokAppr s tid m = some s') : s'.hid = s.hid ∧ s'.log = s.log := by
  unfold putTokAppr at h
  split at h
  · cases h; exact ⟨rfl, rfl⟩
  · cases h

theorem transferNft_told {L : Ledger H} {s s' : State H} {c : Principal} {now : Nat} {arg : TransferArg} {r}
    (h : transferNft L s c now arg = some (s', r)) : Told L s s' := by
  unfold transferNft at h
  rw [guardWindow_eq] at h
  generalize (guardWindow s now arg.tid).1.windows = w at h
  generalize (guardWindow s now arg.tid).2 = ok at h
  dsimp only at h
  repeat' split at h
  all_goals first
    | (cases h; done)
    | (simp only [Option.some.injEq, Prod.mk.injEq] at h
       obtain ⟨rfl, rfl⟩ := h
       first
         | exact .same rfl rfl
         | (rename_i hadd; exact addTx_via hadd rfl rfl rfl rfl))

theorem approveToken_told {L : Ledger H} {s s' : State H} {c : Principal} {now : Nat} {arg : ApproveTokenArg} {r}
    (h : approveToken L s c now arg = some (s', r)) : Told L s s' := by
  unfold approveToken at h
  rw [guardWindow_eq] at h
  generalize (guardWindow s now arg.tid).1.windows = w at h
  generalize (guardWindow s now arg.tid).2 = ok at h
  dsimp only at h
  repeat' split at h
  all_goals first
    | (cases h; done)
    | (simp only [Option.some.injEq, Prod.mk.injEq] at h
       obtain ⟨rfl, rfl⟩ := h
       first
         | exact .same rfl rfl
         | (rename_i hadd; exact addTx_via hadd rfl rfl rfl rfl)
         | (rename_i hadd _ _ hput
            have hs := putTokAppr_same hput
            exact addTx_via hadd rfl rfl hs.1 hs.2))

theorem approveCollection_told (L : Ledger H) (s : State H) (c : Principal) (now : Nat) (info : ApprovalInfo) :
    Told L s (approveCollection L s c now info).1 := by
  unfold approveCollection
  rw [guardWindow_eq]
  generalize (guardWindow s now 0).1.windows = w
  generalize (guardWindow s now 0).2 = ok
  dsimp only
  repeat' split
  all_goals first
    | exact .same rfl rfl
    | (rename_i hadd; exact addTx_via hadd rfl rfl rfl rfl)

theorem revokeToken_told {L : Ledger H} {s s' : State H} {c : Principal} {now : Nat} {arg : RevokeTokenArg} {r}
    (h : revokeToken L s c now arg = some (s', r)) : Told L s s' := by
  unfold revokeToken at h
  dsimp only at h
  repeat' split at h
  all_goals first
    | (cases h; done)
    | (simp only [Option.some.injEq, Prod.mk.injEq] at h
       obtain ⟨rfl, rfl⟩ := h
       first
         | exact .same rfl rfl
         | (rename_i hadd; exact addTx_via hadd rfl rfl rfl rfl)
         | (rename_i hadd _ _ hput
            have hs := putTokAppr_same hput
            exact addTx_via hadd rfl rfl hs.1 hs.2))

theorem revokeCollection_told (L : Ledger H) (s : State H) (c : Principal) (now : Nat) (arg : RevokeCollArg) :
    Told L s (revokeCollection L s c now arg).1 := by
  unfold revokeCollection
  rw [guardWindow_eq]
  generalize (guardWindow s now 0).1.windows = w
  generalize (guardWindow s now 0).2 = ok
  dsimp only
  repeat' split
  all_goals first
    | exact .same rfl rfl
    | (rename_i hadd; exact addTx_via hadd rfl rfl rfl rfl)

theorem checkTokenApproval_same {s s' : State H} {now tid : Nat} {sp : Account} {b}
    (h : checkTokenApproval s now tid sp = some (s', b)) : s'.hid = s.hid ∧ s'.log = s.log := by
  unfold checkTokenApproval at h
  repeat' split at h
  all_goals first
    | (cases h; done)
    | (simp only [Option.some.injEq, Prod.mk.injEq] at h
       obtain ⟨rfl, rfl⟩ := h
       first
         | exact ⟨rfl, rfl⟩
         | (rename_i hput; exact putTokAppr_same hput))

theorem checkCollApproval_same (s : State H) (now : Nat) (o sp : Account) :
    (checkCollApproval s now o sp).1.hid = s.hid ∧ (checkCollApproval s now o sp).1.log = s.log := by
  unfold checkCollApproval
  repeat' split
  all_goals exact ⟨rfl, rfl⟩

theorem transferFrom_told {L : Ledger H} {s s' : State H} {c : Principal} {now : Nat} {arg : TransferFromArg} {r}
    (h : transferFrom L s c now arg = some (s', r)) : Told L s s' := by
  unfold transferFrom at h
  rw [guardWindow_eq] at h
  generalize (guardWindow s now arg.tid).1.windows = w at h
  generalize (guardWindow s now arg.tid).2 = ok at h
  dsimp only at h
  repeat' split at h
  all_goals first
    | (cases h; done)
    | (simp only [Option.some.injEq, Prod.mk.injEq] at h
       obtain ⟨rfl, rfl⟩ := h
       first
         | exact .same rfl rfl
         | (rename_i hc _
            have h1 := checkTokenApproval_same hc
            have h2 := checkCollApproval_same (H := H)
            exact .same ((h2 _ _ _ _).1.trans h1.1) ((h2 _ _ _ _).2.trans h1.2))
         | (rename_i hadd
            rename_i hc _ _ _ _
            have h1 := checkTokenApproval_same hc
            have h2 := checkCollApproval_same (H := H)
            exact addTx_via hadd ((h2 _ _ _ _).1.trans h1.1) ((h2 _ _ _ _).2.trans h1.2) rfl rfl)
         | (rename_i hc _ _ _ _ hadd _
            have h1 := checkTokenApproval_same hc
            have h2 := checkCollApproval_same (H := H)
            exact addTx_via hadd ((h2 _ _ _ _).1.trans h1.1) ((h2 _ _ _ _).2.trans h1.2) rfl rfl))

theorem runBatch_told {A R : Type} {L : Ledger H} {f : State H → A → Option (State H × R)}
    (hf : ∀ s a s' r, f s a = some (s', r) → Told L s s') :
    ∀ (args : List A) {s s' : State H} {rs}, runBatch f s args = some (s', rs) → Told L s s'
  | [], s, s', rs, h => by
    simp only [runBatch, Option.some.injEq, Prod.mk.injEq] at h
    obtain ⟨rfl, _⟩ := h
    exact .refl _
  | a :: as, s, s', rs, h => by
    simp only [runBatch] at h
    split at h
    · cases h
    · rename_i s1 r1 h1
      split at h
      · cases h
      · rename_i s2 rs2 h2
        simp only [Option.some.injEq, Prod.mk.injEq] at h
        obtain ⟨rfl, _⟩ := h
        exact (hf s a s1 r1 h1).trans (runBatch_told hf as h2)

theorem mintTxs_told (L : Ledger H) (now : Nat) : ∀ (reqs : List MintReq) (s : State H) (tid : Nat),
    Told L s (mintTxs L s now tid reqs).1
  | [], s, tid => .refl _
  | r :: rs, s, tid => by
    unfold mintTxs
    split
    · rename_i hadd; exact addTx_told hadd
    · rename_i hadd; exact (addTx_told hadd).trans (mintTxs_told L now rs _ _)

theorem withGuard_told {L : Ledger H} {s s' : State H} {c : Principal} {body} {r}
    (hb : ∀ s s' r, body s = some (s', r) → Told L s s') (h : withGuard s c body = some (s', r)) : Told L s s' := by
  unfold withGuard at h
  split at h
  · cases h; exact .refl _
  rename_i s1 hg
  obtain ⟨_, rfl⟩ := guardEnter_some hg
  split at h
  · cases h
  rename_i s2 r2 h2
  cases h
  exact (Told.trans (.same rfl rfl) (hb _ _ _ h2)).trans (.same rfl rfl)

theorem exec_told (E : Env H) (s : State H) (c : Principal) (now : Nat) (call : Call) :
    Told E.ledger s (exec E s c now call).1 := by
  have batch : ∀ o : Option (State H × List (Except TokErr Nat)),
      (∀ s' rs, o = some (s', rs) → Told E.ledger s s') → Told E.ledger s (ofBatch s o).1 := by
    intro o h
    cases o with
    | none => exact .refl _
    | some p => exact h _ _ rfl
  have mgmt : ∀ o : Option (MgmtRes H), (∀ s' r, o = some (s', r) → Told E.ledger s s') → Told E.ledger s (ofMgmt s o).1 := by
    intro o h
    cases o with
    | none => exact .refl _
    | some p => exact h _ _ rfl
  have upload : ∀ {call o}, UploadOut s c call o → Told E.ledger s (ofStarted o).1 := by
    intro call o h
    cases h <;> exact .same rfl rfl
  cases call with
  | transfer args =>
    refine batch _ fun s' rs h => ?_
    unfold icrc7Transfer at h
    repeat' split at h
    all_goals first
      | (cases h; done)
      | (simp only [Option.some.injEq, Prod.mk.injEq] at h
         obtain ⟨rfl, _⟩ := h; exact .refl _)
      | exact runBatch_told (fun _ _ _ _ h => transferNft_told h) _ h
  | approveTokens args => exact batch _ fun s' rs h => runBatch_told (fun _ _ _ _ h => approveToken_told h) _ h
  | approveCollection args =>
    refine batch _ fun s' rs h => runBatch_told (fun s a s' r h => ?_) _ h
    have h := congrArg Prod.fst (Option.some.inj h)
    subst h
    exact approveCollection_told _ _ _ _ _
  | revokeTokens args =>
    have key : ∀ s' r, icrc37RevokeTokens E.ledger s c now args = some (s', r) → Told E.ledger s s' := by
      intro s' r h
      unfold icrc37RevokeTokens at h
      split at h
      · cases h
      rename_i a as
      rw [guardWindow_eq] at h
      generalize (guardWindow s now a.tid).1.windows = w at h
      generalize (guardWindow s now a.tid).2 = ok at h
      dsimp only at h
      split at h
      · cases h; exact .same rfl rfl
      split at h
      · cases h
      · rename_i hr
        cases h
        exact Told.trans (s' := { s with windows := w }) (.same rfl rfl) (runBatch_told (fun _ _ _ _ h => revokeToken_told h) _ hr)
    simp only [exec]
    split
    · exact .refl _
    · rename_i h; exact key _ _ h
    · rename_i h; exact key _ _ h
  | revokeCollection args =>
    refine batch _ fun s' rs h => runBatch_told (fun s a s' r h => ?_) _ h
    have h := congrArg Prod.fst (Option.some.inj h)
    subst h
    exact revokeCollection_told _ _ _ _ _
  | transferFrom args => exact batch _ fun s' rs h => runBatch_told (fun _ _ _ _ h => transferFrom_told h) _ h
  | updateCollectionMetadata a =>
    refine mgmt _ fun s' r h => ?_
    rcases updateCollectionMetadata_out h with ⟨_, rfl, _⟩ | ⟨hg, _, rfl⟩
    · exact .refl _
    · exact .same rfl rfl
  | mint reqs =>
    refine mgmt _ fun s' r h => withGuard_told (fun s s' r h => ?_) h
    dsimp only at h
    repeat' split at h
    all_goals first
      | (cases h; done)
      | (cases h; exact .refl _)
      | skip
    · rename_i md _ _ _ hm
      cases h
      have := mintTxs_told E.ledger now reqs { s with mdata := md } s.lastId
      rw [hm] at this
      exact Told.trans (.same rfl rfl) this
    · rename_i md _ _ s2 hm
      cases h
      have := mintTxs_told E.ledger now reqs { s with mdata := md } s.lastId
      rw [hm] at this
      rw [mintInsert_eq]
      exact (Told.trans (.same rfl rfl) this).trans (.same rfl rfl)
  | updateNftMetadata tid kvs =>
    refine mgmt _ fun s' r h => withGuard_told (fun s s' r h => ?_) h
    dsimp only at h
    repeat' split at h
    all_goals first
      | (cases h; done)
      | (cases h; exact .refl _)
      | (cases h; rename_i hadd; exact addTx_via hadd rfl rfl rfl rfl)
  | burn tid =>
    refine mgmt _ fun s' r h => withGuard_told (fun s s' r h => ?_) h
    repeat' split at h
    all_goals first
      | (cases h; done)
      | (cases h; exact .refl _)
      | (cases h; rename_i hadd; exact addTx_via hadd rfl rfl rfl rfl)
  | initUpload path size => exact upload (initUpload_out s c path size)
  | storeChunk path => exact upload (storeChunk_out s c path)
  | finalizeUpload path => exact upload (finalizeUpload_out s c path)
  | cancelUpload path => exact upload (cancelUpload_out s c path)
  | grant p x =>
    refine mgmt _ fun s' r h => ?_
    rcases grant_out h with ⟨_, rfl, _⟩ | ⟨hg, _, rfl⟩
    · exact .refl _
    · exact .same rfl rfl
  | revoke p x =>
    refine mgmt _ fun s' r h => ?_
    rcases revoke_out h with ⟨_, rfl, _⟩ | ⟨hg, _, rfl⟩
    · exact .refl _
    · exact .same rfl rfl

theorem step_told (E : Env H) (s : State H) (m : Msg) : Told E.ledger s (step E s m).1 := by
  cases m with
  | call c now call =>
    simp only [step, execCall]
    split
    · split
      · exact exec_told E s c now call
      · exact .refl _
    · exact exec_told E s c now call
  | resume now i ans =>
    simp only [step]
    split
    · exact .refl _
    · refine Told.same ?_ ?_
      all_goals
        simp only [guardLeave, resumeBody]
        repeat' split
        all_goals rfl
  | resumeTrap i =>
    simp only [step]
    split
    · exact .refl _
    · exact .same rfl rfl
  | upgrade => exact .same rfl rfl

theorem run_told (E : Env H) : ∀ (ms : List Msg) (s : State H), Told E.ledger s (run E s ms)
  | [], _ => .refl _
  | m :: ms, s => (step_told E s m).trans (run_told E ms _)

/-! ### creation times -/

/-- The creation time of the record, if it has one, is near the time of the record. -/
def Timed (W D : Nat) (t : Tx) : Prop := ∀ c, t.createdAt = some c → c ≤ t.ts + D ∧ t.ts ≤ c + W + D

theorem u64add_le (a b : Nat) : u64add a b ≤ a + b := Nat.mod_le _ _

theorem transferTiming_timed {s : State H} {now c : Nat} (h : transferTiming s.cfg now c = some none) :
    c ≤ now + Drift s ∧ now ≤ c + Window s + Drift s := by
  have hU : ∀ (o : Option Nat) (d v : Nat), o.elim (some d) toU64? = some v → v = o.getD d := by
    intro o d v h
    cases o with
    | none => exact (Option.some.inj h).symm
    | some x =>
      simp only [Option.elim_some, toU64?] at h
      split at h
      · exact (Option.some.inj h).symm
      · cases h
  unfold transferTiming at h
  split at h
  · cases h
  rename_i drift hd
  have hd := hU _ _ _ hd
  split at h
  · cases h
  rename_i hf
  split at h
  · cases h
  rename_i w hw
  have hw := hU _ _ _ hw
  split at h
  · cases h
  rename_i ho
  have h1 := u64add_le now drift
  have h2 := u64add_le w drift
  rw [show s.cfg.permittedDrift.getD defaultDrift = Drift s from rfl] at hd
  rw [show s.cfg.txWindow.getD defaultTxWindow = Window s from rfl] at hw
  omega

theorem verifyTiming_timed {s : State H} {now c : Nat} (h : verifyTiming s.cfg c now = none) :
    c ≤ now + Drift s ∧ now ≤ c + Window s + Drift s := by
  unfold verifyTiming at h
  split at h
  · cases h
  split at h
  · cases h
  rename_i h1 h2
  have h3 := u64add_le now (toU64Or (s.cfg.permittedDrift.getD defaultDrift) defaultDrift)
  have h4 := u64add_le c (toU64Or (s.cfg.txWindow.getD defaultTxWindow) 0)
  have h5 : toU64Or (s.cfg.permittedDrift.getD defaultDrift) defaultDrift ≤ Drift s := by
    unfold toU64Or
    split
    · exact Nat.le_refl _
    · rename_i h
      exact Nat.le_trans (show defaultDrift ≤ U64 by decide) (Nat.le_of_not_lt h)
  have h6 : toU64Or (s.cfg.txWindow.getD defaultTxWindow) 0 ≤ Window s := by
    unfold toU64Or
    split
    · exact Nat.le_refl _
    · exact Nat.zero_le _
  omega

theorem verifyTimingOpt_timed {s : State H} {now : Nat} {o : Option Nat} (h : verifyTimingOpt s.cfg o now = none) :
    ∀ c, o = some c → c ≤ now + Drift s ∧ now ≤ c + Window s + Drift s := by
  rintro c rfl
  exact verifyTiming_timed h

/-- The records an elementary effect adds. -/
theorem micro_timed {E : Env H} {m : Msg} {s s' : State H} (h : Micro E m s s') :
    ∃ l, s'.log = s.log ++ l ∧ (∀ t ∈ l, Timed (Window s) (Drift s) t) ∧
      (l = [] ∨ ∀ c now a, m ≠ .call c now (.updateCollectionMetadata a)) := by
  have none : ∀ {s' : State H}, s'.log = s.log → ∃ l, s'.log = s.log ++ l ∧ (∀ t ∈ l, Timed (Window s) (Drift s) t) ∧
      (l = [] ∨ ∀ c now a, m ≠ .call c now (.updateCollectionMetadata a)) :=
    fun h => ⟨[], by rw [h]; simp, by simp, .inl rfl⟩
  have one : ∀ {x : Tx}, (∀ c, x.createdAt = some c → c ≤ x.ts + Drift s ∧ x.ts ≤ c + Window s + Drift s) →
      ∀ t ∈ [x], Timed (Window s) (Drift s) t := by
    intro x hx t ht
    rw [List.mem_singleton.1 ht]
    exact hx
  have self : ∀ {x : Tx}, x.createdAt = some x.ts →
      ∀ c, x.createdAt = some c → c ≤ x.ts + Drift s ∧ x.ts ≤ c + Window s + Drift s := by
    intro x hx c hc
    rw [hx] at hc
    cases hc
    omega
  have many : ∀ (reqs : List MintReq) (now n : Nat),
      ∀ t ∈ (reqs.mapIdx fun k r => mintTx now (n + k) r), Timed (Window s) (Drift s) t := by
    intro reqs now n t ht
    obtain ⟨i, _, rfl⟩ := List.mem_mapIdx.1 ht
    exact self rfl
  cases h with
  | xfer arg nft h i harg hc tok own toOk diff memo timing add =>
    refine ⟨[_], rfl, one ?_, .inr (fun _ _ _ h => by cases h)⟩
    rintro c hc
    cases hc
    exact transferTiming_timed timing
  | xferFrom arg nft h i harg tok own auth diff toOk timing add =>
    exact ⟨[_], rfl, one (verifyTimingOpt_timed timing), .inr (fun _ _ _ h => by cases h)⟩
  | approve arg owner h i harg own eqv sp room timing add =>
    refine ⟨[_], rfl, one ?_, .inr (fun _ _ _ h => by cases h)⟩
    rintro c hc
    cases hc
    exact verifyTiming_timed timing
  | approveColl info h i harg sp holds room timing add =>
    refine ⟨[_], rfl, one ?_, .inr (fun _ _ _ h => by cases h)⟩
    rintro c hc
    cases hc
    exact verifyTiming_timed timing
  | revokeTok arg owner h i m harg own eqv hm timing add =>
    exact ⟨[_], rfl, one (verifyTimingOpt_timed timing), .inr (fun _ _ _ h => by cases h)⟩
  | revokeColl arg h i m harg hm timing add =>
    exact ⟨[_], rfl, one (verifyTimingOpt_timed timing), .inr (fun _ _ _ h => by cases h)⟩
  | mint reqs md h perm free batch cap memos hmd =>
    rw [mintInsert_eq]
    exact ⟨_, rfl, many _ _ _, .inr (fun _ _ _ h => by cases h)⟩
  | mintCut reqs md h n perm free hn hmd => exact ⟨_, rfl, many _ _ _, .inr (fun _ _ _ h => by cases h)⟩
  | updateMeta tid kvs token md h i perm free tok hmd add =>
    exact ⟨[_], rfl, one (self rfl), .inr (fun _ _ _ h => by cases h)⟩
  | burn tid token h i free tok own add => exact ⟨[_], rfl, one (self rfl), .inr (fun _ _ _ h => by cases h)⟩
  | @resume _ now i ans p hp =>
    obtain ⟨_, _, _, _, he⟩ := resumeBody_eq E { s with pending := s.pending.eraseIdx i } now p ans
    rw [he]; exact none rfl
  | _ => exact none rfl

theorem step_timed (E : Env H) (s : State H) (m : Msg) :
    ∃ l, (step E s m).1.log = s.log ++ l ∧ ∀ t ∈ l, Timed (Window s) (Drift s) t := by
  have key : ∀ x, Steps E m s x → (∃ l, x.log = s.log ++ l ∧ ∀ t ∈ l, Timed (Window s) (Drift s) t) ∧
      ((∀ c now a, m ≠ .call c now (.updateCollectionMetadata a)) → x.cfg = s.cfg) := by
    intro x hx
    induction hx with
    | refl => exact ⟨⟨[], by simp, by simp⟩, fun _ => rfl⟩
    | @tail x y _ hm ih =>
      obtain ⟨⟨l, hl, ht⟩, hcfg⟩ := ih
      obtain ⟨l', hl', ht', hor⟩ := micro_timed hm
      refine ⟨⟨l ++ l', by rw [hl', hl, List.append_assoc], fun t hx => ?_⟩, fun hne => ?_⟩
      · rcases List.mem_append.1 hx with hx | hx
        · exact ht t hx
        · rcases hor with rfl | hne
          · cases hx
          · have := ht' t hx
            have he := hcfg hne
            rw [show Window x = Window s from by rw [Window, he, Window],
              show Drift x = Drift s from by rw [Drift, he, Drift]] at this
            exact this
      · rcases micro_cfg hm with h | ⟨c, now, a, h, _⟩
        · rw [h, hcfg hne]
        · exact absurd h (hne c now a)
  exact (key _ (step_steps E s m)).1

theorem Timed.mono {W D W' D' : Nat} {t : Tx} (h : Timed W D t) (hW : W ≤ W') (hD : D ≤ D') : Timed W' D' t := by
  intro c hc
  have := h c hc
  omega

theorem run_timed {E : Env H} {W D : Nat} : ∀ (ms : List Msg) (s : State H), SettingsWithin E s ms W D →
    ∃ l, (run E s ms).log = s.log ++ l ∧ ∀ t ∈ l, Timed W D t
  | [], s, _ => ⟨[], by simp [run], by simp⟩
  | m :: ms, s, h => by
    obtain ⟨l, hl, ht⟩ := step_timed E s m
    have h0 := h [] (m :: ms) rfl
    obtain ⟨l', hl', ht'⟩ := run_timed ms (step E s m).1 (fun pre post he => h (m :: pre) post (by rw [he]; rfl))
    refine ⟨l ++ l', by rw [run, hl', hl, List.append_assoc], fun t hx => ?_⟩
    rcases List.mem_append.1 hx with hx | hx
    · exact (ht t hx).mono h0.1 h0.2
    · exact ht' t hx

/-- What a ledger that recognises requests has recorded. -/
theorem recorded_pairwise {L : Ledger H} {h₀ h : H} {W : Nat} {l : List Tx} (hr : Recognises L h₀ W)
    (h : Recorded L h₀ l h) : l.Pairwise fun t' t => SameRequest t t' → t'.ts + W < t.ts := by
  induction h with
  | start => exact .nil
  | @accepted l h' h'' t i hl hadd ih =>
    refine List.pairwise_append.2 ⟨ih, List.pairwise_singleton _ _, fun t' ht' x hx hs => ?_⟩
    rw [List.mem_singleton] at hx
    subst hx
    exact hr l h' x i hl (by rw [hadd]) t' ht' hs
  | refused _ _ ih => exact ih

end Verif
