import Verif.Lemmas.Step
import Verif.Spec.Roomier
/-!
# Larger limits refuse no more: helper lemmas
-/
namespace Verif.Spec.Roomy

variable {H : Type}

/-- The state with other settings. -/
def wc (q : Config) (s : State H) : State H := { s with cfg := q }

/-- A result whose first part is a state. -/
def res {R : Type} (q : Config) (x : State H × R) : State H × R := (wc q x.1, x.2)

/-- A possibly trapped result. -/
def optRes {R : Type} (q : Config) (x : Option (State H × R)) : Option (State H × R) := x.map (res q)

theorem res_mk {R : Type} (q : Config) (s : State H) (x : R) : res q (s, x) = (wc q s, x) := rfl
theorem optRes_some {R : Type} (q : Config) (s : State H) (x : R) :
    optRes q (some (s, x)) = some (wc q s, x) := rfl
theorem wc_cfg (q : Config) (s : State H) : (wc q s).cfg = q := rfl
theorem wc_tokens (q : Config) (s : State H) : (wc q s).tokens = s.tokens := rfl

theorem addTx_wc (q : Config) (L : Ledger H) (s : State H) (t : Tx) :
    addTx L (wc q s) t = res q (addTx L s t) := by
  simp only [addTx, show (wc q s).hid = s.hid from rfl]
  generalize L.add s.hid t = x
  obtain ⟨h, _ | i⟩ := x <;> rfl

theorem guardEnter_wc (q : Config) (s : State H) (p : Principal) : guardEnter (wc q s) p = (guardEnter s p).map (wc q) := by
  unfold guardEnter
  rw [show (wc q s).guards = s.guards from rfl]
  split <;> rfl

theorem withGuard_wc (q : Config) (s : State H) (p : Principal) {b' b : State H → Option (MgmtRes H)}
    (h : ∀ s, b' (wc q s) = optRes q (b s)) : withGuard (wc q s) p b' = optRes q (withGuard s p b) := by
  unfold withGuard
  rw [guardEnter_wc q]
  cases guardEnter s p with
  | none => rfl
  | some s =>
    simp only [Option.map_some, h]
    cases b s with
    | none => rfl
    | some x => obtain ⟨s, y⟩ := x; rfl

theorem mintTxs_wc (q : Config) (L : Ledger H) (s : State H) (now i : Nat) (l : List MintReq) :
    mintTxs L (wc q s) now i l = res q (mintTxs L s now i l) := by
  induction l generalizing s i with
  | nil => rfl
  | cons a l ih =>
    simp only [mintTxs]
    rw [addTx_wc q]
    generalize addTx L s _ = x
    obtain ⟨s, e | j⟩ := x
    · rfl
    · exact ih s (i + 1)

theorem mintInsert_wc (q : Config) (s : State H) (i : Nat) (l : List MintReq) : mintInsert (wc q s) i l = wc q (mintInsert s i l) := by
  induction l generalizing s i with
  | nil => rfl
  | cons a l ih =>
    simp only [mintInsert]
    rw [← ih]
    rfl

theorem updateNftMetadata_wc (q : Config) (E : Env H) (s : State H) (caller : Principal) (now tid : Nat) (kvs : List (String × Value)) :
    updateNftMetadata E (wc q s) caller now tid kvs = optRes q (updateNftMetadata E s caller now tid kvs) := by
  refine withGuard_wc q s caller fun s => ?_
  simp only [wc_tokens, show (wc q s).mdata = s.mdata from rfl]
  cases s.tokens.get tid with
  | none => rfl
  | some t =>
    dsimp only
    cases replaceMetadata s.mdata t.id kvs with
    | none => rfl
    | some md =>
      dsimp only
      have hx := addTx_wc q E.ledger { s with mdata := md }
          { op := .updateToken, ts := now, tid := some tid, from_ := some ⟨caller, none⟩,
            meta_ := some ((getAllData s.mdata tid).getD [], (getAllData md tid).getD []), createdAt := some now }
      change addTx E.ledger { wc q s with mdata := md } _ = _ at hx
      change (match addTx E.ledger { wc q s with mdata := md } _ with
        | (s, .error _) => _
        | (s, .ok _) => _) = _
      rw [hx]
      clear hx
      generalize addTx E.ledger _ _ = x
      obtain ⟨s', e | j⟩ := x <;> rfl

theorem burnNft_wc (q : Config) (E : Env H) (s : State H) (caller : Principal) (now tid : Nat) :
    burnNft E (wc q s) caller now tid = optRes q (burnNft E s caller now tid) := by
  refine withGuard_wc q s caller fun s => ?_
  simp only [wc_tokens]
  cases s.tokens.get tid with
  | none => rfl
  | some t =>
    dsimp only
    split
    · rfl
    · rw [addTx_wc q]
      generalize addTx E.ledger _ _ = x
      obtain ⟨s', e | j⟩ := x <;> rfl

/-- The first segment of an asynchronous method. -/
def started (q : Config) : Started H → Started H
  | .done s x => .done (wc q s) x
  | .suspended s => .suspended (wc q s)

theorem withGuardAsync_wc (q : Config) (s : State H) (p : Principal) {b : State H → State H × (Except MgmtErr MgmtOk ⊕ Pending)}
    (h : ∀ s, b (wc q s) = res q (b s)) : withGuardAsync (wc q s) p b = started q (withGuardAsync s p b) := by
  unfold withGuardAsync
  rw [guardEnter_wc q]
  cases guardEnter s p with
  | none => rfl
  | some s =>
    simp only [Option.map_some, h]
    generalize b s = x
    obtain ⟨s, e | q⟩ := x <;> rfl

theorem callStorage_wc (q : Config) (s : State H) (key : String) (u : Upload) (p : Pending) :
    callStorage (wc q s) key u p = res q (callStorage s key u p) := by
  unfold callStorage
  rw [show (wc q s).subs = s.subs from rfl]
  cases getSub s.subs u.canister with
  | none => rfl
  | some c =>
    simp only
    split <;> rfl

theorem initUpload_wc (q : Config) (s : State H) (caller : Principal) (path : String) (n : Nat) :
    initUpload (wc q s) caller path n = started q (initUpload s caller path n) := by
  refine withGuardAsync_wc q s caller fun s => ?_
  rw [show (wc q s).uploads = s.uploads from rfl]
  split
  · rfl
  · split <;> rfl

theorem storeChunk_wc (q : Config) (s : State H) (caller : Principal) (key : String) :
    storeChunk (wc q s) caller key = started q (storeChunk s caller key) := by
  refine withGuardAsync_wc q s caller fun s => ?_
  simp only [show (wc q s).uploads = s.uploads from rfl, callStorage_wc q]
  cases s.uploads.get key with
  | none => rfl
  | some u => simp only; cases u.state <;> rfl

theorem finalizeUpload_wc (q : Config) (s : State H) (caller : Principal) (key : String) :
    finalizeUpload (wc q s) caller key = started q (finalizeUpload s caller key) := by
  refine withGuardAsync_wc q s caller fun s => ?_
  simp only [show (wc q s).uploads = s.uploads from rfl, callStorage_wc q]
  cases s.uploads.get key with
  | none => rfl
  | some u => simp only; cases u.state <;> rfl

theorem cancelUpload_wc (q : Config) (s : State H) (caller : Principal) (key : String) :
    cancelUpload (wc q s) caller key = started q (cancelUpload s caller key) := by
  refine withGuardAsync_wc q s caller fun s => ?_
  simp only [show (wc q s).uploads = s.uploads from rfl, callStorage_wc q]
  cases s.uploads.get key with
  | none => rfl
  | some u => simp only; cases u.state <;> rfl

theorem resumeBody_wc (q : Config) (E : Env H) (s : State H) (now : Nat) (p : Pending) (a : Answer) :
    resumeBody E (wc q s) now p a = res q (resumeBody E s now p a) := by
  cases p with
  | init c path n subs =>
    simp only [resumeBody]
    cases managerInitUpload a subs n <;> rfl
  | store c key u => simp only [resumeBody]; cases a.resp <;> rfl
  | finalize c key u => simp only [resumeBody]; cases a.resp <;> rfl
  | cancel c key u => simp only [resumeBody]; cases a.resp <;> rfl

theorem ofMgmt_wc (q : Config) (s : State H) (x : Option (MgmtRes H)) : ofMgmt (wc q s) (optRes q x) = res q (ofMgmt s x) := by
  cases x <;> rfl

theorem ofStarted_wc (q : Config) (x : Started H) : ofStarted (started q x) = res q (ofStarted x) := by
  cases x <;> rfl

theorem putTokAppr_wc (q : Config) (s : State H) (tid : Nat) (m : Map Account Approval) :
    putTokAppr (wc q s) tid m = (putTokAppr s tid m).map (wc q) := by
  unfold putTokAppr
  split <;> rfl

theorem checkTokenApproval_wc (q : Config) (s : State H) (now tid : Nat) (a : Account) :
    checkTokenApproval (wc q s) now tid a = optRes q (checkTokenApproval s now tid a) := by
  unfold checkTokenApproval
  rw [show (wc q s).tokAppr = s.tokAppr from rfl]
  cases s.tokAppr.get tid with
  | none => rfl
  | some m =>
    dsimp only
    cases m.get a with
    | none => rfl
    | some b =>
      dsimp only
      split
      · rw [putTokAppr_wc]
        cases putTokAppr s tid _ <;> rfl
      · rfl

theorem checkCollApproval_wc (q : Config) (s : State H) (now : Nat) (o a : Account) :
    checkCollApproval (wc q s) now o a = res q (checkCollApproval s now o a) := by
  unfold checkCollApproval
  rw [show (wc q s).collAppr = s.collAppr from rfl]
  cases s.collAppr.get o with
  | none => rfl
  | some m =>
    dsimp only
    cases m.get a with
    | none => rfl
    | some b =>
      dsimp only
      split <;> rfl

theorem guardWindow_wc (q : Config) (s : State H) (now tid : Nat) :
    guardWindow (wc q s) now tid = res q (guardWindow s now tid) := rfl

/-! ### Checks that larger limits pass, too -/

/-- The limits of `c'` are workable and no smaller. -/
structure Room (c c' : Config) (now : Nat) : Prop where
  cap : c.supplyCap.getD defaultSupplyCap ≤ c'.supplyCap.getD defaultSupplyCap
  batch : c.maxUpdateBatch.getD 100 ≤ c'.maxUpdateBatch.getD 100
  memo : c.maxMemo.getD defaultMaxMemo ≤ c'.maxMemo.getD defaultMaxMemo
  window : c.txWindow.getD defaultTxWindow ≤ c'.txWindow.getD defaultTxWindow
  drift : c.permittedDrift.getD defaultDrift ≤ c'.permittedDrift.getD defaultDrift
  approvals : c.maxApprovals.getD defaultMaxApprovals ≤ c'.maxApprovals.getD defaultMaxApprovals
  revocations : c.maxRevoke.getD defaultMaxApprovals ≤ c'.maxRevoke.getD defaultMaxApprovals
  atomic : c'.atomicBatch = c.atomicBatch
  batchFits : c'.maxUpdateBatch.getD 100 < USIZE
  memoFits : c'.maxMemo.getD defaultMaxMemo < USIZE
  approvalsFit : c'.maxApprovals.getD defaultMaxApprovals < USIZE
  revocationsFit : c'.maxRevoke.getD defaultMaxApprovals < USIZE
  times : now + (c'.txWindow.getD defaultTxWindow + c'.permittedDrift.getD defaultDrift) < U64

variable {c c' : Config} {now : Nat}

theorem checkMemo_room (h : Room c c' now) {m : Option Blob} (hm : checkMemo c m = some true) : checkMemo c' m = some true := by
  cases m with
  | none => rfl
  | some b =>
    have h1 := h.memo
    have h2 := h.memoFits
    unfold checkMemo at hm ⊢
    dsimp only at hm ⊢
    split at hm
    · cases hm
    · rw [if_neg (by omega)]
      simp only [Option.some.injEq, decide_eq_true_eq] at hm ⊢
      omega

theorem elim_getD (o : Option Nat) (d : Nat) (h : o.getD d < U64) : o.elim (some d) toU64? = some (o.getD d) := by
  cases o with
  | none => rfl
  | some x => exact if_pos h

theorem transferTiming_room (h : Room c c' now) {t : Nat} (ht : transferTiming c now t = some none) :
    transferTiming c' now t = some none := by
  have h1 := h.window
  have h2 := h.drift
  have h3 := h.times
  unfold transferTiming at ht ⊢
  rw [elim_getD _ _ (by omega)] at ht ⊢
  rw [elim_getD _ _ (by omega)] at ht ⊢
  dsimp only at ht ⊢
  unfold u64add at ht ⊢
  generalize c.permittedDrift.getD defaultDrift = d at *
  generalize c'.permittedDrift.getD defaultDrift = d' at *
  generalize c.txWindow.getD defaultTxWindow = w at *
  generalize c'.txWindow.getD defaultTxWindow = w' at *
  generalize U64 = U at *
  rw [Nat.mod_eq_of_lt (show now + d < U by omega), Nat.mod_eq_of_lt (show w + d < U by omega)] at ht
  rw [Nat.mod_eq_of_lt (show now + d' < U by omega), Nat.mod_eq_of_lt (show w' + d' < U by omega)]
  split at ht
  · cases ht
  · split at ht
    · cases ht
    · rw [if_neg (by omega), if_neg (by omega)]

theorem verifyTiming_room (h : Room c c' now) {t : Nat} (ht : verifyTiming c t now = none) : verifyTiming c' t now = none := by
  have h1 := h.window
  have h2 := h.drift
  have h3 := h.times
  unfold verifyTiming toU64Or u64add at ht ⊢
  generalize c.permittedDrift.getD defaultDrift = d at *
  generalize c'.permittedDrift.getD defaultDrift = d' at *
  generalize c.txWindow.getD defaultTxWindow = w at *
  generalize c'.txWindow.getD defaultTxWindow = w' at *
  generalize defaultDrift = dd at *
  generalize U64 = U at *
  rw [if_pos (show d < U by omega), if_pos (show w < U by omega), Nat.mod_eq_of_lt (show now + d < U by omega)] at ht
  rw [if_pos (show d' < U by omega), if_pos (show w' < U by omega), Nat.mod_eq_of_lt (show now + d' < U by omega)]
  split at ht
  · cases ht
  · split at ht
    · cases ht
    · rw [Nat.mod_eq_of_lt (show t + w < U by omega)] at *
      rw [Nat.mod_eq_of_lt (show t + w' < U by omega)]
      rw [if_neg (by omega), if_neg (by omega)]

theorem verifyTimingOpt_room (h : Room c c' now) {t : Option Nat} (ht : verifyTimingOpt c t now = none) :
    verifyTimingOpt c' t now = none := by
  cases t with
  | none => rfl
  | some t => exact verifyTiming_room h ht

theorem maxApprovals_room (h : Room c c' now) : maxApprovals c ≤ maxApprovals c' := by
  have h1 := h.approvals
  have h2 := h.approvalsFit
  unfold maxApprovals toUsizeOr
  rw [if_pos (by omega), if_pos h2]
  exact h1

theorem maxRevoke_room (h : Room c c' now) : maxRevoke c ≤ maxRevoke c' := by
  have h1 := h.revocations
  have h2 := h.revocationsFit
  unfold maxRevoke toUsizeOr
  rw [if_pos (by omega), if_pos h2]
  exact h1

theorem full_room (h : Room c c' now) {o : Option (Map Account Approval)}
    (ho : ¬ o.any (fun m => decide (maxApprovals c ≤ m.size)) = true) :
    ¬ o.any (fun m => decide (maxApprovals c' ≤ m.size)) = true := by
  have h1 := maxApprovals_room h
  cases o with
  | none => simp
  | some m =>
    simp only [Option.any_some, decide_eq_true_eq] at ho ⊢
    omega

/-! ### Items of batches -/

/-- A success stays a success, with the same effect. -/
def Stays {R : Type} (q : Config) (s : State H) (good : R → Prop) (x y : Option (State H × R)) : Prop :=
  ∀ s₁ r, x = some (s₁, r) → good r → s₁.cfg = s.cfg ∧ y = some (wc q s₁, r)

/-- An item was done. -/
def Done (r : Except TokErr Nat) : Prop := ∃ i, r = .ok i

theorem Stays.error {q : Config} {s s₁ : State H} {e : TokErr} {y : Option (State H × Except TokErr Nat)} :
    Stays q s Done (some (s₁, .error e)) y := by
  rintro s₂ r h ⟨i, rfl⟩
  cases h

theorem Stays.none {R : Type} {q : Config} {s : State H} {good : R → Prop} {y : Option (State H × R)} :
    Stays q s good Option.none y := by
  intro s₂ r h
  cases h

theorem Stays.done {R : Type} {q : Config} {s s₁ : State H} {good : R → Prop} {r : R} (h : s₁.cfg = s.cfg) :
    Stays q s good (some (s₁, r)) (some (wc q s₁, r)) := by
  intro s₂ r' e _
  cases e
  exact ⟨h, rfl⟩

theorem addTx_both (q : Config) (L : Ledger H) (s : State H) (t : Tx) : ∃ s₁ r, addTx L s t = (s₁, r) ∧
    addTx L (wc q s) t = (wc q s₁, r) ∧ s₁.cfg = s.cfg := by
  refine ⟨(addTx L s t).1, (addTx L s t).2, rfl, addTx_wc q L s t, ?_⟩
  exact congrArg (fun x : State H × Except LedgerErr Nat => x.1.cfg) (addTx_wc s.cfg L s t)

theorem putTokAppr_both (q : Config) (s : State H) (tid : Nat) (m : Map Account Approval) :
    (putTokAppr s tid m = none) ∨ ∃ s₁, putTokAppr s tid m = some s₁ ∧ putTokAppr (wc q s) tid m = some (wc q s₁) ∧
      s₁.cfg = s.cfg := by
  unfold putTokAppr
  split
  · exact .inr ⟨_, rfl, rfl, rfl⟩
  · exact .inl rfl

theorem transferNft_stays (L : Ledger H) (s : State H) (caller : Principal) (a : TransferArg) (h : Room s.cfg c' now) :
    Stays c' s Done (transferNft L s caller now a) (transferNft L (wc c' s) caller now a) := by
  unfold transferNft
  obtain ⟨s₁, ok, hx⟩ : ∃ s₁ ok, guardWindow s now a.tid = (s₁, ok) := ⟨_, _, rfl⟩
  have hc : s₁.cfg = s.cfg := (congrArg (fun x : State H × Bool => x.1.cfg) hx).symm
  rw [guardWindow_wc, hx]
  clear hx
  rw [← hc] at h
  cases ok with
  | false => exact .error
  | true =>
    simp only [res_mk, Bool.not_true, Bool.false_eq_true, if_false, wc_tokens, wc_cfg]
    cases s₁.tokens.get a.tid with
    | none => exact .error
    | some nft =>
      dsimp only
      cases hm : checkMemo s₁.cfg a.memo with
      | none => exact .none
      | some b =>
        cases b with
        | false => exact .error
        | true =>
          rw [checkMemo_room h hm]
          dsimp only
          split
          · exact .error
          · cases ht : transferTiming s₁.cfg now (a.createdAt.getD now) with
            | none => exact .none
            | some o =>
              cases o with
              | some e => exact .error
              | none =>
                rw [transferTiming_room h ht]
                dsimp only
                obtain ⟨s₂, r, h1, h2, h3⟩ := addTx_both c' L s₁ (transferTx now (a.createdAt.getD now) a nft)
                rw [h1, h2]
                cases r with
                | error e => cases e <;> first | exact .error | exact .done (h3.trans hc)
                | ok i => exact .done (h3.trans hc)

theorem approveToken_stays (L : Ledger H) (s : State H) (caller : Principal) (a : ApproveTokenArg) (h : Room s.cfg c' now) :
    Stays c' s Done (approveToken L s caller now a) (approveToken L (wc c' s) caller now a) := by
  unfold approveToken
  obtain ⟨s₁, ok, hx⟩ : ∃ s₁ ok, guardWindow s now a.tid = (s₁, ok) := ⟨_, _, rfl⟩
  have hc : s₁.cfg = s.cfg := (congrArg (fun x : State H × Bool => x.1.cfg) hx).symm
  rw [guardWindow_wc, hx]
  clear hx
  rw [← hc] at h
  cases ok with
  | false => exact .error
  | true =>
    rw [res_mk]
    dsimp only
    rw [wc_cfg, show (wc c' s₁).tokAppr = s₁.tokAppr from rfl]
    simp only [Bool.not_true, Bool.false_eq_true, if_false]
    rw [show ownerOf (wc c' s₁) a.tid = ownerOf s₁ a.tid from rfl]
    cases ht : verifyTiming s₁.cfg a.info.createdAt now with
    | some e => exact .error
    | none =>
      rw [verifyTiming_room h ht]
      dsimp only
      cases ownerOf s₁ a.tid with
      | none => exact .error
      | some owner =>
        dsimp only
        split
        · exact .error
        · split
          · exact .error
          · split
            · exact .error
            · rename_i hf
              rw [if_neg (full_room h hf)]
              obtain ⟨s₂, r, h1, h2, h3⟩ := addTx_both c' L s₁
                { op := .approve, ts := now, tid := some a.tid, from_ := some ⟨caller, a.info.fromSub⟩,
                  memo := a.info.memo, createdAt := some a.info.createdAt,
                  spender := some a.info.spender, exp := a.info.expiresAt }
              rw [h1, h2]
              cases r with
              | error e => exact .error
              | ok i =>
                dsimp only
                rw [show (wc c' s₂).tokAppr = s₂.tokAppr from rfl]
                rcases putTokAppr_both c' s₂ a.tid (((s₂.tokAppr.get a.tid).getD ∅).set a.info.spender
                  (mkApproval a.info ⟨caller, a.info.fromSub⟩ now)) with e | ⟨s₃, e1, e2, e3⟩
                · rw [e]; exact .none
                · rw [e1, e2]; exact .done (e3.trans (h3.trans hc))

theorem approveCollection_stays (L : Ledger H) (s : State H) (caller : Principal) (a : ApprovalInfo) (h : Room s.cfg c' now) :
    Stays c' s Done (some (approveCollection L s caller now a)) (some (approveCollection L (wc c' s) caller now a)) := by
  unfold approveCollection
  obtain ⟨s₁, ok, hx⟩ : ∃ s₁ ok, guardWindow s now 0 = (s₁, ok) := ⟨_, _, rfl⟩
  have hc : s₁.cfg = s.cfg := (congrArg (fun x : State H × Bool => x.1.cfg) hx).symm
  rw [guardWindow_wc, hx]
  clear hx
  rw [← hc] at h
  cases ok with
  | false => exact .error
  | true =>
    rw [res_mk]
    dsimp only
    rw [wc_cfg, show (wc c' s₁).collAppr = s₁.collAppr from rfl, wc_tokens]
    simp only [Bool.not_true, Bool.false_eq_true, if_false]
    cases ht : verifyTiming s₁.cfg a.createdAt now with
    | some e => exact .error
    | none =>
      rw [verifyTiming_room h ht]
      dsimp only
      split
      · exact .error
      · split
        · exact .error
        · split
          · exact .error
          · rename_i hf
            rw [if_neg (full_room h hf)]
            obtain ⟨s₂, r, h1, h2, h3⟩ := addTx_both c' L s₁
              { op := .approveColl, ts := now, from_ := some ⟨caller, a.fromSub⟩, memo := a.memo,
                createdAt := some a.createdAt, spender := some a.spender, exp := a.expiresAt }
            rw [h1, h2]
            cases r with
            | error e => exact .error
            | ok i => exact .done (h3.trans hc)

theorem revokeToken_stays (L : Ledger H) (s : State H) (caller : Principal) (a : RevokeTokenArg) (h : Room s.cfg c' now) :
    Stays c' s Done (revokeToken L s caller now a) (revokeToken L (wc c' s) caller now a) := by
  unfold revokeToken
  rw [wc_cfg, show ownerOf (wc c' s) a.tid = ownerOf s a.tid from rfl, show (wc c' s).tokAppr = s.tokAppr from rfl]
  cases ht : verifyTimingOpt s.cfg a.createdAt now with
  | some e => exact .error
  | none =>
    rw [verifyTimingOpt_room h ht]
    dsimp only
    cases ownerOf s a.tid with
    | none => exact .error
    | some owner =>
      dsimp only
      split
      · exact .error
      · cases s.tokAppr.get a.tid with
        | none => exact .error
        | some m =>
          dsimp only
          obtain ⟨s₂, r, h1, h2, h3⟩ := addTx_both c' L s
            { op := .revoke, ts := now, tid := some a.tid, from_ := some ⟨caller, a.fromSub⟩,
              memo := a.memo, createdAt := a.createdAt, spender := a.spender }
          rw [h1, h2]
          cases r with
          | error e => exact .error
          | ok i =>
            dsimp only
            rcases putTokAppr_both c' s₂ a.tid (dropSpender m a.spender) with e | ⟨s₃, e1, e2, e3⟩
            · rw [e]; exact .none
            · rw [e1, e2]; exact .done (e3.trans h3)

theorem revokeCollection_stays (L : Ledger H) (s : State H) (caller : Principal) (a : RevokeCollArg) (h : Room s.cfg c' now) :
    Stays c' s Done (some (revokeCollection L s caller now a)) (some (revokeCollection L (wc c' s) caller now a)) := by
  unfold revokeCollection
  obtain ⟨s₁, ok, hx⟩ : ∃ s₁ ok, guardWindow s now 0 = (s₁, ok) := ⟨_, _, rfl⟩
  have hc : s₁.cfg = s.cfg := (congrArg (fun x : State H × Bool => x.1.cfg) hx).symm
  rw [guardWindow_wc, hx]
  clear hx
  rw [← hc] at h
  cases ok with
  | false => exact .error
  | true =>
    rw [res_mk]
    dsimp only
    rw [wc_cfg, show (wc c' s₁).collAppr = s₁.collAppr from rfl]
    simp only [Bool.not_true, Bool.false_eq_true, if_false]
    cases ht : verifyTimingOpt s₁.cfg a.createdAt now with
    | some e => exact .error
    | none =>
      rw [verifyTimingOpt_room h ht]
      dsimp only
      cases s₁.collAppr.get ⟨caller, none⟩ with
      | none => exact .error
      | some m =>
        dsimp only
        obtain ⟨s₂, r, h1, h2, h3⟩ := addTx_both c' L s₁
          { op := .revokeColl, ts := now, from_ := some ⟨caller, none⟩, memo := a.memo,
            createdAt := a.createdAt, spender := a.spender }
        rw [h1, h2]
        cases r with
        | error e => exact .error
        | ok i => exact .done (h3.trans hc)

theorem transferFrom_stays (L : Ledger H) (s : State H) (caller : Principal) (a : TransferFromArg) (h : Room s.cfg c' now) :
    Stays c' s Done (transferFrom L s caller now a) (transferFrom L (wc c' s) caller now a) := by
  unfold transferFrom
  obtain ⟨s₁, ok, hx⟩ : ∃ s₁ ok, guardWindow s now a.tid = (s₁, ok) := ⟨_, _, rfl⟩
  have hc : s₁.cfg = s.cfg := (congrArg (fun x : State H × Bool => x.1.cfg) hx).symm
  rw [guardWindow_wc, hx]
  clear hx
  rw [← hc] at h
  cases ok with
  | false => exact .error
  | true =>
    rw [res_mk]
    dsimp only
    rw [wc_cfg, wc_tokens]
    simp only [Bool.not_true, Bool.false_eq_true, if_false]
    cases ht : verifyTimingOpt s₁.cfg a.createdAt now with
    | some e => exact .error
    | none =>
      rw [verifyTimingOpt_room h ht]
      dsimp only
      cases s₁.tokens.get a.tid with
      | none => exact .error
      | some nft =>
        dsimp only
        rw [checkTokenApproval_wc]
        split
        · exact .error
        · split
          · exact .error
          · cases h1 : checkTokenApproval s₁ now a.tid ⟨caller, a.spenderSub⟩ with
            | none => exact .none
            | some x =>
              obtain ⟨s₂, hasTok⟩ := x
              have hc2 : s₂.cfg = s₁.cfg := by
                have e := checkTokenApproval_wc s₁.cfg s₁ now a.tid ⟨caller, a.spenderSub⟩
                rw [show wc s₁.cfg s₁ = s₁ from rfl, h1] at e
                exact congrArg (fun x : State H × Bool => x.1.cfg) (Option.some.inj e)
              simp only [optRes_some]
              rw [checkCollApproval_wc]
              obtain ⟨s₃, hasColl, h2⟩ : ∃ s₃ b, checkCollApproval s₂ now nft.owner ⟨caller, a.spenderSub⟩ = (s₃, b) :=
                ⟨_, _, rfl⟩
              have hc3 : s₃.cfg = s₂.cfg := by
                have e := checkCollApproval_wc s₂.cfg s₂ now nft.owner ⟨caller, a.spenderSub⟩
                rw [show wc s₂.cfg s₂ = s₂ from rfl, h2] at e
                exact congrArg (fun x : State H × Bool => x.1.cfg) e
              rw [h2, res_mk]
              dsimp only
              split
              · exact .error
              · obtain ⟨s₄, r, e1, e2, e3⟩ := addTx_both c' L s₃
                  { op := .xferFrom, ts := now, tid := some a.tid, from_ := some a.from_, to_ := some a.to_,
                    memo := a.memo, createdAt := a.createdAt, spender := some ⟨caller, a.spenderSub⟩ }
                rw [e1, e2]
                cases r with
                | error e => exact .error
                | ok i =>
                  simp only [Map.get_del_self, Option.isSome_none, Bool.not_false, if_true]
                  exact .done (e3.trans (hc3.trans (hc2.trans hc)))

/-! ### Batches -/

theorem runBatch_stays {A : Type} {q : Config} {f : State H → A → Option (State H × Except TokErr Nat)}
    {P : Config → Prop} (h : ∀ s a, P s.cfg → Stays q s Done (f s a) (f (wc q s) a)) (l : List A) : ∀ s : State H, P s.cfg →
    Stays q s (fun rs => ∀ r ∈ rs, Done r) (runBatch f s l) (runBatch f (wc q s) l) := by
  induction l with
  | nil => exact fun s _ => .done rfl
  | cons a l ih =>
    intro s hp s' rs hx hr
    simp only [runBatch] at hx ⊢
    cases h1 : f s a with
    | none => rw [h1] at hx; cases hx
    | some x =>
      obtain ⟨s₁, r⟩ := x
      rw [h1] at hx
      dsimp only at hx
      cases h2 : runBatch f s₁ l with
      | none => rw [h2] at hx; cases hx
      | some y =>
        obtain ⟨s₂, rs'⟩ := y
        rw [h2] at hx
        cases hx
        obtain ⟨e1, e2⟩ := h s a hp s₁ r h1 (hr r (by simp))
        obtain ⟨e3, e4⟩ := ih s₁ (by rw [e1]; exact hp) _ rs' h2 fun r hr' => hr r (by simp [hr'])
        refine ⟨e3.trans e1, ?_⟩
        rw [e2]
        dsimp only
        rw [e4]

theorem runBatch_length {A R S : Type} {f : S → A → Option (S × R)} (l : List A) : ∀ {s s' : S} {rs : List R},
    runBatch f s l = some (s', rs) → rs.length = l.length := by
  induction l with
  | nil => intro s s' rs h; cases h; rfl
  | cons a l ih =>
    intro s s' rs h
    simp only [runBatch] at h
    cases h1 : f s a with
    | none => rw [h1] at h; cases h
    | some x =>
      obtain ⟨s₁, r⟩ := x
      rw [h1] at h
      dsimp only at h
      cases h2 : runBatch f s₁ l with
      | none => rw [h2] at h; cases h
      | some y =>
        obtain ⟨s₂, rs'⟩ := y
        rw [h2] at h
        cases h
        simp [ih h2]

/-- A batch of which at most the first `n` items are looked at, done in full. -/
theorem take_stays {A : Type} {q : Config} {f : State H → A → Option (State H × Except TokErr Nat)}
    {P : Config → Prop} (h : ∀ s a, P s.cfg → Stays q s Done (f s a) (f (wc q s) a)) (l : List A) {n n' : Nat} (hn : n ≤ n')
    (s : State H) (hp : P s.cfg) : Stays q s (fun rs => rs.length = l.length ∧ ∀ r ∈ rs, Done r) (runBatch f s (l.take n))
      (runBatch f (wc q s) (l.take n')) := by
  intro s' rs hx hr
  have hl := runBatch_length _ hx
  have h1 : l.length ≤ n := by
    have := hl.symm.trans hr.1
    rw [List.length_take] at this
    omega
  rw [List.take_of_length_le h1] at hx
  rw [List.take_of_length_le (by omega)]
  exact runBatch_stays h l s hp s' rs hx hr.2

theorem ofBatch_stays {q : Config} {s : State H} {n : Nat} {x y : Option (State H × List (Except TokErr Nat))}
    (h : Stays q s (fun rs => rs.length = n ∧ ∀ r ∈ rs, Done r) x y) (hr : AllDone n (ofBatch s x).2) :
    (ofBatch s x).1.cfg = s.cfg ∧ ofBatch (wc q s) y = res q (ofBatch s x) := by
  obtain ⟨rs, h1, h2, h3⟩ := hr
  cases x with
  | none => cases h1
  | some z =>
    obtain ⟨s₁, rs'⟩ := z
    have e : rs' = rs := by
      simp only [ofBatch, Reply.batch.injEq] at h1
      exact h1
    subst e
    obtain ⟨e1, e2⟩ := h s₁ rs' rfl ⟨h2, h3⟩
    rw [e2]
    exact ⟨e1, rfl⟩

theorem all_take {A : Type} {q : Config} {f : State H → A → Option (State H × Except TokErr Nat)}
    {P : Config → Prop} (h : ∀ s a, P s.cfg → Stays q s Done (f s a) (f (wc q s) a)) (l : List A) (s : State H) (hp : P s.cfg) :
    Stays q s (fun rs => rs.length = l.length ∧ ∀ r ∈ rs, Done r) (runBatch f s l) (runBatch f (wc q s) l) :=
  fun s' rs hx hr => runBatch_stays h l s hp s' rs hx hr.2

theorem checkMemos_room (h : Room c c' now) : ∀ {l : List MintReq}, checkMemos c l = some true → checkMemos c' l = some true
  | [], _ => rfl
  | r :: l, hx => by
    simp only [checkMemos] at hx ⊢
    cases hm : checkMemo c r.memo with
    | none => rw [hm] at hx; cases hx
    | some b =>
      rw [hm] at hx
      cases b with
      | false => cases hx
      | true => rw [checkMemo_room h hm]; exact checkMemos_room h hx

theorem mint_stays (E : Env H) (s : State H) (caller : Principal) (l : List MintReq) (h : Room s.cfg c' now) :
    Stays c' s (fun r : Except MgmtErr MgmtOk => ∃ x, r = .ok x) (mint E s caller now l) (mint E (wc c' s) caller now l) := by
  unfold mint withGuard
  rw [guardEnter_wc]
  cases hg : guardEnter s caller with
  | none => rintro s₁ r e ⟨x, rfl⟩; cases e
  | some s₁ =>
    have hc : s₁.cfg = s.cfg := by
      unfold guardEnter at hg
      split at hg
      · cases hg
      · cases hg; rfl
    rw [← hc] at h
    simp only [Option.map_some]
    have hb := h.batch
    have hs := h.cap
    by_cases h1 : l.length > s₁.cfg.maxUpdateBatch.getD 100
    · rw [if_pos h1]; rintro s₂ r e ⟨x, rfl⟩; cases e
    · have h1' : ¬ l.length > (wc c' s₁).cfg.maxUpdateBatch.getD 100 := by
        show ¬ l.length > c'.maxUpdateBatch.getD 100
        omega
      rw [if_neg h1, if_neg h1']
      by_cases h2 : s₁.tokens.size + l.length > s₁.cfg.supplyCap.getD defaultSupplyCap
      · rw [if_pos h2]; rintro s₂ r e ⟨x, rfl⟩; cases e
      · have h2' : ¬ (wc c' s₁).tokens.size + l.length > (wc c' s₁).cfg.supplyCap.getD defaultSupplyCap := by
          show ¬ s₁.tokens.size + l.length > c'.supplyCap.getD defaultSupplyCap
          omega
        rw [if_neg h2, if_neg h2']
        cases hm : checkMemos s₁.cfg l with
        | none => exact .none
        | some b =>
          cases b with
          | false => rintro s₂ r e ⟨x, rfl⟩; cases e
          | true =>
            rw [show checkMemos (wc c' s₁).cfg l = some true from checkMemos_room h hm]
            simp only [show (wc c' s₁).mdata = s₁.mdata from rfl, show (wc c' s₁).lastId = s₁.lastId from rfl]
            cases mintMetadata s₁.mdata s₁.lastId l with
            | none => exact .none
            | some md =>
              dsimp only
              obtain ⟨s₂, b, e1, e2, e3⟩ : ∃ s₂ b, mintTxs E.ledger { s₁ with mdata := md } now s₁.lastId l = (s₂, b) ∧
                  mintTxs E.ledger { wc c' s₁ with mdata := md } now s₁.lastId l = (wc c' s₂, b) ∧ s₂.cfg = s₁.cfg :=
                ⟨_, _, rfl, mintTxs_wc c' E.ledger { s₁ with mdata := md } now s₁.lastId l,
                  congrArg (fun x : State H × Bool => x.1.cfg) (mintTxs_wc s₁.cfg E.ledger { s₁ with mdata := md } now s₁.lastId l)⟩
              change Stays c' s _ _ (match (match mintTxs E.ledger { wc c' s₁ with mdata := md } now s₁.lastId l with
                | (s, false) => some (s, Except.error MgmtErr.storageCanisterError)
                | (s, true) => some (mintInsert { s with lastId := s₁.lastId + l.length } s₁.lastId l, Except.ok (MgmtOk.id s₁.lastId))) with
                | none => none
                | some (s, r) => some (guardLeave s caller, r))
              rw [e1, e2]
              cases b with
              | false => rintro s₃ r e ⟨x, rfl⟩; cases e
              | true =>
                dsimp only
                have e4 := fun q => mintInsert_wc q { s₂ with lastId := s₁.lastId + l.length } s₁.lastId l
                change Stays c' s _ _ (some (guardLeave (mintInsert (wc c' { s₂ with lastId := s₁.lastId + l.length }) s₁.lastId l) caller, _))
                rw [e4 c']
                refine .done ?_
                have e5 := congrArg State.cfg (e4 s₂.cfg)
                exact e5.trans (e3.trans hc)

theorem ofMgmt_stays {q : Config} {s : State H} {x y : Option (MgmtRes H)}
    (h : Stays q s (fun r : Except MgmtErr MgmtOk => ∃ x, r = .ok x) x y) (hr : ∃ v, (ofMgmt s x).2 = .mgmt (.ok v)) :
    (ofMgmt s x).1.cfg = s.cfg ∧ ofMgmt (wc q s) y = res q (ofMgmt s x) := by
  obtain ⟨v, hv⟩ := hr
  cases x with
  | none => cases hv
  | some z =>
    obtain ⟨s₁, r⟩ := z
    have e : r = .ok v := by
      simp only [ofMgmt, Reply.mgmt.injEq] at hv
      exact hv
    subst e
    obtain ⟨e1, e2⟩ := h s₁ _ rfl ⟨v, rfl⟩
    rw [e2]
    exact ⟨e1, rfl⟩

theorem icrc7Transfer_stays (L : Ledger H) (s : State H) (caller : Principal) (l : List TransferArg) (h : Room s.cfg c' now) :
    Stays c' s (fun rs => rs.length = l.length ∧ ∀ r ∈ rs, Done r) (icrc7Transfer L s caller now l)
      (icrc7Transfer L (wc c' s) caller now l) := by
  unfold icrc7Transfer
  by_cases h0 : l.isEmpty = true
  · rw [if_pos h0, if_pos h0]; exact .done rfl
  rw [if_neg h0, if_neg h0]
  have hb : s.cfg.maxUpdateBatch.getD defaultMaxUpdateBatch ≤ c'.maxUpdateBatch.getD defaultMaxUpdateBatch := h.batch
  have hf : c'.maxUpdateBatch.getD defaultMaxUpdateBatch < USIZE := h.batchFits
  have e1 : toUsize? (s.cfg.maxUpdateBatch.getD defaultMaxUpdateBatch) = some (s.cfg.maxUpdateBatch.getD defaultMaxUpdateBatch) := by
    unfold toUsize?
    rw [if_pos (by omega)]
  have e2 : toUsize? ((wc c' s).cfg.maxUpdateBatch.getD defaultMaxUpdateBatch) = some (c'.maxUpdateBatch.getD defaultMaxUpdateBatch) := by
    show toUsize? (c'.maxUpdateBatch.getD defaultMaxUpdateBatch) = _
    unfold toUsize?
    rw [if_pos hf]
  rw [e1, e2]
  dsimp only
  by_cases h1 : (s.cfg.atomicBatch.getD false && decide (l.length > s.cfg.maxUpdateBatch.getD defaultMaxUpdateBatch)) = true
  · rw [if_pos h1]
    rintro s₁ r e ⟨_, hd⟩
    cases e
    obtain ⟨i, hi⟩ := hd (.error (.generic 0)) (by simp)
    cases hi
  have h1' : ¬ ((wc c' s).cfg.atomicBatch.getD false && decide (l.length > c'.maxUpdateBatch.getD defaultMaxUpdateBatch)) = true := by
    show ¬ (c'.atomicBatch.getD false && decide (l.length > c'.maxUpdateBatch.getD defaultMaxUpdateBatch)) = true
    rw [h.atomic]
    intro hx
    apply h1
    rw [Bool.and_eq_true, decide_eq_true_iff] at hx ⊢
    exact ⟨hx.1, by omega⟩
  rw [if_neg h1, if_neg h1']
  by_cases h2 : caller = anonymous
  · rw [if_pos h2]
    rintro s₁ r e ⟨_, hd⟩
    cases e
    obtain ⟨i, hi⟩ := hd (.error (.generic 0)) (by simp)
    cases hi
  rw [if_neg h2, if_neg h2]
  exact take_stays (P := fun c => Room c c' now) (fun s a h => transferNft_stays L s caller a h) l hb s h

theorem guardWindow_both (q : Config) (s : State H) (now tid : Nat) : ∃ s₁ b, guardWindow s now tid = (s₁, b) ∧
    guardWindow (wc q s) now tid = (wc q s₁, b) ∧ s₁.cfg = s.cfg := by
  refine ⟨(guardWindow s now tid).1, (guardWindow s now tid).2, rfl, guardWindow_wc q s now tid, ?_⟩
  exact congrArg (fun x : State H × Bool => x.1.cfg) (guardWindow_wc s.cfg s now tid)

theorem revokeTokens_stays (E : Env H) (s : State H) (caller : Principal) (l : List RevokeTokenArg) (h : Room s.cfg c' now)
    (hr : AllDone l.length (exec E s caller now (.revokeTokens l)).2) :
    (exec E s caller now (.revokeTokens l)).1.cfg = s.cfg ∧
      exec E (wc c' s) caller now (.revokeTokens l) = res c' (exec E s caller now (.revokeTokens l)) := by
  obtain ⟨rs, hr1, hr2, hr3⟩ := hr
  simp only [exec, icrc37RevokeTokens] at hr1 ⊢
  cases l with
  | nil => cases hr1
  | cons a l =>
    dsimp only at hr1 ⊢
    obtain ⟨s₁, b, e1, e2, e3⟩ := guardWindow_both c' s now a.tid
    rw [e1] at hr1
    rw [e1, e2]
    cases b with
    | false => cases hr1
    | true =>
      simp only [Bool.not_true, Bool.false_eq_true, if_false] at hr1 ⊢
      rw [← e3] at h
      have ht := take_stays (P := fun c => Room c c' now) (fun s a h => revokeToken_stays E.ledger s caller a h) (a :: l)
        (maxRevoke_room h) s₁ h
      cases hx : runBatch (fun s a => revokeToken E.ledger s caller now a) s₁ ((a :: l).take (maxRevoke s₁.cfg)) with
      | none => rw [hx] at hr1; cases hr1
      | some y =>
        obtain ⟨s₂, rs'⟩ := y
        rw [hx] at hr1
        have e : rs' = rs := by
          simp only [Reply.batch.injEq] at hr1
          exact hr1
        subst e
        obtain ⟨e4, e5⟩ := ht s₂ rs' hx ⟨hr2, hr3⟩
        rw [show runBatch (fun s a => revokeToken E.ledger s caller now a) (wc c' s₁) ((a :: l).take (maxRevoke (wc c' s₁).cfg))
          = _ from e5]
        exact ⟨e4.trans e3, rfl⟩

/-- What an operation without limits does not look at, it leaves alone. -/
theorem keeps_cfg {s : State H} {f : State H → State H × Reply} (h : ∀ q, f (wc q s) = res q (f s)) : (f s).1.cfg = s.cfg :=
  congrArg (fun x : State H × Reply => x.1.cfg) (h s.cfg)

theorem free_wc {s : State H} {f : State H → State H × Reply} (q : Config) (h : ∀ q, f (wc q s) = res q (f s)) :
    (f s).1.cfg = s.cfg ∧ f (wc q s) = res q (f s) := ⟨keeps_cfg h, h q⟩

theorem exec_room (E : Env H) (s : State H) (caller : Principal) (call : Call) (h : Room s.cfg c' now)
    (hk : ∀ a, call ≠ .updateCollectionMetadata a) (hw : WentThrough (.call caller now call) (exec E s caller now call).2)
    (hrej : (exec E s caller now call).2 ≠ .rejected) :
    (exec E s caller now call).1.cfg = s.cfg ∧ exec E (wc c' s) caller now call = res c' (exec E s caller now call) := by
  cases call with
  | transfer l => exact ofBatch_stays (icrc7Transfer_stays E.ledger s caller l h) hw
  | approveTokens l =>
    exact ofBatch_stays (all_take (P := fun c => Room c c' now) (fun s a h => approveToken_stays E.ledger s caller a h) l s h) hw
  | approveCollection l =>
    exact ofBatch_stays (all_take (P := fun c => Room c c' now) (fun s a h => approveCollection_stays E.ledger s caller a h) l s h) hw
  | revokeTokens l => exact revokeTokens_stays E s caller l h hw
  | revokeCollection l =>
    exact ofBatch_stays (take_stays (P := fun c => Room c c' now) (fun s a h => revokeCollection_stays E.ledger s caller a h) l
      (maxRevoke_room h) s h) hw
  | transferFrom l =>
    exact ofBatch_stays (all_take (P := fun c => Room c c' now) (fun s a h => transferFrom_stays E.ledger s caller a h) l s h) hw
  | updateCollectionMetadata a => exact absurd rfl (hk a)
  | mint l => exact ofMgmt_stays (mint_stays E s caller l h) (hw.resolve_right hrej)
  | updateNftMetadata tid kvs =>
    exact free_wc (f := fun s => exec E s caller now (.updateNftMetadata tid kvs)) c' fun q => by
      simp only [exec, updateNftMetadata_wc, ofMgmt_wc]
  | burn tid =>
    exact free_wc (f := fun s => exec E s caller now (.burn tid)) c' fun q => by simp only [exec, burnNft_wc, ofMgmt_wc]
  | initUpload path n =>
    exact free_wc (f := fun s => exec E s caller now (.initUpload path n)) c' fun q => by simp only [exec, initUpload_wc, ofStarted_wc]
  | storeChunk path =>
    exact free_wc (f := fun s => exec E s caller now (.storeChunk path)) c' fun q => by simp only [exec, storeChunk_wc, ofStarted_wc]
  | finalizeUpload path =>
    exact free_wc (f := fun s => exec E s caller now (.finalizeUpload path)) c' fun q => by simp only [exec, finalizeUpload_wc, ofStarted_wc]
  | cancelUpload path =>
    exact free_wc (f := fun s => exec E s caller now (.cancelUpload path)) c' fun q => by simp only [exec, cancelUpload_wc, ofStarted_wc]
  | grant p x =>
    exact free_wc (f := fun s => exec E s caller now (.grant p x)) c' fun q => by
      simp only [exec]
      rw [show grant (wc q s) caller p x = optRes q (grant s caller p x) from withGuard_wc q s caller fun s => rfl, ofMgmt_wc]
  | revoke p x =>
    exact free_wc (f := fun s => exec E s caller now (.revoke p x)) c' fun q => by
      simp only [exec]
      rw [show revoke (wc q s) caller p x = optRes q (revoke s caller p x) from withGuard_wc q s caller fun s => rfl, ofMgmt_wc]

theorem exec_not_rejected (E : Env H) (s : State H) (caller : Principal) (now : Nat) (call : Call) :
    (exec E s caller now call).2 ≠ .rejected := by
  cases call <;> simp only [exec, ofBatch, ofMgmt, ofStarted] <;> (repeat' split) <;> exact fun h => by cases h

theorem step_room (E : Env H) (s : State H) (m : Msg) (h : ∀ now ∈ callTimes [m], Room s.cfg c' now)
    (hk : KeepsSettings [m]) (hw : WentThrough m (step E s m).2) :
    (step E s m).1.cfg = s.cfg ∧ step E (wc c' s) m = res c' (step E s m) := by
  cases m with
  | call c now call =>
    have hk' : ∀ a, call ≠ .updateCollectionMetadata a := fun a e => hk c now a (by simp [e])
    have h' := h now (by simp [callTimes])
    simp only [step, execCall] at hw ⊢
    split at hw
    · split at hw
      · rename_i hp
        rw [if_pos hp, if_pos (show hasPermission (wc c' s).perms c _ = true from hp)]
        exact exec_room E s c call h' hk' hw (exec_not_rejected E s c now call)
      · rename_i hp
        rw [if_neg hp, if_neg (show ¬ hasPermission (wc c' s).perms c _ = true from hp)]
        exact ⟨rfl, rfl⟩
    · exact exec_room E s c call h' hk' hw (exec_not_rejected E s c now call)
  | resume now i a =>
    refine free_wc (f := fun s => step E s (.resume now i a)) c' fun q => ?_
    simp only [step, show (wc q s).pending = s.pending from rfl]
    cases s.pending[i]? with
    | none => rfl
    | some p =>
      have e := resumeBody_wc q E { s with pending := s.pending.eraseIdx i } now p a
      dsimp only
      rw [show resumeBody E { wc q s with pending := s.pending.eraseIdx i } now p a = _ from e]
      rfl
  | resumeTrap i =>
    refine free_wc (f := fun s => step E s (.resumeTrap i)) c' fun q => ?_
    simp only [step, show (wc q s).pending = s.pending from rfl]
    cases s.pending[i]? <;> rfl
  | upgrade => exact ⟨rfl, rfl⟩

theorem run_room (E : Env H) (msgs : List Msg) : ∀ (s : State H), (∀ now ∈ callTimes msgs, Room s.cfg c' now) →
    KeepsSettings msgs → AllWentThrough E s msgs →
    replies E (wc c' s) msgs = replies E s msgs ∧ run E (wc c' s) msgs = wc c' (run E s msgs) := by
  induction msgs with
  | nil => exact fun s _ _ _ => ⟨rfl, rfl⟩
  | cons m msgs ih =>
    intro s h hk hw
    have hm : ∀ now ∈ callTimes [m], Room s.cfg c' now := fun now hn => h now (by
      cases m <;> simp_all [callTimes])
    have hms : ∀ now ∈ callTimes msgs, Room s.cfg c' now := fun now hn => h now (by
      cases m <;> simp_all [callTimes])
    obtain ⟨e1, e2⟩ := step_room E s m hm (fun c now a he => hk c now a (by simp at he; simp [he]))
      (hw (m, (step E s m).2) (by simp [replies]))
    obtain ⟨e3, e4⟩ := ih (step E s m).1 (by rw [e1]; exact hms) (fun c now a he => hk c now a (by simp [he]))
      (fun p hp => hw p (by simp only [replies, List.zip_cons_cons, List.mem_cons]; exact .inr hp))
    simp only [replies, run]
    rw [e2]
    exact ⟨by rw [show (res c' (step E s m)).1 = wc c' (step E s m).1 from rfl, e3]; rfl, e4⟩

/-- Of the settings, as the theorem states them. -/
theorem roomOf {s s' : State H} (h : Roomier s s') {now : Nat} (hw : Workable s' now) : Room s.cfg s'.cfg now where
  cap := h.cap
  batch := h.batch
  memo := h.memo
  window := h.window
  drift := h.drift
  approvals := h.approvals
  revocations := h.revocations
  atomic := h.atomic
  batchFits := hw.batch
  memoFits := hw.memo
  approvalsFit := hw.approvals
  revocationsFit := hw.revocations
  times := hw.times

end Verif.Spec.Roomy
