import Verif.Spec.Display
/-!
# Updates do not read what is only shown: helper lemmas
-/
namespace Verif.Spec.Display

variable {H : Type}

/-- The settings that rule. -/
def rules (c : Config) : Config :=
  { c with description := none, symbol := "", name := "", logo := none, maxQueryBatch := none, maxTake := none,
           defaultTake := none, maxStorageThreshold := none }

/-- Only the settings that rule are kept. -/
def dim (s : State H) : State H := { s with cfg := rules s.cfg }

/-- A result whose first part is a state. -/
def res {R : Type} (x : State H × R) : State H × R := (dim x.1, x.2)

/-- A possibly trapped result. -/
def optRes {R : Type} (x : Option (State H × R)) : Option (State H × R) := x.map res

@[simp] theorem optRes_none {R : Type} : optRes (none : Option (State H × R)) = none := rfl
@[simp] theorem optRes_some {R : Type} (s : State H) (x : R) : optRes (some (s, x)) = some (dim s, x) := rfl
@[simp] theorem res_mk {R : Type} (s : State H) (x : R) : res (s, x) = (dim s, x) := rfl

@[simp] theorem dim_cfg (s : State H) : (dim s).cfg = rules s.cfg := rfl
@[simp] theorem dim_tokens (s : State H) : (dim s).tokens = s.tokens := rfl
@[simp] theorem dim_hid (s : State H) : (dim s).hid = s.hid := rfl
@[simp] theorem dim_tokAppr (s : State H) : (dim s).tokAppr = s.tokAppr := rfl
@[simp] theorem dim_collAppr (s : State H) : (dim s).collAppr = s.collAppr := rfl

theorem dim_iff {s s' : State H} : SameButShown s s' ↔ dim s' = dim s := by
  constructor
  · rintro ⟨h, e⟩
    rw [e]
    have hc : rules s'.cfg = rules s.cfg := by
      obtain ⟨h1, h2, h3, h4, h5, h6, h7, h8⟩ := h
      simp only [rules, h1, h2, h3, h4, h5, h6, h7, h8]
    show ({ s with cfg := rules s'.cfg } : State H) = { s with cfg := rules s.cfg }
    rw [hc]
  · intro h
    have e : ∀ {B : Type} (f : State H → B), f (dim s') = f (dim s) := fun f => congrArg f h
    refine ⟨⟨e (·.cfg.supplyCap), e (·.cfg.maxUpdateBatch), e (·.cfg.maxMemo), e (·.cfg.atomicBatch),
      e (·.cfg.txWindow), e (·.cfg.permittedDrift), e (·.cfg.maxApprovals), e (·.cfg.maxRevoke)⟩, ?_⟩
    exact congrArg (fun t : State H => { t with cfg := s'.cfg }) h

theorem checkMemo_rules (c : Config) (m : Option Blob) : checkMemo (rules c) m = checkMemo c m := rfl
theorem transferTiming_rules (c : Config) (a b : Nat) : transferTiming (rules c) a b = transferTiming c a b := rfl
theorem verifyTiming_rules (c : Config) (a b : Nat) : verifyTiming (rules c) a b = verifyTiming c a b := rfl
theorem verifyTimingOpt_rules (c : Config) (a : Option Nat) (b : Nat) :
    verifyTimingOpt (rules c) a b = verifyTimingOpt c a b := rfl
theorem maxApprovals_rules (c : Config) : maxApprovals (rules c) = maxApprovals c := rfl
theorem maxRevoke_rules (c : Config) : maxRevoke (rules c) = maxRevoke c := rfl
theorem maxUpdateBatch_rules (c : Config) : (rules c).maxUpdateBatch = c.maxUpdateBatch := rfl
theorem atomicBatch_rules (c : Config) : (rules c).atomicBatch = c.atomicBatch := rfl
theorem supplyCap_rules (c : Config) : (rules c).supplyCap = c.supplyCap := rfl

theorem guardWindow_dim (s : State H) (now tid : Nat) : guardWindow (dim s) now tid = res (guardWindow s now tid) := rfl

theorem addTx_dim (L : Ledger H) (s : State H) (t : Tx) : addTx L (dim s) t = res (addTx L s t) := by
  simp only [addTx, dim_hid]
  generalize L.add s.hid t = x
  obtain ⟨h, _ | i⟩ := x <;> rfl

theorem putTokAppr_dim (s : State H) (tid : Nat) (m : Map Account Approval) :
    putTokAppr (dim s) tid m = (putTokAppr s tid m).map dim := by
  unfold putTokAppr
  split <;> rfl

theorem transferNft_dim (L : Ledger H) (s : State H) (caller : Principal) (now : Nat) (a : TransferArg) :
    transferNft L (dim s) caller now a = optRes (transferNft L s caller now a) := by
  unfold transferNft
  obtain ⟨s₁, ok, hx⟩ : ∃ s₁ ok, guardWindow s now a.tid = (s₁, ok) := ⟨_, _, rfl⟩
  rw [guardWindow_dim, hx]
  clear hx
  revert s₁
  intro s
  cases ok with
  | false => rfl
  | true =>
    simp only [res_mk, Bool.not_true, Bool.false_eq_true, if_false, dim_tokens, dim_cfg, checkMemo_rules, transferTiming_rules]
    cases s.tokens.get a.tid with
    | none => rfl
    | some nft =>
      dsimp only
      cases checkMemo s.cfg a.memo with
      | none => rfl
      | some b =>
        cases b with
        | false => rfl
        | true =>
          dsimp only
          split
          · rfl
          · cases transferTiming s.cfg now (a.createdAt.getD now) with
            | none => rfl
            | some o =>
              cases o with
              | some e => rfl
              | none =>
                dsimp only
                rw [addTx_dim]
                generalize addTx L s _ = y
                obtain ⟨s, e | i⟩ := y
                · cases e <;> rfl
                · rfl

theorem runBatch_dim {A R : Type} {f : State H → A → Option (State H × R)}
    (h : ∀ s a, f (dim s) a = optRes (f s a)) (s : State H) (l : List A) :
    runBatch f (dim s) l = optRes (runBatch f s l) := by
  induction l generalizing s with
  | nil => rfl
  | cons a l ih =>
    simp only [runBatch, h s a]
    cases f s a with
    | none => rfl
    | some x =>
      obtain ⟨s', y⟩ := x
      simp only [optRes_some, ih s']
      cases runBatch f s' l with
      | none => rfl
      | some x => obtain ⟨s, y⟩ := x; rfl

theorem icrc7Transfer_dim (L : Ledger H) (s : State H) (caller : Principal) (now : Nat) (args : List TransferArg) :
    icrc7Transfer L (dim s) caller now args = optRes (icrc7Transfer L s caller now args) := by
  unfold icrc7Transfer
  rw [dim_cfg, maxUpdateBatch_rules, atomicBatch_rules]
  split
  · rfl
  · split
    · rfl
    · split
      · rfl
      · split
        · rfl
        · exact runBatch_dim (fun s a => transferNft_dim L s caller now a) s _

theorem approveToken_dim (L : Ledger H) (s : State H) (caller : Principal) (now : Nat) (a : ApproveTokenArg) :
    approveToken L (dim s) caller now a = optRes (approveToken L s caller now a) := by
  unfold approveToken
  obtain ⟨s₁, ok, hx⟩ : ∃ s₁ ok, guardWindow s now a.tid = (s₁, ok) := ⟨_, _, rfl⟩
  rw [guardWindow_dim, hx]
  clear hx
  revert s₁
  intro s
  cases ok with
  | false => rfl
  | true =>
    rw [res_mk]
    dsimp only
    rw [dim_cfg, dim_tokAppr, verifyTiming_rules, maxApprovals_rules]
    simp only [Bool.not_true, Bool.false_eq_true, if_false]
    rw [show ownerOf (dim s) a.tid = ownerOf s a.tid from rfl]
    cases verifyTiming s.cfg a.info.createdAt now with
    | some e => rfl
    | none =>
      dsimp only
      cases ownerOf s a.tid with
      | none => rfl
      | some owner =>
        dsimp only
        split
        · rfl
        · split
          · rfl
          · split
            · rfl
            · rw [addTx_dim]
              generalize addTx L s _ = y
              obtain ⟨s, e | i⟩ := y
              · rfl
              · simp only [res_mk, dim_tokAppr, putTokAppr_dim]
                cases putTokAppr s a.tid _ <;> rfl

theorem approveCollection_dim (L : Ledger H) (s : State H) (caller : Principal) (now : Nat) (a : ApprovalInfo) :
    approveCollection L (dim s) caller now a = res (approveCollection L s caller now a) := by
  unfold approveCollection
  obtain ⟨s₁, ok, hx⟩ : ∃ s₁ ok, guardWindow s now 0 = (s₁, ok) := ⟨_, _, rfl⟩
  rw [guardWindow_dim, hx]
  clear hx
  revert s₁
  intro s
  cases ok with
  | false => rfl
  | true =>
    rw [res_mk]
    dsimp only
    rw [dim_cfg, dim_collAppr, dim_tokens, verifyTiming_rules, maxApprovals_rules]
    simp only [Bool.not_true, Bool.false_eq_true, if_false]
    cases verifyTiming s.cfg a.createdAt now with
    | some e => rfl
    | none =>
      dsimp only
      split
      · rfl
      · split
        · rfl
        · split
          · rfl
          · rw [addTx_dim]
            generalize addTx L s _ = y
            obtain ⟨s, e | i⟩ := y <;> rfl

theorem revokeToken_dim (L : Ledger H) (s : State H) (caller : Principal) (now : Nat) (a : RevokeTokenArg) :
    revokeToken L (dim s) caller now a = optRes (revokeToken L s caller now a) := by
  unfold revokeToken
  rw [dim_cfg, verifyTimingOpt_rules, show ownerOf (dim s) a.tid = ownerOf s a.tid from rfl, dim_tokAppr]
  cases verifyTimingOpt s.cfg a.createdAt now with
  | some e => rfl
  | none =>
    dsimp only
    cases ownerOf s a.tid with
    | none => rfl
    | some owner =>
      dsimp only
      split
      · rfl
      · cases s.tokAppr.get a.tid with
        | none => rfl
        | some m =>
          dsimp only
          rw [addTx_dim]
          generalize addTx L s _ = y
          obtain ⟨s, e | i⟩ := y
          · rfl
          · simp only [res_mk, putTokAppr_dim]
            cases putTokAppr s a.tid _ <;> rfl

theorem revokeCollection_dim (L : Ledger H) (s : State H) (caller : Principal) (now : Nat) (a : RevokeCollArg) :
    revokeCollection L (dim s) caller now a = res (revokeCollection L s caller now a) := by
  unfold revokeCollection
  obtain ⟨s₁, ok, hx⟩ : ∃ s₁ ok, guardWindow s now 0 = (s₁, ok) := ⟨_, _, rfl⟩
  rw [guardWindow_dim, hx]
  clear hx
  revert s₁
  intro s
  cases ok with
  | false => rfl
  | true =>
    rw [res_mk]
    dsimp only
    rw [dim_cfg, dim_collAppr, verifyTimingOpt_rules]
    simp only [Bool.not_true, Bool.false_eq_true, if_false]
    cases verifyTimingOpt s.cfg a.createdAt now with
    | some e => rfl
    | none =>
      dsimp only
      cases s.collAppr.get ⟨caller, none⟩ with
      | none => rfl
      | some m =>
        dsimp only
        rw [addTx_dim]
        generalize addTx L s _ = y
        obtain ⟨s, e | i⟩ := y <;> rfl

theorem checkTokenApproval_dim (s : State H) (now tid : Nat) (a : Account) :
    checkTokenApproval (dim s) now tid a = optRes (checkTokenApproval s now tid a) := by
  unfold checkTokenApproval
  rw [dim_tokAppr]
  cases s.tokAppr.get tid with
  | none => rfl
  | some m =>
    dsimp only
    cases m.get a with
    | none => rfl
    | some b =>
      dsimp only
      split
      · rw [putTokAppr_dim]
        cases putTokAppr s tid _ <;> rfl
      · rfl

theorem checkCollApproval_dim (s : State H) (now : Nat) (o a : Account) :
    checkCollApproval (dim s) now o a = res (checkCollApproval s now o a) := by
  unfold checkCollApproval
  rw [dim_collAppr]
  cases s.collAppr.get o with
  | none => rfl
  | some m =>
    dsimp only
    cases m.get a with
    | none => rfl
    | some b =>
      dsimp only
      split <;> rfl

theorem transferFrom_dim (L : Ledger H) (s : State H) (caller : Principal) (now : Nat) (a : TransferFromArg) :
    transferFrom L (dim s) caller now a = optRes (transferFrom L s caller now a) := by
  unfold transferFrom
  obtain ⟨s₁, ok, hx⟩ : ∃ s₁ ok, guardWindow s now a.tid = (s₁, ok) := ⟨_, _, rfl⟩
  rw [guardWindow_dim, hx]
  clear hx
  revert s₁
  intro s
  cases ok with
  | false => rfl
  | true =>
    rw [res_mk]
    dsimp only
    rw [dim_cfg, dim_tokens, verifyTimingOpt_rules]
    simp only [Bool.not_true, Bool.false_eq_true, if_false]
    cases verifyTimingOpt s.cfg a.createdAt now with
    | some e => rfl
    | none =>
      dsimp only
      cases s.tokens.get a.tid with
      | none => rfl
      | some nft =>
        dsimp only
        rw [checkTokenApproval_dim]
        split
        · rfl
        · split
          · rfl
          · cases checkTokenApproval s now a.tid ⟨caller, a.spenderSub⟩ with
            | none => rfl
            | some x =>
              obtain ⟨s, hasTok⟩ := x
              simp only [optRes_some]
              rw [checkCollApproval_dim]
              generalize checkCollApproval s now nft.owner ⟨caller, a.spenderSub⟩ = y
              obtain ⟨s, hasColl⟩ := y
              rw [res_mk]
              dsimp only
              split
              · rfl
              · rw [addTx_dim]
                generalize addTx L s _ = z
                obtain ⟨s, e | i⟩ := z
                · rfl
                · simp only [res_mk, Map.get_del_self, Option.isSome_none, Bool.not_false, if_true]
                  rfl

theorem icrc37RevokeTokens_dim (L : Ledger H) (s : State H) (caller : Principal) (now : Nat) (args : List RevokeTokenArg) :
    icrc37RevokeTokens L (dim s) caller now args = optRes (icrc37RevokeTokens L s caller now args) := by
  unfold icrc37RevokeTokens
  cases args with
  | nil => rfl
  | cons a l =>
    obtain ⟨s₁, ok, hx⟩ : ∃ s₁ ok, guardWindow s now a.tid = (s₁, ok) := ⟨_, _, rfl⟩
    dsimp only
    rw [guardWindow_dim, hx]
    clear hx
    revert s₁
    intro s
    cases ok with
    | false => rfl
    | true =>
      rw [res_mk]
      dsimp only
      rw [dim_cfg, maxRevoke_rules]
      simp only [Bool.not_true, Bool.false_eq_true, if_false]
      rw [runBatch_dim (fun s a => revokeToken_dim L s caller now a) s]
      cases runBatch (fun s a => revokeToken L s caller now a) s (List.take (maxRevoke s.cfg) (a :: l)) with
      | none => rfl
      | some x => obtain ⟨s, y⟩ := x; rfl

theorem ofBatch_dim (s : State H) (x : Option (State H × List (Except TokErr Nat))) :
    ofBatch (dim s) (optRes x) = res (ofBatch s x) := by
  cases x with
  | none => rfl
  | some y => rfl

/-! ### updates/management.rs -/

theorem guardEnter_dim (s : State H) (p : Principal) : guardEnter (dim s) p = (guardEnter s p).map dim := by
  unfold guardEnter
  rw [show (dim s).guards = s.guards from rfl]
  split <;> rfl

theorem withGuard_dim (s : State H) (p : Principal) {b' b : State H → Option (MgmtRes H)}
    (h : ∀ s, b' (dim s) = optRes (b s)) : withGuard (dim s) p b' = optRes (withGuard s p b) := by
  unfold withGuard
  rw [guardEnter_dim]
  cases guardEnter s p with
  | none => rfl
  | some s =>
    simp only [Option.map_some, h]
    cases b s with
    | none => rfl
    | some x => obtain ⟨s, y⟩ := x; rfl

theorem checkMemos_rules (c : Config) (l : List MintReq) : checkMemos (rules c) l = checkMemos c l := by
  induction l with
  | nil => rfl
  | cons a l ih => simp only [checkMemos, ih, checkMemo_rules]

theorem mintTxs_dim (L : Ledger H) (s : State H) (now i : Nat) (l : List MintReq) :
    mintTxs L (dim s) now i l = res (mintTxs L s now i l) := by
  induction l generalizing s i with
  | nil => rfl
  | cons a l ih =>
    simp only [mintTxs]
    rw [addTx_dim]
    generalize addTx L s _ = x
    obtain ⟨s, e | j⟩ := x
    · rfl
    · exact ih s (i + 1)

theorem mintInsert_dim (s : State H) (i : Nat) (l : List MintReq) : mintInsert (dim s) i l = dim (mintInsert s i l) := by
  induction l generalizing s i with
  | nil => rfl
  | cons a l ih =>
    simp only [mintInsert]
    rw [← ih]
    rfl

theorem mint_dim (E : Env H) (s : State H) (caller : Principal) (now : Nat) (l : List MintReq) :
    mint E (dim s) caller now l = optRes (mint E s caller now l) := by
  refine withGuard_dim s caller fun s => ?_
  rw [dim_cfg, dim_tokens, maxUpdateBatch_rules, supplyCap_rules, checkMemos_rules]
  split
  · rfl
  · split
    · rfl
    · cases checkMemos s.cfg l with
      | none => rfl
      | some b =>
        cases b with
        | false => rfl
        | true =>
          simp only [show (dim s).mdata = s.mdata from rfl, show (dim s).lastId = s.lastId from rfl]
          cases mintMetadata s.mdata s.lastId l with
          | none => rfl
          | some md =>
            dsimp only
            have hx := mintTxs_dim E.ledger { s with mdata := md } now s.lastId l
            change mintTxs E.ledger { dim s with mdata := md } now s.lastId l = _ at hx
            change (match mintTxs E.ledger { dim s with mdata := md } now s.lastId l with
              | (s, false) => _
              | (s₁, true) => _) = _
            rw [hx]
            clear hx
            generalize mintTxs E.ledger _ _ _ _ = x
            obtain ⟨s', b⟩ := x
            cases b with
            | false => rfl
            | true =>
              simp only [res_mk, optRes_some]
              rw [← mintInsert_dim]
              rfl

theorem updateNftMetadata_dim (E : Env H) (s : State H) (caller : Principal) (now tid : Nat) (kvs : List (String × Value)) :
    updateNftMetadata E (dim s) caller now tid kvs = optRes (updateNftMetadata E s caller now tid kvs) := by
  refine withGuard_dim s caller fun s => ?_
  simp only [dim_tokens, show (dim s).mdata = s.mdata from rfl]
  cases s.tokens.get tid with
  | none => rfl
  | some t =>
    dsimp only
    cases replaceMetadata s.mdata t.id kvs with
    | none => rfl
    | some md =>
      dsimp only
      have hx := addTx_dim E.ledger { s with mdata := md }
          { op := .updateToken, ts := now, tid := some tid, from_ := some ⟨caller, none⟩,
            meta_ := some ((getAllData s.mdata tid).getD [], (getAllData md tid).getD []), createdAt := some now }
      change addTx E.ledger { dim s with mdata := md } _ = _ at hx
      change (match addTx E.ledger { dim s with mdata := md } _ with
        | (s, .error _) => _
        | (s, .ok _) => _) = _
      rw [hx]
      clear hx
      generalize addTx E.ledger _ _ = x
      obtain ⟨s', e | j⟩ := x <;> rfl

theorem burnNft_dim (E : Env H) (s : State H) (caller : Principal) (now tid : Nat) :
    burnNft E (dim s) caller now tid = optRes (burnNft E s caller now tid) := by
  refine withGuard_dim s caller fun s => ?_
  simp only [dim_tokens]
  cases s.tokens.get tid with
  | none => rfl
  | some t =>
    dsimp only
    split
    · rfl
    · rw [addTx_dim]
      generalize addTx E.ledger _ _ = x
      obtain ⟨s', e | j⟩ := x <;> rfl

theorem setIf_rules {A : Type} (o : Option A) (f : A → Config → Config)
    (hf : ∀ v c, f v (rules c) = rules (f v c)) (c c' : Config) (hc : rules c' = rules c) :
    rules (setIf o f c') = rules (setIf o f c) := by
  cases o with
  | none => exact hc
  | some v =>
    show rules (f v c') = rules (f v c)
    rw [← hf, ← hf, hc]

theorem setIf_shown {A : Type} (o o' : Option A) (ho : o' = none) (f : A → Config → Config)
    (hf : ∀ v c, rules (f v c) = rules c) (c c' : Config) (hc : rules c' = rules c) :
    rules (setIf o' f c') = rules (setIf o f c) := by
  subst ho
  cases o with
  | none => exact hc
  | some v => exact hc.trans (hf v c).symm

theorem applyUpdate_rules (c c' : Config) (a a' : UpdateCollArg) (hc : rules c' = rules c) (ha : rulingArg a' = rulingArg a) :
    rules (applyUpdate c' a') = rules (applyUpdate c a) := by
  have key : ∀ (c c' : Config) (a : UpdateCollArg), rules c' = rules c →
      rules (applyUpdate c' (rulingArg a)) = rules (applyUpdate c a) := by
    intro c c' a hc
    unfold applyUpdate
    dsimp only
    refine setIf_shown _ _ rfl _ ?_ _ _ ?_
    · intro _ _; rfl
    refine setIf_rules _ _ ?_ _ _ ?_
    · intro _ _; rfl
    refine setIf_rules _ _ ?_ _ _ ?_
    · intro _ _; rfl
    refine setIf_rules _ _ ?_ _ _ ?_
    · intro _ _; rfl
    refine setIf_rules _ _ ?_ _ _ ?_
    · intro _ _; rfl
    refine setIf_shown _ _ rfl _ ?_ _ _ ?_
    · intro _ _; rfl
    refine setIf_shown _ _ rfl _ ?_ _ _ ?_
    · intro _ _; rfl
    refine setIf_rules _ _ ?_ _ _ ?_
    · intro _ _; rfl
    refine setIf_shown _ _ rfl _ ?_ _ _ ?_
    · intro _ _; rfl
    refine setIf_rules _ _ ?_ _ _ ?_
    · intro _ _; rfl
    iterate 4
      refine setIf_shown _ _ rfl _ ?_ _ _ ?_
      · intro _ _; rfl
    exact hc
  rw [← key c' c' a' rfl, ha, key c c' a hc]

/-! ### Uploads -/

/-- The first segment of an asynchronous method. -/
def started : Started H → Started H
  | .done s x => .done (dim s) x
  | .suspended s => .suspended (dim s)

theorem withGuardAsync_dim (s : State H) (p : Principal) {b : State H → State H × (Except MgmtErr MgmtOk ⊕ Pending)}
    (h : ∀ s, b (dim s) = res (b s)) : withGuardAsync (dim s) p b = started (withGuardAsync s p b) := by
  unfold withGuardAsync
  rw [guardEnter_dim]
  cases guardEnter s p with
  | none => rfl
  | some s =>
    simp only [Option.map_some, h]
    generalize b s = x
    obtain ⟨s, e | q⟩ := x <;> rfl

theorem callStorage_dim (s : State H) (key : String) (u : Upload) (p : Pending) :
    callStorage (dim s) key u p = res (callStorage s key u p) := by
  unfold callStorage
  rw [show (dim s).subs = s.subs from rfl]
  cases getSub s.subs u.canister with
  | none => rfl
  | some c =>
    simp only
    split <;> rfl

theorem initUpload_dim (s : State H) (caller : Principal) (path : String) (n : Nat) :
    initUpload (dim s) caller path n = started (initUpload s caller path n) := by
  refine withGuardAsync_dim s caller fun s => ?_
  rw [show (dim s).uploads = s.uploads from rfl]
  split
  · rfl
  · split <;> rfl

theorem storeChunk_dim (s : State H) (caller : Principal) (key : String) :
    storeChunk (dim s) caller key = started (storeChunk s caller key) := by
  refine withGuardAsync_dim s caller fun s => ?_
  simp only [show (dim s).uploads = s.uploads from rfl, callStorage_dim]
  cases s.uploads.get key with
  | none => rfl
  | some u => simp only; cases u.state <;> rfl

theorem finalizeUpload_dim (s : State H) (caller : Principal) (key : String) :
    finalizeUpload (dim s) caller key = started (finalizeUpload s caller key) := by
  refine withGuardAsync_dim s caller fun s => ?_
  simp only [show (dim s).uploads = s.uploads from rfl, callStorage_dim]
  cases s.uploads.get key with
  | none => rfl
  | some u => simp only; cases u.state <;> rfl

theorem cancelUpload_dim (s : State H) (caller : Principal) (key : String) :
    cancelUpload (dim s) caller key = started (cancelUpload s caller key) := by
  refine withGuardAsync_dim s caller fun s => ?_
  simp only [show (dim s).uploads = s.uploads from rfl, callStorage_dim]
  cases s.uploads.get key with
  | none => rfl
  | some u => simp only; cases u.state <;> rfl

theorem resumeBody_dim (E : Env H) (s : State H) (now : Nat) (p : Pending) (a : Answer) :
    resumeBody E (dim s) now p a = res (resumeBody E s now p a) := by
  cases p with
  | init c path n subs =>
    simp only [resumeBody]
    cases managerInitUpload a subs n <;> rfl
  | store c key u => simp only [resumeBody]; cases a.resp <;> rfl
  | finalize c key u => simp only [resumeBody]; cases a.resp <;> rfl
  | cancel c key u => simp only [resumeBody]; cases a.resp <;> rfl

theorem ofMgmt_dim (s : State H) (x : Option (MgmtRes H)) : ofMgmt (dim s) (optRes x) = res (ofMgmt s x) := by
  cases x <;> rfl

theorem ofStarted_dim (x : Started H) : ofStarted (started x) = res (ofStarted x) := by
  cases x <;> rfl

/-! ### The whole canister -/

theorem exec_dim (E : Env H) (s : State H) (caller : Principal) (now : Nat) (c : Call)
    (hc : ∀ a, c ≠ .updateCollectionMetadata a) : exec E (dim s) caller now c = res (exec E s caller now c) := by
  cases c with
  | transfer args => simp only [exec]; rw [icrc7Transfer_dim, ofBatch_dim]
  | approveTokens args =>
    simp only [exec, icrc37ApproveTokens]
    rw [runBatch_dim (fun s a => approveToken_dim E.ledger s caller now a) s, ofBatch_dim]
  | approveCollection args =>
    simp only [exec, icrc37ApproveCollection]
    rw [runBatch_dim (f := fun s a => some (approveCollection E.ledger s caller now a))
      (fun s a => by rw [approveCollection_dim E.ledger s]; rfl) s, ofBatch_dim]
  | revokeTokens args =>
    simp only [exec]
    rw [icrc37RevokeTokens_dim]
    cases icrc37RevokeTokens E.ledger s caller now args with
    | none => rfl
    | some x => obtain ⟨s, e | y⟩ := x <;> rfl
  | revokeCollection args =>
    simp only [exec, icrc37RevokeCollection, dim_cfg, maxRevoke_rules]
    rw [runBatch_dim (f := fun s a => some (revokeCollection E.ledger s caller now a))
      (fun s a => by rw [revokeCollection_dim E.ledger s]; rfl) s, ofBatch_dim]
  | transferFrom args =>
    simp only [exec, icrc37TransferFrom]
    rw [runBatch_dim (fun s a => transferFrom_dim E.ledger s caller now a) s, ofBatch_dim]
  | updateCollectionMetadata a => exact absurd rfl (hc a)
  | mint reqs => simp only [exec, mint_dim, ofMgmt_dim]
  | updateNftMetadata tid kvs => simp only [exec, updateNftMetadata_dim, ofMgmt_dim]
  | burn tid => simp only [exec, burnNft_dim, ofMgmt_dim]
  | initUpload path n => simp only [exec, initUpload_dim, ofStarted_dim]
  | storeChunk path => simp only [exec, storeChunk_dim, ofStarted_dim]
  | finalizeUpload path => simp only [exec, finalizeUpload_dim, ofStarted_dim]
  | cancelUpload path => simp only [exec, cancelUpload_dim, ofStarted_dim]
  | grant p x =>
    simp only [exec, grant]
    rw [withGuard_dim s caller (b := fun s => some ({ s with perms := grantPermission s.perms p x }, .ok .unit))
      (fun s => rfl), ofMgmt_dim]
  | revoke p x =>
    simp only [exec, revoke]
    rw [withGuard_dim s caller (b := fun s => some ({ s with perms := revokePermission s.perms p x }, .ok .unit))
      (fun s => rfl), ofMgmt_dim]

theorem step_dim (E : Env H) (s : State H) (m : Msg) (hm : ∀ c now a, m ≠ .call c now (.updateCollectionMetadata a)) :
    step E (dim s) m = res (step E s m) := by
  cases m with
  | call caller now c =>
    simp only [step, execCall, show (dim s).perms = s.perms from rfl]
    rw [exec_dim E s caller now c (fun a h => hm _ _ a (by rw [h]))]
    cases c.needs with
    | none => rfl
    | some p =>
      simp only
      split <;> rfl
  | resume now i ans =>
    simp only [step, show (dim s).pending = s.pending from rfl]
    cases s.pending[i]? with
    | none => rfl
    | some p =>
      dsimp only
      rw [show ({ dim s with pending := s.pending.eraseIdx i } : State H) = dim { s with pending := s.pending.eraseIdx i } from rfl,
        resumeBody_dim]
      rfl
  | resumeTrap i =>
    simp only [step, show (dim s).pending = s.pending from rfl]
    cases s.pending[i]? <;> rfl
  | upgrade => rfl

theorem update_dim (E : Env H) {s s' : State H} (hs : dim s' = dim s) (c : Principal) (now : Nat) {a a' : UpdateCollArg}
    (ha : rulingArg a' = rulingArg a) :
    res (step E s' (.call c now (.updateCollectionMetadata a'))) = res (step E s (.call c now (.updateCollectionMetadata a))) := by
  have hk : rules s'.cfg = rules s.cfg := congrArg (fun t : State H => t.cfg) hs
  have hc : rules (applyUpdate s'.cfg a') = rules (applyUpdate s.cfg a) := applyUpdate_rules _ _ _ _ hk ha
  have es := (dim_iff.2 hs).2
  generalize s'.cfg = c' at hk hc es
  subst es
  simp only [step, execCall, Call.needs, exec, updateCollectionMetadata, withGuard, guardEnter]
  split
  · by_cases h : maxConcurrent ≤ s.guards.length
    · simp only [if_pos h, ofMgmt, res_mk, hs]
    · simp only [if_neg h, ofMgmt, res_mk, dim, guardLeave, hc]
  · simp only [res_mk, hs]

/-- Two histories. -/
theorem run_dim (E : Env H) {s s' : State H} (hs : dim s' = dim s) (msgs msgs' : List Msg)
    (hm : msgs'.map rulingMsg = msgs.map rulingMsg) :
    replies E s' msgs' = replies E s msgs ∧ dim (run E s' msgs') = dim (run E s msgs) := by
  induction msgs generalizing s s' msgs' with
  | nil =>
    cases msgs' with
    | nil => exact ⟨rfl, hs⟩
    | cons m ms => simp at hm
  | cons m ms ih =>
    cases msgs' with
    | nil => simp at hm
    | cons m' ms' =>
      simp only [List.map_cons, List.cons.injEq] at hm
      have hstep : res (step E s' m') = res (step E s m) := by
        by_cases hu : ∃ c now a, m = .call c now (.updateCollectionMetadata a)
        · obtain ⟨c, now, a, rfl⟩ := hu
          obtain ⟨a', rfl, ha⟩ : ∃ a', m' = .call c now (.updateCollectionMetadata a') ∧ rulingArg a' = rulingArg a := by
            have h1 := hm.1
            cases m' with
            | call c' now' x =>
              cases x with
              | updateCollectionMetadata a' =>
                simp only [rulingMsg, Msg.call.injEq, Call.updateCollectionMetadata.injEq] at h1
                obtain ⟨rfl, rfl, h2⟩ := h1
                exact ⟨a', rfl, h2⟩
              | _ => simp [rulingMsg] at h1
            | _ => simp [rulingMsg] at h1
          exact update_dim E hs c now ha
        · have hn : ∀ c now a, m ≠ .call c now (.updateCollectionMetadata a) := fun c now a h => hu ⟨c, now, a, h⟩
          have hr : rulingMsg m = m := by
            unfold rulingMsg
            split
            · exact absurd rfl (hn _ _ _)
            · rfl
          have hm' : m' = m := by
            have h1 := hm.1
            rw [hr] at h1
            unfold rulingMsg at h1
            split at h1
            · exact absurd h1.symm (hn _ _ _)
            · exact h1
          subst hm'
          rw [← step_dim E s' m' hn, ← step_dim E s m' hn, hs]
      have h1 : dim (step E s' m').1 = dim (step E s m).1 := congrArg Prod.fst hstep
      have h2 : (step E s' m').2 = (step E s m).2 := congrArg (fun x => x.2) hstep
      obtain ⟨h3, h4⟩ := ih h1 ms' hm.2
      exact ⟨by simp only [replies, h2, h3], h4⟩

end Verif.Spec.Display
