import Verif.Spec.Background
/-!
# Trades do not look behind the floor: helper lemmas
-/
namespace Verif.Spec.Background

variable {H : Type}

/-- Everything behind the floor wiped out. -/
def floor (s : State H) : State H :=
  { s with perms := ∅, subs := [], redirects := ∅, guards := [], uploads := ∅, mdata := ∅, router := ∅, pending := [] }

/-- A result whose first part is a state. -/
def res {R : Type} (x : State H × R) : State H × R := (floor x.1, x.2)

/-- A possibly trapped result. -/
def optRes {R : Type} (x : Option (State H × R)) : Option (State H × R) := x.map res

@[simp] theorem optRes_none {R : Type} : optRes (none : Option (State H × R)) = none := rfl
@[simp] theorem optRes_some {R : Type} (s : State H) (x : R) : optRes (some (s, x)) = some (floor s, x) := rfl
@[simp] theorem res_mk {R : Type} (s : State H) (x : R) : res (s, x) = (floor s, x) := rfl

@[simp] theorem floor_cfg (s : State H) : (floor s).cfg = s.cfg := rfl
@[simp] theorem floor_tokens (s : State H) : (floor s).tokens = s.tokens := rfl
@[simp] theorem floor_hid (s : State H) : (floor s).hid = s.hid := rfl
@[simp] theorem floor_tokAppr (s : State H) : (floor s).tokAppr = s.tokAppr := rfl
@[simp] theorem floor_collAppr (s : State H) : (floor s).collAppr = s.collAppr := rfl

theorem floor_iff {s s' : State H} : SameFloor s s' ↔ floor s' = floor s := by
  constructor
  · intro h
    cases s; cases s'
    obtain ⟨h1, h2, h3, h4, h5, h6, h7, h8, h9⟩ := h
    dsimp only at *
    subst h1 h2 h3 h4 h5 h6 h7 h8 h9
    rfl
  · intro h
    have e : ∀ {B : Type} (f : State H → B), f (floor s') = f (floor s) := fun f => congrArg f h
    exact ⟨e State.cfg, e State.tokens, e State.byOwner, e State.lastId, e State.windows,
      e State.tokAppr, e State.collAppr, e State.hid, e State.log⟩

theorem guardWindow_floor (s : State H) (now tid : Nat) : guardWindow (floor s) now tid = res (guardWindow s now tid) := rfl

theorem addTx_floor (L : Ledger H) (s : State H) (t : Tx) : addTx L (floor s) t = res (addTx L s t) := by
  simp only [addTx, floor_hid]
  generalize L.add s.hid t = x
  obtain ⟨h, _ | i⟩ := x <;> rfl

theorem putTokAppr_floor (s : State H) (tid : Nat) (m : Map Account Approval) :
    putTokAppr (floor s) tid m = (putTokAppr s tid m).map floor := by
  unfold putTokAppr
  split <;> rfl

theorem transferNft_floor (L : Ledger H) (s : State H) (caller : Principal) (now : Nat) (a : TransferArg) :
    transferNft L (floor s) caller now a = optRes (transferNft L s caller now a) := by
  unfold transferNft
  obtain ⟨s₁, ok, hx⟩ : ∃ s₁ ok, guardWindow s now a.tid = (s₁, ok) := ⟨_, _, rfl⟩
  rw [guardWindow_floor, hx]
  clear hx
  revert s₁
  intro s
  cases ok with
  | false => rfl
  | true =>
    simp only [res_mk, Bool.not_true, Bool.false_eq_true, if_false, floor_tokens, floor_cfg]
    cases s.tokens.get a.tid with
    | none => rfl
    | some nft =>
      dsimp only
      cases checkMemo s.cfg a.memo with
      | none => rfl
      | some b =>
        cases b with
        | false => rfl
        | true =>
          dsimp only
          split
          · rfl
          · cases transferTiming s.cfg now (a.createdAt.getD now) with
            | none => rfl
            | some o =>
              cases o with
              | some e => rfl
              | none =>
                dsimp only
                rw [addTx_floor]
                generalize addTx L s _ = y
                obtain ⟨s, e | i⟩ := y
                · cases e <;> rfl
                · rfl

theorem runBatch_floor {A R : Type} {f : State H → A → Option (State H × R)}
    (h : ∀ s a, f (floor s) a = optRes (f s a)) (s : State H) (l : List A) :
    runBatch f (floor s) l = optRes (runBatch f s l) := by
  induction l generalizing s with
  | nil => rfl
  | cons a l ih =>
    simp only [runBatch, h s a]
    cases f s a with
    | none => rfl
    | some x =>
      obtain ⟨s', y⟩ := x
      simp only [optRes_some, ih s']
      cases runBatch f s' l with
      | none => rfl
      | some x => obtain ⟨s, y⟩ := x; rfl

theorem icrc7Transfer_floor (L : Ledger H) (s : State H) (caller : Principal) (now : Nat) (args : List TransferArg) :
    icrc7Transfer L (floor s) caller now args = optRes (icrc7Transfer L s caller now args) := by
  unfold icrc7Transfer
  rw [floor_cfg]
  split
  · rfl
  · split
    · rfl
    · split
      · rfl
      · split
        · rfl
        · exact runBatch_floor (fun s a => transferNft_floor L s caller now a) s _

theorem approveToken_floor (L : Ledger H) (s : State H) (caller : Principal) (now : Nat) (a : ApproveTokenArg) :
    approveToken L (floor s) caller now a = optRes (approveToken L s caller now a) := by
  unfold approveToken
  obtain ⟨s₁, ok, hx⟩ : ∃ s₁ ok, guardWindow s now a.tid = (s₁, ok) := ⟨_, _, rfl⟩
  rw [guardWindow_floor, hx]
  clear hx
  revert s₁
  intro s
  cases ok with
  | false => rfl
  | true =>
    rw [res_mk]
    dsimp only
    rw [floor_cfg, floor_tokAppr]
    simp only [Bool.not_true, Bool.false_eq_true, if_false]
    rw [show ownerOf (floor s) a.tid = ownerOf s a.tid from rfl]
    cases verifyTiming s.cfg a.info.createdAt now with
    | some e => rfl
    | none =>
      dsimp only
      cases ownerOf s a.tid with
      | none => rfl
      | some owner =>
        dsimp only
        split
        · rfl
        · split
          · rfl
          · split
            · rfl
            · rw [addTx_floor]
              generalize addTx L s _ = y
              obtain ⟨s, e | i⟩ := y
              · rfl
              · simp only [res_mk, floor_tokAppr, putTokAppr_floor]
                cases putTokAppr s a.tid _ <;> rfl

theorem approveCollection_floor (L : Ledger H) (s : State H) (caller : Principal) (now : Nat) (a : ApprovalInfo) :
    approveCollection L (floor s) caller now a = res (approveCollection L s caller now a) := by
  unfold approveCollection
  obtain ⟨s₁, ok, hx⟩ : ∃ s₁ ok, guardWindow s now 0 = (s₁, ok) := ⟨_, _, rfl⟩
  rw [guardWindow_floor, hx]
  clear hx
  revert s₁
  intro s
  cases ok with
  | false => rfl
  | true =>
    rw [res_mk]
    dsimp only
    rw [floor_cfg, floor_collAppr, floor_tokens]
    simp only [Bool.not_true, Bool.false_eq_true, if_false]
    cases verifyTiming s.cfg a.createdAt now with
    | some e => rfl
    | none =>
      dsimp only
      split
      · rfl
      · split
        · rfl
        · split
          · rfl
          · rw [addTx_floor]
            generalize addTx L s _ = y
            obtain ⟨s, e | i⟩ := y <;> rfl

theorem revokeToken_floor (L : Ledger H) (s : State H) (caller : Principal) (now : Nat) (a : RevokeTokenArg) :
    revokeToken L (floor s) caller now a = optRes (revokeToken L s caller now a) := by
  unfold revokeToken
  rw [floor_cfg, show ownerOf (floor s) a.tid = ownerOf s a.tid from rfl, floor_tokAppr]
  cases verifyTimingOpt s.cfg a.createdAt now with
  | some e => rfl
  | none =>
    dsimp only
    cases ownerOf s a.tid with
    | none => rfl
    | some owner =>
      dsimp only
      split
      · rfl
      · cases s.tokAppr.get a.tid with
        | none => rfl
        | some m =>
          dsimp only
          rw [addTx_floor]
          generalize addTx L s _ = y
          obtain ⟨s, e | i⟩ := y
          · rfl
          · simp only [res_mk, putTokAppr_floor]
            cases putTokAppr s a.tid _ <;> rfl

theorem revokeCollection_floor (L : Ledger H) (s : State H) (caller : Principal) (now : Nat) (a : RevokeCollArg) :
    revokeCollection L (floor s) caller now a = res (revokeCollection L s caller now a) := by
  unfold revokeCollection
  obtain ⟨s₁, ok, hx⟩ : ∃ s₁ ok, guardWindow s now 0 = (s₁, ok) := ⟨_, _, rfl⟩
  rw [guardWindow_floor, hx]
  clear hx
  revert s₁
  intro s
  cases ok with
  | false => rfl
  | true =>
    rw [res_mk]
    dsimp only
    rw [floor_cfg, floor_collAppr]
    simp only [Bool.not_true, Bool.false_eq_true, if_false]
    cases verifyTimingOpt s.cfg a.createdAt now with
    | some e => rfl
    | none =>
      dsimp only
      cases s.collAppr.get ⟨caller, none⟩ with
      | none => rfl
      | some m =>
        dsimp only
        rw [addTx_floor]
        generalize addTx L s _ = y
        obtain ⟨s, e | i⟩ := y <;> rfl

theorem checkTokenApproval_floor (s : State H) (now tid : Nat) (a : Account) :
    checkTokenApproval (floor s) now tid a = optRes (checkTokenApproval s now tid a) := by
  unfold checkTokenApproval
  rw [floor_tokAppr]
  cases s.tokAppr.get tid with
  | none => rfl
  | some m =>
    dsimp only
    cases m.get a with
    | none => rfl
    | some b =>
      dsimp only
      split
      · rw [putTokAppr_floor]
        cases putTokAppr s tid _ <;> rfl
      · rfl

theorem checkCollApproval_floor (s : State H) (now : Nat) (o a : Account) :
    checkCollApproval (floor s) now o a = res (checkCollApproval s now o a) := by
  unfold checkCollApproval
  rw [floor_collAppr]
  cases s.collAppr.get o with
  | none => rfl
  | some m =>
    dsimp only
    cases m.get a with
    | none => rfl
    | some b =>
      dsimp only
      split <;> rfl

theorem transferFrom_floor (L : Ledger H) (s : State H) (caller : Principal) (now : Nat) (a : TransferFromArg) :
    transferFrom L (floor s) caller now a = optRes (transferFrom L s caller now a) := by
  unfold transferFrom
  obtain ⟨s₁, ok, hx⟩ : ∃ s₁ ok, guardWindow s now a.tid = (s₁, ok) := ⟨_, _, rfl⟩
  rw [guardWindow_floor, hx]
  clear hx
  revert s₁
  intro s
  cases ok with
  | false => rfl
  | true =>
    rw [res_mk]
    dsimp only
    rw [floor_cfg, floor_tokens]
    simp only [Bool.not_true, Bool.false_eq_true, if_false]
    cases verifyTimingOpt s.cfg a.createdAt now with
    | some e => rfl
    | none =>
      dsimp only
      cases s.tokens.get a.tid with
      | none => rfl
      | some nft =>
        dsimp only
        rw [checkTokenApproval_floor]
        split
        · rfl
        · split
          · rfl
          · cases checkTokenApproval s now a.tid ⟨caller, a.spenderSub⟩ with
            | none => rfl
            | some x =>
              obtain ⟨s, hasTok⟩ := x
              simp only [optRes_some]
              rw [checkCollApproval_floor]
              generalize checkCollApproval s now nft.owner ⟨caller, a.spenderSub⟩ = y
              obtain ⟨s, hasColl⟩ := y
              rw [res_mk]
              dsimp only
              split
              · rfl
              · rw [addTx_floor]
                generalize addTx L s _ = z
                obtain ⟨s, e | i⟩ := z
                · rfl
                · simp only [res_mk, Map.get_del_self, Option.isSome_none, Bool.not_false, if_true]
                  rfl

theorem icrc37RevokeTokens_floor (L : Ledger H) (s : State H) (caller : Principal) (now : Nat) (args : List RevokeTokenArg) :
    icrc37RevokeTokens L (floor s) caller now args = optRes (icrc37RevokeTokens L s caller now args) := by
  unfold icrc37RevokeTokens
  cases args with
  | nil => rfl
  | cons a l =>
    obtain ⟨s₁, ok, hx⟩ : ∃ s₁ ok, guardWindow s now a.tid = (s₁, ok) := ⟨_, _, rfl⟩
    dsimp only
    rw [guardWindow_floor, hx]
    clear hx
    revert s₁
    intro s
    cases ok with
    | false => rfl
    | true =>
      rw [res_mk]
      dsimp only
      rw [floor_cfg]
      simp only [Bool.not_true, Bool.false_eq_true, if_false]
      rw [runBatch_floor (fun s a => revokeToken_floor L s caller now a) s]
      cases runBatch (fun s a => revokeToken L s caller now a) s (List.take (maxRevoke s.cfg) (a :: l)) with
      | none => rfl
      | some x => obtain ⟨s, y⟩ := x; rfl

theorem ofBatch_floor (s : State H) (x : Option (State H × List (Except TokErr Nat))) :
    ofBatch (floor s) (optRes x) = res (ofBatch s x) := by
  cases x with
  | none => rfl
  | some y => rfl

/-- A trade. -/
theorem trade_floor (E : Env H) (s : State H) {m : Msg} (hm : isTrade m = true) :
    step E (floor s) m = res (step E s m) := by
  cases m with
  | call caller now c =>
    cases c with
    | transfer args =>
      simp only [step, execCall, Call.needs, exec]
      rw [icrc7Transfer_floor, ofBatch_floor]
    | approveTokens args =>
      simp only [step, execCall, Call.needs, exec, icrc37ApproveTokens]
      rw [runBatch_floor (fun s a => approveToken_floor E.ledger s caller now a) s, ofBatch_floor]
    | approveCollection args =>
      simp only [step, execCall, Call.needs, exec, icrc37ApproveCollection]
      rw [runBatch_floor (f := fun s a => some (approveCollection E.ledger s caller now a))
        (fun s a => by rw [approveCollection_floor E.ledger s]; rfl) s, ofBatch_floor]
    | revokeTokens args =>
      simp only [step, execCall, Call.needs, exec]
      rw [icrc37RevokeTokens_floor]
      cases icrc37RevokeTokens E.ledger s caller now args with
      | none => rfl
      | some x => obtain ⟨s, e | y⟩ := x <;> rfl
    | revokeCollection args =>
      simp only [step, execCall, Call.needs, exec, icrc37RevokeCollection, floor_cfg]
      rw [runBatch_floor (f := fun s a => some (revokeCollection E.ledger s caller now a))
        (fun s a => by rw [revokeCollection_floor E.ledger s]; rfl) s, ofBatch_floor]
    | transferFrom args =>
      simp only [step, execCall, Call.needs, exec, icrc37TransferFrom]
      rw [runBatch_floor (fun s a => transferFrom_floor E.ledger s caller now a) s, ofBatch_floor]
    | _ => cases hm
  | _ => cases hm

/-! ### Behind the floor -/

theorem guardEnter_kept {s s' : State H} {p : Principal} (h : guardEnter s p = some s') : floor s' = floor s := by
  unfold guardEnter at h
  split at h
  · cases h
  · cases h; rfl

theorem callStorage_kept (s : State H) (key : String) (u : Upload) (p : Pending) :
    floor (callStorage s key u p).1 = floor s := by
  unfold callStorage
  split
  · rfl
  · split <;> rfl

theorem withGuardAsync_kept (s : State H) (p : Principal) (b : State H → State H × (Except MgmtErr MgmtOk ⊕ Pending))
    (h : ∀ s, floor (b s).1 = floor s) : floor (ofStarted (withGuardAsync s p b)).1 = floor s := by
  unfold withGuardAsync
  cases hg : guardEnter s p with
  | none => rfl
  | some s₁ =>
    have hk := guardEnter_kept hg
    have h1 := h s₁
    dsimp only
    generalize b s₁ = x at h1
    obtain ⟨s₂, e | q⟩ := x <;> exact Eq.trans h1 hk

theorem resumeBody_kept (E : Env H) (s : State H) (now : Nat) (p : Pending) (a : Answer) :
    floor (resumeBody E s now p a).1 = floor s := by
  cases p with
  | init c path n subs =>
    simp only [resumeBody]
    cases managerInitUpload a subs n <;> rfl
  | store c key u => simp only [resumeBody]; cases a.resp <;> rfl
  | finalize c key u => simp only [resumeBody]; cases a.resp <;> rfl
  | cancel c key u => simp only [resumeBody]; cases a.resp <;> rfl

/-- A message from the background. -/
theorem background_kept (E : Env H) (s : State H) {m : Msg} (hm : isBackground m = true) :
    floor (step E s m).1 = floor s := by
  cases m with
  | call caller now c =>
    simp only [step, execCall]
    have hx : floor (exec E s caller now c).1 = floor s := by
      cases c with
      | initUpload path n =>
        refine withGuardAsync_kept s caller _ fun s => ?_
        split
        · rfl
        · split <;> rfl
      | storeChunk path =>
        refine withGuardAsync_kept s caller _ fun s => ?_
        split
        · rfl
        · split
          all_goals first | rfl | exact callStorage_kept _ _ _ _
      | finalizeUpload path =>
        refine withGuardAsync_kept s caller _ fun s => ?_
        split
        · rfl
        · split
          all_goals first | rfl | exact callStorage_kept _ _ _ _
      | cancelUpload path =>
        refine withGuardAsync_kept s caller _ fun s => ?_
        split
        · rfl
        · split
          all_goals first | rfl | exact callStorage_kept _ _ _ _
      | grant p x =>
        simp only [exec, grant, withGuard]
        cases hg : guardEnter s caller with
        | none => rfl
        | some s₁ =>
          show floor s₁ = floor s
          exact guardEnter_kept hg
      | revoke p x =>
        simp only [exec, revoke, withGuard]
        cases hg : guardEnter s caller with
        | none => rfl
        | some s₁ =>
          show floor s₁ = floor s
          exact guardEnter_kept hg
      | _ => cases hm
    split
    · split
      · exact hx
      · rfl
    · exact hx
  | resume now i ans =>
    simp only [step]
    cases s.pending[i]? with
    | none => rfl
    | some p => exact resumeBody_kept E { s with pending := s.pending.eraseIdx i } now p ans
  | resumeTrap i =>
    simp only [step]
    cases s.pending[i]? <;> rfl
  | upgrade => rfl

end Verif.Spec.Background
