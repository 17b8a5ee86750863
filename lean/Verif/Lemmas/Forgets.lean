import Verif.Lemmas.Windows
import Verif.Spec.Forgets
/-!
# Only calls less than 60 ms old count: helper lemmas
-/
namespace Verif.Spec.Forgets

variable {H : Type}

/-- The state with another table of remembered calls. -/
def ww (q : Map Nat (List Nat)) (s : State H) : State H := { s with windows := q }

/-- A result whose first part is a state. -/
def res {R : Type} (q : Map Nat (List Nat)) (x : State H × R) : State H × R := (ww q x.1, x.2)

/-- A possibly trapped result. -/
def optRes {R : Type} (q : Map Nat (List Nat)) (x : Option (State H × R)) : Option (State H × R) := x.map (res q)

theorem res_mk {R : Type} (q : Map Nat (List Nat)) (s : State H) (x : R) : res q (s, x) = (ww q s, x) := rfl
theorem optRes_some {R : Type} (q : Map Nat (List Nat)) (s : State H) (x : R) :
    optRes q (some (s, x)) = some (ww q s, x) := rfl
theorem ww_cfg (q : Map Nat (List Nat)) (s : State H) : (ww q s).cfg = s.cfg := rfl
theorem ww_tokens (q : Map Nat (List Nat)) (s : State H) : (ww q s).tokens = s.tokens := rfl

theorem addTx_ww (q : Map Nat (List Nat)) (L : Ledger H) (s : State H) (t : Tx) :
    addTx L (ww q s) t = res q (addTx L s t) := by
  simp only [addTx, show (ww q s).hid = s.hid from rfl]
  generalize L.add s.hid t = x
  obtain ⟨h, _ | i⟩ := x <;> rfl

theorem guardEnter_ww (q : Map Nat (List Nat)) (s : State H) (p : Principal) : guardEnter (ww q s) p = (guardEnter s p).map (ww q) := by
  unfold guardEnter
  rw [show (ww q s).guards = s.guards from rfl]
  split <;> rfl

theorem withGuard_ww (q : Map Nat (List Nat)) (s : State H) (p : Principal) {b' b : State H → Option (MgmtRes H)}
    (h : ∀ s, b' (ww q s) = optRes q (b s)) : withGuard (ww q s) p b' = optRes q (withGuard s p b) := by
  unfold withGuard
  rw [guardEnter_ww q]
  cases guardEnter s p with
  | none => rfl
  | some s =>
    simp only [Option.map_some, h]
    cases b s with
    | none => rfl
    | some x => obtain ⟨s, y⟩ := x; rfl

theorem mintTxs_ww (q : Map Nat (List Nat)) (L : Ledger H) (s : State H) (now i : Nat) (l : List MintReq) :
    mintTxs L (ww q s) now i l = res q (mintTxs L s now i l) := by
  induction l generalizing s i with
  | nil => rfl
  | cons a l ih =>
    simp only [mintTxs]
    rw [addTx_ww q]
    generalize addTx L s _ = x
    obtain ⟨s, e | j⟩ := x
    · rfl
    · exact ih s (i + 1)

theorem mintInsert_ww (q : Map Nat (List Nat)) (s : State H) (i : Nat) (l : List MintReq) : mintInsert (ww q s) i l = ww q (mintInsert s i l) := by
  induction l generalizing s i with
  | nil => rfl
  | cons a l ih =>
    simp only [mintInsert]
    rw [← ih]
    rfl

theorem mint_ww (q : Map Nat (List Nat)) (E : Env H) (s : State H) (caller : Principal) (now : Nat) (l : List MintReq) :
    mint E (ww q s) caller now l = optRes q (mint E s caller now l) := by
  refine withGuard_ww q s caller fun s => ?_
  rw [ww_cfg, ww_tokens]
  split
  · rfl
  · split
    · rfl
    · cases checkMemos s.cfg l with
      | none => rfl
      | some b =>
        cases b with
        | false => rfl
        | true =>
          simp only [show (ww q s).mdata = s.mdata from rfl, show (ww q s).lastId = s.lastId from rfl]
          cases mintMetadata s.mdata s.lastId l with
          | none => rfl
          | some md =>
            dsimp only
            have hx := mintTxs_ww q E.ledger { s with mdata := md } now s.lastId l
            change mintTxs E.ledger { ww q s with mdata := md } now s.lastId l = _ at hx
            change (match mintTxs E.ledger { ww q s with mdata := md } now s.lastId l with
              | (s, false) => _
              | (s₁, true) => _) = _
            rw [hx]
            clear hx
            generalize mintTxs E.ledger _ _ _ _ = x
            obtain ⟨s', b⟩ := x
            cases b with
            | false => rfl
            | true =>
              simp only [res_mk, optRes_some]
              rw [← mintInsert_ww q]
              rfl

theorem updateNftMetadata_ww (q : Map Nat (List Nat)) (E : Env H) (s : State H) (caller : Principal) (now tid : Nat) (kvs : List (String × Value)) :
    updateNftMetadata E (ww q s) caller now tid kvs = optRes q (updateNftMetadata E s caller now tid kvs) := by
  refine withGuard_ww q s caller fun s => ?_
  simp only [ww_tokens, show (ww q s).mdata = s.mdata from rfl]
  cases s.tokens.get tid with
  | none => rfl
  | some t =>
    dsimp only
    cases replaceMetadata s.mdata t.id kvs with
    | none => rfl
    | some md =>
      dsimp only
      have hx := addTx_ww q E.ledger { s with mdata := md }
          { op := .updateToken, ts := now, tid := some tid, from_ := some ⟨caller, none⟩,
            meta_ := some ((getAllData s.mdata tid).getD [], (getAllData md tid).getD []), createdAt := some now }
      change addTx E.ledger { ww q s with mdata := md } _ = _ at hx
      change (match addTx E.ledger { ww q s with mdata := md } _ with
        | (s, .error _) => _
        | (s, .ok _) => _) = _
      rw [hx]
      clear hx
      generalize addTx E.ledger _ _ = x
      obtain ⟨s', e | j⟩ := x <;> rfl

theorem burnNft_ww (q : Map Nat (List Nat)) (E : Env H) (s : State H) (caller : Principal) (now tid : Nat) :
    burnNft E (ww q s) caller now tid = optRes q (burnNft E s caller now tid) := by
  refine withGuard_ww q s caller fun s => ?_
  simp only [ww_tokens]
  cases s.tokens.get tid with
  | none => rfl
  | some t =>
    dsimp only
    split
    · rfl
    · rw [addTx_ww q]
      generalize addTx E.ledger _ _ = x
      obtain ⟨s', e | j⟩ := x <;> rfl

/-- The first segment of an asynchronous method. -/
def started (q : Map Nat (List Nat)) : Started H → Started H
  | .done s x => .done (ww q s) x
  | .suspended s => .suspended (ww q s)

theorem withGuardAsync_ww (q : Map Nat (List Nat)) (s : State H) (p : Principal) {b : State H → State H × (Except MgmtErr MgmtOk ⊕ Pending)}
    (h : ∀ s, b (ww q s) = res q (b s)) : withGuardAsync (ww q s) p b = started q (withGuardAsync s p b) := by
  unfold withGuardAsync
  rw [guardEnter_ww q]
  cases guardEnter s p with
  | none => rfl
  | some s =>
    simp only [Option.map_some, h]
    generalize b s = x
    obtain ⟨s, e | q⟩ := x <;> rfl

theorem callStorage_ww (q : Map Nat (List Nat)) (s : State H) (key : String) (u : Upload) (p : Pending) :
    callStorage (ww q s) key u p = res q (callStorage s key u p) := by
  unfold callStorage
  rw [show (ww q s).subs = s.subs from rfl]
  cases getSub s.subs u.canister with
  | none => rfl
  | some c =>
    simp only
    split <;> rfl

theorem initUpload_ww (q : Map Nat (List Nat)) (s : State H) (caller : Principal) (path : String) (n : Nat) :
    initUpload (ww q s) caller path n = started q (initUpload s caller path n) := by
  refine withGuardAsync_ww q s caller fun s => ?_
  rw [show (ww q s).uploads = s.uploads from rfl]
  split
  · rfl
  · split <;> rfl

theorem storeChunk_ww (q : Map Nat (List Nat)) (s : State H) (caller : Principal) (key : String) :
    storeChunk (ww q s) caller key = started q (storeChunk s caller key) := by
  refine withGuardAsync_ww q s caller fun s => ?_
  simp only [show (ww q s).uploads = s.uploads from rfl, callStorage_ww q]
  cases s.uploads.get key with
  | none => rfl
  | some u => simp only; cases u.state <;> rfl

theorem finalizeUpload_ww (q : Map Nat (List Nat)) (s : State H) (caller : Principal) (key : String) :
    finalizeUpload (ww q s) caller key = started q (finalizeUpload s caller key) := by
  refine withGuardAsync_ww q s caller fun s => ?_
  simp only [show (ww q s).uploads = s.uploads from rfl, callStorage_ww q]
  cases s.uploads.get key with
  | none => rfl
  | some u => simp only; cases u.state <;> rfl

theorem cancelUpload_ww (q : Map Nat (List Nat)) (s : State H) (caller : Principal) (key : String) :
    cancelUpload (ww q s) caller key = started q (cancelUpload s caller key) := by
  refine withGuardAsync_ww q s caller fun s => ?_
  simp only [show (ww q s).uploads = s.uploads from rfl, callStorage_ww q]
  cases s.uploads.get key with
  | none => rfl
  | some u => simp only; cases u.state <;> rfl

theorem resumeBody_ww (q : Map Nat (List Nat)) (E : Env H) (s : State H) (now : Nat) (p : Pending) (a : Answer) :
    resumeBody E (ww q s) now p a = res q (resumeBody E s now p a) := by
  cases p with
  | init c path n subs =>
    simp only [resumeBody]
    cases managerInitUpload a subs n <;> rfl
  | store c key u => simp only [resumeBody]; cases a.resp <;> rfl
  | finalize c key u => simp only [resumeBody]; cases a.resp <;> rfl
  | cancel c key u => simp only [resumeBody]; cases a.resp <;> rfl

theorem ofMgmt_ww (q : Map Nat (List Nat)) (s : State H) (x : Option (MgmtRes H)) : ofMgmt (ww q s) (optRes q x) = res q (ofMgmt s x) := by
  cases x <;> rfl

theorem ofStarted_ww (q : Map Nat (List Nat)) (x : Started H) : ofStarted (started q x) = res q (ofStarted x) := by
  cases x <;> rfl

theorem putTokAppr_ww (q : Map Nat (List Nat)) (s : State H) (tid : Nat) (m : Map Account Approval) :
    putTokAppr (ww q s) tid m = (putTokAppr s tid m).map (ww q) := by
  unfold putTokAppr
  split <;> rfl

theorem transferNft_ww {q q₁ : Map Nat (List Nat)} (L : Ledger H) (s : State H) (caller : Principal) (now : Nat) (a : TransferArg)
    (hg : guardWindow (ww q s) now a.tid = res q₁ (guardWindow s now a.tid)) :
    transferNft L (ww q s) caller now a = optRes q₁ (transferNft L s caller now a) := by
  unfold transferNft
  obtain ⟨s₁, ok, hx⟩ : ∃ s₁ ok, guardWindow s now a.tid = (s₁, ok) := ⟨_, _, rfl⟩
  rw [hg, hx]
  clear hx hg
  revert s₁
  intro s
  cases ok with
  | false => rfl
  | true =>
    simp only [res_mk, Bool.not_true, Bool.false_eq_true, if_false, ww_tokens, ww_cfg]
    cases s.tokens.get a.tid with
    | none => rfl
    | some nft =>
      dsimp only
      cases checkMemo s.cfg a.memo with
      | none => rfl
      | some b =>
        cases b with
        | false => rfl
        | true =>
          dsimp only
          split
          · rfl
          · cases transferTiming s.cfg now (a.createdAt.getD now) with
            | none => rfl
            | some o =>
              cases o with
              | some e => rfl
              | none =>
                dsimp only
                rw [addTx_ww]
                generalize addTx L s _ = y
                obtain ⟨s, e | i⟩ := y
                · cases e <;> rfl
                · rfl

theorem approveToken_ww {q q₁ : Map Nat (List Nat)} (L : Ledger H) (s : State H) (caller : Principal) (now : Nat) (a : ApproveTokenArg)
    (hg : guardWindow (ww q s) now a.tid = res q₁ (guardWindow s now a.tid)) :
    approveToken L (ww q s) caller now a = optRes q₁ (approveToken L s caller now a) := by
  unfold approveToken
  obtain ⟨s₁, ok, hx⟩ : ∃ s₁ ok, guardWindow s now a.tid = (s₁, ok) := ⟨_, _, rfl⟩
  rw [hg, hx]
  clear hx hg
  revert s₁
  intro s
  cases ok with
  | false => rfl
  | true =>
    rw [res_mk]
    dsimp only
    rw [ww_cfg, show (ww q₁ s).tokAppr = s.tokAppr from rfl]
    simp only [Bool.not_true, Bool.false_eq_true, if_false]
    rw [show ownerOf (ww q₁ s) a.tid = ownerOf s a.tid from rfl]
    cases verifyTiming s.cfg a.info.createdAt now with
    | some e => rfl
    | none =>
      dsimp only
      cases ownerOf s a.tid with
      | none => rfl
      | some owner =>
        dsimp only
        split
        · rfl
        · split
          · rfl
          · split
            · rfl
            · rw [addTx_ww]
              generalize addTx L s _ = y
              obtain ⟨s, e | i⟩ := y
              · rfl
              · simp only [res_mk, show (ww q₁ s).tokAppr = s.tokAppr from rfl, putTokAppr_ww]
                cases putTokAppr s a.tid _ <;> rfl

theorem approveCollection_ww {q q₁ : Map Nat (List Nat)} (L : Ledger H) (s : State H) (caller : Principal) (now : Nat) (a : ApprovalInfo)
    (hg : guardWindow (ww q s) now 0 = res q₁ (guardWindow s now 0)) :
    approveCollection L (ww q s) caller now a = res q₁ (approveCollection L s caller now a) := by
  unfold approveCollection
  obtain ⟨s₁, ok, hx⟩ : ∃ s₁ ok, guardWindow s now 0 = (s₁, ok) := ⟨_, _, rfl⟩
  rw [hg, hx]
  clear hx hg
  revert s₁
  intro s
  cases ok with
  | false => rfl
  | true =>
    rw [res_mk]
    dsimp only
    rw [ww_cfg, show (ww q₁ s).collAppr = s.collAppr from rfl, ww_tokens]
    simp only [Bool.not_true, Bool.false_eq_true, if_false]
    cases verifyTiming s.cfg a.createdAt now with
    | some e => rfl
    | none =>
      dsimp only
      split
      · rfl
      · split
        · rfl
        · split
          · rfl
          · rw [addTx_ww]
            generalize addTx L s _ = y
            obtain ⟨s, e | i⟩ := y <;> rfl

theorem revokeToken_ww (q : Map Nat (List Nat)) (L : Ledger H) (s : State H) (caller : Principal) (now : Nat) (a : RevokeTokenArg) :
    revokeToken L (ww q s) caller now a = optRes q (revokeToken L s caller now a) := by
  unfold revokeToken
  rw [ww_cfg, show ownerOf (ww q s) a.tid = ownerOf s a.tid from rfl, show (ww q s).tokAppr = s.tokAppr from rfl]
  cases verifyTimingOpt s.cfg a.createdAt now with
  | some e => rfl
  | none =>
    dsimp only
    cases ownerOf s a.tid with
    | none => rfl
    | some owner =>
      dsimp only
      split
      · rfl
      · cases s.tokAppr.get a.tid with
        | none => rfl
        | some m =>
          dsimp only
          rw [addTx_ww]
          generalize addTx L s _ = y
          obtain ⟨s, e | i⟩ := y
          · rfl
          · simp only [res_mk, putTokAppr_ww]
            cases putTokAppr s a.tid _ <;> rfl

theorem revokeCollection_ww {q q₁ : Map Nat (List Nat)} (L : Ledger H) (s : State H) (caller : Principal) (now : Nat) (a : RevokeCollArg)
    (hg : guardWindow (ww q s) now 0 = res q₁ (guardWindow s now 0)) :
    revokeCollection L (ww q s) caller now a = res q₁ (revokeCollection L s caller now a) := by
  unfold revokeCollection
  obtain ⟨s₁, ok, hx⟩ : ∃ s₁ ok, guardWindow s now 0 = (s₁, ok) := ⟨_, _, rfl⟩
  rw [hg, hx]
  clear hx hg
  revert s₁
  intro s
  cases ok with
  | false => rfl
  | true =>
    rw [res_mk]
    dsimp only
    rw [ww_cfg, show (ww q₁ s).collAppr = s.collAppr from rfl]
    simp only [Bool.not_true, Bool.false_eq_true, if_false]
    cases verifyTimingOpt s.cfg a.createdAt now with
    | some e => rfl
    | none =>
      dsimp only
      cases s.collAppr.get ⟨caller, none⟩ with
      | none => rfl
      | some m =>
        dsimp only
        rw [addTx_ww]
        generalize addTx L s _ = y
        obtain ⟨s, e | i⟩ := y <;> rfl

theorem checkTokenApproval_ww (q : Map Nat (List Nat)) (s : State H) (now tid : Nat) (a : Account) :
    checkTokenApproval (ww q s) now tid a = optRes q (checkTokenApproval s now tid a) := by
  unfold checkTokenApproval
  rw [show (ww q s).tokAppr = s.tokAppr from rfl]
  cases s.tokAppr.get tid with
  | none => rfl
  | some m =>
    dsimp only
    cases m.get a with
    | none => rfl
    | some b =>
      dsimp only
      split
      · rw [putTokAppr_ww]
        cases putTokAppr s tid _ <;> rfl
      · rfl

theorem checkCollApproval_ww (q : Map Nat (List Nat)) (s : State H) (now : Nat) (o a : Account) :
    checkCollApproval (ww q s) now o a = res q (checkCollApproval s now o a) := by
  unfold checkCollApproval
  rw [show (ww q s).collAppr = s.collAppr from rfl]
  cases s.collAppr.get o with
  | none => rfl
  | some m =>
    dsimp only
    cases m.get a with
    | none => rfl
    | some b =>
      dsimp only
      split <;> rfl

theorem transferFrom_ww {q q₁ : Map Nat (List Nat)} (L : Ledger H) (s : State H) (caller : Principal) (now : Nat) (a : TransferFromArg)
    (hg : guardWindow (ww q s) now a.tid = res q₁ (guardWindow s now a.tid)) :
    transferFrom L (ww q s) caller now a = optRes q₁ (transferFrom L s caller now a) := by
  unfold transferFrom
  obtain ⟨s₁, ok, hx⟩ : ∃ s₁ ok, guardWindow s now a.tid = (s₁, ok) := ⟨_, _, rfl⟩
  rw [hg, hx]
  clear hx hg
  revert s₁
  intro s
  cases ok with
  | false => rfl
  | true =>
    rw [res_mk]
    dsimp only
    rw [ww_cfg, ww_tokens]
    simp only [Bool.not_true, Bool.false_eq_true, if_false]
    cases verifyTimingOpt s.cfg a.createdAt now with
    | some e => rfl
    | none =>
      dsimp only
      cases s.tokens.get a.tid with
      | none => rfl
      | some nft =>
        dsimp only
        rw [checkTokenApproval_ww]
        split
        · rfl
        · split
          · rfl
          · cases checkTokenApproval s now a.tid ⟨caller, a.spenderSub⟩ with
            | none => rfl
            | some x =>
              obtain ⟨s, hasTok⟩ := x
              simp only [optRes_some]
              rw [checkCollApproval_ww]
              generalize checkCollApproval s now nft.owner ⟨caller, a.spenderSub⟩ = y
              obtain ⟨s, hasColl⟩ := y
              rw [res_mk]
              dsimp only
              split
              · rfl
              · rw [addTx_ww]
                generalize addTx L s _ = z
                obtain ⟨s, e | i⟩ := z
                · rfl
                · simp only [res_mk, Map.get_del_self, Option.isSome_none, Bool.not_false, if_true]
                  rfl

/-! ### Two tables of remembered calls -/

/-- Two tables agree on the calls that count at time `t`. -/
def Calm (t : Nat) (w w' : Map Nat (List Nat)) : Prop := ∀ tid,
  ((w'.get tid).getD []).filter (fun x => decide (t - x < 60000000)) =
    ((w.get tid).getD []).filter fun x => decide (t - x < 60000000)

theorem Calm.refl (t : Nat) (w : Map Nat (List Nat)) : Calm t w w := fun _ => rfl

theorem windowStep_calm {t now : Nat} (ht : t ≤ now) {l l' : List Nat}
    (h : l'.filter (fun x => decide (t - x < 60000000)) = l.filter fun x => decide (t - x < 60000000)) :
    windowStep l' now = windowStep l now := by
  have key : ∀ l : List Nat, l.filter (fun x => decide (now - x < 60000000)) =
      (l.filter fun x => decide (t - x < 60000000)).filter fun x => decide (now - x < 60000000) := by
    intro l
    rw [List.filter_filter]
    refine List.filter_congr fun x _ => ?_
    rw [Bool.eq_iff_iff]
    simp only [Bool.and_eq_true, decide_eq_true_eq]
    omega
  unfold windowStep slidingWindowNs
  rw [key l', key l, h]

theorem guardWindow_calm {t now : Nat} (ht : t ≤ now) {s : State H} {q : Map Nat (List Nat)} (hq : Calm t s.windows q)
    (tid : Nat) : ∃ q₁, guardWindow (ww q s) now tid = res q₁ (guardWindow s now tid) ∧
      Calm t (guardWindow s now tid).1.windows q₁ := by
  have h := windowStep_calm ht (hq tid)
  refine ⟨q.set tid (windowStep ((s.windows.get tid).getD []) now).1, ?_, ?_⟩
  · unfold guardWindow
    simp only [show (ww q s).windows = q from rfl, h]
    rfl
  · intro i
    unfold guardWindow
    dsimp only
    rw [Map.get_set, Map.get_set]
    split
    · rfl
    · exact hq i

/-- The second result is the first one, with a table of remembered calls that agrees with the
first one's on the calls that count. -/
def Fwd {R : Type} (t : Nat) (x y : State H × R) : Prop := ∃ q, Calm t x.1.windows q ∧ y = res q x

/-- The same of possibly trapped results. -/
def FwdO {R : Type} (t : Nat) (x y : Option (State H × R)) : Prop :=
  ∃ q, (∀ a, x = some a → Calm t a.1.windows q) ∧ y = optRes q x

theorem Fwd.some {R : Type} {t : Nat} {x y : State H × R} (h : Fwd t x y) : FwdO t (Option.some x) (Option.some y) := by
  obtain ⟨q, h1, rfl⟩ := h
  exact ⟨q, fun a e => by cases e; exact h1, rfl⟩

theorem runBatch_fwd {A R : Type} {t : Nat} {f : State H → A → Option (State H × R)}
    (h : ∀ s q a, Calm t s.windows q → FwdO t (f s a) (f (ww q s) a)) (l : List A) : ∀ (s : State H) (q : Map Nat (List Nat)),
    Calm t s.windows q → FwdO t (runBatch f s l) (runBatch f (ww q s) l) := by
  induction l with
  | nil => exact fun s q hq => ⟨q, fun a e => by cases e; exact hq, rfl⟩
  | cons a l ih =>
    intro s q hq
    simp only [runBatch]
    obtain ⟨q₁, h1, h2⟩ := h s q a hq
    rw [h2]
    cases hx : f s a with
    | none => exact ⟨q, (fun a e => by cases e), rfl⟩
    | some x =>
      obtain ⟨s', y⟩ := x
      simp only [optRes_some]
      obtain ⟨q₂, h3, h4⟩ := ih s' q₁ (h1 _ hx)
      rw [h4]
      cases hy : runBatch f s' l with
      | none => exact ⟨q, (fun a e => by cases e), rfl⟩
      | some z =>
        obtain ⟨s'', ys⟩ := z
        exact ⟨q₂, fun a e => by cases e; exact h3 (s'', ys) hy, rfl⟩

theorem charged_fwd {R : Type} {t now tid : Nat} (ht : t ≤ now) {f : State H → Option (State H × R)} {s : State H}
    {q : Map Nat (List Nat)} (hq : Calm t s.windows q)
    (hf : ∀ q₁, guardWindow (ww q s) now tid = res q₁ (guardWindow s now tid) → f (ww q s) = optRes q₁ (f s))
    (hw : ∀ s' r, f s = some (s', r) → s'.windows = (guardWindow s now tid).1.windows) :
    FwdO t (f s) (f (ww q s)) := by
  obtain ⟨q₁, h1, h2⟩ := guardWindow_calm ht hq tid
  exact ⟨q₁, fun a e => by rw [hw a.1 a.2 e]; exact h2, hf q₁ h1⟩

theorem transferNft_fwd {t now : Nat} (ht : t ≤ now) (L : Ledger H) (caller : Principal) (s : State H) (q : Map Nat (List Nat))
    (a : TransferArg) (hq : Calm t s.windows q) :
    FwdO t (transferNft L s caller now a) (transferNft L (ww q s) caller now a) :=
  charged_fwd (s := s) (q := q) (tid := a.tid) (f := fun s => transferNft L s caller now a) ht hq (fun _ hg => transferNft_ww L s caller now a hg)
    (fun _ _ hx => (transferNft_charged hx).1)

theorem approveToken_fwd {t now : Nat} (ht : t ≤ now) (L : Ledger H) (caller : Principal) (s : State H) (q : Map Nat (List Nat))
    (a : ApproveTokenArg) (hq : Calm t s.windows q) :
    FwdO t (approveToken L s caller now a) (approveToken L (ww q s) caller now a) :=
  charged_fwd (s := s) (q := q) (tid := a.tid) (f := fun s => approveToken L s caller now a) ht hq (fun _ hg => approveToken_ww L s caller now a hg)
    (fun _ _ hx => (approveToken_charged hx).1)

theorem approveCollection_fwd {t now : Nat} (ht : t ≤ now) (L : Ledger H) (caller : Principal) (s : State H) (q : Map Nat (List Nat))
    (a : ApprovalInfo) (hq : Calm t s.windows q) :
    FwdO t (some (approveCollection L s caller now a)) (some (approveCollection L (ww q s) caller now a)) :=
  charged_fwd (s := s) (q := q) (tid := 0) (f := fun s => some (approveCollection L s caller now a)) ht hq (fun _ hg => by rw [approveCollection_ww L s caller now a hg]; rfl)
    (fun _ _ hx => (approveCollection_charged (Option.some.inj hx)).1)

theorem revokeCollection_fwd {t now : Nat} (ht : t ≤ now) (L : Ledger H) (caller : Principal) (s : State H) (q : Map Nat (List Nat))
    (a : RevokeCollArg) (hq : Calm t s.windows q) :
    FwdO t (some (revokeCollection L s caller now a)) (some (revokeCollection L (ww q s) caller now a)) :=
  charged_fwd (s := s) (q := q) (tid := 0) (f := fun s => some (revokeCollection L s caller now a)) ht hq (fun _ hg => by rw [revokeCollection_ww L s caller now a hg]; rfl)
    (fun _ _ hx => (revokeCollection_charged (Option.some.inj hx)).1)

theorem transferFrom_fwd {t now : Nat} (ht : t ≤ now) (L : Ledger H) (caller : Principal) (s : State H) (q : Map Nat (List Nat))
    (a : TransferFromArg) (hq : Calm t s.windows q) :
    FwdO t (transferFrom L s caller now a) (transferFrom L (ww q s) caller now a) :=
  charged_fwd (s := s) (q := q) (tid := a.tid) (f := fun s => transferFrom L s caller now a) ht hq (fun _ hg => transferFrom_ww L s caller now a hg)
    (fun _ _ hx => (transferFrom_charged hx).1)

/-- What does not touch the table. -/
theorem free_fwd {R : Type} {t : Nat} {f : State H → State H × R} (hf : ∀ q s, f (ww q s) = res q (f s)) {s : State H}
    {q : Map Nat (List Nat)} (hq : Calm t s.windows q) : Fwd t (f s) (f (ww q s)) := by
  refine ⟨q, ?_, hf q s⟩
  have h : (f s).1.windows = s.windows := congrArg (fun x : State H × R => x.1.windows) (hf s.windows s)
  rw [h]
  exact hq

theorem freeO_fwd {R : Type} {t : Nat} {f : State H → Option (State H × R)} (hf : ∀ q s, f (ww q s) = optRes q (f s))
    {s : State H} {q : Map Nat (List Nat)} (hq : Calm t s.windows q) : FwdO t (f s) (f (ww q s)) := by
  refine ⟨q, ?_, hf q s⟩
  intro a e
  have h := hf s.windows s
  rw [show ww s.windows s = s from rfl, e] at h
  have h' : a.1.windows = s.windows := congrArg (fun x : State H × R => x.1.windows) (Option.some.inj h)
  rw [h']
  exact hq

theorem ofBatch_fwd {t : Nat} {s : State H} {q : Map Nat (List Nat)} (hq : Calm t s.windows q)
    {x y : Option (State H × List (Except TokErr Nat))} (h : FwdO t x y) : Fwd t (ofBatch s x) (ofBatch (ww q s) y) := by
  obtain ⟨q₁, h1, rfl⟩ := h
  cases x with
  | none => exact ⟨q, hq, rfl⟩
  | some z => exact ⟨q₁, h1 _ rfl, rfl⟩

theorem exec_fwd {t now : Nat} (ht : t ≤ now) (E : Env H) {s : State H} {q : Map Nat (List Nat)}
    (hq : Calm t s.windows q) (caller : Principal) (c : Call) :
    Fwd t (exec E s caller now c) (exec E (ww q s) caller now c) := by
  have stay : ∀ (s : State H) (q : Map Nat (List Nat)) (r : Reply), Calm t s.windows q → Fwd t (s, r) (ww q s, r) :=
    fun s q r h => ⟨q, h, rfl⟩
  have mgmt : ∀ f : State H → Option (MgmtRes H), (∀ q s, f (ww q s) = optRes q (f s)) →
      Fwd t (ofMgmt s (f s)) (ofMgmt (ww q s) (f (ww q s))) := fun f hf =>
    free_fwd (f := fun s => ofMgmt s (f s)) (fun q s => by rw [hf, ofMgmt_ww]) hq
  have started : ∀ f : State H → Started H, (∀ q s, f (ww q s) = started q (f s)) →
      Fwd t (ofStarted (f s)) (ofStarted (f (ww q s))) := fun f hf =>
    free_fwd (f := fun s => ofStarted (f s)) (fun q s => by rw [hf, ofStarted_ww]) hq
  cases c with
  | transfer args =>
    simp only [exec]
    refine ofBatch_fwd hq ?_
    unfold icrc7Transfer
    rw [ww_cfg]
    have fail : FwdO t (none : Option (State H × List (Except TokErr Nat))) none := ⟨q, (fun a e => by cases e), rfl⟩
    have same : ∀ r : List (Except TokErr Nat), FwdO t (some (s, r)) (some (ww q s, r)) :=
      fun r => ⟨q, fun a e => by cases e; exact hq, rfl⟩
    split
    · first | exact fail | exact same _
    · split
      · first | exact fail | exact same _
      · split
        · first | exact fail | exact same _
        · split
          · first | exact fail | exact same _
          · exact runBatch_fwd (transferNft_fwd ht E.ledger caller) _ s q hq
  | approveTokens args =>
    simp only [exec, icrc37ApproveTokens]
    exact ofBatch_fwd hq (runBatch_fwd (approveToken_fwd ht E.ledger caller) _ s q hq)
  | approveCollection args =>
    simp only [exec, icrc37ApproveCollection]
    exact ofBatch_fwd hq (runBatch_fwd (f := fun s a => some (approveCollection E.ledger s caller now a))
      (approveCollection_fwd ht E.ledger caller) _ s q hq)
  | revokeTokens args =>
    simp only [exec]
    unfold icrc37RevokeTokens
    cases args with
    | nil => exact stay _ _ _ hq
    | cons a l =>
      obtain ⟨q₁, h1, h2⟩ := guardWindow_calm ht hq a.tid
      dsimp only
      rw [h1]
      obtain ⟨s₁, ok, hx⟩ : ∃ s₁ ok, guardWindow s now a.tid = (s₁, ok) := ⟨_, _, rfl⟩
      rw [hx] at h2 ⊢
      cases ok with
      | false => exact stay _ _ _ h2
      | true =>
        rw [res_mk]
        dsimp only
        rw [ww_cfg]
        simp only [Bool.not_true, Bool.false_eq_true, if_false]
        obtain ⟨q₂, h3, h4⟩ := runBatch_fwd (fun s q (a : RevokeTokenArg) hq =>
          freeO_fwd (f := fun s => revokeToken E.ledger s caller now a) (fun q s => revokeToken_ww q E.ledger s caller now a) hq)
          (List.take (maxRevoke s₁.cfg) (a :: l)) s₁ q₁ h2
        rw [h4]
        cases hy : runBatch (fun s a => revokeToken E.ledger s caller now a) s₁ (List.take (maxRevoke s₁.cfg) (a :: l)) with
        | none => exact stay _ _ _ hq
        | some x => obtain ⟨s₂, y⟩ := x; exact stay _ _ _ (h3 _ hy)
  | revokeCollection args =>
    simp only [exec, icrc37RevokeCollection, ww_cfg]
    exact ofBatch_fwd hq (runBatch_fwd (f := fun s a => some (revokeCollection E.ledger s caller now a))
      (revokeCollection_fwd ht E.ledger caller) _ s q hq)
  | transferFrom args =>
    simp only [exec, icrc37TransferFrom]
    exact ofBatch_fwd hq (runBatch_fwd (transferFrom_fwd ht E.ledger caller) _ s q hq)
  | updateCollectionMetadata a => exact mgmt (fun s => updateCollectionMetadata s caller a) fun q s => withGuard_ww q s caller (fun s => rfl)
  | mint reqs => exact mgmt (fun s => mint E s caller now reqs) fun q s => mint_ww q E s caller now reqs
  | updateNftMetadata tid kvs => exact mgmt (fun s => updateNftMetadata E s caller now tid kvs) fun q s => updateNftMetadata_ww q E s caller now tid kvs
  | burn tid => exact mgmt (fun s => burnNft E s caller now tid) fun q s => burnNft_ww q E s caller now tid
  | initUpload path n => exact started (fun s => initUpload s caller path n) fun q s => initUpload_ww q s caller path n
  | storeChunk path => exact started (fun s => storeChunk s caller path) fun q s => storeChunk_ww q s caller path
  | finalizeUpload path => exact started (fun s => finalizeUpload s caller path) fun q s => finalizeUpload_ww q s caller path
  | cancelUpload path => exact started (fun s => cancelUpload s caller path) fun q s => cancelUpload_ww q s caller path
  | grant p x => exact mgmt (fun s => grant s caller p x) fun q s => withGuard_ww q s caller (fun s => rfl)
  | revoke p x => exact mgmt (fun s => revoke s caller p x) fun q s => withGuard_ww q s caller (fun s => rfl)

/-- Messages that are no calls. -/
theorem other_ww (q : Map Nat (List Nat)) (E : Env H) (s : State H) {m : Msg} (hm : ∀ c now call, m ≠ .call c now call) :
    step E (ww q s) m = res q (step E s m) := by
  cases m with
  | call c now call => exact absurd rfl (hm c now call)
  | resume now i ans =>
    simp only [step, show (ww q s).pending = s.pending from rfl]
    cases s.pending[i]? with
    | none => rfl
    | some p =>
      have h := resumeBody_ww q E { s with pending := s.pending.eraseIdx i } now p ans
      change resumeBody E { ww q s with pending := s.pending.eraseIdx i } now p ans = _ at h
      dsimp only
      rw [h]
      rfl
  | resumeTrap i =>
    simp only [step, show (ww q s).pending = s.pending from rfl]
    cases s.pending[i]? <;> rfl
  | upgrade => rfl

theorem step_fwd {t : Nat} (E : Env H) {s : State H} {q : Map Nat (List Nat)} (hq : Calm t s.windows q) (m : Msg)
    (hm : ∀ x ∈ callTimes [m], t ≤ x) : Fwd t (step E s m) (step E (ww q s) m) := by
  cases m with
  | call caller now c =>
    have hx := exec_fwd (hm now (by simp [callTimes])) E hq caller c
    simp only [step, execCall, show (ww q s).perms = s.perms from rfl]
    cases c.needs with
    | none => exact hx
    | some p =>
      dsimp only
      split
      · exact hx
      · exact ⟨q, hq, rfl⟩
  | resume now i ans => exact free_fwd (f := fun s => step E s (.resume now i ans)) (fun q s => other_ww q E s (by simp)) hq
  | resumeTrap i => exact free_fwd (f := fun s => step E s (.resumeTrap i)) (fun q s => other_ww q E s (by simp)) hq
  | upgrade => exact ⟨q, hq, rfl⟩

theorem run_fwd {t : Nat} (E : Env H) (msgs : List Msg) : ∀ {s : State H} {q : Map Nat (List Nat)}, Calm t s.windows q →
    (∀ x ∈ callTimes msgs, t ≤ x) → replies E (ww q s) msgs = replies E s msgs ∧
      ∃ q', Calm t (run E s msgs).windows q' ∧ run E (ww q s) msgs = ww q' (run E s msgs) := by
  induction msgs with
  | nil => exact fun {s q} hq _ => ⟨rfl, q, hq, rfl⟩
  | cons m ms ih =>
    intro s q hq hm
    have h1 : ∀ x ∈ callTimes [m], t ≤ x := by
      intro x hx
      cases m <;> simp [callTimes] at hx
      exact hm x (by simp [callTimes, hx])
    have h2 : ∀ x ∈ callTimes ms, t ≤ x := by
      intro x hx
      refine hm x ?_
      cases m <;> simp [callTimes, hx]
    obtain ⟨q₁, h3, h4⟩ := step_fwd E hq m h1
    obtain ⟨h5, q₂, h6, h7⟩ := ih h3 h2
    refine ⟨?_, q₂, h6, ?_⟩
    · simp only [replies, h4]
      rw [show (res q₁ (step E s m)).1 = ww q₁ (step E s m).1 from rfl, h5]
      rfl
    · show run E (step E (ww q s) m).1 ms = _
      rw [h4]
      exact h7

theorem Calm.mono {t t' : Nat} (h : t ≤ t') {w w' : Map Nat (List Nat)} (hc : Calm t w w') : Calm t' w w' := by
  intro tid
  have key : ∀ l : List Nat, l.filter (fun x => decide (t' - x < 60000000)) =
      (l.filter fun x => decide (t - x < 60000000)).filter fun x => decide (t' - x < 60000000) := by
    intro l
    rw [List.filter_filter]
    refine List.filter_congr fun x _ => ?_
    rw [Bool.eq_iff_iff]
    simp only [Bool.and_eq_true, decide_eq_true_eq]
    omega
  rw [key, hc tid, ← key]

theorem Calm.trans {t : Nat} {w w' w'' : Map Nat (List Nat)} (h : Calm t w w') (h' : Calm t w' w'') : Calm t w w'' :=
  fun tid => (h' tid).trans (h tid)

/-- Calls made 60 ms ago or earlier. -/
theorem win_past {now t : Nat} (ht : now + 60000000 ≤ t) {w w' : List Nat} {k : Nat} (h : Win now w k w') :
    w'.filter (fun x => decide (t - x < 60000000)) = w.filter fun x => decide (t - x < 60000000) := by
  induction h with
  | refl => rfl
  | @step k w' _ ih =>
    rw [← ih]
    have key : ∀ l : List Nat, (l.filter fun x => decide (now - x < slidingWindowNs)).filter
        (fun x => decide (t - x < 60000000)) = l.filter fun x => decide (t - x < 60000000) := by
      intro l
      rw [List.filter_filter]
      refine List.filter_congr fun x _ => ?_
      rw [Bool.eq_iff_iff]
      simp only [Bool.and_eq_true, decide_eq_true_eq]
      constructor
      · exact fun h => h.1
      · intro h
        refine ⟨h, ?_⟩
        show now - x < 60000000
        omega
    unfold windowStep
    dsimp only
    split
    · exact key _
    · rw [List.filter_append, key, List.filter_cons_of_neg (by simp; omega)]
      simp

theorem step_past {E : Env H} {s : State H} {c : Principal} {now : Nat} {call : Call} {t : Nat} (ht : now + 60000000 ≤ t) :
    Calm t s.windows (step E s (.call c now call)).1.windows := by
  intro tid
  obtain ⟨k, h, _⟩ := step_win_call (E := E) (s := s) (c := c) (now := now) (call := call) tid rfl
  exact win_past ht h

theorem run_past {E : Env H} {t : Nat} (ms : List Msg) : ∀ {s : State H}, LongBefore t ms →
    Calm t s.windows (run E s ms).windows := by
  induction ms with
  | nil => exact fun {s} _ => .refl t _
  | cons m ms ih =>
    intro s h
    change Calm t s.windows (run E (step E s m).1 ms).windows
    have h2 : LongBefore t ms := by
      intro x hx
      refine h x ?_
      cases m <;> simp [callTimes, hx]
    refine Calm.trans ?_ (ih h2)
    cases m with
    | call c now call => exact step_past (h now (by simp [callTimes]))
    | resume => rw [step_windows_other (by simp)]; exact .refl t _
    | resumeTrap => rw [step_windows_other (by simp)]; exact .refl t _
    | upgrade => rw [step_windows_other (by simp)]; exact .refl t _

end Verif.Spec.Forgets
