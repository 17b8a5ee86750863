import Verif.Spec.Words
import Verif.Model.Gc
import Verif.Lemmas.Change
import Verif.Lemmas.ApprovalTables
/-!
# Rewording a history commutes with the code: helper lemmas
-/
set_option linter.unusedSectionVars false

namespace Verif.Spec.Words

open Change (map get_mapV set_mapV del_mapV size_map entries_map)

variable {H : Type}

/-! ### Results -/

/-- A result whose first part is a state. -/
def res {R : Type} (w : Words) (x : State H × R) : State H × R := (w.state x.1, x.2)

/-- A possibly trapped result. -/
def optRes {R : Type} (w : Words) (x : Option (State H × R)) : Option (State H × R) := x.map w.res

@[simp] theorem optRes_none {R : Type} (w : Words) : w.optRes (none : Option (State H × R)) = none := rfl
@[simp] theorem optRes_some {R : Type} (w : Words) (s : State H) (x : R) : w.optRes (some (s, x)) = some (w.state s, x) := rfl
@[simp] theorem res_mk {R : Type} (w : Words) (s : State H) (x : R) : w.res (s, x) = (w.state s, x) := rfl

@[simp] theorem state_cfg (w : Words) (s : State H) : (w.state s).cfg = w.config s.cfg := rfl
@[simp] theorem state_lastId (w : Words) (s : State H) : (w.state s).lastId = s.lastId := rfl
@[simp] theorem state_hid (w : Words) (s : State H) : (w.state s).hid = s.hid := rfl
@[simp] theorem state_tokens (w : Words) (s : State H) : (w.state s).tokens = s.tokens := rfl
@[simp] theorem state_perms (w : Words) (s : State H) : (w.state s).perms = s.perms := rfl
@[simp] theorem state_subs (w : Words) (s : State H) : (w.state s).subs = s.subs := rfl
@[simp] theorem state_guards (w : Words) (s : State H) : (w.state s).guards = s.guards := rfl
@[simp] theorem state_uploads (w : Words) (s : State H) : (w.state s).uploads = s.uploads := rfl
@[simp] theorem state_pending (w : Words) (s : State H) : (w.state s).pending = s.pending := rfl
@[simp] theorem state_mdata (w : Words) (s : State H) : (w.state s).mdata = map id w.doc s.mdata := rfl
@[simp] theorem state_tokAppr (w : Words) (s : State H) : (w.state s).tokAppr = map id w.approvals s.tokAppr := rfl
@[simp] theorem state_collAppr (w : Words) (s : State H) : (w.state s).collAppr = map id w.approvals s.collAppr := rfl

/-! ### What the words do not touch -/

theorem guardWindow_said (w : Words) (s : State H) (now tid : Nat) :
    guardWindow (w.state s) now tid = w.res (guardWindow s now tid) := rfl
theorem verifyTiming_said (w : Words) (c : Config) (x now : Nat) : verifyTiming (w.config c) x now = verifyTiming c x now := rfl
theorem verifyTimingOpt_said (w : Words) (c : Config) (x : Option Nat) (now : Nat) :
    verifyTimingOpt (w.config c) x now = verifyTimingOpt c x now := rfl
theorem transferTiming_said (w : Words) (c : Config) (now x : Nat) :
    transferTiming (w.config c) now x = transferTiming c now x := rfl
theorem maxApprovals_said (w : Words) (c : Config) : maxApprovals (w.config c) = maxApprovals c := rfl
theorem maxRevoke_said (w : Words) (c : Config) : maxRevoke (w.config c) = maxRevoke c := rfl

theorem checkMemo_said (w : Words) (c : Config) (m : Option Blob) :
    checkMemo (w.config c) (m.map w.memo) = checkMemo c m := by
  cases m with
  | none => rfl
  | some m => simp only [checkMemo, Option.map_some, w.memo_length]; rfl

theorem addTx_said {w : Words} {L L' : Ledger H} (hL : w.Ledgers L L') (s : State H) (t : Tx) {s' : State H} {t' : Tx}
    (hs : s' = w.state s) (ht : t' = w.tx t) : addTx L' s' t' = w.res (addTx L s t) := by
  subst hs; subst ht
  simp only [addTx, state_hid, hL s.hid t]
  generalize L.add s.hid t = x
  obtain ⟨h, _ | i⟩ := x
  · rfl
  · simp [res, state]

theorem ownerOf_said (w : Words) (s : State H) (tid : Nat) : ownerOf (w.state s) tid = ownerOf s tid := rfl

theorem putTokAppr_said (w : Words) (s : State H) (tid : Nat) (m : Map Account Approval) :
    putTokAppr (w.state s) tid (w.approvals m) = (putTokAppr s tid m).map w.state := by
  unfold putTokAppr
  split
  · simp only [Option.map_some, state_tokAppr, set_mapV]; rfl
  · rfl

theorem moveToken_said (w : Words) (s : State H) (nft : Token) (a : Account) :
    moveToken (w.state s) nft a = w.state (moveToken s nft a) := rfl

/-! ### updates/icrc7.rs -/

theorem transferNft_said {w : Words} {L L' : Ledger H} (hL : w.Ledgers L L') (s : State H) (caller : Principal) (now : Nat)
    (a : TransferArg) :
    transferNft L' (w.state s) caller now (w.transferArg a) = w.optRes (transferNft L s caller now a) := by
  obtain ⟨to_, tid, memo, fromSub, createdAt⟩ := a
  rw [show w.transferArg ⟨to_, tid, memo, fromSub, createdAt⟩ = ⟨to_, tid, memo.map w.memo, fromSub, createdAt⟩ from rfl]
  unfold transferNft
  obtain ⟨s₁, ok, hx⟩ : ∃ s₁ ok, guardWindow s now tid = (s₁, ok) := ⟨_, _, rfl⟩
  dsimp only
  rw [guardWindow_said, hx]
  clear hx
  revert s₁
  intro s
  cases ok with
  | false => rfl
  | true =>
    simp only [res_mk, Bool.not_true, Bool.false_eq_true, if_false, state_tokens, state_cfg, checkMemo_said,
      transferTiming_said]
    cases s.tokens.get tid with
    | none => rfl
    | some nft =>
      simp only
      cases checkMemo s.cfg memo with
      | none => rfl
      | some b =>
        cases b with
        | false => rfl
        | true =>
          dsimp only
          split
          · rfl
          · cases transferTiming s.cfg now (createdAt.getD now) with
            | none => rfl
            | some o =>
              cases o with
              | some e => rfl
              | none =>
                simp only
                rw [addTx_said hL s (transferTx now (createdAt.getD now) ⟨to_, tid, memo, fromSub, createdAt⟩ nft) rfl]
                rotate_left
                · rfl
                generalize addTx L s (transferTx now (createdAt.getD now) ⟨to_, tid, memo, fromSub, createdAt⟩ nft) = y
                obtain ⟨s, e | i⟩ := y
                · cases e <;> rfl
                · rfl

theorem runBatch_said {A R : Type} (w : Words) {f' f : State H → A → Option (State H × R)} {g : A → A}
    (h : ∀ s a, f' (w.state s) (g a) = w.optRes (f s a)) (s : State H) (l : List A) :
    runBatch f' (w.state s) (l.map g) = w.optRes (runBatch f s l) := by
  induction l generalizing s with
  | nil => rfl
  | cons a l ih =>
    simp only [List.map_cons, runBatch, h s a]
    cases f s a with
    | none => rfl
    | some x =>
      obtain ⟨s', y⟩ := x
      simp only [optRes_some, ih s']
      cases runBatch f s' l with
      | none => rfl
      | some x => obtain ⟨s, y⟩ := x; rfl

theorem icrc7Transfer_said {w : Words} {L L' : Ledger H} (hL : w.Ledgers L L') (s : State H) (caller : Principal) (now : Nat)
    (args : List TransferArg) :
    icrc7Transfer L' (w.state s) caller now (args.map w.transferArg) = w.optRes (icrc7Transfer L s caller now args) := by
  unfold icrc7Transfer
  simp only [List.isEmpty_map, state_cfg, List.length_map, ← List.map_take,
    show ∀ c, (w.config c).maxUpdateBatch = c.maxUpdateBatch from fun _ => rfl,
    show ∀ c, (w.config c).atomicBatch = c.atomicBatch from fun _ => rfl]
  split
  · rfl
  · split
    · rfl
    · split
      · rfl
      · split
        · rfl
        · exact runBatch_said w (fun s a => transferNft_said hL s caller now a) s _

/-! ### updates/icrc37.rs -/

theorem approvals_set (w : Words) (m : Map Account Approval) (k : Account) (v : Approval) :
    (w.approvals m).set k (w.approval v) = w.approvals (m.set k v) := set_mapV m k v
theorem approvals_get (w : Words) (m : Map Account Approval) (k : Account) :
    (w.approvals m).get k = (m.get k).map w.approval := get_mapV m k
theorem approvals_del (w : Words) (m : Map Account Approval) (k : Account) :
    (w.approvals m).del k = w.approvals (m.del k) := del_mapV m k
theorem approvals_size (w : Words) (m : Map Account Approval) : (w.approvals m).size = m.size := size_map m
theorem approvals_getD (w : Words) (o : Option (Map Account Approval)) :
    (o.map w.approvals).getD ∅ = w.approvals (o.getD ∅) := by cases o <;> rfl
theorem any_size (w : Words) (o : Option (Map Account Approval)) (n : Nat) :
    ((o.map w.approvals).any fun m => decide (n ≤ m.size)) = o.any fun m => decide (n ≤ m.size) := by
  cases o
  · rfl
  · simp [approvals_size]
theorem mkApproval_said (w : Words) (i : ApprovalInfo) (a : Account) (now : Nat) :
    mkApproval (w.info i) a now = w.approval (mkApproval i a now) := rfl

theorem approveToken_said {w : Words} {L L' : Ledger H} (hL : w.Ledgers L L') (s : State H) (caller : Principal) (now : Nat)
    (a : ApproveTokenArg) :
    approveToken L' (w.state s) caller now (w.approveArg a) = w.optRes (approveToken L s caller now a) := by
  have ei : (w.approveArg a).info = w.info a.info := rfl
  have et : (w.approveArg a).tid = a.tid := rfl
  unfold approveToken
  obtain ⟨s₁, ok, hx⟩ : ∃ s₁ ok, guardWindow s now a.tid = (s₁, ok) := ⟨_, _, rfl⟩
  simp only [ei, et]
  rw [guardWindow_said, hx]
  clear hx
  revert s₁
  intro s
  cases ok with
  | false => rfl
  | true =>
    rw [res_mk]
    dsimp only
    rw [state_cfg]
    simp only [Bool.not_true, Bool.false_eq_true, if_false]
    rw [show (w.info a.info).createdAt = a.info.createdAt from rfl, verifyTiming_said]
    cases verifyTiming s.cfg a.info.createdAt now with
    | some e => rfl
    | none =>
      simp only [ownerOf_said]
      cases ownerOf s a.tid with
      | none => rfl
      | some owner =>
        simp only [show (w.info a.info).fromSub = a.info.fromSub from rfl,
          show (w.info a.info).spender = a.info.spender from rfl, state_tokAppr, get_mapV]
        split
        · rfl
        · split
          · rfl
          · rw [maxApprovals_said, any_size]
            split
            · rfl
            · rw [addTx_said hL s { op := .approve, ts := now, tid := some a.tid,
                                    from_ := some ⟨caller, a.info.fromSub⟩, memo := a.info.memo,
                                    createdAt := some a.info.createdAt, spender := some a.info.spender,
                                    exp := a.info.expiresAt } rfl]
              rotate_left
              · rfl
              generalize addTx L s _ = y
              obtain ⟨s, e | i⟩ := y
              · rfl
              · simp only [res_mk, state_tokAppr, get_mapV, approvals_getD, mkApproval_said, approvals_set,
                  putTokAppr_said]
                cases putTokAppr s a.tid _ <;> rfl

theorem approveCollection_said {w : Words} {L L' : Ledger H} (hL : w.Ledgers L L') (s : State H) (caller : Principal)
    (now : Nat) (a : ApprovalInfo) :
    approveCollection L' (w.state s) caller now (w.info a) = w.res (approveCollection L s caller now a) := by
  unfold approveCollection
  obtain ⟨s₁, ok, hx⟩ : ∃ s₁ ok, guardWindow s now 0 = (s₁, ok) := ⟨_, _, rfl⟩
  rw [guardWindow_said, hx]
  clear hx
  revert s₁
  intro s
  cases ok with
  | false => rfl
  | true =>
    rw [res_mk]
    dsimp only
    rw [state_cfg]
    simp only [Bool.not_true, Bool.false_eq_true, if_false]
    rw [show (w.info a).createdAt = a.createdAt from rfl, verifyTiming_said]
    cases verifyTiming s.cfg a.createdAt now with
    | some e => rfl
    | none =>
      simp only [show (w.info a).fromSub = a.fromSub from rfl, show (w.info a).spender = a.spender from rfl,
        state_collAppr, get_mapV, state_tokens]
      split
      · rfl
      · split
        · rfl
        · rw [maxApprovals_said, any_size]
          split
          · rfl
          · rw [addTx_said hL s { op := .approveColl, ts := now,
                                  from_ := some ⟨caller, a.fromSub⟩, memo := a.memo,
                                  createdAt := some a.createdAt, spender := some a.spender,
                                  exp := a.expiresAt } rfl]
            rotate_left
            · rfl
            generalize addTx L s _ = y
            obtain ⟨s, e | i⟩ := y
            · rfl
            · simp only [res_mk, state_collAppr, get_mapV, approvals_getD, mkApproval_said, approvals_set, set_mapV]
              rfl

theorem dropSpender_said (w : Words) (m : Map Account Approval) (o : Option Account) :
    dropSpender (w.approvals m) o = w.approvals (dropSpender m o) := by
  cases o
  · rfl
  · exact approvals_del w m _

theorem revokeToken_said {w : Words} {L L' : Ledger H} (hL : w.Ledgers L L') (s : State H) (caller : Principal) (now : Nat)
    (a : RevokeTokenArg) :
    revokeToken L' (w.state s) caller now (w.revokeArg a) = w.optRes (revokeToken L s caller now a) := by
  unfold revokeToken
  simp only [state_cfg, revokeArg, verifyTimingOpt_said]
  cases verifyTimingOpt s.cfg a.createdAt now with
  | some e => rfl
  | none =>
    simp only [ownerOf_said]
    cases ownerOf s a.tid with
    | none => rfl
    | some owner =>
      simp only [state_tokAppr, get_mapV]
      split
      · rfl
      · cases s.tokAppr.get a.tid with
        | none => rfl
        | some m =>
          simp only [Option.map_some]
          rw [addTx_said hL s { op := .revoke, ts := now, tid := some a.tid,
                                from_ := some ⟨caller, a.fromSub⟩, memo := a.memo, createdAt := a.createdAt,
                                spender := a.spender } rfl]
          rotate_left
          · rfl
          generalize addTx L s _ = y
          obtain ⟨s, e | i⟩ := y
          · rfl
          · simp only [res_mk, dropSpender_said, putTokAppr_said]
            cases putTokAppr s a.tid _ <;> rfl

theorem revokeCollection_said {w : Words} {L L' : Ledger H} (hL : w.Ledgers L L') (s : State H) (caller : Principal)
    (now : Nat) (a : RevokeCollArg) :
    revokeCollection L' (w.state s) caller now (w.revokeCollArg a) = w.res (revokeCollection L s caller now a) := by
  unfold revokeCollection
  obtain ⟨s₁, ok, hx⟩ : ∃ s₁ ok, guardWindow s now 0 = (s₁, ok) := ⟨_, _, rfl⟩
  dsimp only [revokeCollArg]
  rw [guardWindow_said, hx]
  clear hx
  revert s₁
  intro s
  cases ok with
  | false => rfl
  | true =>
    rw [res_mk]
    dsimp only
    rw [state_cfg]
    simp only [Bool.not_true, Bool.false_eq_true, if_false]
    rw [verifyTimingOpt_said]
    cases verifyTimingOpt s.cfg a.createdAt now with
    | some e => rfl
    | none =>
      simp only [state_collAppr, get_mapV]
      cases s.collAppr.get ⟨caller, none⟩ with
      | none => rfl
      | some m =>
        simp only [Option.map_some]
        rw [addTx_said hL s { op := .revokeColl, ts := now, from_ := some ⟨caller, none⟩, memo := a.memo,
                              createdAt := a.createdAt, spender := a.spender } rfl]
        rotate_left
        · rfl
        generalize addTx L s _ = y
        obtain ⟨s, e | i⟩ := y
        · rfl
        · simp only [res_mk, dropSpender_said, state_collAppr, set_mapV]
          rfl

theorem checkTokenApproval_said (w : Words) (s : State H) (now tid : Nat) (a : Account) :
    checkTokenApproval (w.state s) now tid a = w.optRes (checkTokenApproval s now tid a) := by
  unfold checkTokenApproval
  simp only [state_tokAppr, get_mapV]
  cases s.tokAppr.get tid with
  | none => rfl
  | some m =>
    simp only [Option.map_some, approvals_get]
    cases m.get a with
    | none => rfl
    | some b =>
      simp only [Option.map_some, approvals_del, putTokAppr_said, show expired (w.approval b) now = expired b now from rfl]
      split
      · cases putTokAppr s tid _ <;> rfl
      · rfl

theorem checkCollApproval_said (w : Words) (s : State H) (now : Nat) (o a : Account) :
    checkCollApproval (w.state s) now o a = w.res (checkCollApproval s now o a) := by
  unfold checkCollApproval
  simp only [state_collAppr, get_mapV]
  cases s.collAppr.get o with
  | none => rfl
  | some m =>
    simp only [Option.map_some, approvals_get]
    cases m.get a with
    | none => rfl
    | some b =>
      simp only [Option.map_some, approvals_del, show expired (w.approval b) now = expired b now from rfl]
      rw [show (w.approvals (m.del a)).entries.isEmpty = (m.del a).entries.isEmpty from by
          simp [approvals, entries_map]]
      split
      · split
        · simp only [del_mapV, set_mapV]; rfl
        · simp only [set_mapV]; rfl
      · rfl

theorem transferFrom_said {w : Words} {L L' : Ledger H} (hL : w.Ledgers L L') (s : State H) (caller : Principal) (now : Nat)
    (a : TransferFromArg) :
    transferFrom L' (w.state s) caller now (w.fromArg a) = w.optRes (transferFrom L s caller now a) := by
  obtain ⟨spenderSub, from_, to_, tid, memo, createdAt⟩ := a
  rw [show w.fromArg ⟨spenderSub, from_, to_, tid, memo, createdAt⟩ = ⟨spenderSub, from_, to_, tid, memo.map w.memo, createdAt⟩ from rfl]
  unfold transferFrom
  obtain ⟨s₁, ok, hx⟩ : ∃ s₁ ok, guardWindow s now tid = (s₁, ok) := ⟨_, _, rfl⟩
  dsimp only
  rw [guardWindow_said, hx]
  clear hx
  revert s₁
  intro s
  cases ok with
  | false => rfl
  | true =>
    rw [res_mk]
    dsimp only
    rw [state_cfg]
    simp only [Bool.not_true, Bool.false_eq_true, if_false]
    rw [verifyTimingOpt_said]
    cases verifyTimingOpt s.cfg createdAt now with
    | some e => rfl
    | none =>
      simp only [state_tokens]
      cases s.tokens.get tid with
      | none => rfl
      | some nft =>
        simp only [checkTokenApproval_said]
        split
        · rfl
        · split
          · rfl
          · cases checkTokenApproval s now tid ⟨caller, spenderSub⟩ with
            | none => rfl
            | some x =>
              obtain ⟨s, hasTok⟩ := x
              simp only [optRes_some]
              rw [checkCollApproval_said]
              generalize checkCollApproval s now nft.owner ⟨caller, spenderSub⟩ = y
              obtain ⟨s, hasColl⟩ := y
              rw [res_mk]
              dsimp only
              by_cases h : (!(nft.owner == from_) || (!((⟨caller, spenderSub⟩ : Account) == from_) && !hasTok && !hasColl)) = true
              · rw [if_pos h, if_pos h]; rfl
              · rw [if_neg h, if_neg h]
                rw [addTx_said hL s { op := .xferFrom, ts := now, tid := some tid, from_ := some from_,
                                      to_ := some to_, memo := memo, createdAt := createdAt,
                                      spender := some ⟨caller, spenderSub⟩ } rfl]
                rotate_left
                · rfl
                generalize addTx L s _ = z
                obtain ⟨s, e | i⟩ := z
                · rfl
                · simp only [res_mk, moveToken_said, state_tokAppr, state_collAppr, del_mapV,
                    Map.get_del_self, Option.isSome_none, Bool.not_false, if_true, get_mapV, Option.map_none]
                  rfl

theorem icrc37RevokeTokens_said {w : Words} {L L' : Ledger H} (hL : w.Ledgers L L') (s : State H) (caller : Principal)
    (now : Nat) (args : List RevokeTokenArg) :
    icrc37RevokeTokens L' (w.state s) caller now (args.map w.revokeArg)
      = w.optRes (icrc37RevokeTokens L s caller now args) := by
  unfold icrc37RevokeTokens
  cases args with
  | nil => rfl
  | cons a l =>
    obtain ⟨s₁, ok, hx⟩ : ∃ s₁ ok, guardWindow s now a.tid = (s₁, ok) := ⟨_, _, rfl⟩
    simp only [List.map_cons, show (w.revokeArg a).tid = a.tid from rfl]
    rw [guardWindow_said, hx]
    clear hx
    revert s₁
    intro s
    cases ok with
    | false => rfl
    | true =>
      rw [res_mk]
      dsimp only
      rw [state_cfg, maxRevoke_said]
      simp only [Bool.not_true, Bool.false_eq_true, if_false]
      rw [← List.map_cons, ← List.map_take,
        runBatch_said w (fun s a => revokeToken_said hL s caller now a) s]
      cases runBatch (fun s a => revokeToken L s caller now a) s (List.take (maxRevoke s.cfg) (a :: l)) with
      | none => rfl
      | some x => obtain ⟨s, y⟩ := x; rfl

/-! ### types/metadata.rs -/

theorem doc_getD (w : Words) (o : Option (Map String Value)) : (o.map w.doc).getD ∅ = w.doc (o.getD ∅) := by
  cases o <;> rfl

theorem doc_set (w : Words) (m : Map String Value) (k : String) (v : Value) :
    (w.doc m).set k (w.value v) = w.doc (m.set k v) := set_mapV m k v

theorem insertData_said (w : Words) (t : MetaTable) (tid : Nat) (k : String) (v : Value) :
    insertData (map id w.doc t) tid k (w.value v) = (insertData t tid k v).map (map id w.doc) := by
  unfold insertData
  rw [w.value_fits]
  split
  · rw [get_mapV, doc_getD, doc_set, set_mapV]; rfl
  · rfl

theorem addMetadata_said (w : Words) (tid : Nat) (kvs : List (String × Value)) (t : MetaTable) :
    addMetadata (map id w.doc t) tid (kvs.map w.row) = (addMetadata t tid kvs).map (map id w.doc) := by
  induction kvs generalizing t with
  | nil => rfl
  | cons e kvs ih =>
    obtain ⟨k, v⟩ := e
    simp only [List.map_cons, row, addMetadata, insertData_said]
    cases insertData t tid k v with
    | none => rfl
    | some t => exact ih t

theorem collectMap_said (w : Words) (kvs : List (String × Value)) : collectMap (kvs.map w.row) = w.doc (collectMap kvs) := by
  unfold collectMap
  suffices h : ∀ m : Map String Value, (kvs.map w.row).foldl (fun m kv => m.set kv.1 kv.2) (w.doc m)
      = w.doc (kvs.foldl (fun m kv => m.set kv.1 kv.2) m) from h ∅
  induction kvs with
  | nil => intro m; rfl
  | cons e kvs ih =>
    intro m
    simp only [List.map_cons, List.foldl_cons, row, doc_set]
    exact ih _

theorem replaceMetadata_said (w : Words) (t : MetaTable) (tid : Nat) (kvs : List (String × Value)) :
    replaceMetadata (map id w.doc t) tid (kvs.map w.row) = (replaceMetadata t tid kvs).map (map id w.doc) := by
  unfold replaceMetadata
  rw [del_mapV, collectMap_said]
  exact addMetadata_said w tid _ _

theorem insertKey_said (w : Words) (p : String × Value) (l : List (String × Value)) :
    insertKey (w.row p) (l.map w.row) = (insertKey p l).map w.row := by
  induction l with
  | nil => rfl
  | cons q l ih =>
    simp only [List.map_cons, insertKey, ih, show ∀ p, (w.row p).1 = p.1 from fun _ => rfl]
    split <;> rfl

theorem sortKeys_said (w : Words) (l : List (String × Value)) : sortKeys (l.map w.row) = (sortKeys l).map w.row := by
  induction l with
  | nil => rfl
  | cons p l ih =>
    simp only [sortKeys, List.map_cons, List.foldr_cons] at ih ⊢
    rw [ih, insertKey_said]

theorem getAllData_said (w : Words) (t : MetaTable) (tid : Nat) :
    getAllData (map id w.doc t) tid = (getAllData t tid).map (·.map w.row) := by
  unfold getAllData
  rw [get_mapV]
  cases t.get tid with
  | none => rfl
  | some m => exact congrArg some (sortKeys_said w m.entries)

theorem getAllData_getD (w : Words) (t : MetaTable) (tid : Nat) :
    (getAllData (map id w.doc t) tid).getD [] = ((getAllData t tid).getD []).map w.row := by
  rw [getAllData_said]
  cases getAllData t tid <;> rfl

/-! ### updates/management.rs -/

theorem guardEnter_said (w : Words) (s : State H) (p : Principal) :
    guardEnter (w.state s) p = (guardEnter s p).map w.state := by
  unfold guardEnter
  rw [state_guards]
  split <;> rfl

theorem guardLeave_said (w : Words) (s : State H) (p : Principal) :
    guardLeave (w.state s) p = w.state (guardLeave s p) := rfl

theorem withGuard_said (w : Words) (s : State H) (p : Principal) {b' b : State H → Option (MgmtRes H)}
    (h : ∀ s, b' (w.state s) = w.optRes (b s)) :
    withGuard (w.state s) p b' = w.optRes (withGuard s p b) := by
  unfold withGuard
  rw [guardEnter_said]
  cases guardEnter s p with
  | none => rfl
  | some s =>
    simp only [Option.map_some, h]
    cases b s with
    | none => rfl
    | some x => obtain ⟨s, y⟩ := x; simp only [optRes_some, guardLeave_said]

theorem checkMemos_said (w : Words) (c : Config) (l : List MintReq) :
    checkMemos (w.config c) (l.map w.mintReq) = checkMemos c l := by
  induction l with
  | nil => rfl
  | cons a l ih =>
    simp only [List.map_cons, checkMemos, ih]
    rw [show (w.mintReq a).memo = a.memo.map w.memo from rfl, checkMemo_said]

theorem mintMetadata_said (w : Words) (l : List MintReq) (t : MetaTable) (tid : Nat) :
    mintMetadata (map id w.doc t) tid (l.map w.mintReq) = (mintMetadata t tid l).map (map id w.doc) := by
  induction l generalizing t tid with
  | nil => rfl
  | cons a l ih =>
    simp only [List.map_cons, mintMetadata]
    rw [show (w.mintReq a).metadata = a.metadata.map w.row from rfl, addMetadata_said]
    cases addMetadata t tid a.metadata with
    | none => rfl
    | some t => exact ih t _

theorem mintTxs_said {w : Words} {L L' : Ledger H} (hL : w.Ledgers L L') (s : State H) (now i : Nat) (l : List MintReq)
    {s' : State H} (hs : s' = w.state s) : mintTxs L' s' now i (l.map w.mintReq) = w.res (mintTxs L s now i l) := by
  induction l generalizing s s' i with
  | nil => subst hs; rfl
  | cons a l ih =>
    simp only [List.map_cons, mintTxs]
    rw [addTx_said hL s (mintTx now i a) hs (t' := mintTx now i (w.mintReq a)) rfl]
    generalize addTx L s _ = x
    obtain ⟨s, e | j⟩ := x
    · rfl
    · exact ih s (i + 1) rfl

theorem mintInsert_said (w : Words) (s : State H) (i : Nat) (l : List MintReq) :
    mintInsert (w.state s) i (l.map w.mintReq) = w.state (mintInsert s i l) := by
  induction l generalizing s i with
  | nil => rfl
  | cons a l ih =>
    simp only [List.map_cons, mintInsert]
    rw [← ih]
    rfl

theorem mint_said {w : Words} {E E' : Env H} (hE : w.Worlds E E') (s : State H) (caller : Principal) (now : Nat)
    (l : List MintReq) : mint E' (w.state s) caller now (l.map w.mintReq) = w.optRes (mint E s caller now l) := by
  refine withGuard_said w s caller fun s => ?_
  dsimp only
  rw [state_cfg, state_tokens, state_mdata, state_lastId, List.length_map, checkMemos_said, mintMetadata_said]
  by_cases h1 : l.length > s.cfg.maxUpdateBatch.getD 100
  · rw [if_pos h1, if_pos (show l.length > (w.config s.cfg).maxUpdateBatch.getD 100 from h1)]; rfl
  · rw [if_neg h1, if_neg (show ¬ l.length > (w.config s.cfg).maxUpdateBatch.getD 100 from h1)]
    by_cases h2 : s.tokens.size + l.length > s.cfg.supplyCap.getD defaultSupplyCap
    · rw [if_pos h2, if_pos (show s.tokens.size + l.length > (w.config s.cfg).supplyCap.getD defaultSupplyCap from h2)]; rfl
    · rw [if_neg h2, if_neg (show ¬ s.tokens.size + l.length > (w.config s.cfg).supplyCap.getD defaultSupplyCap from h2)]
      cases checkMemos s.cfg l with
      | none => rfl
      | some b =>
        cases b with
        | false => rfl
        | true =>
          simp only
          cases mintMetadata s.mdata s.lastId l with
          | none => rfl
          | some md =>
            simp only [Option.map_some]
            rw [mintTxs_said hE.ledger { s with mdata := md } now s.lastId l]
            rotate_left
            · rfl
            generalize mintTxs E.ledger _ _ _ _ = x
            obtain ⟨s', b⟩ := x
            cases b with
            | false => rfl
            | true =>
              simp only [res_mk, optRes_some]
              rw [← mintInsert_said]
              rfl

theorem updateNftMetadata_said {w : Words} {E E' : Env H} (hE : w.Worlds E E') (s : State H) (caller : Principal)
    (now tid : Nat) (kvs : List (String × Value)) :
    updateNftMetadata E' (w.state s) caller now tid (kvs.map w.row)
      = w.optRes (updateNftMetadata E s caller now tid kvs) := by
  refine withGuard_said w s caller fun s => ?_
  simp only [state_tokens, state_mdata]
  cases s.tokens.get tid with
  | none => rfl
  | some t =>
    simp only [replaceMetadata_said]
    cases replaceMetadata s.mdata t.id kvs with
    | none => rfl
    | some md =>
      simp only [Option.map_some, getAllData_getD]
      rw [addTx_said hE.ledger { s with mdata := md }
          { op := .updateToken, ts := now, tid := some tid, from_ := some ⟨caller, none⟩,
            meta_ := some ((getAllData s.mdata tid).getD [], (getAllData md tid).getD []),
            createdAt := some now }]
      rotate_left
      · rfl
      · rfl
      generalize addTx E.ledger _ _ = x
      obtain ⟨s', e | j⟩ := x <;> rfl

theorem burnNft_said {w : Words} {E E' : Env H} (hE : w.Worlds E E') (s : State H) (caller : Principal) (now tid : Nat) :
    burnNft E' (w.state s) caller now tid = w.optRes (burnNft E s caller now tid) := by
  refine withGuard_said w s caller fun s => ?_
  simp only [state_tokens]
  cases s.tokens.get tid with
  | none => rfl
  | some t =>
    simp only
    split
    · rfl
    · rw [addTx_said hE.ledger s { op := .burn, ts := now, tid := some tid, from_ := some t.owner,
                                   createdAt := some now } rfl]
      rotate_left
      · rfl
      generalize addTx E.ledger _ _ = x
      obtain ⟨s', e | j⟩ := x <;> rfl

theorem setIf_said (w : Words) {A : Type} (o o' : Option A) (g : A → A) (ho : o' = o.map g) (f : A → Config → Config)
    (hf : ∀ v c, f (g v) (w.config c) = w.config (f v c)) (c c' : Config) (hc : c' = w.config c) :
    setIf o' f c' = w.config (setIf o f c) := by
  subst ho; subst hc
  cases o with
  | none => rfl
  | some v => exact hf v c

theorem setIf_kept (w : Words) {A : Type} (o : Option A) (f : A → Config → Config)
    (hf : ∀ v c, f v (w.config c) = w.config (f v c)) (c c' : Config) (hc : c' = w.config c) :
    setIf o f c' = w.config (setIf o f c) := by
  subst hc
  cases o with
  | none => rfl
  | some v => exact hf v c

theorem applyUpdate_said (w : Words) (c : Config) (a : UpdateCollArg) :
    applyUpdate (w.config c) (w.updateArg a) = w.config (applyUpdate c a) := by
  unfold applyUpdate
  dsimp only
  iterate 10
    refine setIf_kept w _ _ ?_ _ _ ?_
    · intro _ _; rfl
  iterate 4
    refine setIf_said w _ _ w.text rfl _ ?_ _ _ ?_
    · intro _ _; rfl
  rfl

/-! ### Uploads -/

/-- The first segment of an asynchronous method. -/
def started (w : Words) : Started H → Started H
  | .done s x => .done (w.state s) x
  | .suspended s => .suspended (w.state s)

theorem withGuardAsync_said (w : Words) (s : State H) (p : Principal)
    {b : State H → State H × (Except MgmtErr MgmtOk ⊕ Pending)}
    (h : ∀ s, b (w.state s) = w.res (b s)) :
    withGuardAsync (w.state s) p b = w.started (withGuardAsync s p b) := by
  unfold withGuardAsync
  rw [guardEnter_said]
  cases guardEnter s p with
  | none => rfl
  | some s =>
    simp only [Option.map_some, h]
    generalize b s = x
    obtain ⟨s, e | q⟩ := x <;> rfl

theorem initUpload_said (w : Words) (s : State H) (caller : Principal) (path : String) (n : Nat) :
    initUpload (w.state s) caller path n = w.started (initUpload s caller path n) := by
  refine withGuardAsync_said w s caller fun s => ?_
  rw [state_uploads]
  by_cases h : containsPath s.uploads path = true
  · rw [if_pos h, if_pos h]; rfl
  · rw [if_neg h, if_neg h]
    split <;> rfl

theorem callStorage_said (w : Words) (s : State H) (key : String) (u : Upload) (p : Pending) :
    callStorage (w.state s) key u p = w.res (callStorage s key u p) := by
  unfold callStorage
  rw [state_subs]
  cases getSub s.subs u.canister with
  | none => rfl
  | some c =>
    simp only
    split <;> rfl

theorem storeChunk_said (w : Words) (s : State H) (caller : Principal) (key : String) :
    storeChunk (w.state s) caller key = w.started (storeChunk s caller key) := by
  refine withGuardAsync_said w s caller fun s => ?_
  simp only [state_uploads, callStorage_said]
  cases s.uploads.get key with
  | none => rfl
  | some u => simp only; cases u.state <;> rfl

theorem finalizeUpload_said (w : Words) (s : State H) (caller : Principal) (key : String) :
    finalizeUpload (w.state s) caller key = w.started (finalizeUpload s caller key) := by
  refine withGuardAsync_said w s caller fun s => ?_
  simp only [state_uploads, callStorage_said]
  cases s.uploads.get key with
  | none => rfl
  | some u => simp only; cases u.state <;> rfl

theorem cancelUpload_said (w : Words) (s : State H) (caller : Principal) (key : String) :
    cancelUpload (w.state s) caller key = w.started (cancelUpload s caller key) := by
  refine withGuardAsync_said w s caller fun s => ?_
  simp only [state_uploads, callStorage_said]
  cases s.uploads.get key with
  | none => rfl
  | some u => simp only; cases u.state <;> rfl

theorem resumeBody_said {w : Words} {E E' : Env H} (hE : w.Worlds E E') (s : State H) (now : Nat) (p : Pending) (a : Answer) :
    resumeBody E' (w.state s) now p a = w.res (resumeBody E s now p a) := by
  cases p with
  | init c path n subs =>
    simp only [resumeBody]
    cases managerInitUpload a subs n with
    | none => rfl
    | some x => rfl
  | store c key u =>
    simp only [resumeBody]
    cases a.resp with
    | error e => rfl
    | ok _ => rfl
  | finalize c key u =>
    have hu : ∀ c p, mediaUrl E' c p = mediaUrl E c p := fun c p => by unfold mediaUrl; rw [hE.text]
    simp only [resumeBody, hE.self, hu]
    cases a.resp with
    | error e => rfl
    | ok _ => rfl
  | cancel c key u =>
    simp only [resumeBody]
    cases a.resp with
    | error e => rfl
    | ok _ => rfl

/-! ### The whole canister -/

theorem ofBatch_said (w : Words) (s : State H) (x : Option (State H × List (Except TokErr Nat))) :
    ofBatch (w.state s) (w.optRes x) = w.res (ofBatch s x) := by
  cases x with
  | none => rfl
  | some y => rfl

theorem ofMgmt_said (w : Words) (s : State H) (x : Option (MgmtRes H)) :
    ofMgmt (w.state s) (w.optRes x) = w.res (ofMgmt s x) := by
  cases x with
  | none => rfl
  | some y => rfl

theorem ofStarted_said (w : Words) (x : Started H) : ofStarted (w.started x) = w.res (ofStarted x) := by
  cases x <;> rfl

theorem exec_said {w : Words} {E E' : Env H} (hE : w.Worlds E E') (s : State H) (caller : Principal) (now : Nat) (c : Call) :
    exec E' (w.state s) caller now (w.call c) = w.res (exec E s caller now c) := by
  have hL := hE.ledger
  cases c with
  | transfer args => simp only [exec, call, icrc7Transfer_said hL, ofBatch_said]
  | approveTokens args =>
    simp only [exec, call, icrc37ApproveTokens]
    rw [runBatch_said w (fun s a => approveToken_said hL s caller now a) s, ofBatch_said]
  | approveCollection args =>
    simp only [exec, call, icrc37ApproveCollection]
    rw [runBatch_said w (f := fun s a => some (approveCollection E.ledger s caller now a))
      (fun s a => by rw [approveCollection_said hL s]; rfl) s, ofBatch_said]
  | revokeTokens args =>
    simp only [exec, call, icrc37RevokeTokens_said hL]
    cases icrc37RevokeTokens E.ledger s caller now args with
    | none => rfl
    | some x => obtain ⟨s, e | y⟩ := x <;> rfl
  | revokeCollection args =>
    simp only [exec, call, icrc37RevokeCollection, state_cfg, maxRevoke_said, ← List.map_take]
    rw [runBatch_said w (f := fun s a => some (revokeCollection E.ledger s caller now a))
      (fun s a => by rw [revokeCollection_said hL s]; rfl) s, ofBatch_said]
  | transferFrom args =>
    simp only [exec, call, icrc37TransferFrom]
    rw [runBatch_said w (fun s a => transferFrom_said hL s caller now a) s, ofBatch_said]
  | updateCollectionMetadata a =>
    simp only [exec, call]
    rw [← ofMgmt_said]
    refine congrArg _ (withGuard_said w s caller fun s => ?_)
    simp only [state_cfg, applyUpdate_said]
    rfl
  | mint reqs => simp only [exec, call, mint_said hE, ofMgmt_said]
  | updateNftMetadata tid kvs => simp only [exec, call, updateNftMetadata_said hE, ofMgmt_said]
  | burn tid => simp only [exec, call, burnNft_said hE, ofMgmt_said]
  | initUpload path n => simp only [exec, call, initUpload_said, ofStarted_said]
  | storeChunk path => simp only [exec, call, storeChunk_said, ofStarted_said]
  | finalizeUpload path => simp only [exec, call, finalizeUpload_said, ofStarted_said]
  | cancelUpload path => simp only [exec, call, cancelUpload_said, ofStarted_said]
  | grant p x =>
    simp only [exec, call]
    rw [← ofMgmt_said]
    exact congrArg _ (withGuard_said w s caller fun _ => rfl)
  | revoke p x =>
    simp only [exec, call]
    rw [← ofMgmt_said]
    exact congrArg _ (withGuard_said w s caller fun _ => rfl)

theorem needs_said (w : Words) (c : Call) : (w.call c).needs = c.needs := by cases c <;> rfl

theorem step_said {w : Words} {E E' : Env H} (hE : w.Worlds E E') (s : State H) (m : Msg) :
    step E' (w.state s) (w.msg m) = w.res (step E s m) := by
  cases m with
  | call caller now c =>
    simp only [step, msg, execCall, needs_said, exec_said hE, state_perms]
    cases c.needs with
    | none => rfl
    | some p =>
      simp only
      split <;> rfl
  | resume now i ans =>
    simp only [step, msg, state_pending]
    cases s.pending[i]? with
    | none => rfl
    | some p =>
      simp only
      rw [show ({ w.state s with pending := s.pending.eraseIdx i } : State H) = w.state { s with pending := s.pending.eraseIdx i } from rfl,
        resumeBody_said hE]
      rfl
  | resumeTrap i =>
    simp only [step, msg, state_pending]
    cases s.pending[i]? with
    | none => rfl
    | some p => rfl
  | upgrade => rfl

theorem run_said {w : Words} {E E' : Env H} (hE : w.Worlds E E') (s : State H) (ms : List Msg) :
    run E' (w.state s) (ms.map w.msg) = w.state (run E s ms) ∧
      replies E' (w.state s) (ms.map w.msg) = replies E s ms := by
  induction ms generalizing s with
  | nil => exact ⟨rfl, rfl⟩
  | cons m ms ih =>
    have h1 := step_said hE s m
    obtain ⟨h2, h3⟩ := ih (step E s m).1
    simp only [List.map_cons, run, replies, h1]
    exact ⟨h2, congrArg _ h3⟩

theorem init_said (w : Words) {v v' : String → Bool} (hv : ∀ u, v' (w.text u) = v u) (hid : H) (c : Principal) (a : InitArgs) :
    init v' hid c (w.initArgs a) = (init v hid c a).map w.state := by
  have e : (w.initArgs a).logo.any (fun u => !v' u) = a.logo.any fun u => !v u := by
    simp only [initArgs]
    cases a.logo with
    | none => rfl
    | some u => simp [hv]
  unfold init
  rw [e]
  rw [show (w.initArgs a).txWindow = a.txWindow from rfl, show (w.initArgs a).maxRevoke = a.maxRevoke from rfl,
    show (w.initArgs a).maxApprovals = a.maxApprovals from rfl]
  split
  · rfl
  split
  · rfl
  split
  · rfl
  split
  · rfl
  rfl

/-! ### Queries -/

theorem isApproved_said (w : Words) (s : State H) (now : Nat) (a : IsApprovedArg) :
    isApproved (w.state s) now a = isApproved s now a := by
  have h2 : (match (w.state s).tokAppr.get a.tid with
      | none => false
      | some m =>
        match m.get a.spender with
        | none => false
        | some a =>
          match a.expiresAt with
          | some e => decide (e > now)
          | none => true) = (match s.tokAppr.get a.tid with
      | none => false
      | some m =>
        match m.get a.spender with
        | none => false
        | some a =>
          match a.expiresAt with
          | some e => decide (e > now)
          | none => true) := by
    rw [state_tokAppr, get_mapV]
    cases s.tokAppr.get a.tid with
    | none => rfl
    | some m =>
      simp only [Option.map_some, approvals_get]
      cases m.get a.spender with
      | none => rfl
      | some b => rfl
  have h3 : (((w.state s).collAppr.get a.spender).getD ∅).entries.any (fun e =>
      decide (e.1.owner = a.spender.owner) && decide (e.1.sub = a.spender.sub))
      = ((s.collAppr.get a.spender).getD ∅).entries.any (fun e =>
      decide (e.1.owner = a.spender.owner) && decide (e.1.sub = a.spender.sub)) := by
    rw [state_collAppr, get_mapV, approvals_getD, approvals, entries_map, List.any_map]
    rfl
  have e : ∀ {a b c b' c' : Bool}, b = b' → c = c' → (a || b || c) = (a || b' || c') := by
    intro a b c b' c' h h'
    rw [h, h']
  exact e h2 h3

theorem approvalPage_said (w : Words) (l : List (Account × Approval)) (prev : Option ApprovalInfo)
    (take : Option Nat) :
    approvalPage (l.map w.entry) (prev.map w.info) take = (approvalPage l prev take).map w.info := by
  have h1 : (l.map w.entry).map approvalRow = (l.map approvalRow).map w.info := by
    simp only [List.map_map]
    exact List.map_congr_left fun e _ => rfl
  have h2 : ∀ l : List ApprovalInfo, sortBy (fun a b => decide (b.createdAt ≤ a.createdAt)) (l.map w.info)
      = (sortBy (fun a b => decide (b.createdAt ≤ a.createdAt)) l).map w.info :=
    fun l => Change.sortBy_map w.info (fun _ _ => rfl) l
  have h3 : ∀ (l : List ApprovalInfo) (p : ApprovalInfo),
      ((l.map w.info).findIdx? fun a => a.spender == (w.info p).spender) = l.findIdx? fun a => a.spender == p.spender := by
    intro l p
    rw [List.findIdx?_map]
    rfl
  unfold approvalPage
  simp only [h1, h2]
  cases prev with
  | none => simp only [Option.map_none, ← List.map_drop, ← List.map_take]
  | some p => simp only [Option.map_some, h3, ← List.map_drop, ← List.map_take]

theorem tokenMetadata_said (w : Words) (s : State H) (ids : List Nat) :
    icrc7TokenMetadata (w.state s) ids
      = (icrc7TokenMetadata s ids).map (·.map (·.map (·.map w.row))) := by
  have hf : ∀ tid, ((w.state s).tokens.get tid).map (tokenMetadata (w.state s))
      = ((s.tokens.get tid).map (tokenMetadata s)).map (·.map w.row) := by
    intro tid
    rw [state_tokens]
    cases s.tokens.get tid with
    | none => rfl
    | some t => exact congrArg some (getAllData_getD w s.mdata t.id)
  unfold icrc7TokenMetadata queryBatch
  simp only [hf, show (w.state s).cfg.maxQueryBatch = s.cfg.maxQueryBatch from rfl]
  split
  · rfl
  · simp [Function.comp_def]

theorem collectionMetadata_said (w : Words) (s : State H) :
    icrc7CollectionMetadata (w.state s) = (icrc7CollectionMetadata s).map w.announced := by
  unfold icrc7CollectionMetadata
  dsimp only
  have key : ∀ a, (w.announced a).1 = a.1 := fun a => by unfold announced; split <;> rfl
  have sorted : ∀ l : List (String × Value), sortBy (fun a b => decide (a.1 ≤ b.1)) (l.map w.announced)
      = (sortBy (fun a b => decide (a.1 ≤ b.1)) l).map w.announced :=
    fun l => Change.sortBy_map w.announced (fun a b => by rw [key, key]) l
  rw [← sorted]
  congr 1
  simp only [List.map_append, List.map_cons, List.map_nil, state_cfg, config]
  have kept : ∀ (k : String) (o : Option Nat), List.map w.announced (Option.map (fun v => (k, v)) (o.map Value.nat)).toList
      = (Option.map (fun v => (k, v)) (o.map Value.nat)).toList := fun k o => by cases o <;> rfl
  have said : ∀ (k : String) (_ : k ∈ ["icrc7:symbol", "icrc7:name", "icrc7:description", "icrc7:logo"]) (o : Option String),
      List.map w.announced (Option.map (fun v => (k, v)) (o.map Value.text)).toList
      = (Option.map (fun v => (k, v)) ((o.map w.text).map Value.text)).toList := fun k hk o => by
    cases o with
    | none => rfl
    | some t => simp only [Option.map_some, Option.toList_some, List.map_cons, List.map_nil, announced, if_pos hk]
  have flag : ∀ (o : Option Bool), List.map w.announced (Option.map (fun v => ("icrc7:atomic_batch_transfers", v))
      (o.map fun b => Value.text (if b then "true" else "false"))).toList
      = (Option.map (fun v => ("icrc7:atomic_batch_transfers", v)) (o.map fun b => Value.text (if b then "true" else "false"))).toList :=
    fun o => by
      cases o with
      | none => rfl
      | some t => simp [announced]
  rw [kept, kept, kept, kept, kept, kept, kept, kept, flag, said _ (by simp), said _ (by simp)]
  simp [announced, totalSupply]

end Verif.Spec.Words
