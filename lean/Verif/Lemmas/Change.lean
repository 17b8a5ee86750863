import Verif.Spec.Change
/-!
# A change of names and spellings commutes with the code: helper lemmas
-/
set_option linter.unusedSectionVars false

namespace Verif.Spec.Change

variable {H : Type}

/-! ### Principals and accounts -/

theorem to_inj (r : Change) {p q : Principal} : r.to p = r.to q ↔ p = q :=
  ⟨fun h => by rw [← r.back_to p, h, r.back_to], fun h => by rw [h]⟩

theorem to_anon (r : Change) {p : Principal} : r.to p = anonymous ↔ p = anonymous := by
  rw [← r.anon, r.to_inj, r.anon]

theorem account_beq (r : Change) (a b : Account) : (r.account a == r.account b) = (a == b) := by
  rw [Account.beq_def, Account.beq_def, show (r.account a).eff = a.eff from r.respell_eff a.sub,
    show (r.account b).eff = b.eff from r.respell_eff b.sub]
  by_cases h : a.owner = b.owner
  · simp [account, h]
  · simp [account, h, r.to_inj]

theorem account_anon (r : Change) : r.account anonymousAccount = anonymousAccount := by
  simp [account, anonymousAccount, r.anon, r.respell_none]

theorem account_beq_anon (r : Change) (a : Account) :
    (r.account a == anonymousAccount) = (a == anonymousAccount) := by
  rw [← r.account_beq a anonymousAccount, r.account_anon]

theorem to_beq (r : Change) (p q : Principal) : (r.to p == r.to q) = (p == q) := by
  rw [Bool.eq_iff_iff, beq_iff_eq, beq_iff_eq, r.to_inj]

theorem account_mk (r : Change) (p : Principal) (b : Option Subaccount) :
    (⟨r.to p, r.respell b⟩ : Account) = r.account ⟨p, b⟩ := rfl

theorem account_mk0 (r : Change) (p : Principal) : (⟨r.to p, none⟩ : Account) = r.account ⟨p, none⟩ := by
  rw [account, r.respell_none]

theorem sub_back (r : Change) (l : List SubCanister) : (l.map r.sub).map r.unsub = l := by
  rw [List.map_map]
  conv => rhs; rw [← List.map_id l]
  exact List.map_congr_left fun c _ => by simp [sub, unsub, r.back_to]

/-! ### Maps -/

section maps
variable {K V K' V' : Type} [BEq K] [BEq K'] {f : K → K'} {g : V → V'}

theorem get_map (hf : ∀ a b, (f a == f b) = (a == b)) (m : Map K V) (k : K) :
    (map f g m).get (f k) = (m.get k).map g := by
  obtain ⟨l⟩ := m
  simp only [map, Map.get]
  induction l with
  | nil => rfl
  | cons e l ih =>
    simp only [List.map_cons, Map.getL, hf]
    split <;> simp_all

theorem set_map (hf : ∀ a b, (f a == f b) = (a == b)) (m : Map K V) (k : K) (v : V) :
    (map f g m).set (f k) (g v) = map f g (m.set k v) := by
  obtain ⟨l⟩ := m
  simp only [map, Map.set]
  congr 1
  induction l with
  | nil => rfl
  | cons e l ih =>
    simp only [List.map_cons, Map.setL, hf]
    split <;> simp_all

theorem del_map (hf : ∀ a b, (f a == f b) = (a == b)) (m : Map K V) (k : K) :
    (map f g m).del (f k) = map f g (m.del k) := by
  obtain ⟨l⟩ := m
  simp only [map, Map.del]
  congr 1
  induction l with
  | nil => rfl
  | cons e l ih =>
    simp only [List.map_cons, List.filter_cons, hf]
    split <;> simp_all

theorem size_map (m : Map K V) : (map f g m).size = m.size := by simp [map, Map.size]
theorem map_empty : map f g (∅ : Map K V) = ∅ := rfl
theorem entries_map (m : Map K V) : (map f g m).entries = m.entries.map fun e => (f e.1, g e.2) := rfl

end maps

section idkeys
variable {K V V' : Type} [BEq K] {g : V → V'}

theorem get_mapV (m : Map K V) (k : K) : (map id g m).get k = (m.get k).map g :=
  get_map (f := id) (fun _ _ => rfl) m k
theorem set_mapV (m : Map K V) (k : K) (v : V) : (map id g m).set k (g v) = map id g (m.set k v) :=
  set_map (f := id) (fun _ _ => rfl) m k v
theorem del_mapV (m : Map K V) (k : K) : (map id g m).del k = map id g (m.del k) :=
  del_map (f := id) (fun _ _ => rfl) m k

end idkeys

section accounts
variable {V V' : Type} {g : V → V'} (r : Change)

theorem get_mapA (m : Map Account V) (k : Account) : (map r.account g m).get (r.account k) = (m.get k).map g :=
  get_map r.account_beq m k
theorem set_mapA (m : Map Account V) (k : Account) (v : V) :
    (map r.account g m).set (r.account k) (g v) = map r.account g (m.set k v) :=
  set_map r.account_beq m k v
theorem set_mapAid (m : Map Account V) (k : Account) (v : V) :
    (map r.account id m).set (r.account k) v = map r.account id (m.set k v) :=
  set_map (g := id) r.account_beq m k v
theorem del_mapA (m : Map Account V) (k : Account) :
    (map r.account g m).del (r.account k) = map r.account g (m.del k) :=
  del_map r.account_beq m k
theorem get_mapP (m : Map Principal V) (k : Principal) : (map r.to g m).get (r.to k) = (m.get k).map g :=
  get_map r.to_beq m k
theorem set_mapP (m : Map Principal V) (k : Principal) (v : V) :
    (map r.to id m).set (r.to k) v = map r.to id (m.set k v) :=
  set_map (g := id) r.to_beq m k v

end accounts

/-! ### Results -/

/-- A result whose first part is a state. -/
def res {R : Type} (r : Change) (x : State H × R) : State H × R := (r.state x.1, x.2)

/-- A possibly trapped result. -/
def optRes {R : Type} (r : Change) (x : Option (State H × R)) : Option (State H × R) := x.map r.res

@[simp] theorem optRes_none {R : Type} (r : Change) : r.optRes (none : Option (State H × R)) = none := rfl
@[simp] theorem optRes_some {R : Type} (r : Change) (s : State H) (x : R) :
    r.optRes (some (s, x)) = some (r.state s, x) := rfl
@[simp] theorem res_mk {R : Type} (r : Change) (s : State H) (x : R) : r.res (s, x) = (r.state s, x) := rfl

@[simp] theorem state_cfg (r : Change) (s : State H) : (r.state s).cfg = s.cfg := rfl
@[simp] theorem state_windows (r : Change) (s : State H) : (r.state s).windows = s.windows := rfl
@[simp] theorem state_mdata (r : Change) (s : State H) : (r.state s).mdata = s.mdata := rfl
@[simp] theorem state_lastId (r : Change) (s : State H) : (r.state s).lastId = s.lastId := rfl
@[simp] theorem state_hid (r : Change) (s : State H) : (r.state s).hid = s.hid := rfl
@[simp] theorem state_tokens (r : Change) (s : State H) : (r.state s).tokens = map id r.token s.tokens := rfl
@[simp] theorem state_byOwner (r : Change) (s : State H) : (r.state s).byOwner = map r.account id s.byOwner := rfl
@[simp] theorem state_tokAppr (r : Change) (s : State H) : (r.state s).tokAppr = map id r.approvals s.tokAppr := rfl
@[simp] theorem state_collAppr (r : Change) (s : State H) :
    (r.state s).collAppr = map r.account r.approvals s.collAppr := rfl
@[simp] theorem state_perms (r : Change) (s : State H) : (r.state s).perms = map r.to id s.perms := rfl
@[simp] theorem state_uploads (r : Change) (s : State H) : (r.state s).uploads = map id r.upload s.uploads := rfl
@[simp] theorem state_subs (r : Change) (s : State H) : (r.state s).subs = s.subs.map r.sub := rfl
@[simp] theorem state_guards (r : Change) (s : State H) : (r.state s).guards = s.guards.map r.to := rfl
@[simp] theorem state_pending (r : Change) (s : State H) : (r.state s).pending = s.pending.map r.pending := rfl

theorem guardWindow_ren (r : Change) (s : State H) (now tid : Nat) :
    guardWindow (r.state s) now tid = r.res (guardWindow s now tid) := rfl

theorem addTx_ren (r : Change) {L L' : Ledger H} (hL : r.Ledgers L L') (s : State H) (t : Tx) {t' : Tx} (ht : t' = r.tx t) :
    addTx L' (r.state s) t' = r.res (addTx L s t) := by
  subst ht
  simp only [addTx, state_hid, hL s.hid t]
  generalize L.add s.hid t = x
  obtain ⟨h, _ | i⟩ := x
  · rfl
  · simp [res, state]

theorem addTx_ren' (r : Change) {L L' : Ledger H} (hL : r.Ledgers L L') (s : State H) (t : Tx) {s' : State H} {t' : Tx}
    (hs : s' = r.state s) (ht : t' = r.tx t) :
    addTx L' s' t' = r.res (addTx L s t) := by
  subst hs
  exact addTx_ren r hL s t ht

theorem ownerOf_ren (r : Change) (s : State H) (tid : Nat) :
    ownerOf (r.state s) tid = (ownerOf s tid).map r.account := by
  simp only [ownerOf, state_tokens, get_mapV, Option.map_map]
  rfl

theorem putTokAppr_ren (r : Change) (s : State H) (tid : Nat) (m : Map Account Approval) :
    putTokAppr (r.state s) tid (r.approvals m) = (putTokAppr s tid m).map r.state := by
  unfold putTokAppr
  split
  · simp only [Option.map_some, state_tokAppr, set_mapV]; rfl
  · rfl

theorem moveToken_ren (r : Change) (s : State H) (nft : Token) (a : Account) :
    moveToken (r.state s) (r.token nft) (r.account a) = r.state (moveToken s nft a) := by
  have e1 : (map id r.token s.tokens).set nft.id { nft with owner := r.account a }
      = map id r.token (s.tokens.set nft.id { nft with owner := a }) :=
    set_mapV (g := r.token) s.tokens nft.id { nft with owner := a }
  simp only [moveToken, state_tokens, state_byOwner, token, get_mapA, Option.map_id_fun, id, set_mapAid]
  rw [e1]
  rfl

/-! ### updates/icrc7.rs -/

theorem transferNft_ren (r : Change) {L L' : Ledger H} (hL : r.Ledgers L L') (s : State H) (caller : Principal) (now : Nat)
    (a : TransferArg) :
    transferNft L' (r.state s) (r.to caller) now (r.transferArg a)
      = r.optRes (transferNft L s caller now a) := by
  obtain ⟨to_, tid, memo, fromSub, createdAt⟩ := a
  rw [show r.transferArg ⟨to_, tid, memo, fromSub, createdAt⟩ = ⟨r.account to_, tid, memo, fromSub, createdAt⟩ from rfl]
  unfold transferNft
  obtain ⟨s₁, ok, hx⟩ : ∃ s₁ ok, guardWindow s now tid = (s₁, ok) := ⟨_, _, rfl⟩
  dsimp only
  rw [guardWindow_ren, hx]
  clear hx
  revert s₁
  intro s
  cases ok with
  | false => rfl
  | true =>
    simp only [res_mk, Bool.not_true, Bool.false_eq_true, if_false, state_tokens, get_mapV, state_cfg]
    cases s.tokens.get tid with
    | none => rfl
    | some nft =>
      simp only [Option.map_some]
      cases checkMemo s.cfg memo with
      | none => rfl
      | some b =>
        cases b with
        | false => rfl
        | true =>
          have hc : ((r.token nft).owner.owner ≠ r.to caller ∨ (r.account to_).owner = anonymous ∨
              ((r.token nft).owner == r.account to_) = true) ↔
              (nft.owner.owner ≠ caller ∨ to_.owner = anonymous ∨ (nft.owner == to_) = true) := by
            simp only [token, account_beq]
            simp only [account, ne_eq, r.to_inj, r.to_anon]
          dsimp only
          by_cases h : nft.owner.owner ≠ caller ∨ to_.owner = anonymous ∨ (nft.owner == to_) = true
          · rw [if_pos (hc.2 h), if_pos h]; rfl
          · rw [if_neg (mt hc.1 h), if_neg h]
            cases transferTiming s.cfg now (createdAt.getD now) with
            | none => rfl
            | some o =>
              cases o with
              | some e => rfl
              | none =>
                simp only
                rw [addTx_ren r hL s (transferTx now (createdAt.getD now) ⟨to_, tid, memo, fromSub, createdAt⟩ nft)]
                rotate_left
                · rfl
                generalize addTx L s (transferTx now (createdAt.getD now) ⟨to_, tid, memo, fromSub, createdAt⟩ nft) = y
                obtain ⟨s, e | i⟩ := y
                · cases e <;> rfl
                · simp only [res_mk, optRes_some, moveToken_ren]

theorem runBatch_ren {A R : Type} (r : Change) {f' f : State H → A → Option (State H × R)} {g : A → A}
    (h : ∀ s a, f' (r.state s) (g a) = r.optRes (f s a)) (s : State H) (l : List A) :
    runBatch f' (r.state s) (l.map g) = r.optRes (runBatch f s l) := by
  induction l generalizing s with
  | nil => rfl
  | cons a l ih =>
    simp only [List.map_cons, runBatch, h]
    cases f s a with
    | none => rfl
    | some x =>
      obtain ⟨s, y⟩ := x
      simp only [optRes_some, ih]
      cases runBatch f s l with
      | none => rfl
      | some x => obtain ⟨s, y⟩ := x; rfl

theorem icrc7Transfer_ren (r : Change) {L L' : Ledger H} (hL : r.Ledgers L L') (s : State H) (caller : Principal) (now : Nat)
    (args : List TransferArg) :
    icrc7Transfer L' (r.state s) (r.to caller) now (args.map r.transferArg)
      = r.optRes (icrc7Transfer L s caller now args) := by
  unfold icrc7Transfer
  simp only [List.isEmpty_map, state_cfg, List.length_map, r.to_anon, ← List.map_take]
  split
  · rfl
  · split
    · rfl
    · split
      · rfl
      · split
        · rfl
        · exact runBatch_ren r (fun s a => transferNft_ren r hL s caller now a) s _

/-! ### updates/icrc37.rs -/

theorem approvals_set (r : Change) (m : Map Account Approval) (k : Account) (v : Approval) :
    (r.approvals m).set (r.account k) (r.approval v) = r.approvals (m.set k v) := set_mapA r m k v
theorem approvals_get (r : Change) (m : Map Account Approval) (k : Account) :
    (r.approvals m).get (r.account k) = (m.get k).map r.approval := get_mapA r m k
theorem approvals_del (r : Change) (m : Map Account Approval) (k : Account) :
    (r.approvals m).del (r.account k) = r.approvals (m.del k) := del_mapA r m k
theorem approvals_size (r : Change) (m : Map Account Approval) : (r.approvals m).size = m.size :=
  size_map m
theorem approvals_getD (r : Change) (o : Option (Map Account Approval)) :
    (o.map r.approvals).getD ∅ = r.approvals (o.getD ∅) := by cases o <;> rfl
theorem any_size (r : Change) (o : Option (Map Account Approval)) (n : Nat) :
    ((o.map r.approvals).any fun m => decide (n ≤ m.size)) = o.any fun m => decide (n ≤ m.size) := by
  cases o
  · rfl
  · simp [approvals_size]
theorem mkApproval_ren (r : Change) (i : ApprovalInfo) (a : Account) (now : Nat) :
    mkApproval (r.info i) (r.account a) now = r.approval (mkApproval i a now) := rfl

theorem approveToken_ren (r : Change) {L L' : Ledger H} (hL : r.Ledgers L L') (s : State H) (caller : Principal) (now : Nat)
    (a : ApproveTokenArg) :
    approveToken L' (r.state s) (r.to caller) now (r.approveArg a)
      = r.optRes (approveToken L s caller now a) := by
  have ei : (r.approveArg a).info = r.info a.info := rfl
  have et : (r.approveArg a).tid = a.tid := rfl
  have es : (r.info a.info).spender = r.account a.info.spender := rfl
  unfold approveToken
  obtain ⟨s₁, ok, hx⟩ : ∃ s₁ ok, guardWindow s now a.tid = (s₁, ok) := ⟨_, _, rfl⟩
  simp only [ei, et]
  rw [guardWindow_ren, hx]
  clear hx
  revert s₁
  intro s
  cases ok with
  | false => rfl
  | true =>
    rw [res_mk]
    dsimp only
    rw [state_cfg]
    simp only [Bool.not_true, Bool.false_eq_true, if_false]
    rw [show (r.info a.info).createdAt = a.info.createdAt from rfl]
    cases verifyTiming s.cfg a.info.createdAt now with
    | some e => rfl
    | none =>
      simp only [ownerOf_ren]
      cases ownerOf s a.tid with
      | none => rfl
      | some owner =>
        simp only [Option.map_some]
        simp only [show (r.info a.info).fromSub = r.respell a.info.fromSub from rfl, account_mk, account_beq, es,
          account_beq_anon, state_tokAppr, get_mapV, any_size]
        split
        · rfl
        · split
          · rfl
          · split
            · rfl
            · rw [addTx_ren r hL s { op := .approve, ts := now, tid := some a.tid,
                                     from_ := some ⟨caller, a.info.fromSub⟩, memo := a.info.memo,
                                     createdAt := some a.info.createdAt, spender := some a.info.spender,
                                     exp := a.info.expiresAt }]
              rotate_left
              · rfl
              generalize addTx L s _ = y
              obtain ⟨s, e | i⟩ := y
              · rfl
              · simp only [res_mk, state_tokAppr, get_mapV, approvals_getD, mkApproval_ren, approvals_set,
                  putTokAppr_ren]
                cases putTokAppr s a.tid _ <;> rfl

theorem any_owner (r : Change) (s : State H) (caller : Principal) :
    ((map id r.token s.tokens).entries.any fun e => decide (e.2.owner.owner = r.to caller))
      = s.tokens.entries.any fun e => decide (e.2.owner.owner = caller) := by
  simp only [entries_map, List.any_map]
  congr 1
  funext e
  simp [token, account, r.to_inj]

theorem approveCollection_ren (r : Change) {L L' : Ledger H} (hL : r.Ledgers L L') (s : State H) (caller : Principal) (now : Nat)
    (a : ApprovalInfo) :
    approveCollection L' (r.state s) (r.to caller) now (r.info a)
      = r.res (approveCollection L s caller now a) := by
  have es : (r.info a).spender = r.account a.spender := rfl
  unfold approveCollection
  obtain ⟨s₁, ok, hx⟩ : ∃ s₁ ok, guardWindow s now 0 = (s₁, ok) := ⟨_, _, rfl⟩
  rw [guardWindow_ren, hx]
  clear hx
  revert s₁
  intro s
  cases ok with
  | false => rfl
  | true =>
    rw [res_mk]
    dsimp only
    rw [state_cfg]
    simp only [Bool.not_true, Bool.false_eq_true, if_false]
    rw [show (r.info a).createdAt = a.createdAt from rfl]
    cases verifyTiming s.cfg a.createdAt now with
    | some e => rfl
    | none =>
      simp only
      simp only [show (r.info a).fromSub = r.respell a.fromSub from rfl, account_mk, es, account_beq_anon, state_collAppr,
        get_mapA, any_size, state_tokens, any_owner]
      split
      · rfl
      · split
        · rfl
        · split
          · rfl
          · rw [addTx_ren r hL s { op := .approveColl, ts := now,
                                   from_ := some ⟨caller, a.fromSub⟩, memo := a.memo,
                                   createdAt := some a.createdAt, spender := some a.spender,
                                   exp := a.expiresAt }]
            rotate_left
            · rfl
            generalize addTx L s _ = y
            obtain ⟨s, e | i⟩ := y
            · rfl
            · simp only [res_mk, state_collAppr, get_mapA, approvals_getD, mkApproval_ren, approvals_set,
                set_mapA]
              rfl

theorem dropSpender_ren (r : Change) (m : Map Account Approval) (o : Option Account) :
    dropSpender (r.approvals m) (o.map r.account) = r.approvals (dropSpender m o) := by
  cases o
  · rfl
  · exact approvals_del r m _

theorem revokeToken_ren (r : Change) {L L' : Ledger H} (hL : r.Ledgers L L') (s : State H) (caller : Principal) (now : Nat)
    (a : RevokeTokenArg) :
    revokeToken L' (r.state s) (r.to caller) now (r.revokeArg a)
      = r.optRes (revokeToken L s caller now a) := by
  unfold revokeToken
  simp only [state_cfg, revokeArg]
  cases verifyTimingOpt s.cfg a.createdAt now with
  | some e => rfl
  | none =>
    simp only [ownerOf_ren]
    cases ownerOf s a.tid with
    | none => rfl
    | some owner =>
      simp only [Option.map_some, account_mk, account_beq, state_tokAppr, get_mapV]
      split
      · rfl
      · cases s.tokAppr.get a.tid with
        | none => rfl
        | some m =>
          simp only [Option.map_some]
          rw [addTx_ren r hL s { op := .revoke, ts := now, tid := some a.tid,
                                 from_ := some ⟨caller, a.fromSub⟩, memo := a.memo, createdAt := a.createdAt,
                                 spender := a.spender }]
          rotate_left
          · rfl
          generalize addTx L s _ = y
          obtain ⟨s, e | i⟩ := y
          · rfl
          · simp only [res_mk, dropSpender_ren, putTokAppr_ren]
            cases putTokAppr s a.tid _ <;> rfl

theorem revokeCollection_ren (r : Change) {L L' : Ledger H} (hL : r.Ledgers L L') (s : State H) (caller : Principal) (now : Nat)
    (a : RevokeCollArg) :
    revokeCollection L' (r.state s) (r.to caller) now (r.revokeCollArg a)
      = r.res (revokeCollection L s caller now a) := by
  unfold revokeCollection
  obtain ⟨s₁, ok, hx⟩ : ∃ s₁ ok, guardWindow s now 0 = (s₁, ok) := ⟨_, _, rfl⟩
  dsimp only [revokeCollArg]
  rw [guardWindow_ren, hx]
  clear hx
  revert s₁
  intro s
  cases ok with
  | false => rfl
  | true =>
    rw [res_mk]
    dsimp only
    rw [state_cfg]
    simp only [Bool.not_true, Bool.false_eq_true, if_false]
    cases verifyTimingOpt s.cfg a.createdAt now with
    | some e => rfl
    | none =>
      simp only [account_mk0, state_collAppr, get_mapA]
      cases s.collAppr.get ⟨caller, none⟩ with
      | none => rfl
      | some m =>
        simp only [Option.map_some]
        rw [addTx_ren r hL s { op := .revokeColl, ts := now, from_ := some ⟨caller, none⟩, memo := a.memo,
                               createdAt := a.createdAt, spender := a.spender }]
        rotate_left
        · rfl
        generalize addTx L s _ = y
        obtain ⟨s, e | i⟩ := y
        · rfl
        · simp only [res_mk, dropSpender_ren, state_collAppr, set_mapA]
          rfl

theorem checkTokenApproval_ren (r : Change) (s : State H) (now tid : Nat) (a : Account) :
    checkTokenApproval (r.state s) now tid (r.account a) = r.optRes (checkTokenApproval s now tid a) := by
  unfold checkTokenApproval
  simp only [state_tokAppr, get_mapV]
  cases s.tokAppr.get tid with
  | none => rfl
  | some m =>
    simp only [Option.map_some, approvals_get]
    cases m.get a with
    | none => rfl
    | some b =>
      simp only [Option.map_some, approvals_del, putTokAppr_ren]
      rw [show expired (r.approval b) now = expired b now from rfl]
      split
      · cases putTokAppr s tid _ <;> rfl
      · rfl

theorem checkCollApproval_ren (r : Change) (s : State H) (now : Nat) (o a : Account) :
    checkCollApproval (r.state s) now (r.account o) (r.account a) = r.res (checkCollApproval s now o a) := by
  unfold checkCollApproval
  simp only [state_collAppr, get_mapA]
  cases s.collAppr.get o with
  | none => rfl
  | some m =>
    simp only [Option.map_some, approvals_get]
    cases m.get a with
    | none => rfl
    | some b =>
      simp only [Option.map_some, approvals_del]
      rw [show expired (r.approval b) now = expired b now from rfl,
        show (r.approvals (m.del a)).entries.isEmpty = (m.del a).entries.isEmpty from by
          simp [approvals, entries_map]]
      split
      · split
        · simp only [del_mapA, set_mapA]; rfl
        · simp only [set_mapA]; rfl
      · rfl

theorem transferFrom_ren (r : Change) {L L' : Ledger H} (hL : r.Ledgers L L') (s : State H) (caller : Principal) (now : Nat)
    (a : TransferFromArg) :
    transferFrom L' (r.state s) (r.to caller) now (r.fromArg a)
      = r.optRes (transferFrom L s caller now a) := by
  obtain ⟨spenderSub, from_, to_, tid, memo, createdAt⟩ := a
  rw [show r.fromArg ⟨spenderSub, from_, to_, tid, memo, createdAt⟩ = ⟨r.respell spenderSub, r.account from_, r.account to_, tid, memo, createdAt⟩ from rfl]
  unfold transferFrom
  obtain ⟨s₁, ok, hx⟩ : ∃ s₁ ok, guardWindow s now tid = (s₁, ok) := ⟨_, _, rfl⟩
  dsimp only
  rw [guardWindow_ren, hx]
  clear hx
  revert s₁
  intro s
  cases ok with
  | false => rfl
  | true =>
    rw [res_mk]
    dsimp only
    rw [state_cfg]
    simp only [Bool.not_true, Bool.false_eq_true, if_false]
    cases verifyTimingOpt s.cfg createdAt now with
    | some e => rfl
    | none =>
      simp only [state_tokens, get_mapV]
      cases s.tokens.get tid with
      | none => rfl
      | some nft =>
        simp only [Option.map_some, account_beq, account_beq_anon, account_mk, checkTokenApproval_ren]
        split
        · rfl
        · split
          · rfl
          · cases checkTokenApproval s now tid ⟨caller, spenderSub⟩ with
            | none => rfl
            | some x =>
              obtain ⟨s, hasTok⟩ := x
              simp only [optRes_some]
              rw [show (r.token nft).owner = r.account nft.owner from rfl, checkCollApproval_ren, account_beq]
              generalize checkCollApproval s now nft.owner ⟨caller, spenderSub⟩ = y
              obtain ⟨s, hasColl⟩ := y
              rw [res_mk]
              dsimp only
              by_cases h : (!(nft.owner == from_) || (!((⟨caller, spenderSub⟩ : Account) == from_) && !hasTok && !hasColl)) = true
              · rw [if_pos h, if_pos h]; rfl
              · rw [if_neg h, if_neg h]
                rw [addTx_ren r hL s { op := .xferFrom, ts := now, tid := some tid, from_ := some from_,
                                       to_ := some to_, memo := memo, createdAt := createdAt,
                                       spender := some ⟨caller, spenderSub⟩ }]
                rotate_left
                · rfl
                generalize addTx L s _ = z
                obtain ⟨s, e | i⟩ := z
                · rfl
                · simp only [res_mk, moveToken_ren, state_tokAppr, state_collAppr, del_mapV, del_mapA,
                    Map.get_del_self, Option.isSome_none, Bool.not_false, if_true, get_mapV, Option.map_none]
                  rfl

theorem icrc37RevokeTokens_ren (r : Change) {L L' : Ledger H} (hL : r.Ledgers L L') (s : State H) (caller : Principal) (now : Nat)
    (args : List RevokeTokenArg) :
    icrc37RevokeTokens L' (r.state s) (r.to caller) now (args.map r.revokeArg)
      = r.optRes (icrc37RevokeTokens L s caller now args) := by
  unfold icrc37RevokeTokens
  cases args with
  | nil => rfl
  | cons a l =>
    obtain ⟨s₁, ok, hx⟩ : ∃ s₁ ok, guardWindow s now a.tid = (s₁, ok) := ⟨_, _, rfl⟩
    simp only [List.map_cons, show (r.revokeArg a).tid = a.tid from rfl]
    rw [guardWindow_ren, hx]
    clear hx
    revert s₁
    intro s
    cases ok with
    | false => rfl
    | true =>
      rw [res_mk]
      dsimp only
      rw [state_cfg]
      simp only [Bool.not_true, Bool.false_eq_true, if_false]
      rw [← List.map_cons, ← List.map_take,
        runBatch_ren r (fun s a => revokeToken_ren r hL s caller now a)]
      cases runBatch (fun s a => revokeToken L s caller now a) s (List.take (maxRevoke s.cfg) (a :: l)) with
      | none => rfl
      | some x => obtain ⟨s, y⟩ := x; rfl

/-! ### updates/management.rs -/

theorem guardEnter_ren (r : Change) (s : State H) (p : Principal) :
    guardEnter (r.state s) (r.to p) = (guardEnter s p).map r.state := by
  unfold guardEnter
  rw [state_guards, List.length_map]
  split
  · rfl
  · have h : r.to p ∈ s.guards.map r.to ↔ p ∈ s.guards := by
      simp only [List.mem_map, r.to_inj, exists_eq_right]
    by_cases hp : p ∈ s.guards
    · rw [if_pos (h.2 hp), if_pos hp]; rfl
    · rw [if_neg (mt h.1 hp), if_neg hp]; simp [state]

theorem guardLeave_ren (r : Change) (s : State H) (p : Principal) :
    guardLeave (r.state s) (r.to p) = r.state (guardLeave s p) := by
  have h : (s.guards.map r.to).filter (fun x => decide (x ≠ r.to p)) = (s.guards.filter fun x => decide (x ≠ p)).map r.to := by
    rw [List.filter_map]
    congr 1
    exact List.filter_congr fun q _ => by simp [r.to_inj]
  simp only [guardLeave, state_guards, h]
  rfl

theorem withGuard_ren (r : Change) (s : State H) (p : Principal) {b' b : State H → Option (MgmtRes H)}
    (h : ∀ s, b' (r.state s) = r.optRes (b s)) :
    withGuard (r.state s) (r.to p) b' = r.optRes (withGuard s p b) := by
  unfold withGuard
  rw [guardEnter_ren]
  cases guardEnter s p with
  | none => rfl
  | some s =>
    simp only [Option.map_some, h]
    cases b s with
    | none => rfl
    | some x => obtain ⟨s, y⟩ := x; simp only [optRes_some, guardLeave_ren]

theorem checkMemos_ren (r : Change) (c : Config) (l : List MintReq) :
    checkMemos c (l.map r.mintReq) = checkMemos c l := by
  induction l with
  | nil => rfl
  | cons a l ih => simp only [List.map_cons, checkMemos, ih]; rfl

theorem mintMetadata_ren (r : Change) (t : MetaTable) (i : Nat) (l : List MintReq) :
    mintMetadata t i (l.map r.mintReq) = mintMetadata t i l := by
  induction l generalizing t i with
  | nil => rfl
  | cons a l ih =>
    simp only [List.map_cons, mintMetadata, show (r.mintReq a).metadata = a.metadata from rfl]
    cases addMetadata t i a.metadata with
    | none => rfl
    | some t => exact ih t (i + 1)

theorem mintTxs_ren (r : Change) {L L' : Ledger H} (hL : r.Ledgers L L') (s : State H) (now i : Nat) (l : List MintReq) :
    mintTxs L' (r.state s) now i (l.map r.mintReq) = r.res (mintTxs L s now i l) := by
  induction l generalizing s i with
  | nil => rfl
  | cons a l ih =>
    simp only [List.map_cons, mintTxs]
    rw [addTx_ren r hL s (mintTx now i a)]
    rotate_left
    · rfl
    generalize addTx L s _ = x
    obtain ⟨s, e | j⟩ := x
    · rfl
    · exact ih s (i + 1)

theorem mintTxs_ren' (r : Change) {L L' : Ledger H} (hL : r.Ledgers L L') (s : State H) (now i : Nat) (l : List MintReq)
    {s' : State H} (hs : s' = r.state s) :
    mintTxs L' s' now i (l.map r.mintReq) = r.res (mintTxs L s now i l) := by
  subst hs
  exact mintTxs_ren r hL s now i l

theorem mintInsert_ren (r : Change) (s : State H) (i : Nat) (l : List MintReq) :
    mintInsert (r.state s) i (l.map r.mintReq) = r.state (mintInsert s i l) := by
  induction l generalizing s i with
  | nil => rfl
  | cons a l ih =>
    simp only [List.map_cons, mintInsert]
    rw [← ih]
    congr 1
    simp only [state_tokens, state_byOwner, mintReq, get_mapA, Option.map_id_fun, id, set_mapAid]
    rw [show (map id r.token s.tokens).set i { id := i, owner := r.account a.owner }
      = map id r.token (s.tokens.set i { id := i, owner := a.owner }) from
      set_mapV (g := r.token) s.tokens i { id := i, owner := a.owner }]
    rfl

theorem mint_ren (r : Change) {E E' : Env H} (hE : r.Worlds E E') (s : State H) (caller : Principal) (now : Nat) (l : List MintReq) :
    mint E' (r.state s) (r.to caller) now (l.map r.mintReq) = r.optRes (mint E s caller now l) := by
  refine withGuard_ren r s caller fun s => ?_
  simp only [List.length_map, state_cfg, state_tokens, size_map, checkMemos_ren, mintMetadata_ren, state_mdata,
    state_lastId]
  split
  · rfl
  · split
    · rfl
    · cases checkMemos s.cfg l with
      | none => rfl
      | some b =>
        cases b with
        | false => rfl
        | true =>
          simp only
          cases mintMetadata s.mdata s.lastId l with
          | none => rfl
          | some md =>
            simp only
            rw [mintTxs_ren' r hE.ledger { s with mdata := md } now s.lastId l]
            rotate_left
            · rfl
            generalize mintTxs E.ledger _ _ _ _ = x
            obtain ⟨s', b⟩ := x
            cases b with
            | false => rfl
            | true =>
              simp only [res_mk, optRes_some]
              rw [← mintInsert_ren]
              rfl

theorem updateNftMetadata_ren (r : Change) {E E' : Env H} (hE : r.Worlds E E') (s : State H) (caller : Principal) (now tid : Nat)
    (kvs : List (String × Value)) :
    updateNftMetadata E' (r.state s) (r.to caller) now tid kvs
      = r.optRes (updateNftMetadata E s caller now tid kvs) := by
  refine withGuard_ren r s caller fun s => ?_
  simp only [state_tokens, get_mapV, state_mdata]
  cases s.tokens.get tid with
  | none => rfl
  | some t =>
    simp only [Option.map_some, show (r.token t).id = t.id from rfl]
    cases replaceMetadata s.mdata t.id kvs with
    | none => rfl
    | some md =>
      simp only
      rw [addTx_ren' r hE.ledger { s with mdata := md }
          { op := .updateToken, ts := now, tid := some tid, from_ := some ⟨caller, none⟩,
            meta_ := some ((getAllData s.mdata tid).getD [], (getAllData md tid).getD []),
            createdAt := some now }]
      rotate_left
      · rfl
      · rw [account_mk0]; rfl
      generalize addTx E.ledger _ _ = x
      obtain ⟨s', e | j⟩ := x
      · rfl
      · simp only [res_mk, state_tokens, set_mapV]
        rfl

theorem burnNft_ren (r : Change) {E E' : Env H} (hE : r.Worlds E E') (s : State H) (caller : Principal) (now tid : Nat) :
    burnNft E' (r.state s) (r.to caller) now tid = r.optRes (burnNft E s caller now tid) := by
  refine withGuard_ren r s caller fun s => ?_
  simp only [state_tokens, get_mapV]
  cases s.tokens.get tid with
  | none => rfl
  | some t =>
    simp only [Option.map_some]
    rw [show (r.token t).owner.owner = r.to t.owner.owner from rfl]
    simp only [ne_eq, r.to_inj]
    split
    · rfl
    · rw [addTx_ren r hE.ledger s { op := .burn, ts := now, tid := some tid, from_ := some t.owner,
                                    createdAt := some now }]
      rotate_left
      · rfl
      generalize addTx E.ledger _ _ = x
      obtain ⟨s', e | j⟩ := x
      · rfl
      · simp only [res_mk, state_tokens, del_mapV]
        rfl

theorem hasPermission_ren (r : Change) (m : Map Principal (List Permission)) (p : Principal) (x : Permission) :
    hasPermission (map r.to id m) (r.to p) x = hasPermission m p x := by
  simp only [hasPermission, get_mapP, Option.map_id_fun, id]

theorem grantPermission_ren (r : Change) (m : Map Principal (List Permission)) (p : Principal) (x : Permission) :
    grantPermission (map r.to id m) (r.to p) x = map r.to id (grantPermission m p x) := by
  simp only [grantPermission, get_mapP, Option.map_id_fun, id, set_mapP]

theorem revokePermission_ren (r : Change) (m : Map Principal (List Permission)) (p : Principal) (x : Permission) :
    revokePermission (map r.to id m) (r.to p) x = map r.to id (revokePermission m p x) := by
  simp only [revokePermission, get_mapP, Option.map_id_fun, id]
  cases m.get p with
  | none => rfl
  | some l => exact set_mapP r m p _

theorem grant_ren (r : Change) (s : State H) (caller p : Principal) (x : Permission) :
    grant (r.state s) (r.to caller) (r.to p) x = r.optRes (grant s caller p x) := by
  refine withGuard_ren r s caller fun s => ?_
  simp only [state_perms, grantPermission_ren]
  rfl

theorem revoke_ren (r : Change) (s : State H) (caller p : Principal) (x : Permission) :
    revoke (r.state s) (r.to caller) (r.to p) x = r.optRes (revoke s caller p x) := by
  refine withGuard_ren r s caller fun s => ?_
  simp only [state_perms, revokePermission_ren]
  rfl

theorem updateCollectionMetadata_ren (r : Change) (s : State H) (caller : Principal) (a : UpdateCollArg) :
    updateCollectionMetadata (r.state s) (r.to caller) a = r.optRes (updateCollectionMetadata s caller a) :=
  withGuard_ren r s caller fun _ => rfl

/-! ### Uploads -/

/-- The first segment of an asynchronous method. -/
def started (r : Change) : Started H → Started H
  | .done s x => .done (r.state s) x
  | .suspended s => .suspended (r.state s)

/-- What such a segment hands over. -/
def seg (r : Change) (x : State H × (Except MgmtErr MgmtOk ⊕ Pending)) :
    State H × (Except MgmtErr MgmtOk ⊕ Pending) :=
  (r.state x.1, match x.2 with | .inl e => .inl e | .inr p => .inr (r.pending p))

theorem withGuardAsync_ren (r : Change) (s : State H) (p : Principal)
    {b' b : State H → State H × (Except MgmtErr MgmtOk ⊕ Pending)}
    (h : ∀ s, b' (r.state s) = r.seg (b s)) :
    withGuardAsync (r.state s) (r.to p) b' = r.started (withGuardAsync s p b) := by
  unfold withGuardAsync
  rw [guardEnter_ren]
  cases guardEnter s p with
  | none => rfl
  | some s =>
    simp only [Option.map_some, h]
    generalize b s = x
    obtain ⟨s, e | q⟩ := x
    · simp only [seg, guardLeave_ren, started]
    · simp [seg, started, state]

theorem containsPath_ren (r : Change) (m : Map String Upload) (p : String) :
    containsPath (map id r.upload m) p = containsPath m p := by
  simp only [containsPath, entries_map, List.any_map]
  rfl

theorem initUpload_ren (r : Change) (s : State H) (caller : Principal) (path : String) (n : Nat) :
    initUpload (r.state s) (r.to caller) path n = r.started (initUpload s caller path n) := by
  refine withGuardAsync_ren r s caller fun s => ?_
  simp only [state_uploads, containsPath_ren]
  split
  · rfl
  · split <;> rfl

theorem getSub_ren (r : Change) (l : List SubCanister) (p : Principal) :
    getSub (l.map r.sub) (r.to p) = (getSub l p).map r.sub := by
  unfold getSub
  induction l with
  | nil => rfl
  | cons c l ih =>
    simp only [List.map_cons, List.find?_cons]
    rw [show (r.sub c).id = r.to c.id from rfl, ih]
    by_cases h : c.id = p
    · simp [h]
    · simp [h, r.to_inj]

theorem callStorage_ren (r : Change) (s : State H) (key : String) (u : Upload) (p : Pending) :
    callStorage (r.state s) key (r.upload u) (r.pending p) = r.seg (callStorage s key u p) := by
  unfold callStorage
  rw [state_subs, show (r.upload u).canister = r.to u.canister from rfl, getSub_ren]
  cases getSub s.subs u.canister with
  | none => simp only [Option.map_none, state_uploads, del_mapV]; rfl
  | some c =>
    simp only [Option.map_some]
    rw [show (r.sub c).installed = c.installed from rfl]
    split <;> rfl

theorem storeChunk_ren (r : Change) (s : State H) (caller : Principal) (key : String) :
    storeChunk (r.state s) (r.to caller) key = r.started (storeChunk s caller key) := by
  refine withGuardAsync_ren r s caller fun s => ?_
  simp only [state_uploads, get_mapV]
  cases s.uploads.get key with
  | none => rfl
  | some u =>
    simp only [Option.map_some]
    rw [show (r.upload u).state = u.state from rfl]
    cases u.state
    · exact callStorage_ren r s key u (.store caller key u)
    · exact callStorage_ren r s key u (.store caller key u)
    · rfl

theorem finalizeUpload_ren (r : Change) (s : State H) (caller : Principal) (key : String) :
    finalizeUpload (r.state s) (r.to caller) key = r.started (finalizeUpload s caller key) := by
  refine withGuardAsync_ren r s caller fun s => ?_
  simp only [state_uploads, get_mapV]
  cases s.uploads.get key with
  | none => rfl
  | some u =>
    simp only [Option.map_some]
    rw [show (r.upload u).state = u.state from rfl]
    cases u.state
    · rfl
    · exact callStorage_ren r s key u (.finalize caller key u)
    · rfl

theorem cancelUpload_ren (r : Change) (s : State H) (caller : Principal) (key : String) :
    cancelUpload (r.state s) (r.to caller) key = r.started (cancelUpload s caller key) := by
  refine withGuardAsync_ren r s caller fun s => ?_
  simp only [state_uploads, get_mapV]
  cases s.uploads.get key with
  | none => rfl
  | some u =>
    simp only [Option.map_some]
    rw [show (r.upload u).state = u.state from rfl]
    cases u.state
    · exact callStorage_ren r s key u (.cancel caller key u)
    · exact callStorage_ren r s key u (.cancel caller key u)
    · rfl

theorem pickStorage_ren (r : Change) (a : Answer) (n : Nat) (l : List SubCanister) :
    pickStorage (r.answer a) n (l.map r.sub) = (pickStorage a n l).map r.to := by
  induction l with
  | nil => rfl
  | cons c l ih =>
    simp only [List.map_cons, pickStorage, ih]
    rw [show (r.answer a).sizeOf (r.sub c).id = a.sizeOf c.id from by simp [answer, sub, r.back_to],
      show (r.answer a).initOk (r.sub c).id = a.initOk c.id from by simp [answer, sub, r.back_to]]
    cases a.sizeOf c.id with
    | none => rfl
    | some u =>
      simp only
      split <;> rfl

theorem managerInitUpload_ren (r : Change) (a : Answer) (l : List SubCanister) (n : Nat) :
    managerInitUpload (r.answer a) (l.map r.sub) n
      = (managerInitUpload a l n).map fun x => (x.1.map r.sub, r.to x.2) := by
  unfold managerInitUpload
  rw [show (r.answer a).walk (l.map r.sub) = (a.walk l).map r.sub from by
    simp only [answer, sub_back], show ((a.walk l).map r.sub).filter (·.installed)
      = ((a.walk l).filter (·.installed)).map r.sub from by
    rw [List.filter_map]; rfl, pickStorage_ren]
  cases pickStorage a n _ with
  | some id => rfl
  | none =>
    simp only [Option.map_none, show (r.answer a).created = a.created.map r.sub from rfl]
    cases a.created with
    | none => rfl
    | some c =>
      simp only [Option.map_some, show (r.sub c).installed = c.installed from rfl,
        show (r.answer a).newInitOk = a.newInitOk from rfl]
      split
      · simp only [Option.map_some, List.map_append, List.map_cons, List.map_nil]
        congr 3
        rw [List.filter_map]
        congr 1
        exact List.filter_congr fun q _ => by simp [sub, r.to_inj]
      · rfl

theorem mediaUrl_ren (r : Change) {E E' : Env H} (hE : r.Worlds E E') (c : Principal) (path : String) :
    mediaUrl E' (r.to c) path = mediaUrl E c path := by
  simp only [mediaUrl, hE.text]

theorem resumeBody_ren (r : Change) {E E' : Env H} (hE : r.Worlds E E') (s : State H) (now : Nat) (p : Pending) (a : Answer) :
    resumeBody E' (r.state s) now (r.pending p) (r.answer a) = r.res (resumeBody E s now p a) := by
  cases p with
  | init c path n subs =>
    simp only [resumeBody, pending, managerInitUpload_ren]
    cases managerInitUpload a subs n with
    | none => rfl
    | some x =>
      obtain ⟨l, q⟩ := x
      simp only [Option.map_some, state_uploads]
      rw [show (map id r.upload s.uploads).set path { initTs := now, state := .init, canister := r.to q, path := path }
        = map id r.upload (s.uploads.set path { initTs := now, state := .init, canister := q, path := path }) from
        set_mapV (g := r.upload) s.uploads path { initTs := now, state := .init, canister := q, path := path }]
      rfl
  | store c key u =>
    simp only [resumeBody, pending, show (r.answer a).resp = a.resp from rfl]
    cases a.resp with
    | error e => rfl
    | ok _ =>
      simp only [state_uploads]
      rw [show (map id r.upload s.uploads).set key { r.upload u with state := .inProgress }
        = map id r.upload (s.uploads.set key { u with state := .inProgress }) from
        set_mapV (g := r.upload) s.uploads key { u with state := .inProgress }]
      rfl
  | finalize c key u =>
    simp only [resumeBody, pending, show (r.answer a).resp = a.resp from rfl]
    cases a.resp with
    | error e => rfl
    | ok _ =>
      simp only [state_uploads]
      rw [show (map id r.upload s.uploads).set key { r.upload u with state := .finalized }
        = map id r.upload (s.uploads.set key { u with state := .finalized }) from
        set_mapV (g := r.upload) s.uploads key { u with state := .finalized },
        show (r.upload u).canister = r.to u.canister from rfl, mediaUrl_ren r hE,
        hE.self, mediaUrl_ren r hE]
      rfl
  | cancel c key u =>
    simp only [resumeBody, pending, show (r.answer a).resp = a.resp from rfl]
    cases a.resp with
    | error e => rfl
    | ok _ => simp only [state_uploads, del_mapV]; rfl

/-! ### The whole canister -/

theorem ofBatch_ren (r : Change) (s : State H) (x : Option (State H × List (Except TokErr Nat))) :
    ofBatch (r.state s) (r.optRes x) = r.res (ofBatch s x) := by
  cases x with
  | none => rfl
  | some y => rfl

theorem ofMgmt_ren (r : Change) (s : State H) (x : Option (MgmtRes H)) :
    ofMgmt (r.state s) (r.optRes x) = r.res (ofMgmt s x) := by
  cases x with
  | none => rfl
  | some y => rfl

theorem ofStarted_ren (r : Change) (x : Started H) : ofStarted (r.started x) = r.res (ofStarted x) := by
  cases x <;> rfl

theorem exec_ren (r : Change) {E E' : Env H} (hE : r.Worlds E E') (s : State H) (caller : Principal) (now : Nat) (c : Call) :
    exec E' (r.state s) (r.to caller) now (r.call c) = r.res (exec E s caller now c) := by
  cases c with
  | transfer args => simp only [exec, call, icrc7Transfer_ren r hE.ledger, ofBatch_ren]
  | approveTokens args =>
    simp only [exec, call, icrc37ApproveTokens]
    rw [runBatch_ren r (fun s a => approveToken_ren r hE.ledger s caller now a), ofBatch_ren]
  | approveCollection args =>
    simp only [exec, call, icrc37ApproveCollection]
    rw [runBatch_ren r (f := fun s a => some (approveCollection E.ledger s caller now a))
      (fun s a => by rw [approveCollection_ren r hE.ledger]; rfl), ofBatch_ren]
  | revokeTokens args =>
    simp only [exec, call, icrc37RevokeTokens_ren r hE.ledger]
    cases icrc37RevokeTokens E.ledger s caller now args with
    | none => rfl
    | some x => obtain ⟨s, e | y⟩ := x <;> rfl
  | revokeCollection args =>
    simp only [exec, call, icrc37RevokeCollection, state_cfg, ← List.map_take]
    rw [runBatch_ren r (f := fun s a => some (revokeCollection E.ledger s caller now a))
      (fun s a => by rw [revokeCollection_ren r hE.ledger]; rfl), ofBatch_ren]
  | transferFrom args =>
    simp only [exec, call, icrc37TransferFrom]
    rw [runBatch_ren r (fun s a => transferFrom_ren r hE.ledger s caller now a), ofBatch_ren]
  | updateCollectionMetadata a => simp only [exec, call, updateCollectionMetadata_ren, ofMgmt_ren]
  | mint reqs => simp only [exec, call, mint_ren r hE, ofMgmt_ren]
  | updateNftMetadata tid kvs => simp only [exec, call, updateNftMetadata_ren r hE, ofMgmt_ren]
  | burn tid => simp only [exec, call, burnNft_ren r hE, ofMgmt_ren]
  | initUpload path n => simp only [exec, call, initUpload_ren, ofStarted_ren]
  | storeChunk path => simp only [exec, call, storeChunk_ren, ofStarted_ren]
  | finalizeUpload path => simp only [exec, call, finalizeUpload_ren, ofStarted_ren]
  | cancelUpload path => simp only [exec, call, cancelUpload_ren, ofStarted_ren]
  | grant p x => simp only [exec, call, grant_ren, ofMgmt_ren]
  | revoke p x => simp only [exec, call, revoke_ren, ofMgmt_ren]

theorem needs_ren (r : Change) (c : Call) : (r.call c).needs = c.needs := by cases c <;> rfl

theorem pending_caller (r : Change) (p : Pending) : (r.pending p).caller = r.to p.caller := by
  cases p <;> rfl

theorem erase_ren (r : Change) (s : State H) (i : Nat) :
    ({ r.state s with pending := (s.pending.map r.pending).eraseIdx i } : State H)
      = r.state { s with pending := s.pending.eraseIdx i } := by
  have h : ∀ (l : List Pending) (i : Nat), (l.map r.pending).eraseIdx i = (l.eraseIdx i).map r.pending := by
    intro l
    induction l with
    | nil => intro i; rfl
    | cons p l ih =>
      intro i
      cases i with
      | zero => rfl
      | succ i => simp only [List.map_cons, List.eraseIdx_cons_succ, ih]
  simp only [h]
  rfl

theorem step_ren (r : Change) {E E' : Env H} (hE : r.Worlds E E') (s : State H) (m : Msg) :
    step E' (r.state s) (r.msg m) = r.res (step E s m) := by
  cases m with
  | call caller now c =>
    simp only [step, msg, execCall, needs_ren, exec_ren r hE, state_perms, hasPermission_ren]
    cases c.needs with
    | none => rfl
    | some p =>
      simp only
      split <;> rfl
  | resume now i ans =>
    simp only [step, msg, state_pending, List.getElem?_map]
    cases s.pending[i]? with
    | none => rfl
    | some p =>
      simp only [Option.map_some, erase_ren, resumeBody_ren r hE, pending_caller]
      generalize resumeBody E _ now p ans = x
      obtain ⟨s, y⟩ := x
      simp only [res_mk, guardLeave_ren]
  | resumeTrap i =>
    simp only [step, msg, state_pending, List.getElem?_map]
    cases s.pending[i]? with
    | none => rfl
    | some p =>
      simp only [Option.map_some, erase_ren, pending_caller, guardLeave_ren]
      rfl
  | upgrade => rfl

theorem run_ren (r : Change) {E E' : Env H} (hE : r.Worlds E E') (s : State H) (ms : List Msg) :
    run E' (r.state s) (ms.map r.msg) = r.state (run E s ms) := by
  induction ms generalizing s with
  | nil => rfl
  | cons m ms ih => simp only [List.map_cons, run, step_ren r hE]; exact ih _

theorem replies_ren (r : Change) {E E' : Env H} (hE : r.Worlds E E') (s : State H) (ms : List Msg) :
    replies E' (r.state s) (ms.map r.msg) = replies E s ms := by
  induction ms generalizing s with
  | nil => rfl
  | cons m ms ih => simp only [List.map_cons, replies, step_ren r hE]; exact congrArg _ (ih _)

theorem foldl_grant_ren (r : Change) (l : List Permission) (m : Map Principal (List Permission)) (p : Principal) :
    l.foldl (fun ps x => grantPermission ps (r.to p) x) (map r.to id m)
      = map r.to id (l.foldl (fun ps x => grantPermission ps p x) m) := by
  induction l generalizing m with
  | nil => rfl
  | cons x l ih => simp only [List.foldl_cons, grantPermission_ren, ih]

theorem init_ren (r : Change) (validUrl : String → Bool) (hid : H) (caller : Principal) (a : InitArgs) :
    init validUrl hid (r.to caller) (r.initArgs a) = (init validUrl hid caller a).map r.state := by
  unfold init
  simp only [initArgs, foldl_grant_ren]
  split
  · rfl
  · split
    · rfl
    · split
      · rfl
      · split
        · rfl
        · simp only [Option.map_some]
          congr 1
          cases a.testMode <;> rfl

/-! ### What a renaming does not touch -/

theorem map_fixed {K V : Type} {f : K → K} {g : V → V} (m : Map K V)
    (h : ∀ e ∈ m.entries, f e.1 = e.1 ∧ g e.2 = e.2) : map f g m = m := by
  obtain ⟨l⟩ := m
  simp only [map, Map.mk.injEq]
  conv => rhs; rw [← List.map_id l]
  exact List.map_congr_left fun e he => by rw [(h e he).1, (h e he).2]; rfl

theorem list_fixed {A : Type} {f : A → A} (l : List A) (h : ∀ a ∈ l, f a = a) : l.map f = l := by
  conv => rhs; rw [← List.map_id l]
  exact List.map_congr_left h

/-- A call reads of its surroundings only the ledger. -/
theorem step_call_env (E E' : Env H) (h : E.ledger = E'.ledger) (s : State H) (caller : Principal) (now : Nat)
    (c : Call) : step E s (.call caller now c) = step E' s (.call caller now c) := by
  obtain ⟨L, p, f⟩ := E
  obtain ⟨L', p', f'⟩ := E'
  simp only at h
  subst h
  cases c <;> rfl

/-! ### Queries -/

theorem insertBy_map {A B : Type} (f : A → B) {le : A → A → Bool} {le' : B → B → Bool}
    (h : ∀ a b, le' (f a) (f b) = le a b) (a : A) (l : List A) :
    insertBy le' (f a) (l.map f) = (insertBy le a l).map f := by
  induction l with
  | nil => rfl
  | cons b l ih =>
    simp only [List.map_cons, insertBy, h]
    split
    · rfl
    · simp only [List.map_cons, ih]

theorem sortBy_map {A B : Type} (f : A → B) {le : A → A → Bool} {le' : B → B → Bool}
    (h : ∀ a b, le' (f a) (f b) = le a b) (l : List A) : sortBy le' (l.map f) = (sortBy le l).map f := by
  induction l with
  | nil => rfl
  | cons a l ih => simp only [List.map_cons, sortBy, ih, insertBy_map f h]

/-- An entry of a table of approvals. -/
def entry (r : Change) (e : Account × Approval) : Account × Approval := (r.account e.1, r.approval e.2)

theorem approvalPage_ren (r : Change) (l : List (Account × Approval)) (prev : Option ApprovalInfo)
    (take : Option Nat) :
    approvalPage (l.map r.entry) (prev.map r.info) take = (approvalPage l prev take).map r.info := by
  have h1 : (l.map r.entry).map approvalRow = (l.map approvalRow).map r.info := by
    simp only [List.map_map]
    exact List.map_congr_left fun e _ => rfl
  have h2 : ∀ l : List ApprovalInfo, sortBy (fun a b => decide (b.createdAt ≤ a.createdAt)) (l.map r.info)
      = (sortBy (fun a b => decide (b.createdAt ≤ a.createdAt)) l).map r.info :=
    fun l => sortBy_map r.info (fun _ _ => rfl) l
  have h3 : ∀ (l : List ApprovalInfo) (p : ApprovalInfo),
      ((l.map r.info).findIdx? fun a => a.spender == (r.info p).spender) = l.findIdx? fun a => a.spender == p.spender := by
    intro l p
    rw [List.findIdx?_map]
    congr 1
    funext a
    exact r.account_beq _ _
  unfold approvalPage
  simp only [h1, h2]
  cases prev with
  | none => simp only [Option.map_none, ← List.map_drop, ← List.map_take]
  | some p => simp only [Option.map_some, h3, ← List.map_drop, ← List.map_take]

theorem tokenIdsOf_ren (r : Change) (s : State H) (a : Account) :
    tokenIdsOf (r.state s) (r.account a) = tokenIdsOf s a := by
  simp only [tokenIdsOf, state_tokens, entries_map, List.filter_map, List.map_map]
  have h : ((fun e : Nat × Token => e.2.owner == r.account a) ∘ fun e : Nat × Token => (id e.1, r.token e.2))
      = fun e => e.2.owner == a := by
    funext e
    exact r.account_beq _ _
  rw [h]
  rfl

theorem isApproved_ren (r : Change) (hi : ∀ a b, r.respell a = r.respell b → a = b) (s : State H) (now : Nat) (a : IsApprovedArg) :
    isApproved (r.state s) now (r.isApprovedArg a) = isApproved s now a := by
  have h1 : (match ownerOf (r.state s) a.tid with
      | some o => o == r.account ⟨a.spender.owner, a.fromSub⟩
      | none => false) = (match ownerOf s a.tid with
      | some o => o == (⟨a.spender.owner, a.fromSub⟩ : Account)
      | none => false) := by
    rw [ownerOf_ren]
    cases ownerOf s a.tid with
    | none => rfl
    | some o => exact r.account_beq _ _
  have h2 : (match (r.state s).tokAppr.get a.tid with
      | none => false
      | some m =>
        match m.get (r.account a.spender) with
        | none => false
        | some a =>
          match a.expiresAt with
          | some e => decide (e > now)
          | none => true) = (match s.tokAppr.get a.tid with
      | none => false
      | some m =>
        match m.get a.spender with
        | none => false
        | some a =>
          match a.expiresAt with
          | some e => decide (e > now)
          | none => true) := by
    rw [state_tokAppr, get_mapV]
    cases s.tokAppr.get a.tid with
    | none => rfl
    | some m =>
      simp only [Option.map_some, approvals_get]
      cases m.get a.spender with
      | none => rfl
      | some b => rfl
  have h3 : (((r.state s).collAppr.get (r.account a.spender)).getD ∅).entries.any (fun e =>
      decide (e.1.owner = r.to a.spender.owner) && decide (e.1.sub = r.respell a.spender.sub))
      = ((s.collAppr.get a.spender).getD ∅).entries.any (fun e =>
      decide (e.1.owner = a.spender.owner) && decide (e.1.sub = a.spender.sub)) := by
    rw [state_collAppr, get_mapA, approvals_getD, approvals, entries_map, List.any_map]
    congr 1
    funext e
    have h : r.respell e.1.sub = r.respell a.spender.sub ↔ e.1.sub = a.spender.sub :=
      ⟨hi _ _, fun h => by rw [h]⟩
    simp [account, r.to_inj, h]
  have e : ∀ {a b c a' b' c' : Bool}, a = a' → b = b' → c = c' → (a || b || c) = (a' || b' || c') := by
    intro a b c a' b' c' h h' h''
    rw [h, h', h'']
  exact e h1 h2 h3

theorem queries_ren (r : Change) (s : State H) (ids : List Nat) (as : List Account) (a : Account)
    (prev take : Option Nat) :
    icrc7OwnerOf (r.state s) ids = (icrc7OwnerOf s ids).map (·.map (·.map r.account)) ∧
      icrc7BalanceOf (r.state s) (as.map r.account) = icrc7BalanceOf s as ∧
      icrc7Tokens (r.state s) prev take = icrc7Tokens s prev take ∧
      icrc7TokensOf (r.state s) (r.account a) prev take = icrc7TokensOf s a prev take ∧
      icrc7TokenMetadata (r.state s) ids = icrc7TokenMetadata s ids ∧
      icrc7CollectionMetadata (r.state s) = icrc7CollectionMetadata s := by
  refine ⟨?_, ?_, ?_, ?_, ?_, ?_⟩
  · rw [icrc7OwnerOf, icrc7OwnerOf, queryBatch, queryBatch, state_cfg]
    split
    · rfl
    · simp only [Option.map_some, List.map_map]
      exact congrArg some (List.map_congr_left fun t _ => r.ownerOf_ren s t)
  · simp only [icrc7BalanceOf, queryBatch, state_cfg, List.length_map]
    split
    · rfl
    · rw [List.map_map]
      refine congrArg some (List.map_congr_left fun t _ => ?_)
      simp only [Function.comp_apply, balanceOf, state_byOwner, get_mapA, Option.map_id_fun, id]
  · have h : (r.state s).tokens.keys = s.tokens.keys := by
      simp only [state_tokens, Map.keys, entries_map, List.map_map]
      rfl
    rw [icrc7Tokens, h]
    rfl
  · rw [icrc7TokensOf, r.tokenIdsOf_ren]
    rfl
  · simp only [icrc7TokenMetadata, queryBatch, state_cfg, state_tokens, get_mapV, Option.map_map]
    rfl
  · simp only [icrc7CollectionMetadata, totalSupply, state_cfg, state_tokens, size_map]

theorem queryBatch_ren {A B : Type} (r : Change) (s : State H) (f : A → B) (l : List A) :
    queryBatch (r.state s) f l = queryBatch s f l := rfl

end Verif.Spec.Change
