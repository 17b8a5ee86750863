import Verif.Lemmas.Change
import Verif.Lemmas.Replies
import Verif.Lemmas.Pages
import Verif.Spec.Renumber
/-!
# A renumbering of tokens commutes with the code: helper lemmas
-/
namespace Verif.Spec.Renumbering

open Change (map get_map set_map del_map size_map entries_map get_mapV set_mapV)

variable {H : Type}

theorem to_inj (r : Renumbering) {p q : Nat} : r.to p = r.to q ↔ p = q :=
  ⟨fun h => by rw [← r.back_to p, h, r.back_to], fun h => by rw [h]⟩

theorem to_beq (r : Renumbering) (p q : Nat) : (r.to p == r.to q) = (p == q) := by
  rw [Bool.eq_iff_iff, beq_iff_eq, beq_iff_eq, r.to_inj]

/-- A number below `next` goes to one below `next`. -/
theorem below (r : Renumbering) {n : Nat} (h : n < r.next) : r.to n < r.next := by
  refine Nat.lt_of_not_le fun hn => ?_
  have h1 := r.above _ hn
  have h2 := r.to_inj.1 h1
  omega

theorem word_iff (r : Renumbering) (n : Nat) : r.to n < U64 ↔ n < U64 := by
  have hw : r.next ≤ U64 := r.word
  by_cases h : n < r.next
  · have := r.below h
    omega
  · rw [r.above n (by omega)]

section maps
variable {V V' : Type} {g : V → V'} (r : Renumbering)

theorem get_mapN (m : Map Nat V) (k : Nat) : (map r.to g m).get (r.to k) = (m.get k).map g := get_map r.to_beq m k
theorem get_mapNid (m : Map Nat V) (k : Nat) : (map r.to id m).get (r.to k) = m.get k := by
  rw [get_mapN, Option.map_id_fun, id]
theorem set_mapN (m : Map Nat V) (k : Nat) (v : V) : (map r.to g m).set (r.to k) (g v) = map r.to g (m.set k v) :=
  set_map r.to_beq m k v
theorem set_mapNid (m : Map Nat V) (k : Nat) (v : V) : (map r.to id m).set (r.to k) v = map r.to id (m.set k v) :=
  set_map (g := id) r.to_beq m k v
theorem del_mapN (m : Map Nat V) (k : Nat) : (map r.to g m).del (r.to k) = map r.to g (m.del k) := del_map r.to_beq m k

end maps

theorem tx_back (r : Renumbering) (t : Tx) : r.symm.tx (r.tx t) = t := by
  have h : r.symm.to ∘ r.to = id := funext fun n => r.back_to n
  simp [tx, Option.map_map, h]

theorem ledger_add (r : Renumbering) (L : Ledger H) (h : H) (t : Tx) : (r.ledger L).add h (r.tx t) = L.add h t := by
  show L.add h (r.symm.tx (r.tx t)) = _
  rw [tx_back]

/-- A result whose first part is a state. -/
def res {R : Type} (r : Renumbering) (x : State H × R) : State H × R := (r.state x.1, x.2)

/-- A possibly trapped result. -/
def optRes {R : Type} (r : Renumbering) (x : Option (State H × R)) : Option (State H × R) := x.map r.res

@[simp] theorem optRes_none {R : Type} (r : Renumbering) : r.optRes (none : Option (State H × R)) = none := rfl
@[simp] theorem optRes_some {R : Type} (r : Renumbering) (s : State H) (x : R) :
    r.optRes (some (s, x)) = some (r.state s, x) := rfl
@[simp] theorem res_mk {R : Type} (r : Renumbering) (s : State H) (x : R) : r.res (s, x) = (r.state s, x) := rfl

@[simp] theorem state_cfg (r : Renumbering) (s : State H) : (r.state s).cfg = s.cfg := rfl
@[simp] theorem state_windows (r : Renumbering) (s : State H) : (r.state s).windows = map r.to id s.windows := rfl
@[simp] theorem state_mdata (r : Renumbering) (s : State H) : (r.state s).mdata = map r.to id s.mdata := rfl
@[simp] theorem state_lastId (r : Renumbering) (s : State H) : (r.state s).lastId = s.lastId := rfl
@[simp] theorem state_hid (r : Renumbering) (s : State H) : (r.state s).hid = s.hid := rfl
@[simp] theorem state_tokens (r : Renumbering) (s : State H) : (r.state s).tokens = map r.to r.token s.tokens := rfl
@[simp] theorem state_byOwner (r : Renumbering) (s : State H) :
    (r.state s).byOwner = map id (fun l => l.map r.to) s.byOwner := rfl
@[simp] theorem state_tokAppr (r : Renumbering) (s : State H) : (r.state s).tokAppr = map r.to id s.tokAppr := rfl
@[simp] theorem state_collAppr (r : Renumbering) (s : State H) : (r.state s).collAppr = s.collAppr := rfl
@[simp] theorem state_perms (r : Renumbering) (s : State H) : (r.state s).perms = s.perms := rfl
@[simp] theorem state_uploads (r : Renumbering) (s : State H) : (r.state s).uploads = s.uploads := rfl
@[simp] theorem state_subs (r : Renumbering) (s : State H) : (r.state s).subs = s.subs := rfl
@[simp] theorem state_guards (r : Renumbering) (s : State H) : (r.state s).guards = s.guards := rfl
@[simp] theorem state_pending (r : Renumbering) (s : State H) : (r.state s).pending = s.pending := rfl

theorem guardWindow_num (r : Renumbering) (s : State H) (now tid : Nat) :
    guardWindow (r.state s) now (r.to tid) = r.res (guardWindow s now tid) := by
  simp only [guardWindow, state_windows, get_mapNid, set_mapNid]
  rfl

theorem guardWindow_num0 (r : Renumbering) (s : State H) (now : Nat) :
    guardWindow (r.state s) now 0 = r.res (guardWindow s now 0) := by
  have h := r.guardWindow_num s now 0
  rwa [r.zero] at h

theorem addTx_num (r : Renumbering) (L : Ledger H) (s : State H) (t : Tx) {t' : Tx} (ht : t' = r.tx t) :
    addTx (r.ledger L) (r.state s) t' = r.res (addTx L s t) := by
  subst ht
  simp only [addTx, state_hid, ledger_add]
  generalize L.add s.hid t = x
  obtain ⟨h, _ | i⟩ := x
  · rfl
  · simp [res, state]

theorem ownerOf_num (r : Renumbering) (s : State H) (tid : Nat) : ownerOf (r.state s) (r.to tid) = ownerOf s tid := by
  simp only [ownerOf, state_tokens, get_mapN, Option.map_map]
  rfl

theorem putTokAppr_num (r : Renumbering) (s : State H) (tid : Nat) (m : Map Account Approval) :
    putTokAppr (r.state s) (r.to tid) m = (putTokAppr s tid m).map r.state := by
  unfold putTokAppr
  by_cases h : tid < U64
  · rw [if_pos h, if_pos ((r.word_iff tid).2 h)]
    simp only [Option.map_some, state_tokAppr, set_mapNid]
    rfl
  · rw [if_neg h, if_neg (mt (r.word_iff tid).1 h)]
    rfl

theorem filter_num (r : Renumbering) (l : List Nat) (n : Nat) :
    (l.map r.to).filter (fun x => decide (x ≠ r.to n)) = (l.filter fun x => decide (x ≠ n)).map r.to := by
  rw [List.filter_map]
  congr 1
  exact List.filter_congr fun q _ => by simp [r.to_inj]

theorem getD_num (r : Renumbering) (o : Option (List Nat)) : (o.map fun l => l.map r.to).getD [] = (o.getD []).map r.to := by
  cases o <;> rfl

theorem setO_num (r : Renumbering) (m : Map Account (List Nat)) (a : Account) (l : List Nat) :
    (map id (fun l => l.map r.to) m).set a (l.map r.to) = map id (fun l => l.map r.to) (m.set a l) :=
  set_mapV (g := fun l : List Nat => l.map r.to) m a l

theorem append_num (r : Renumbering) (l : List Nat) (n : Nat) : l.map r.to ++ [r.to n] = (l ++ [n]).map r.to := by simp

theorem moveToken_num (r : Renumbering) (s : State H) (nft : Token) (a : Account) :
    moveToken (r.state s) (r.token nft) a = r.state (moveToken s nft a) := by
  have e1 : (map r.to r.token s.tokens).set (r.to nft.id) { id := r.to nft.id, owner := a }
      = map r.to r.token (s.tokens.set nft.id { nft with owner := a }) :=
    set_mapN (g := r.token) r s.tokens nft.id { nft with owner := a }
  simp only [moveToken, state_tokens, state_byOwner, show (r.token nft).id = r.to nft.id from rfl,
    show (r.token nft).owner = nft.owner from rfl, get_mapV, getD_num, append_num, setO_num, filter_num]
  rw [e1]
  rfl

/-! ### updates/icrc7.rs -/

theorem transferNft_num (r : Renumbering) (L : Ledger H) (s : State H) (caller : Principal) (now : Nat) (a : TransferArg) :
    transferNft (r.ledger L) (r.state s) caller now { a with tid := r.to a.tid } = r.optRes (transferNft L s caller now a) := by
  obtain ⟨to_, tid, memo, fromSub, createdAt⟩ := a
  unfold transferNft
  obtain ⟨s₁, ok, hx⟩ : ∃ s₁ ok, guardWindow s now tid = (s₁, ok) := ⟨_, _, rfl⟩
  dsimp only
  rw [guardWindow_num, hx]
  clear hx
  revert s₁
  intro s
  cases ok with
  | false => rfl
  | true =>
    simp only [res_mk, Bool.not_true, Bool.false_eq_true, if_false, state_tokens, get_mapN, state_cfg]
    cases s.tokens.get tid with
    | none => rfl
    | some nft =>
      simp only [Option.map_some, show (r.token nft).owner = nft.owner from rfl]
      cases checkMemo s.cfg memo with
      | none => rfl
      | some b =>
        cases b with
        | false => rfl
        | true =>
          dsimp only
          by_cases h : nft.owner.owner ≠ caller ∨ to_.owner = anonymous ∨ (nft.owner == to_) = true
          · rw [if_pos h, if_pos h]; rfl
          · rw [if_neg h, if_neg h]
            cases transferTiming s.cfg now (createdAt.getD now) with
            | none => rfl
            | some o =>
              cases o with
              | some e => rfl
              | none =>
                simp only
                rw [addTx_num r L s (transferTx now (createdAt.getD now) ⟨to_, tid, memo, fromSub, createdAt⟩ nft)]
                rotate_left
                · rfl
                generalize addTx L s (transferTx now (createdAt.getD now) ⟨to_, tid, memo, fromSub, createdAt⟩ nft) = y
                obtain ⟨s, e | i⟩ := y
                · cases e <;> rfl
                · simp only [res_mk, optRes_some, moveToken_num]

theorem runBatch_num {A R : Type} (r : Renumbering) {f' f : State H → A → Option (State H × R)} {g : A → A}
    (h : ∀ s a, f' (r.state s) (g a) = r.optRes (f s a)) (s : State H) (l : List A) :
    runBatch f' (r.state s) (l.map g) = r.optRes (runBatch f s l) := by
  induction l generalizing s with
  | nil => rfl
  | cons a l ih =>
    simp only [List.map_cons, runBatch, h]
    cases f s a with
    | none => rfl
    | some x =>
      obtain ⟨s, y⟩ := x
      simp only [optRes_some, ih]
      cases runBatch f s l with
      | none => rfl
      | some x => obtain ⟨s, y⟩ := x; rfl

theorem icrc7Transfer_num (r : Renumbering) (L : Ledger H) (s : State H) (caller : Principal) (now : Nat)
    (args : List TransferArg) :
    icrc7Transfer (r.ledger L) (r.state s) caller now (args.map fun a => { a with tid := r.to a.tid })
      = r.optRes (icrc7Transfer L s caller now args) := by
  unfold icrc7Transfer
  simp only [List.isEmpty_map, state_cfg, List.length_map, ← List.map_take]
  split
  · rfl
  · split
    · rfl
    · split
      · rfl
      · split
        · rfl
        · exact runBatch_num r (fun s a => transferNft_num r L s caller now a) s _

/-! ### updates/icrc37.rs -/

theorem approveToken_num (r : Renumbering) (L : Ledger H) (s : State H) (caller : Principal) (now : Nat) (a : ApproveTokenArg) :
    approveToken (r.ledger L) (r.state s) caller now { a with tid := r.to a.tid } = r.optRes (approveToken L s caller now a) := by
  obtain ⟨tid, info⟩ := a
  unfold approveToken
  obtain ⟨s₁, ok, hx⟩ : ∃ s₁ ok, guardWindow s now tid = (s₁, ok) := ⟨_, _, rfl⟩
  dsimp only
  rw [guardWindow_num, hx]
  clear hx
  revert s₁
  intro s
  cases ok with
  | false => rfl
  | true =>
    rw [res_mk]
    dsimp only
    rw [state_cfg]
    simp only [Bool.not_true, Bool.false_eq_true, if_false]
    cases verifyTiming s.cfg info.createdAt now with
    | some e => rfl
    | none =>
      simp only [ownerOf_num]
      cases ownerOf s tid with
      | none => rfl
      | some owner =>
        simp only [state_tokAppr, get_mapNid]
        split
        · rfl
        · split
          · rfl
          · split
            · rfl
            · rw [addTx_num r L s { op := .approve, ts := now, tid := some tid,
                                     from_ := some ⟨caller, info.fromSub⟩, memo := info.memo,
                                     createdAt := some info.createdAt, spender := some info.spender,
                                     exp := info.expiresAt }]
              rotate_left
              · rfl
              generalize addTx L s _ = y
              obtain ⟨s, e | i⟩ := y
              · rfl
              · simp only [res_mk, state_tokAppr, get_mapNid, putTokAppr_num]
                cases putTokAppr s tid _ <;> rfl

theorem any_owner (r : Renumbering) (s : State H) (caller : Principal) :
    ((map r.to r.token s.tokens).entries.any fun e => decide (e.2.owner.owner = caller))
      = s.tokens.entries.any fun e => decide (e.2.owner.owner = caller) := by
  simp only [entries_map, List.any_map]
  rfl

theorem approveCollection_num (r : Renumbering) (L : Ledger H) (s : State H) (caller : Principal) (now : Nat)
    (a : ApprovalInfo) :
    approveCollection (r.ledger L) (r.state s) caller now a = r.res (approveCollection L s caller now a) := by
  unfold approveCollection
  obtain ⟨s₁, ok, hx⟩ : ∃ s₁ ok, guardWindow s now 0 = (s₁, ok) := ⟨_, _, rfl⟩
  rw [guardWindow_num0, hx]
  clear hx
  revert s₁
  intro s
  cases ok with
  | false => rfl
  | true =>
    rw [res_mk]
    dsimp only
    rw [state_cfg]
    simp only [Bool.not_true, Bool.false_eq_true, if_false]
    cases verifyTiming s.cfg a.createdAt now with
    | some e => rfl
    | none =>
      simp only [state_tokens, any_owner]
      split
      · rfl
      · split
        · rfl
        · by_cases h : (s.collAppr.get ⟨caller, a.fromSub⟩).any (fun m => decide (maxApprovals s.cfg ≤ m.size)) = true
          · rw [if_pos h, if_pos (show ((r.state s).collAppr.get ⟨caller, a.fromSub⟩).any _ = true from h)]
            rfl
          · rw [if_neg h, if_neg (show ¬ ((r.state s).collAppr.get ⟨caller, a.fromSub⟩).any _ = true from h)]
            rw [addTx_num r L s { op := .approveColl, ts := now,
                                   from_ := some ⟨caller, a.fromSub⟩, memo := a.memo,
                                   createdAt := some a.createdAt, spender := some a.spender,
                                   exp := a.expiresAt }]
            rotate_left
            · rfl
            generalize addTx L s _ = y
            obtain ⟨s, e | i⟩ := y
            · rfl
            · rfl

theorem revokeToken_num (r : Renumbering) (L : Ledger H) (s : State H) (caller : Principal) (now : Nat) (a : RevokeTokenArg) :
    revokeToken (r.ledger L) (r.state s) caller now { a with tid := r.to a.tid } = r.optRes (revokeToken L s caller now a) := by
  obtain ⟨tid, spender, fromSub, memo, createdAt⟩ := a
  unfold revokeToken
  simp only [state_cfg]
  cases verifyTimingOpt s.cfg createdAt now with
  | some e => rfl
  | none =>
    simp only [ownerOf_num]
    cases ownerOf s tid with
    | none => rfl
    | some owner =>
      simp only [state_tokAppr, get_mapNid]
      split
      · rfl
      · cases s.tokAppr.get tid with
        | none => rfl
        | some m =>
          simp only
          rw [addTx_num r L s { op := .revoke, ts := now, tid := some tid,
                                 from_ := some ⟨caller, fromSub⟩, memo := memo, createdAt := createdAt,
                                 spender := spender }]
          rotate_left
          · rfl
          generalize addTx L s _ = y
          obtain ⟨s, e | i⟩ := y
          · rfl
          · simp only [res_mk, putTokAppr_num]
            cases putTokAppr s tid _ <;> rfl

theorem revokeCollection_num (r : Renumbering) (L : Ledger H) (s : State H) (caller : Principal) (now : Nat)
    (a : RevokeCollArg) :
    revokeCollection (r.ledger L) (r.state s) caller now a = r.res (revokeCollection L s caller now a) := by
  unfold revokeCollection
  obtain ⟨s₁, ok, hx⟩ : ∃ s₁ ok, guardWindow s now 0 = (s₁, ok) := ⟨_, _, rfl⟩
  rw [guardWindow_num0, hx]
  clear hx
  revert s₁
  intro s
  cases ok with
  | false => rfl
  | true =>
    rw [res_mk]
    dsimp only
    rw [state_cfg]
    simp only [Bool.not_true, Bool.false_eq_true, if_false]
    cases verifyTimingOpt s.cfg a.createdAt now with
    | some e => rfl
    | none =>
      simp only [state_collAppr]
      cases s.collAppr.get ⟨caller, none⟩ with
      | none => rfl
      | some m =>
        simp only
        rw [addTx_num r L s { op := .revokeColl, ts := now, from_ := some ⟨caller, none⟩, memo := a.memo,
                               createdAt := a.createdAt, spender := a.spender }]
        rotate_left
        · rfl
        generalize addTx L s _ = y
        obtain ⟨s, e | i⟩ := y
        · rfl
        · rfl

theorem checkTokenApproval_num (r : Renumbering) (s : State H) (now tid : Nat) (a : Account) :
    checkTokenApproval (r.state s) now (r.to tid) a = r.optRes (checkTokenApproval s now tid a) := by
  unfold checkTokenApproval
  simp only [state_tokAppr, get_mapNid]
  cases s.tokAppr.get tid with
  | none => rfl
  | some m =>
    simp only
    cases m.get a with
    | none => rfl
    | some b =>
      simp only [putTokAppr_num]
      split
      · cases putTokAppr s tid _ <;> rfl
      · rfl

theorem checkCollApproval_num (r : Renumbering) (s : State H) (now : Nat) (o a : Account) :
    checkCollApproval (r.state s) now o a = r.res (checkCollApproval s now o a) := by
  unfold checkCollApproval
  simp only [state_collAppr]
  cases s.collAppr.get o with
  | none => rfl
  | some m =>
    simp only
    cases m.get a with
    | none => rfl
    | some b =>
      simp only
      split
      · rfl
      · rfl

theorem transferFrom_num (r : Renumbering) (L : Ledger H) (s : State H) (caller : Principal) (now : Nat) (a : TransferFromArg) :
    transferFrom (r.ledger L) (r.state s) caller now { a with tid := r.to a.tid } = r.optRes (transferFrom L s caller now a) := by
  obtain ⟨spenderSub, from_, to_, tid, memo, createdAt⟩ := a
  unfold transferFrom
  obtain ⟨s₁, ok, hx⟩ : ∃ s₁ ok, guardWindow s now tid = (s₁, ok) := ⟨_, _, rfl⟩
  dsimp only
  rw [guardWindow_num, hx]
  clear hx
  revert s₁
  intro s
  cases ok with
  | false => rfl
  | true =>
    rw [res_mk]
    dsimp only
    rw [state_cfg]
    simp only [Bool.not_true, Bool.false_eq_true, if_false]
    cases verifyTimingOpt s.cfg createdAt now with
    | some e => rfl
    | none =>
      simp only [state_tokens, get_mapN]
      cases s.tokens.get tid with
      | none => rfl
      | some nft =>
        simp only [Option.map_some, checkTokenApproval_num]
        split
        · rfl
        · split
          · rfl
          · cases checkTokenApproval s now tid ⟨caller, spenderSub⟩ with
            | none => rfl
            | some x =>
              obtain ⟨s, hasTok⟩ := x
              simp only [optRes_some]
              rw [show (r.token nft).owner = nft.owner from rfl, checkCollApproval_num]
              generalize checkCollApproval s now nft.owner ⟨caller, spenderSub⟩ = y
              obtain ⟨s, hasColl⟩ := y
              rw [res_mk]
              dsimp only
              by_cases h : (!(nft.owner == from_) || (!((⟨caller, spenderSub⟩ : Account) == from_) && !hasTok && !hasColl)) = true
              · rw [if_pos h, if_pos h]; rfl
              · rw [if_neg h, if_neg h]
                rw [addTx_num r L s { op := .xferFrom, ts := now, tid := some tid, from_ := some from_,
                                       to_ := some to_, memo := memo, createdAt := createdAt,
                                       spender := some ⟨caller, spenderSub⟩ }]
                rotate_left
                · rfl
                generalize addTx L s _ = z
                obtain ⟨s, e | i⟩ := z
                · rfl
                · simp only [res_mk, moveToken_num, state_tokAppr, state_collAppr, del_mapN,
                    Map.get_del_self, Option.isSome_none, Bool.not_false, if_true, get_mapNid]
                  rfl

theorem icrc37RevokeTokens_num (r : Renumbering) (L : Ledger H) (s : State H) (caller : Principal) (now : Nat)
    (args : List RevokeTokenArg) :
    icrc37RevokeTokens (r.ledger L) (r.state s) caller now (args.map fun a => { a with tid := r.to a.tid })
      = r.optRes (icrc37RevokeTokens L s caller now args) := by
  unfold icrc37RevokeTokens
  cases args with
  | nil => rfl
  | cons a l =>
    obtain ⟨s₁, ok, hx⟩ : ∃ s₁ ok, guardWindow s now a.tid = (s₁, ok) := ⟨_, _, rfl⟩
    simp only [List.map_cons]
    rw [guardWindow_num, hx]
    clear hx
    revert s₁
    intro s
    cases ok with
    | false => rfl
    | true =>
      rw [res_mk]
      dsimp only
      rw [state_cfg]
      simp only [Bool.not_true, Bool.false_eq_true, if_false]
      have e : ({ a with tid := r.to a.tid } :: l.map fun a => { a with tid := r.to a.tid } : List RevokeTokenArg)
        = (a :: l).map fun a => { a with tid := r.to a.tid } := rfl
      rw [e, ← List.map_take, runBatch_num r (fun s a => revokeToken_num r L s caller now a)]
      cases runBatch (fun s a => revokeToken L s caller now a) s (List.take (maxRevoke s.cfg) (a :: l)) with
      | none => rfl
      | some x => obtain ⟨s, y⟩ := x; rfl

/-! ### updates/management.rs -/

/-- A management answer. -/
def mgmt (r : Renumbering) : Except MgmtErr MgmtOk → Except MgmtErr MgmtOk
  | .ok (.id n) => .ok (.id (r.to n))
  | x => x

/-- A management result. -/
def mres (r : Renumbering) (x : MgmtRes H) : MgmtRes H := (r.state x.1, r.mgmt x.2)

theorem guardEnter_num (r : Renumbering) (s : State H) (p : Principal) :
    guardEnter (r.state s) p = (guardEnter s p).map r.state := by
  unfold guardEnter
  rw [show (r.state s).guards = s.guards from rfl]
  split <;> rfl

theorem withGuard_num (r : Renumbering) (s : State H) (p : Principal) {b' b : State H → Option (MgmtRes H)}
    (h : ∀ s', guardEnter s p = some s' → b' (r.state s') = (b s').map r.mres) :
    withGuard (r.state s) p b' = (withGuard s p b).map r.mres := by
  unfold withGuard
  rw [guardEnter_num]
  cases hg : guardEnter s p with
  | none => rfl
  | some s' =>
    simp only [Option.map_some, h s' hg]
    cases b s' with
    | none => rfl
    | some x => obtain ⟨s, y⟩ := x; rfl

theorem insertData_num (r : Renumbering) (t : MetaTable) (tid : Nat) (k : String) (v : Value) :
    insertData (map r.to id t) (r.to tid) k v = (insertData t tid k v).map (map r.to id) := by
  unfold insertData
  rw [show decide (r.to tid < U64) = decide (tid < U64) from decide_eq_decide.2 (r.word_iff tid)]
  split
  · simp only [Option.map_some, get_mapNid, set_mapNid]
  · rfl

theorem addMetadata_num (r : Renumbering) (t : MetaTable) (tid : Nat) (kvs : List (String × Value)) :
    addMetadata (map r.to id t) (r.to tid) kvs = (addMetadata t tid kvs).map (map r.to id) := by
  induction kvs generalizing t with
  | nil => rfl
  | cons e l ih =>
    obtain ⟨k, v⟩ := e
    simp only [addMetadata, insertData_num]
    cases insertData t tid k v with
    | none => rfl
    | some t => exact ih t

theorem mintMetadata_num (r : Renumbering) (t : MetaTable) (i : Nat) (hi : r.next ≤ i) (l : List MintReq) :
    mintMetadata (map r.to id t) i l = (mintMetadata t i l).map (map r.to id) := by
  induction l generalizing t i with
  | nil => rfl
  | cons a l ih =>
    have h := addMetadata_num r t i a.metadata
    rw [r.above i hi] at h
    simp only [mintMetadata, h]
    cases addMetadata t i a.metadata with
    | none => rfl
    | some t => exact ih t (i + 1) (by omega)

theorem mintTxs_num (r : Renumbering) (L : Ledger H) (s : State H) (now i : Nat) (hi : r.next ≤ i) (l : List MintReq) :
    mintTxs (r.ledger L) (r.state s) now i l = r.res (mintTxs L s now i l) := by
  induction l generalizing s i with
  | nil => rfl
  | cons a l ih =>
    simp only [mintTxs]
    rw [addTx_num r L s (mintTx now i a)]
    rotate_left
    · simp [mintTx, tx, r.above i hi]
    generalize addTx L s _ = x
    obtain ⟨s, e | j⟩ := x
    · rfl
    · exact ih s (i + 1) (by omega)

theorem mintInsert_num (r : Renumbering) (s : State H) (i : Nat) (hi : r.next ≤ i) (l : List MintReq) :
    mintInsert (r.state s) i l = r.state (mintInsert s i l) := by
  induction l generalizing s i with
  | nil => rfl
  | cons a l ih =>
    simp only [mintInsert]
    rw [← ih _ (i + 1) (by omega)]
    congr 1
    have e1 := set_mapN (g := r.token) r s.tokens i { id := i, owner := a.owner }
    have e2 : r.token { id := i, owner := a.owner } = { id := i, owner := a.owner } := by simp [token, r.above i hi]
    rw [r.above i hi, e2] at e1
    have e3 : ((s.byOwner.get a.owner).getD []).map r.to ++ [i] = ((s.byOwner.get a.owner).getD [] ++ [i]).map r.to := by
      simp [r.above i hi]
    simp only [state_tokens, state_byOwner, get_mapV, getD_num, e1, e3, setO_num]
    rfl

theorem lastId_guard {s s' : State H} {p : Principal} (h : guardEnter s p = some s') : s'.lastId = s.lastId := by
  unfold guardEnter at h
  split at h
  · cases h
  · cases h; rfl

theorem mint_num (r : Renumbering) (E : Env H) (s : State H) (hs : r.next ≤ s.lastId) (caller : Principal) (now : Nat)
    (l : List MintReq) : mint (r.env E) (r.state s) caller now l = (mint E s caller now l).map r.mres := by
  refine withGuard_num r s caller fun s' hg => ?_
  have hs' : r.next ≤ s'.lastId := lastId_guard hg ▸ hs
  clear hg hs s
  revert s'
  intro s hs
  simp only [state_cfg, state_tokens, size_map, state_mdata, state_lastId, mintMetadata_num r _ _ hs]
  split
  · rfl
  · split
    · rfl
    · cases checkMemos s.cfg l with
      | none => rfl
      | some b =>
        cases b with
        | false => rfl
        | true =>
          simp only
          cases mintMetadata s.mdata s.lastId l with
          | none => rfl
          | some md =>
            simp only [Option.map_some]
            have h := mintTxs_num r E.ledger { s with mdata := md } now s.lastId hs l
            erw [h]
            generalize mintTxs E.ledger _ _ _ _ = x
            obtain ⟨s', b⟩ := x
            cases b with
            | false => rfl
            | true =>
              simp only [res_mk, Option.map_some, mres, mgmt, r.above _ hs]
              rw [← mintInsert_num r _ _ hs]
              rfl

theorem replaceMetadata_num (r : Renumbering) (t : MetaTable) (tid : Nat) (kvs : List (String × Value)) :
    replaceMetadata (map r.to id t) (r.to tid) kvs = (replaceMetadata t tid kvs).map (map r.to id) := by
  unfold replaceMetadata
  rw [del_mapN, addMetadata_num]

theorem getAllData_num (r : Renumbering) (t : MetaTable) (tid : Nat) :
    getAllData (map r.to id t) (r.to tid) = getAllData t tid := by
  unfold getAllData
  rw [get_mapNid]

theorem updateNftMetadata_num (r : Renumbering) (E : Env H) (s : State H) (caller : Principal) (now tid : Nat)
    (kvs : List (String × Value)) :
    updateNftMetadata (r.env E) (r.state s) caller now (r.to tid) kvs
      = (updateNftMetadata E s caller now tid kvs).map r.mres := by
  refine withGuard_num r s caller fun s _ => ?_
  simp only [state_tokens, get_mapN, state_mdata]
  cases s.tokens.get tid with
  | none => rfl
  | some t =>
    simp only [Option.map_some, show (r.token t).id = r.to t.id from rfl, replaceMetadata_num, getAllData_num]
    cases replaceMetadata s.mdata t.id kvs with
    | none => rfl
    | some md =>
      simp only [Option.map_some, getAllData_num]
      erw [addTx_num r E.ledger { s with mdata := md }
          { op := .updateToken, ts := now, tid := some tid, from_ := some ⟨caller, none⟩,
            meta_ := some ((getAllData s.mdata tid).getD [], (getAllData md tid).getD []),
            createdAt := some now } rfl]
      generalize addTx E.ledger _ _ = x
      obtain ⟨s', e | j⟩ := x
      · rfl
      · simp only [res_mk, state_tokens, set_mapN]
        rfl

theorem burnNft_num (r : Renumbering) (E : Env H) (s : State H) (caller : Principal) (now tid : Nat) :
    burnNft (r.env E) (r.state s) caller now (r.to tid) = (burnNft E s caller now tid).map r.mres := by
  refine withGuard_num r s caller fun s _ => ?_
  simp only [state_tokens, get_mapN]
  cases s.tokens.get tid with
  | none => rfl
  | some t =>
    simp only [Option.map_some, show (r.token t).owner = t.owner from rfl]
    split
    · rfl
    · rw [show (r.env E).ledger = r.ledger E.ledger from rfl,
        addTx_num r E.ledger s { op := .burn, ts := now, tid := some tid, from_ := some t.owner, createdAt := some now }]
      rotate_left
      · rfl
      generalize addTx E.ledger _ _ = x
      obtain ⟨s', e | j⟩ := x
      · rfl
      · simp only [res_mk, state_tokens, del_mapN]
        rfl

/-! ### Uploads -/

/-- The first segment of an asynchronous method. -/
def started (r : Renumbering) : Started H → Started H
  | .done s x => .done (r.state s) (r.mgmt x)
  | .suspended s => .suspended (r.state s)

/-- What such a segment hands over. -/
def seg (r : Renumbering) (x : State H × (Except MgmtErr MgmtOk ⊕ Pending)) :
    State H × (Except MgmtErr MgmtOk ⊕ Pending) :=
  (r.state x.1, match x.2 with | .inl e => .inl (r.mgmt e) | .inr p => .inr p)

theorem withGuardAsync_num (r : Renumbering) (s : State H) (p : Principal) {b : State H → State H × (Except MgmtErr MgmtOk ⊕ Pending)}
    (h : ∀ s, b (r.state s) = r.seg (b s)) : withGuardAsync (r.state s) p b = r.started (withGuardAsync s p b) := by
  unfold withGuardAsync
  rw [guardEnter_num]
  cases guardEnter s p with
  | none => rfl
  | some s =>
    simp only [Option.map_some, h]
    generalize b s = x
    obtain ⟨s, e | q⟩ := x <;> rfl

theorem callStorage_num (r : Renumbering) (s : State H) (key : String) (u : Upload) (p : Pending) :
    callStorage (r.state s) key u p = r.seg (callStorage s key u p) := by
  unfold callStorage
  rw [show (r.state s).subs = s.subs from rfl]
  cases getSub s.subs u.canister with
  | none => rfl
  | some c =>
    simp only
    split <;> rfl

theorem initUpload_num (r : Renumbering) (s : State H) (caller : Principal) (path : String) (n : Nat) :
    initUpload (r.state s) caller path n = r.started (initUpload s caller path n) := by
  refine withGuardAsync_num r s caller fun s => ?_
  rw [show (r.state s).uploads = s.uploads from rfl]
  split
  · rfl
  · split <;> rfl

theorem storeChunk_num (r : Renumbering) (s : State H) (caller : Principal) (key : String) :
    storeChunk (r.state s) caller key = r.started (storeChunk s caller key) := by
  refine withGuardAsync_num r s caller fun s => ?_
  simp only [show (r.state s).uploads = s.uploads from rfl, callStorage_num r]
  cases s.uploads.get key with
  | none => rfl
  | some u => simp only; cases u.state <;> rfl

theorem finalizeUpload_num (r : Renumbering) (s : State H) (caller : Principal) (key : String) :
    finalizeUpload (r.state s) caller key = r.started (finalizeUpload s caller key) := by
  refine withGuardAsync_num r s caller fun s => ?_
  simp only [show (r.state s).uploads = s.uploads from rfl, callStorage_num r]
  cases s.uploads.get key with
  | none => rfl
  | some u => simp only; cases u.state <;> rfl

theorem cancelUpload_num (r : Renumbering) (s : State H) (caller : Principal) (key : String) :
    cancelUpload (r.state s) caller key = r.started (cancelUpload s caller key) := by
  refine withGuardAsync_num r s caller fun s => ?_
  simp only [show (r.state s).uploads = s.uploads from rfl, callStorage_num r]
  cases s.uploads.get key with
  | none => rfl
  | some u => simp only; cases u.state <;> rfl

theorem mediaUrl_num (r : Renumbering) (E : Env H) (c : Principal) (p : String) : mediaUrl (r.env E) c p = mediaUrl E c p := rfl

theorem resumeBody_num (r : Renumbering) (E : Env H) (s : State H) (now : Nat) (p : Pending) (a : Answer) :
    resumeBody (r.env E) (r.state s) now p a = r.mres (resumeBody E s now p a) := by
  cases p with
  | init c path n subs =>
    simp only [resumeBody]
    cases managerInitUpload a subs n <;> rfl
  | store c key u => simp only [resumeBody]; cases a.resp <;> rfl
  | finalize c key u => simp only [resumeBody]; cases a.resp <;> rfl
  | cancel c key u => simp only [resumeBody]; cases a.resp <;> rfl

/-! ### The whole canister -/

/-- A reply with a state. -/
def out (r : Renumbering) (x : State H × Reply) : State H × Reply := (r.state x.1, r.reply x.2)

theorem reply_mgmt (r : Renumbering) (x : Except MgmtErr MgmtOk) : r.reply (.mgmt x) = .mgmt (r.mgmt x) := by
  cases x with
  | error e => rfl
  | ok y => cases y <;> rfl

theorem ofBatch_num (r : Renumbering) (s : State H) (x : Option (State H × List (Except TokErr Nat))) :
    ofBatch (r.state s) (r.optRes x) = r.out (ofBatch s x) := by
  cases x with
  | none => rfl
  | some y => rfl

theorem ofMgmt_num (r : Renumbering) (s : State H) (x : Option (MgmtRes H)) :
    ofMgmt (r.state s) (x.map r.mres) = r.out (ofMgmt s x) := by
  cases x with
  | none => rfl
  | some y => simp only [ofMgmt, Option.map_some, mres, out, reply_mgmt]

theorem ofStarted_num (r : Renumbering) (x : Started H) : ofStarted (r.started x) = r.out (ofStarted x) := by
  cases x with
  | suspended s => rfl
  | done s x => simp only [ofStarted, started, out, reply_mgmt]

theorem exec_num (r : Renumbering) (E : Env H) (s : State H) (hs : r.next ≤ s.lastId) (caller : Principal) (now : Nat) (c : Call) :
    exec (r.env E) (r.state s) caller now (r.call c) = r.out (exec E s caller now c) := by
  have hl : (r.env E).ledger = r.ledger E.ledger := rfl
  cases c with
  | transfer args => simp only [exec, call, hl, icrc7Transfer_num, ofBatch_num]
  | approveTokens args =>
    simp only [exec, call, icrc37ApproveTokens, hl]
    rw [runBatch_num r (fun s a => approveToken_num r E.ledger s caller now a), ofBatch_num]
  | approveCollection args =>
    simp only [exec, call, icrc37ApproveCollection, hl]
    have h := runBatch_num r (g := id) (f' := fun s a => some (approveCollection (r.ledger E.ledger) s caller now a))
      (f := fun s a => some (approveCollection E.ledger s caller now a))
      (fun s a => by simp only [id]; rw [approveCollection_num]; rfl) s args
    rw [List.map_id] at h
    rw [h, ofBatch_num]
  | revokeTokens args =>
    simp only [exec, call, hl, icrc37RevokeTokens_num]
    cases icrc37RevokeTokens E.ledger s caller now args with
    | none => rfl
    | some x => obtain ⟨s, e | y⟩ := x <;> rfl
  | revokeCollection args =>
    simp only [exec, call, icrc37RevokeCollection, state_cfg, hl]
    have h := runBatch_num r (g := id) (f' := fun s a => some (revokeCollection (r.ledger E.ledger) s caller now a))
      (f := fun s a => some (revokeCollection E.ledger s caller now a))
      (fun s a => by simp only [id]; rw [revokeCollection_num]; rfl) s (args.take (maxRevoke s.cfg))
    rw [List.map_id] at h
    rw [h, ofBatch_num]
  | transferFrom args =>
    simp only [exec, call, icrc37TransferFrom, hl]
    rw [runBatch_num r (fun s a => transferFrom_num r E.ledger s caller now a), ofBatch_num]
  | updateCollectionMetadata a =>
    simp only [exec, call, updateCollectionMetadata]
    rw [withGuard_num r s caller (b := fun s => some ({ s with cfg := applyUpdate s.cfg a }, .ok .unit)) (fun s _ => rfl), ofMgmt_num]
  | mint reqs => simp only [exec, call, mint_num r E s hs, ofMgmt_num]
  | updateNftMetadata tid kvs => simp only [exec, call, updateNftMetadata_num, ofMgmt_num]
  | burn tid => simp only [exec, call, burnNft_num, ofMgmt_num]
  | initUpload path n => simp only [exec, call, initUpload_num, ofStarted_num]
  | storeChunk path => simp only [exec, call, storeChunk_num, ofStarted_num]
  | finalizeUpload path => simp only [exec, call, finalizeUpload_num, ofStarted_num]
  | cancelUpload path => simp only [exec, call, cancelUpload_num, ofStarted_num]
  | grant p x =>
    simp only [exec, call, grant]
    rw [withGuard_num r s caller (b := fun s => some ({ s with perms := grantPermission s.perms p x }, .ok .unit)) (fun s _ => rfl), ofMgmt_num]
  | revoke p x =>
    simp only [exec, call, revoke]
    rw [withGuard_num r s caller (b := fun s => some ({ s with perms := revokePermission s.perms p x }, .ok .unit)) (fun s _ => rfl), ofMgmt_num]

theorem needs_num (r : Renumbering) (c : Call) : (r.call c).needs = c.needs := by cases c <;> rfl

theorem step_num (r : Renumbering) (E : Env H) (s : State H) (hs : r.next ≤ s.lastId) (m : Msg) :
    step (r.env E) (r.state s) (r.msg m) = r.out (step E s m) := by
  cases m with
  | call caller now c =>
    simp only [step, msg, execCall, needs_num, exec_num r E s hs, state_perms]
    cases c.needs with
    | none => rfl
    | some p =>
      simp only
      split <;> rfl
  | resume now i ans =>
    simp only [step, msg, state_pending]
    cases s.pending[i]? with
    | none => rfl
    | some p =>
      simp only
      rw [show ({ r.state s with pending := s.pending.eraseIdx i } : State H) = r.state { s with pending := s.pending.eraseIdx i } from rfl,
        resumeBody_num]
      simp only [out, reply_mgmt]
      rfl
  | resumeTrap i =>
    simp only [step, msg, state_pending]
    cases s.pending[i]? with
    | none => rfl
    | some p => rfl
  | upgrade => rfl

/-- A whole history. -/
theorem run_num (r : Renumbering) (E : Env H) (s : State H) (hi : TokInv s) (hs : r.next ≤ s.lastId) (msgs : List Msg) :
    replies (r.env E) (r.state s) (msgs.map r.msg) = (replies E s msgs).map r.reply ∧
      run (r.env E) (r.state s) (msgs.map r.msg) = r.state (run E s msgs) := by
  induction msgs generalizing s with
  | nil => exact ⟨rfl, rfl⟩
  | cons m msgs ih =>
    have hl : s.lastId ≤ (step E s m).1.lastId := lastId_run hi [m]
    have hi' : TokInv (step E s m).1 :=
      run_induct (E := E) (P := TokInv) (fun m t t' ht hm => tokInv_micro ht hm) [m] hi
    have h := ih (step E s m).1 hi' (Nat.le_trans hs hl)
    have h1 : (step (r.env E) (r.state s) (r.msg m)).1 = r.state (step E s m).1 := by rw [step_num r E s hs]; rfl
    have h2 : (step (r.env E) (r.state s) (r.msg m)).2 = r.reply (step E s m).2 := by rw [step_num r E s hs]; rfl
    constructor
    · simp only [List.map_cons, replies]
      rw [h1, h2, h.1]
    · simp only [List.map_cons, run]
      rw [h1, h.2]

/-! ### Queries -/

theorem balanceOf_num (r : Renumbering) (s : State H) (a : Account) : balanceOf (r.state s) a = balanceOf s a := by
  unfold balanceOf
  rw [state_byOwner, get_mapV]
  cases s.byOwner.get a with
  | none => rfl
  | some l => simp

theorem totalSupply_num (r : Renumbering) (s : State H) : totalSupply (r.state s) = totalSupply s := by
  simp [totalSupply, size_map]

theorem tokenMetadata_num (r : Renumbering) (s : State H) (tid : Nat) :
    ((r.state s).tokens.get (r.to tid)).map (tokenMetadata (r.state s)) = (s.tokens.get tid).map (tokenMetadata s) := by
  rw [state_tokens, get_mapN, Option.map_map]
  congr 1
  funext t
  show (getAllData (map r.to id s.mdata) (r.to t.id)).getD [] = _
  rw [getAllData_num]
  rfl

theorem isApproved_num (r : Renumbering) (s : State H) (now : Nat) (a : IsApprovedArg) :
    isApproved (r.state s) now { a with tid := r.to a.tid } = isApproved s now a := by
  unfold isApproved
  simp only [state_tokAppr, get_mapNid, state_collAppr, ownerOf_num]

theorem paged_mem {s : State H} {ids : List Nat} {prev take : Option Nat} {pg : List Nat} {tid : Nat}
    (h : paged s ids prev take = some pg) (hm : tid ∈ pg) : tid ∈ ids := by
  unfold paged at h
  split at h
  · cases h
  · simp at h; subst h; exact (mem_page hm).1

theorem paged_one {s : State H} {ids : List Nat} {tid : Nat} (hpos : 1 ≤ tid) (hm : tid ∈ ids)
    (hmax : 1 ≤ s.cfg.maxTake.getD 100) :
    ∃ prev take pg, paged s ids prev take = some pg ∧ tid ∈ pg := by
  refine ⟨some (tid - 1), some 1, page ids (tid - 1) 1, ?_, ?_⟩
  · unfold paged
    rw [if_neg]
    · rfl
    · simp [defaultMaxTake]; omega
  · rw [page_eq]
    have hmem : tid ∈ (sortNat ids).filter (fun id => decide (tid - 1 < id)) := by
      rw [List.mem_filter, mem_sortNat]
      exact ⟨hm, by simp; omega⟩
    have hsort := (sortNat_sorted ids).filter (fun id => decide (tid - 1 < id))
    have hge : ∀ x ∈ (sortNat ids).filter (fun id => decide (tid - 1 < id)), tid ≤ x := by
      intro x hx
      rw [List.mem_filter] at hx
      have := hx.2
      simp at this
      omega
    generalize (sortNat ids).filter (fun id => decide (tid - 1 < id)) = l at hmem hsort hge
    cases l with
    | nil => cases hmem
    | cons a as =>
      simp only [List.take_succ_cons, List.take_zero, List.mem_singleton]
      rcases List.mem_cons.1 hmem with h | h
      · exact h
      · have h1 := hge a (by simp)
        have h2 := (List.pairwise_cons.1 hsort).1 tid h
        omega

/-- What the pages of a listing contain. -/
theorem listed_iff {s : State H} {ids : List Nat} {n : Nat} (hn : 1 ≤ n) (hmax : 1 ≤ s.cfg.maxTake.getD 100) :
    (∃ prev take pg, paged s ids prev take = some pg ∧ n ∈ pg) ↔ n ∈ ids :=
  ⟨fun ⟨_, _, _, h, hm⟩ => paged_mem h hm, fun h => paged_one hn h hmax⟩

theorem positive (r : Renumbering) {n : Nat} (hn : 1 ≤ n) : 1 ≤ r.to n := by
  refine Nat.lt_of_not_le fun h => ?_
  have h0 : r.to n = r.to 0 := by rw [r.zero]; omega
  have := r.to_inj.1 h0
  omega

theorem mem_keys_num (r : Renumbering) (s : State H) (n : Nat) : r.to n ∈ (r.state s).tokens.keys ↔ n ∈ s.tokens.keys := by
  simp only [Map.keys, state_tokens, entries_map, List.map_map, List.mem_map]
  constructor
  · rintro ⟨e, he, h⟩
    exact ⟨e, he, r.to_inj.1 h⟩
  · rintro ⟨e, he, h⟩
    exact ⟨e, he, congrArg r.to h⟩

theorem mem_tokenIdsOf_num (r : Renumbering) (s : State H) (a : Account) (n : Nat) :
    r.to n ∈ tokenIdsOf (r.state s) a ↔ n ∈ tokenIdsOf s a := by
  simp only [tokenIdsOf, state_tokens, entries_map, List.filter_map, List.map_map, List.mem_map]
  constructor
  · rintro ⟨e, he, h⟩
    exact ⟨e, he, r.to_inj.1 h⟩
  · rintro ⟨e, he, h⟩
    exact ⟨e, he, congrArg r.to h⟩

end Verif.Spec.Renumbering
