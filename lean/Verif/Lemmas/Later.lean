import Verif.Spec.Later
import Verif.Lemmas.Change
import Verif.Lemmas.ApprovalTables
import Verif.Lemmas.Answers
/-!
# Moving a history in time commutes with the code: helper lemmas
-/
set_option linter.unusedSectionVars false

namespace Verif.Spec.Later

open Change (map get_mapV set_mapV del_mapV size_map entries_map)

variable {H : Type}

/-! ### Results -/

/-- A result whose first part is a state. -/
def res {R : Type} (d : Nat) (f : R → R) (x : State H × R) : State H × R := (state d x.1, f x.2)

/-- A possibly trapped result. -/
def optRes {R : Type} (d : Nat) (f : R → R) (x : Option (State H × R)) : Option (State H × R) := x.map (res d f)

@[simp] theorem optRes_none {R : Type} (d : Nat) (f : R → R) : optRes d f (none : Option (State H × R)) = none := rfl
@[simp] theorem optRes_some {R : Type} (d : Nat) (f : R → R) (s : State H) (x : R) :
    optRes d f (some (s, x)) = some (state d s, f x) := rfl
@[simp] theorem res_mk {R : Type} (d : Nat) (f : R → R) (s : State H) (x : R) : res d f (s, x) = (state d s, f x) := rfl

@[simp] theorem state_cfg (d : Nat) (s : State H) : (state d s).cfg = s.cfg := rfl
@[simp] theorem state_mdata (d : Nat) (s : State H) : (state d s).mdata = s.mdata := rfl
@[simp] theorem state_lastId (d : Nat) (s : State H) : (state d s).lastId = s.lastId := rfl
@[simp] theorem state_hid (d : Nat) (s : State H) : (state d s).hid = s.hid := rfl
@[simp] theorem state_tokens (d : Nat) (s : State H) : (state d s).tokens = s.tokens := rfl
@[simp] theorem state_byOwner (d : Nat) (s : State H) : (state d s).byOwner = s.byOwner := rfl
@[simp] theorem state_perms (d : Nat) (s : State H) : (state d s).perms = s.perms := rfl
@[simp] theorem state_subs (d : Nat) (s : State H) : (state d s).subs = s.subs := rfl
@[simp] theorem state_guards (d : Nat) (s : State H) : (state d s).guards = s.guards := rfl
@[simp] theorem state_redirects (d : Nat) (s : State H) : (state d s).redirects = s.redirects := rfl
@[simp] theorem state_router (d : Nat) (s : State H) : (state d s).router = s.router := rfl
@[simp] theorem state_tokAppr (d : Nat) (s : State H) : (state d s).tokAppr = map id (approvals d) s.tokAppr := rfl
@[simp] theorem state_collAppr (d : Nat) (s : State H) :
    (state d s).collAppr = map id (approvals d) s.collAppr := rfl
@[simp] theorem state_uploads (d : Nat) (s : State H) : (state d s).uploads = map id (upload d) s.uploads := rfl
@[simp] theorem state_windows (d : Nat) (s : State H) : (state d s).windows = map id (·.map (· + d)) s.windows := rfl
@[simp] theorem state_pending (d : Nat) (s : State H) : (state d s).pending = s.pending.map (pending d) := rfl

/-! ### Dates -/

theorem windowStep_later (d : Nat) (h : List Nat) (now : Nat) :
    windowStep (h.map (· + d)) (now + d) = ((windowStep h now).1.map (· + d), (windowStep h now).2) := by
  have e : (h.map (· + d)).filter (fun ts => decide (now + d - ts < slidingWindowNs))
      = (h.filter fun ts => decide (now - ts < slidingWindowNs)).map (· + d) := by
    rw [List.filter_map]
    congr 1
    exact List.filter_congr fun t _ => by simp [Nat.add_sub_add_right]
  unfold windowStep
  simp only [e, List.length_map]
  split
  · rfl
  · simp

theorem guardWindow_later (d : Nat) (s : State H) (now tid : Nat) :
    guardWindow (state d s) (now + d) tid = res d id (guardWindow s now tid) := by
  have e : ((map id (·.map (· + d)) s.windows).get tid).getD [] = ((s.windows.get tid).getD []).map (· + d) := by
    rw [get_mapV]
    cases s.windows.get tid <;> rfl
  simp only [guardWindow, state_windows, e, windowStep_later, res, id]
  congr 1
  simp only [state, State.mk.injEq, true_and, and_true]
  exact set_mapV (g := fun l : List Nat => l.map (· + d)) s.windows tid _

/-- What makes the time checks of a request shift. -/
structure Room (b d now : Nat) : Prop where
  after : 2 * b ≤ now
  before : now + d + 2 * b < U64

theorem u64add_small {a b : Nat} (h : a + b < U64) : u64add a b = a + b := Nat.mod_eq_of_lt h

theorem verifyTiming_later {b d now : Nat} (r : Room b d now) {cfg : Config} (h : Short b cfg) (c : Nat) :
    verifyTiming cfg (c + d) (now + d) = (verifyTiming cfg c now).map (err d) := by
  obtain ⟨h1, h2⟩ := h
  obtain ⟨r1, r2⟩ := r
  have e1 : toU64Or (cfg.permittedDrift.getD defaultDrift) defaultDrift = cfg.permittedDrift.getD defaultDrift := by
    unfold toU64Or; rw [if_pos (by omega)]
  have e2 : toU64Or (cfg.txWindow.getD defaultTxWindow) 0 = cfg.txWindow.getD defaultTxWindow := by
    unfold toU64Or; rw [if_pos (by omega)]
  unfold verifyTiming
  rw [e1, e2]
  generalize cfg.permittedDrift.getD defaultDrift = x at *
  generalize cfg.txWindow.getD defaultTxWindow = w at *
  rw [u64add_small (a := now + d) (by omega), u64add_small (a := now) (by omega)]
  by_cases hc : c > now + x
  · rw [if_pos (by omega), if_pos hc]; rfl
  · rw [if_neg (by omega), if_neg hc, u64add_small (a := c + d) (by omega), u64add_small (a := c) (by omega)]
    by_cases hw : c + w < now
    · rw [if_pos (by omega), if_pos hw]; rfl
    · rw [if_neg (by omega), if_neg hw]; rfl

theorem verifyTimingOpt_later {b d now : Nat} (r : Room b d now) {cfg : Config} (h : Short b cfg) (c : Option Nat) :
    verifyTimingOpt cfg (c.map (· + d)) (now + d) = (verifyTimingOpt cfg c now).map (err d) := by
  cases c with
  | none => rfl
  | some c => exact verifyTiming_later r h c

theorem transferTiming_later {b d now : Nat} (r : Room b d now) {cfg : Config} (h : Short b cfg) (c : Nat) :
    transferTiming cfg (now + d) (c + d) = (transferTiming cfg now c).map (·.map (err d)) := by
  obtain ⟨h1, h2⟩ := h
  obtain ⟨r1, r2⟩ := r
  have e1 : cfg.permittedDrift.elim (some defaultDrift) toU64? = some (cfg.permittedDrift.getD defaultDrift) := by
    cases hp : cfg.permittedDrift with
    | none => rfl
    | some v => rw [hp] at h2; simp only [Option.getD_some] at h2; simp only [Option.elim, toU64?, Option.getD_some]; rw [if_pos (by omega)]
  have e2 : cfg.txWindow.elim (some defaultTxWindow) toU64? = some (cfg.txWindow.getD defaultTxWindow) := by
    cases hp : cfg.txWindow with
    | none => rfl
    | some v => rw [hp] at h1; simp only [Option.getD_some] at h1; simp only [Option.elim, toU64?, Option.getD_some]; rw [if_pos (by omega)]
  unfold transferTiming
  rw [e1, e2]
  generalize cfg.permittedDrift.getD defaultDrift = x at *
  generalize cfg.txWindow.getD defaultTxWindow = w at *
  simp only
  rw [u64add_small (a := now + d) (by omega), u64add_small (a := now) (by omega), u64add_small (a := w) (by omega)]
  by_cases hc : c > now + x
  · rw [if_pos (by omega), if_pos hc]; rfl
  · rw [if_neg (by omega), if_neg hc]
    by_cases hw : c < now - (w + x)
    · rw [if_pos (by omega), if_pos hw]; rfl
    · rw [if_neg (by omega), if_neg hw]; rfl

theorem expired_later (d : Nat) (a : Approval) (now : Nat) : expired (approval d a) (now + d) = expired a now := by
  unfold expired approval
  cases a.expiresAt with
  | none => rfl
  | some e => simp

theorem addTx_later {d : Nat} {L : Ledger H} (hL : Timeless d L) (s : State H) (t : Tx) {t' : Tx} (ht : t' = tx d t) :
    addTx L (state d s) t' = res d id (addTx L s t) := by
  subst ht
  simp only [addTx, state_hid, hL s.hid t]
  generalize L.add s.hid t = x
  obtain ⟨h, _ | i⟩ := x
  · rfl
  · simp [res, state]

theorem addTx_later' {d : Nat} {L : Ledger H} (hL : Timeless d L) (s : State H) (t : Tx) {s' : State H} {t' : Tx}
    (hs : s' = state d s) (ht : t' = tx d t) :
    addTx L s' t' = res d id (addTx L s t) := by
  subst hs
  exact addTx_later hL s t ht

theorem addTx_cfg {L : Ledger H} (s : State H) (t : Tx) : (addTx L s t).1.cfg = s.cfg := by
  unfold addTx
  generalize L.add s.hid t = x
  obtain ⟨h, _ | i⟩ := x <;> rfl

theorem ownerOf_later (d : Nat) (s : State H) (tid : Nat) : ownerOf (state d s) tid = ownerOf s tid := rfl

theorem putTokAppr_later (d : Nat) (s : State H) (tid : Nat) (m : Map Account Approval) :
    putTokAppr (state d s) tid (approvals d m) = (putTokAppr s tid m).map (state d) := by
  unfold putTokAppr
  split
  · simp only [Option.map_some, state_tokAppr, set_mapV]; rfl
  · rfl

theorem moveToken_later (d : Nat) (s : State H) (nft : Token) (a : Account) :
    moveToken (state d s) nft a = state d (moveToken s nft a) := rfl

/-! ### updates/icrc7.rs -/

theorem transferNft_later {b d now : Nat} (r : Room b d now) {L : Ledger H} (hL : Timeless d L) (s : State H)
    (hs : Short b s.cfg) (caller : Principal) (a : TransferArg) :
    transferNft L (state d s) caller (now + d) (transferArg d a)
      = optRes d (item d) (transferNft L s caller now a) := by
  obtain ⟨to_, tid, memo, fromSub, createdAt⟩ := a
  rw [show transferArg d ⟨to_, tid, memo, fromSub, createdAt⟩ = ⟨to_, tid, memo, fromSub, createdAt.map (· + d)⟩ from rfl]
  unfold transferNft
  obtain ⟨s₁, ok, hx⟩ : ∃ s₁ ok, guardWindow s now tid = (s₁, ok) := ⟨_, _, rfl⟩
  have hs1 : Short b s₁.cfg := by rw [show s₁ = (guardWindow s now tid).1 from by rw [hx]]; exact hs
  dsimp only
  rw [guardWindow_later, hx]
  clear hx hs
  revert s₁
  intro s hs
  cases ok with
  | false => rfl
  | true =>
    simp only [res_mk, id, Bool.not_true, Bool.false_eq_true, if_false, state_tokens, state_cfg]
    cases s.tokens.get tid with
    | none => rfl
    | some nft =>
      simp only
      cases checkMemo s.cfg memo with
      | none => rfl
      | some b =>
        cases b with
        | false => rfl
        | true =>
          dsimp only
          split
          · rfl
          · rw [show (createdAt.map (· + d)).getD (now + d) = createdAt.getD now + d from by cases createdAt <;> rfl,
              transferTiming_later r hs]
            cases transferTiming s.cfg now (createdAt.getD now) with
            | none => rfl
            | some o =>
              cases o with
              | some e => rfl
              | none =>
                simp only [Option.map_some, Option.map_none]
                rw [addTx_later hL s (transferTx now (createdAt.getD now) ⟨to_, tid, memo, fromSub, createdAt⟩ nft)]
                rotate_left
                · rfl
                generalize addTx L s (transferTx now (createdAt.getD now) ⟨to_, tid, memo, fromSub, createdAt⟩ nft) = y
                obtain ⟨s, e | i⟩ := y
                · cases e <;> rfl
                · rfl

theorem runBatch_later {A R : Type} (d : Nat) (P : Config → Prop) {f' f : State H → A → Option (State H × R)} {g : A → A}
    {k : R → R} (h : ∀ s a, P s.cfg → f' (state d s) (g a) = optRes d k (f s a))
    (hc : ∀ s a s' x, f s a = some (s', x) → s'.cfg = s.cfg) (s : State H) (hs : P s.cfg) (l : List A) :
    runBatch f' (state d s) (l.map g) = optRes d (·.map k) (runBatch f s l) := by
  induction l generalizing s with
  | nil => rfl
  | cons a l ih =>
    simp only [List.map_cons, runBatch, h s a hs]
    cases hf : f s a with
    | none => rfl
    | some x =>
      obtain ⟨s', y⟩ := x
      simp only [optRes_some, ih s' (by rw [hc s a s' y hf]; exact hs)]
      cases runBatch f s' l with
      | none => rfl
      | some x => obtain ⟨s, y⟩ := x; rfl

theorem icrc7Transfer_later {b d now : Nat} (r : Room b d now) {L : Ledger H} (hL : Timeless d L) (s : State H)
    (hs : Short b s.cfg) (caller : Principal) (args : List TransferArg) :
    icrc7Transfer L (state d s) caller (now + d) (args.map (transferArg d))
      = optRes d (·.map (item d)) (icrc7Transfer L s caller now args) := by
  unfold icrc7Transfer
  simp only [List.isEmpty_map, state_cfg, List.length_map, ← List.map_take]
  split
  · rfl
  · split
    · rfl
    · split
      · rfl
      · split
        · rfl
        · exact runBatch_later d (Short b) (fun s a hs => transferNft_later r hL s hs caller a)
            (fun _ _ _ _ h => transferNft_cfg h) s hs _

/-! ### updates/icrc37.rs -/

theorem approvals_set (d : Nat) (m : Map Account Approval) (k : Account) (v : Approval) :
    (approvals d m).set k (approval d v) = approvals d (m.set k v) := set_mapV m k v
theorem approvals_get (d : Nat) (m : Map Account Approval) (k : Account) :
    (approvals d m).get k = (m.get k).map (approval d) := get_mapV m k
theorem approvals_del (d : Nat) (m : Map Account Approval) (k : Account) :
    (approvals d m).del k = approvals d (m.del k) := del_mapV m k
theorem approvals_size (d : Nat) (m : Map Account Approval) : (approvals d m).size = m.size :=
  size_map m
theorem approvals_getD (d : Nat) (o : Option (Map Account Approval)) :
    (o.map (approvals d)).getD ∅ = approvals d (o.getD ∅) := by cases o <;> rfl
theorem any_size (d : Nat) (o : Option (Map Account Approval)) (n : Nat) :
    ((o.map (approvals d)).any fun m => decide (n ≤ m.size)) = o.any fun m => decide (n ≤ m.size) := by
  cases o
  · rfl
  · simp [approvals_size]
theorem mkApproval_later (d : Nat) (i : ApprovalInfo) (a : Account) (now : Nat) :
    mkApproval (info d i) a (now + d) = approval d (mkApproval i a now) := rfl

theorem approveToken_later {b d now : Nat} (r : Room b d now) {L : Ledger H} (hL : Timeless d L) (s : State H)
    (hs : Short b s.cfg) (caller : Principal) (a : ApproveTokenArg) :
    approveToken L (state d s) caller (now + d) (approveArg d a)
      = optRes d (item d) (approveToken L s caller now a) := by
  have ei : (approveArg d a).info = info d a.info := rfl
  have et : (approveArg d a).tid = a.tid := rfl
  have es : (info d a.info).spender = a.info.spender := rfl
  unfold approveToken
  obtain ⟨s₁, ok, hx⟩ : ∃ s₁ ok, guardWindow s now a.tid = (s₁, ok) := ⟨_, _, rfl⟩
  have hs1 : Short b s₁.cfg := by rw [show s₁ = (guardWindow s now a.tid).1 from by rw [hx]]; exact hs
  simp only [ei, et]
  rw [guardWindow_later, hx]
  clear hx hs
  revert s₁
  intro s hs
  cases ok with
  | false => rfl
  | true =>
    rw [res_mk]
    dsimp only [id]
    rw [state_cfg]
    simp only [Bool.not_true, Bool.false_eq_true, if_false]
    rw [show (info d a.info).createdAt = a.info.createdAt + d from rfl, verifyTiming_later r hs]
    cases verifyTiming s.cfg a.info.createdAt now with
    | some e => rfl
    | none =>
      simp only [ownerOf_later, Option.map_none]
      cases ownerOf s a.tid with
      | none => rfl
      | some owner =>
        simp only [show (info d a.info).fromSub = a.info.fromSub from rfl, es, state_tokAppr, get_mapV, any_size]
        split
        · rfl
        · split
          · rfl
          · split
            · rfl
            · rw [addTx_later hL s { op := .approve, ts := now, tid := some a.tid,
                                     from_ := some ⟨caller, a.info.fromSub⟩, memo := a.info.memo,
                                     createdAt := some a.info.createdAt, spender := some a.info.spender,
                                     exp := a.info.expiresAt }]
              rotate_left
              · rfl
              generalize addTx L s _ = y
              obtain ⟨s, e | i⟩ := y
              · rfl
              · simp only [res_mk, id, state_tokAppr, get_mapV, approvals_getD, mkApproval_later, approvals_set,
                  putTokAppr_later]
                cases putTokAppr s a.tid _ <;> rfl

theorem approveCollection_later {b d now : Nat} (r : Room b d now) {L : Ledger H} (hL : Timeless d L) (s : State H)
    (hs : Short b s.cfg) (caller : Principal) (a : ApprovalInfo) :
    approveCollection L (state d s) caller (now + d) (info d a)
      = res d (item d) (approveCollection L s caller now a) := by
  have es : (info d a).spender = a.spender := rfl
  unfold approveCollection
  obtain ⟨s₁, ok, hx⟩ : ∃ s₁ ok, guardWindow s now 0 = (s₁, ok) := ⟨_, _, rfl⟩
  have hs1 : Short b s₁.cfg := by rw [show s₁ = (guardWindow s now 0).1 from by rw [hx]]; exact hs
  skip
  rw [guardWindow_later, hx]
  clear hx hs
  revert s₁
  intro s hs
  cases ok with
  | false => rfl
  | true =>
    rw [res_mk]
    dsimp only [id]
    rw [state_cfg]
    simp only [Bool.not_true, Bool.false_eq_true, if_false]
    rw [show (info d a).createdAt = a.createdAt + d from rfl, verifyTiming_later r hs]
    cases verifyTiming s.cfg a.createdAt now with
    | some e => rfl
    | none =>
      simp only [Option.map_none]
      simp only [show (info d a).fromSub = a.fromSub from rfl, es, state_collAppr,
        get_mapV, any_size, state_tokens]
      split
      · rfl
      · split
        · rfl
        · split
          · rfl
          · rw [addTx_later hL s { op := .approveColl, ts := now,
                                   from_ := some ⟨caller, a.fromSub⟩, memo := a.memo,
                                   createdAt := some a.createdAt, spender := some a.spender,
                                   exp := a.expiresAt }]
            rotate_left
            · rfl
            generalize addTx L s _ = y
            obtain ⟨s, e | i⟩ := y
            · rfl
            · simp only [res_mk, id, state_collAppr, get_mapV, approvals_getD, mkApproval_later, approvals_set,
                set_mapV]
              rfl

theorem dropSpender_later (d : Nat) (m : Map Account Approval) (o : Option Account) :
    dropSpender (approvals d m) o = approvals d (dropSpender m o) := by
  cases o
  · rfl
  · exact approvals_del d m _

theorem revokeToken_later {b d now : Nat} (r : Room b d now) {L : Ledger H} (hL : Timeless d L) (s : State H)
    (hs : Short b s.cfg) (caller : Principal) (a : RevokeTokenArg) :
    revokeToken L (state d s) caller (now + d) (revokeArg d a)
      = optRes d (item d) (revokeToken L s caller now a) := by
  unfold revokeToken
  simp only [state_cfg, revokeArg, verifyTimingOpt_later r hs]
  cases verifyTimingOpt s.cfg a.createdAt now with
  | some e => rfl
  | none =>
    simp only [ownerOf_later, Option.map_none]
    cases ownerOf s a.tid with
    | none => rfl
    | some owner =>
      simp only [state_tokAppr, get_mapV]
      split
      · rfl
      · cases s.tokAppr.get a.tid with
        | none => rfl
        | some m =>
          simp only [Option.map_some]
          rw [addTx_later hL s { op := .revoke, ts := now, tid := some a.tid,
                                 from_ := some ⟨caller, a.fromSub⟩, memo := a.memo, createdAt := a.createdAt,
                                 spender := a.spender }]
          rotate_left
          · rfl
          generalize addTx L s _ = y
          obtain ⟨s, e | i⟩ := y
          · rfl
          · simp only [res_mk, id, dropSpender_later, putTokAppr_later]
            cases putTokAppr s a.tid _ <;> rfl

theorem revokeCollection_later {b d now : Nat} (r : Room b d now) {L : Ledger H} (hL : Timeless d L) (s : State H)
    (hs : Short b s.cfg) (caller : Principal) (a : RevokeCollArg) :
    revokeCollection L (state d s) caller (now + d) (revokeCollArg d a)
      = res d (item d) (revokeCollection L s caller now a) := by
  unfold revokeCollection
  obtain ⟨s₁, ok, hx⟩ : ∃ s₁ ok, guardWindow s now 0 = (s₁, ok) := ⟨_, _, rfl⟩
  have hs1 : Short b s₁.cfg := by rw [show s₁ = (guardWindow s now 0).1 from by rw [hx]]; exact hs
  dsimp only [revokeCollArg]
  rw [guardWindow_later, hx]
  clear hx hs
  revert s₁
  intro s hs
  cases ok with
  | false => rfl
  | true =>
    rw [res_mk]
    dsimp only [id]
    rw [state_cfg]
    simp only [Bool.not_true, Bool.false_eq_true, if_false]
    rw [verifyTimingOpt_later r hs]
    cases verifyTimingOpt s.cfg a.createdAt now with
    | some e => rfl
    | none =>
      simp only [Option.map_none, state_collAppr, get_mapV]
      cases s.collAppr.get ⟨caller, none⟩ with
      | none => rfl
      | some m =>
        simp only [Option.map_some]
        rw [addTx_later hL s { op := .revokeColl, ts := now, from_ := some ⟨caller, none⟩, memo := a.memo,
                               createdAt := a.createdAt, spender := a.spender }]
        rotate_left
        · rfl
        generalize addTx L s _ = y
        obtain ⟨s, e | i⟩ := y
        · rfl
        · simp only [res_mk, id, dropSpender_later, state_collAppr, set_mapV]
          rfl

theorem checkTokenApproval_later (d : Nat) (s : State H) (now tid : Nat) (a : Account) :
    checkTokenApproval (state d s) (now + d) tid a = optRes d id (checkTokenApproval s now tid a) := by
  unfold checkTokenApproval
  simp only [state_tokAppr, get_mapV]
  cases s.tokAppr.get tid with
  | none => rfl
  | some m =>
    simp only [Option.map_some, approvals_get]
    cases m.get a with
    | none => rfl
    | some b =>
      simp only [Option.map_some, approvals_del, putTokAppr_later, expired_later]
      split
      · cases putTokAppr s tid _ <;> rfl
      · rfl

theorem checkCollApproval_later (d : Nat) (s : State H) (now : Nat) (o a : Account) :
    checkCollApproval (state d s) (now + d) o a = res d id (checkCollApproval s now o a) := by
  unfold checkCollApproval
  simp only [state_collAppr, get_mapV]
  cases s.collAppr.get o with
  | none => rfl
  | some m =>
    simp only [Option.map_some, approvals_get]
    cases m.get a with
    | none => rfl
    | some b =>
      simp only [Option.map_some, approvals_del, expired_later]
      rw [show (approvals d (m.del a)).entries.isEmpty = (m.del a).entries.isEmpty from by
          simp [approvals, entries_map]]
      split
      · split
        · simp only [del_mapV, set_mapV]; rfl
        · simp only [set_mapV]; rfl
      · rfl

theorem transferFrom_later {b d now : Nat} (r : Room b d now) {L : Ledger H} (hL : Timeless d L) (s : State H)
    (hs : Short b s.cfg) (caller : Principal) (a : TransferFromArg) :
    transferFrom L (state d s) caller (now + d) (fromArg d a)
      = optRes d (item d) (transferFrom L s caller now a) := by
  obtain ⟨spenderSub, from_, to_, tid, memo, createdAt⟩ := a
  rw [show fromArg d ⟨spenderSub, from_, to_, tid, memo, createdAt⟩ = ⟨spenderSub, from_, to_, tid, memo, createdAt.map (· + d)⟩ from rfl]
  unfold transferFrom
  obtain ⟨s₁, ok, hx⟩ : ∃ s₁ ok, guardWindow s now tid = (s₁, ok) := ⟨_, _, rfl⟩
  have hs1 : Short b s₁.cfg := by rw [show s₁ = (guardWindow s now tid).1 from by rw [hx]]; exact hs
  dsimp only
  rw [guardWindow_later, hx]
  clear hx hs
  revert s₁
  intro s hs
  cases ok with
  | false => rfl
  | true =>
    rw [res_mk]
    dsimp only [id]
    rw [state_cfg]
    simp only [Bool.not_true, Bool.false_eq_true, if_false]
    rw [verifyTimingOpt_later r hs]
    cases verifyTimingOpt s.cfg createdAt now with
    | some e => rfl
    | none =>
      simp only [Option.map_none, state_tokens]
      cases s.tokens.get tid with
      | none => rfl
      | some nft =>
        simp only [checkTokenApproval_later]
        split
        · rfl
        · split
          · rfl
          · cases checkTokenApproval s now tid ⟨caller, spenderSub⟩ with
            | none => rfl
            | some x =>
              obtain ⟨s, hasTok⟩ := x
              simp only [optRes_some]
              rw [checkCollApproval_later]
              generalize checkCollApproval s now nft.owner ⟨caller, spenderSub⟩ = y
              obtain ⟨s, hasColl⟩ := y
              rw [res_mk]
              dsimp only [id]
              by_cases h : (!(nft.owner == from_) || (!((⟨caller, spenderSub⟩ : Account) == from_) && !hasTok && !hasColl)) = true
              · rw [if_pos h, if_pos h]; rfl
              · rw [if_neg h, if_neg h]
                rw [addTx_later hL s { op := .xferFrom, ts := now, tid := some tid, from_ := some from_,
                                       to_ := some to_, memo := memo, createdAt := createdAt,
                                       spender := some ⟨caller, spenderSub⟩ }]
                rotate_left
                · rfl
                generalize addTx L s _ = z
                obtain ⟨s, e | i⟩ := z
                · simp only [res_mk, id, optRes_some, item]
                  cases e <;> simp only [transferFromLedgerErr] <;> (try split) <;> rfl
                · simp only [res_mk, id, moveToken_later, state_tokAppr, state_collAppr, del_mapV,
                    Map.get_del_self, Option.isSome_none, Bool.not_false, if_true, get_mapV, Option.map_none]
                  rfl

/-- The answer to a request for several revocations. -/
def items (d : Nat) : Except TokErr (List (Except TokErr Nat)) → Except TokErr (List (Except TokErr Nat))
  | .error e => .error (err d e)
  | .ok l => .ok (l.map (item d))

theorem icrc37RevokeTokens_later {b d now : Nat} (r : Room b d now) {L : Ledger H} (hL : Timeless d L) (s : State H)
    (hs : Short b s.cfg) (caller : Principal) (args : List RevokeTokenArg) :
    icrc37RevokeTokens L (state d s) caller (now + d) (args.map (revokeArg d))
      = optRes d (items d) (icrc37RevokeTokens L s caller now args) := by
  unfold icrc37RevokeTokens
  cases args with
  | nil => rfl
  | cons a l =>
    obtain ⟨s₁, ok, hx⟩ : ∃ s₁ ok, guardWindow s now a.tid = (s₁, ok) := ⟨_, _, rfl⟩
    have hs1 : Short b s₁.cfg := by rw [show s₁ = (guardWindow s now a.tid).1 from by rw [hx]]; exact hs
    simp only [List.map_cons, show (revokeArg d a).tid = a.tid from rfl]
    rw [guardWindow_later, hx]
    clear hx hs
    revert s₁
    intro s hs
    cases ok with
    | false => rfl
    | true =>
      rw [res_mk]
      dsimp only [id]
      rw [state_cfg]
      simp only [Bool.not_true, Bool.false_eq_true, if_false]
      rw [← List.map_cons, ← List.map_take,
        runBatch_later d (Short b) (fun s a hs => revokeToken_later r hL s hs caller a)
          (fun _ _ _ _ h => by cases revokeToken_out h <;> rfl) s hs]
      cases runBatch (fun s a => revokeToken L s caller now a) s (List.take (maxRevoke s.cfg) (a :: l)) with
      | none => rfl
      | some x => obtain ⟨s, y⟩ := x; rfl

/-! ### updates/management.rs -/

theorem guardEnter_later (d : Nat) (s : State H) (p : Principal) :
    guardEnter (state d s) p = (guardEnter s p).map (state d) := by
  unfold guardEnter
  rw [state_guards]
  split <;> rfl

theorem guardLeave_later (d : Nat) (s : State H) (p : Principal) :
    guardLeave (state d s) p = state d (guardLeave s p) := rfl

theorem withGuard_later (d : Nat) (s : State H) (p : Principal) {b' b : State H → Option (MgmtRes H)}
    (h : ∀ s, b' (state d s) = optRes d id (b s)) :
    withGuard (state d s) p b' = optRes d id (withGuard s p b) := by
  unfold withGuard
  rw [guardEnter_later]
  cases guardEnter s p with
  | none => rfl
  | some s =>
    simp only [Option.map_some, h]
    cases b s with
    | none => rfl
    | some x => obtain ⟨s, y⟩ := x; simp only [optRes_some, guardLeave_later]

theorem mintTxs_later {d : Nat} {L : Ledger H} (hL : Timeless d L) (s : State H) (now i : Nat) (l : List MintReq) :
    mintTxs L (state d s) (now + d) i l = res d id (mintTxs L s now i l) := by
  induction l generalizing s i with
  | nil => rfl
  | cons a l ih =>
    simp only [mintTxs]
    rw [addTx_later hL s (mintTx now i a)]
    rotate_left
    · rfl
    generalize addTx L s _ = x
    obtain ⟨s, e | j⟩ := x
    · rfl
    · exact ih s (i + 1)

theorem mintTxs_later' {d : Nat} {L : Ledger H} (hL : Timeless d L) (s : State H) (now i : Nat) (l : List MintReq)
    {s' : State H} (hs : s' = state d s) : mintTxs L s' (now + d) i l = res d id (mintTxs L s now i l) := by
  subst hs
  exact mintTxs_later hL s now i l

theorem mintInsert_later (d : Nat) (s : State H) (i : Nat) (l : List MintReq) :
    mintInsert (state d s) i l = state d (mintInsert s i l) := by
  induction l generalizing s i with
  | nil => rfl
  | cons a l ih =>
    simp only [mintInsert]
    rw [← ih]
    rfl

theorem mint_later {d : Nat} {E : Env H} (hL : Timeless d E.ledger) (s : State H) (caller : Principal) (now : Nat)
    (l : List MintReq) : mint E (state d s) caller (now + d) l = optRes d id (mint E s caller now l) := by
  refine withGuard_later d s caller fun s => ?_
  dsimp only
  rw [state_cfg, state_tokens, state_mdata, state_lastId]
  by_cases h1 : l.length > s.cfg.maxUpdateBatch.getD 100
  · rw [if_pos h1, if_pos h1]; rfl
  · rw [if_neg h1, if_neg h1]
    by_cases h2 : s.tokens.size + l.length > s.cfg.supplyCap.getD defaultSupplyCap
    · rw [if_pos h2, if_pos h2]; rfl
    · rw [if_neg h2, if_neg h2]
      cases checkMemos s.cfg l with
      | none => rfl
      | some b =>
        cases b with
        | false => rfl
        | true =>
          simp only
          cases mintMetadata s.mdata s.lastId l with
          | none => rfl
          | some md =>
            simp only
            rw [mintTxs_later' hL { s with mdata := md } now s.lastId l]
            rotate_left
            · rfl
            generalize mintTxs E.ledger _ _ _ _ = x
            obtain ⟨s', b⟩ := x
            cases b with
            | false => rfl
            | true =>
              simp only [res_mk, optRes_some, id]
              rw [← mintInsert_later]
              rfl

theorem updateNftMetadata_later {d : Nat} {E : Env H} (hL : Timeless d E.ledger) (s : State H) (caller : Principal)
    (now tid : Nat) (kvs : List (String × Value)) :
    updateNftMetadata E (state d s) caller (now + d) tid kvs
      = optRes d id (updateNftMetadata E s caller now tid kvs) := by
  refine withGuard_later d s caller fun s => ?_
  simp only [state_tokens, state_mdata]
  cases s.tokens.get tid with
  | none => rfl
  | some t =>
    simp only
    cases replaceMetadata s.mdata t.id kvs with
    | none => rfl
    | some md =>
      simp only
      rw [addTx_later' hL { s with mdata := md }
          { op := .updateToken, ts := now, tid := some tid, from_ := some ⟨caller, none⟩,
            meta_ := some ((getAllData s.mdata tid).getD [], (getAllData md tid).getD []),
            createdAt := some now }]
      rotate_left
      · rfl
      · rfl
      generalize addTx E.ledger _ _ = x
      obtain ⟨s', e | j⟩ := x <;> rfl

theorem burnNft_later {d : Nat} {E : Env H} (hL : Timeless d E.ledger) (s : State H) (caller : Principal) (now tid : Nat) :
    burnNft E (state d s) caller (now + d) tid = optRes d id (burnNft E s caller now tid) := by
  refine withGuard_later d s caller fun s => ?_
  simp only [state_tokens]
  cases s.tokens.get tid with
  | none => rfl
  | some t =>
    simp only
    split
    · rfl
    · rw [addTx_later hL s { op := .burn, ts := now, tid := some tid, from_ := some t.owner,
                                    createdAt := some now }]
      rotate_left
      · rfl
      generalize addTx E.ledger _ _ = x
      obtain ⟨s', e | j⟩ := x <;> rfl

/-! ### Uploads -/

/-- The first segment of an asynchronous method. -/
def started (d : Nat) : Started H → Started H
  | .done s x => .done (state d s) x
  | .suspended s => .suspended (state d s)

/-- What such a segment hands over. -/
def seg (d : Nat) (x : State H × (Except MgmtErr MgmtOk ⊕ Pending)) :
    State H × (Except MgmtErr MgmtOk ⊕ Pending) :=
  (state d x.1, match x.2 with | .inl e => .inl e | .inr p => .inr (pending d p))

theorem withGuardAsync_later (d : Nat) (s : State H) (p : Principal)
    {b' b : State H → State H × (Except MgmtErr MgmtOk ⊕ Pending)}
    (h : ∀ s, b' (state d s) = seg d (b s)) :
    withGuardAsync (state d s) p b' = started d (withGuardAsync s p b) := by
  unfold withGuardAsync
  rw [guardEnter_later]
  cases guardEnter s p with
  | none => rfl
  | some s =>
    simp only [Option.map_some, h]
    generalize b s = x
    obtain ⟨s, e | q⟩ := x
    · simp only [seg, guardLeave_later, started]
    · simp [seg, started, state]

theorem containsPath_later (d : Nat) (m : Map String Upload) (p : String) :
    containsPath (map id (upload d) m) p = containsPath m p := by
  simp only [containsPath, entries_map, List.any_map]
  rfl

theorem initUpload_later (d : Nat) (s : State H) (caller : Principal) (path : String) (n : Nat) :
    initUpload (state d s) caller path n = started d (initUpload s caller path n) := by
  refine withGuardAsync_later d s caller fun s => ?_
  simp only [state_uploads, containsPath_later]
  split
  · rfl
  · split <;> rfl

theorem callStorage_later (d : Nat) (s : State H) (key : String) (u : Upload) (p : Pending) :
    callStorage (state d s) key (upload d u) (pending d p) = seg d (callStorage s key u p) := by
  unfold callStorage
  rw [state_subs, show (upload d u).canister = u.canister from rfl]
  cases getSub s.subs u.canister with
  | none => simp only [state_uploads, del_mapV]; rfl
  | some c =>
    simp only
    split <;> rfl

theorem storeChunk_later (d : Nat) (s : State H) (caller : Principal) (key : String) :
    storeChunk (state d s) caller key = started d (storeChunk s caller key) := by
  refine withGuardAsync_later d s caller fun s => ?_
  simp only [state_uploads, get_mapV]
  cases s.uploads.get key with
  | none => rfl
  | some u =>
    simp only [Option.map_some]
    rw [show (upload d u).state = u.state from rfl]
    cases u.state
    · exact callStorage_later d s key u (.store caller key u)
    · exact callStorage_later d s key u (.store caller key u)
    · rfl

theorem finalizeUpload_later (d : Nat) (s : State H) (caller : Principal) (key : String) :
    finalizeUpload (state d s) caller key = started d (finalizeUpload s caller key) := by
  refine withGuardAsync_later d s caller fun s => ?_
  simp only [state_uploads, get_mapV]
  cases s.uploads.get key with
  | none => rfl
  | some u =>
    simp only [Option.map_some]
    rw [show (upload d u).state = u.state from rfl]
    cases u.state
    · rfl
    · exact callStorage_later d s key u (.finalize caller key u)
    · rfl

theorem cancelUpload_later (d : Nat) (s : State H) (caller : Principal) (key : String) :
    cancelUpload (state d s) caller key = started d (cancelUpload s caller key) := by
  refine withGuardAsync_later d s caller fun s => ?_
  simp only [state_uploads, get_mapV]
  cases s.uploads.get key with
  | none => rfl
  | some u =>
    simp only [Option.map_some]
    rw [show (upload d u).state = u.state from rfl]
    cases u.state
    · exact callStorage_later d s key u (.cancel caller key u)
    · exact callStorage_later d s key u (.cancel caller key u)
    · rfl

theorem resumeBody_later {d : Nat} (E : Env H) (s : State H) (now : Nat) (p : Pending) (a : Answer) :
    resumeBody E (state d s) (now + d) (pending d p) a = res d id (resumeBody E s now p a) := by
  cases p with
  | init c path n subs =>
    simp only [resumeBody, pending]
    cases managerInitUpload a subs n with
    | none => rfl
    | some x =>
      obtain ⟨l, q⟩ := x
      simp only [state_uploads]
      rw [show (map id (upload d) s.uploads).set path { initTs := now + d, state := .init, canister := q, path := path }
        = map id (upload d) (s.uploads.set path { initTs := now, state := .init, canister := q, path := path }) from
        set_mapV (g := upload d) s.uploads path { initTs := now, state := .init, canister := q, path := path }]
      rfl
  | store c key u =>
    simp only [resumeBody, pending]
    cases a.resp with
    | error e => rfl
    | ok _ =>
      simp only [state_uploads]
      rw [show (map id (upload d) s.uploads).set key { upload d u with state := .inProgress }
        = map id (upload d) (s.uploads.set key { u with state := .inProgress }) from
        set_mapV (g := upload d) s.uploads key { u with state := .inProgress }]
      rfl
  | finalize c key u =>
    simp only [resumeBody, pending]
    cases a.resp with
    | error e => rfl
    | ok _ =>
      simp only [state_uploads]
      rw [show (map id (upload d) s.uploads).set key { upload d u with state := .finalized }
        = map id (upload d) (s.uploads.set key { u with state := .finalized }) from
        set_mapV (g := upload d) s.uploads key { u with state := .finalized }]
      rfl
  | cancel c key u =>
    simp only [resumeBody, pending]
    cases a.resp with
    | error e => rfl
    | ok _ => simp only [state_uploads, del_mapV]; rfl

/-! ### The whole canister -/

theorem ofBatch_later (d : Nat) (s : State H) (x : Option (State H × List (Except TokErr Nat))) :
    ofBatch (state d s) (optRes d (·.map (item d)) x) = res d (reply d) (ofBatch s x) := by
  cases x with
  | none => rfl
  | some y => rfl

theorem ofMgmt_later (d : Nat) (s : State H) (x : Option (MgmtRes H)) :
    ofMgmt (state d s) (optRes d id x) = res d (reply d) (ofMgmt s x) := by
  cases x with
  | none => rfl
  | some y => rfl

theorem ofStarted_later (d : Nat) (x : Started H) : ofStarted (started d x) = res d (reply d) (ofStarted x) := by
  cases x <;> rfl

theorem exec_later {b d now : Nat} (r : Room b d now) {E : Env H} (hL : Timeless d E.ledger) (s : State H)
    (hs : Short b s.cfg) (caller : Principal) (c : Call) :
    exec E (state d s) caller (now + d) (call d c) = res d (reply d) (exec E s caller now c) := by
  cases c with
  | transfer args => simp only [exec, call, icrc7Transfer_later r hL s hs, ofBatch_later]
  | approveTokens args =>
    simp only [exec, call, icrc37ApproveTokens]
    rw [runBatch_later d (Short b) (fun s a hs => approveToken_later r hL s hs caller a)
      (fun _ _ _ _ h => by cases approveToken_out h <;> rfl) s hs, ofBatch_later]
  | approveCollection args =>
    simp only [exec, call, icrc37ApproveCollection]
    rw [runBatch_later d (Short b) (f := fun s a => some (approveCollection E.ledger s caller now a))
      (fun s a hs => by rw [approveCollection_later r hL s hs]; rfl)
      (fun _ _ _ _ h => by cases approveCollection_out (Option.some.inj h) <;> rfl) s hs, ofBatch_later]
  | revokeTokens args =>
    simp only [exec, call, icrc37RevokeTokens_later r hL s hs]
    cases icrc37RevokeTokens E.ledger s caller now args with
    | none => rfl
    | some x => obtain ⟨s, e | y⟩ := x <;> rfl
  | revokeCollection args =>
    simp only [exec, call, icrc37RevokeCollection, state_cfg, ← List.map_take]
    rw [runBatch_later d (Short b) (f := fun s a => some (revokeCollection E.ledger s caller now a))
      (fun s a hs => by rw [revokeCollection_later r hL s hs]; rfl)
      (fun _ _ _ _ h => by cases revokeCollection_out (Option.some.inj h) <;> rfl) s hs, ofBatch_later]
  | transferFrom args =>
    simp only [exec, call, icrc37TransferFrom]
    rw [runBatch_later d (Short b) (fun s a hs => transferFrom_later r hL s hs caller a)
      (fun _ _ _ _ h => by cases transferFrom_out h <;> rfl) s hs, ofBatch_later]
  | updateCollectionMetadata a =>
    simp only [exec, call]
    rw [← ofMgmt_later]
    exact congrArg _ (withGuard_later d s caller fun _ => rfl)
  | mint reqs => simp only [exec, call, mint_later hL, ofMgmt_later]
  | updateNftMetadata tid kvs => simp only [exec, call, updateNftMetadata_later hL, ofMgmt_later]
  | burn tid => simp only [exec, call, burnNft_later hL, ofMgmt_later]
  | initUpload path n => simp only [exec, call, initUpload_later, ofStarted_later]
  | storeChunk path => simp only [exec, call, storeChunk_later, ofStarted_later]
  | finalizeUpload path => simp only [exec, call, finalizeUpload_later, ofStarted_later]
  | cancelUpload path => simp only [exec, call, cancelUpload_later, ofStarted_later]
  | grant p x =>
    simp only [exec, call]
    rw [← ofMgmt_later]
    exact congrArg _ (withGuard_later d s caller fun _ => rfl)
  | revoke p x =>
    simp only [exec, call]
    rw [← ofMgmt_later]
    exact congrArg _ (withGuard_later d s caller fun _ => rfl)

theorem needs_later (d : Nat) (c : Call) : (call d c).needs = c.needs := by cases c <;> rfl

theorem pending_caller (d : Nat) (p : Pending) : (pending d p).caller = p.caller := by
  cases p <;> rfl

theorem erase_later (d : Nat) (s : State H) (i : Nat) :
    ({ state d s with pending := (s.pending.map (pending d)).eraseIdx i } : State H)
      = state d { s with pending := s.pending.eraseIdx i } := by
  have h : ∀ (l : List Pending) (i : Nat), (l.map (pending d)).eraseIdx i = (l.eraseIdx i).map (pending d) := by
    intro l
    induction l with
    | nil => intro i; rfl
    | cons p l ih =>
      intro i
      cases i with
      | zero => rfl
      | succ i => simp only [List.map_cons, List.eraseIdx_cons_succ, ih]
  simp only [h]
  rfl

theorem step_later {b d : Nat} {E : Env H} (hL : Timeless d E.ledger) (s : State H) (hs : Short b s.cfg) (m : Msg)
    (hm : Amid b d m) : step E (state d s) (msg d m) = res d (reply d) (step E s m) := by
  cases m with
  | call caller now c =>
    have r : Room b d now := ⟨hm.1, hm.2.1⟩
    simp only [step, msg, execCall, needs_later, exec_later r hL s hs, state_perms]
    cases c.needs with
    | none => rfl
    | some p =>
      simp only
      split <;> rfl
  | resume now i ans =>
    simp only [step, msg, state_pending, List.getElem?_map]
    cases s.pending[i]? with
    | none => rfl
    | some p =>
      simp only [Option.map_some, erase_later, resumeBody_later, pending_caller]
      generalize resumeBody E _ now p ans = x
      obtain ⟨s, y⟩ := x
      simp only [res_mk, guardLeave_later]
      rfl
  | resumeTrap i =>
    simp only [step, msg, state_pending, List.getElem?_map]
    cases s.pending[i]? with
    | none => rfl
    | some p =>
      simp only [Option.map_some, erase_later, pending_caller, guardLeave_later]
      rfl
  | upgrade => rfl

theorem applyUpdate_times (c : Config) (a : UpdateCollArg) :
    (applyUpdate c a).txWindow = a.txWindow.or c.txWindow ∧
      (applyUpdate c a).permittedDrift = a.permittedDrift.or c.permittedDrift := by
  constructor
  · have hs : ∀ {A : Type} (o : Option A) (f : A → Config → Config) (c : Config),
        (∀ v c, (f v c).txWindow = c.txWindow) → (setIf o f c).txWindow = c.txWindow := by
      intro A o f c hf
      cases o with
      | none => rfl
      | some v => exact hf v c
    unfold applyUpdate
    dsimp only
    iterate 2 refine (hs _ _ _ ?_).trans ?_; exact fun _ _ => rfl
    cases a.txWindow with
    | some v => rfl
    | none =>
      refine Eq.trans ?_ (Option.none_or).symm
      rw [show ∀ (f : Nat → Config → Config) c, setIf none f c = c from fun _ _ => rfl]
      iterate 11 refine (hs _ _ _ ?_).trans ?_; exact fun _ _ => rfl
      rfl
  · have hs : ∀ {A : Type} (o : Option A) (f : A → Config → Config) (c : Config),
        (∀ v c, (f v c).permittedDrift = c.permittedDrift) → (setIf o f c).permittedDrift = c.permittedDrift := by
      intro A o f c hf
      cases o with
      | none => rfl
      | some v => exact hf v c
    unfold applyUpdate
    dsimp only
    iterate 1 refine (hs _ _ _ ?_).trans ?_; exact fun _ _ => rfl
    cases a.permittedDrift with
    | some v => rfl
    | none =>
      refine Eq.trans ?_ (Option.none_or).symm
      rw [show ∀ (f : Nat → Config → Config) c, setIf none f c = c from fun _ _ => rfl]
      iterate 12 refine (hs _ _ _ ?_).trans ?_; exact fun _ _ => rfl
      rfl

theorem step_short {b d : Nat} (E : Env H) (s : State H) (hs : Short b s.cfg) (m : Msg) (hm : Amid b d m) :
    Short b (step E s m).1.cfg := by
  refine (step_steps E s m).induct (P := fun s => Short b s.cfg) (fun t t' ht h => ?_) hs
  rcases micro_cfg h with e | ⟨c, now, a, rfl, e⟩
  · rw [e]; exact ht
  · obtain ⟨e1, e2⟩ := applyUpdate_times t.cfg a
    obtain ⟨_, _, h1, h2⟩ := hm
    rw [e]
    unfold Short
    rw [e1, e2]
    constructor
    · cases hw : a.txWindow with
      | none => exact ht.1
      | some v => exact h1 v hw
    · cases hw : a.permittedDrift with
      | none => exact ht.2
      | some v => exact h2 v hw

theorem run_later {b d : Nat} {E : Env H} (hL : Timeless d E.ledger) (s : State H) (hs : Short b s.cfg)
    (ms : List Msg) (hm : ∀ m ∈ ms, Amid b d m) :
    run E (state d s) (ms.map (msg d)) = state d (run E s ms) ∧
      replies E (state d s) (ms.map (msg d)) = (replies E s ms).map (reply d) := by
  induction ms generalizing s with
  | nil => exact ⟨rfl, rfl⟩
  | cons m ms ih =>
    have h1 := step_later hL s hs m (hm m (by simp))
    obtain ⟨h2, h3⟩ := ih _ (step_short E s hs m (hm m (by simp))) (fun x hx => hm x (by simp [hx]))
    simp only [List.map_cons, run, replies, h1]
    exact ⟨h2, congrArg _ h3⟩

theorem init_later (d : Nat) {v : String → Bool} {hid : H} {c : Principal} {a : InitArgs} {s : State H}
    (h : init v hid c a = some s) : state d s = s := by
  unfold init at h
  split at h
  · cases h
  split at h
  · cases h
  split at h
  · cases h
  split at h
  · cases h
  · cases h
    rfl

/-! ### Queries -/

theorem isApproved_later (d : Nat) (s : State H) (now : Nat) (a : IsApprovedArg) :
    isApproved (state d s) (now + d) a = isApproved s now a := by
  have h2 : (match (state d s).tokAppr.get a.tid with
      | none => false
      | some m =>
        match m.get a.spender with
        | none => false
        | some a =>
          match a.expiresAt with
          | some e => decide (e > now + d)
          | none => true) = (match s.tokAppr.get a.tid with
      | none => false
      | some m =>
        match m.get a.spender with
        | none => false
        | some a =>
          match a.expiresAt with
          | some e => decide (e > now)
          | none => true) := by
    rw [state_tokAppr, get_mapV]
    cases s.tokAppr.get a.tid with
    | none => rfl
    | some m =>
      simp only [Option.map_some, approvals_get]
      cases m.get a.spender with
      | none => rfl
      | some b =>
        simp only [Option.map_some, approval]
        cases b.expiresAt with
        | none => rfl
        | some e => simp
  have h3 : (((state d s).collAppr.get a.spender).getD ∅).entries.any (fun e =>
      decide (e.1.owner = a.spender.owner) && decide (e.1.sub = a.spender.sub))
      = ((s.collAppr.get a.spender).getD ∅).entries.any (fun e =>
      decide (e.1.owner = a.spender.owner) && decide (e.1.sub = a.spender.sub)) := by
    rw [state_collAppr, get_mapV, approvals_getD, approvals, entries_map, List.any_map]
    rfl
  have e : ∀ {a b c b' c' : Bool}, b = b' → c = c' → (a || b || c) = (a || b' || c') := by
    intro a b c b' c' h h'
    rw [h, h']
  exact e h2 h3

theorem approvalPage_later (d : Nat) (l : List (Account × Approval)) (prev : Option ApprovalInfo)
    (take : Option Nat) :
    approvalPage (l.map (entry d)) (prev.map (info d)) take = (approvalPage l prev take).map (info d) := by
  have h1 : (l.map (entry d)).map approvalRow = (l.map approvalRow).map (info d) := by
    simp only [List.map_map]
    exact List.map_congr_left fun e _ => rfl
  have h2 : ∀ l : List ApprovalInfo, sortBy (fun a b => decide (b.createdAt ≤ a.createdAt)) (l.map (info d))
      = (sortBy (fun a b => decide (b.createdAt ≤ a.createdAt)) l).map (info d) :=
    fun l => Change.sortBy_map (info d) (fun a b => by simp [info]) l
  have h3 : ∀ (l : List ApprovalInfo) (p : ApprovalInfo),
      ((l.map (info d)).findIdx? fun a => a.spender == (info d p).spender) = l.findIdx? fun a => a.spender == p.spender := by
    intro l p
    rw [List.findIdx?_map]
    rfl
  unfold approvalPage
  simp only [h1, h2]
  cases prev with
  | none => simp only [Option.map_none, ← List.map_drop, ← List.map_take]
  | some p => simp only [Option.map_some, h3, ← List.map_drop, ← List.map_take]

theorem gcSelects_later (d now : Nat) (u : Upload) (h : u.initTs + d + dayInMs < 2 ^ 64) :
    gcSelects (now + d) (upload d u) = gcSelects now u := by
  unfold gcSelects upload
  generalize dayInMs = y at *
  have e1 : u64add (u.initTs + d) y = u.initTs + d + y := Nat.mod_eq_of_lt (by unfold U64; omega)
  have e2 : u64add u.initTs y = u.initTs + y := Nat.mod_eq_of_lt (by unfold U64; omega)
  simp only [e1, e2, gt_iff_lt, decide_eq_decide]
  omega

theorem filter_uploads (d : Nat) (p p' : Upload → Bool) (l : List (String × Upload))
    (h : ∀ e ∈ l, p' (upload d e.2) = p e.2) :
    ((l.map fun e => (id e.1, upload d e.2)).filter fun e => p' e.2).map (fun e => (e.2.canister, e.1))
      = (l.filter fun e => p e.2).map fun e => (e.2.canister, e.1) := by
  induction l with
  | nil => rfl
  | cons a l ih =>
    have h1 := h a (by simp)
    have h2 := ih fun e he => h e (by simp [he])
    simp only [List.map_cons, List.filter_cons, h1]
    split
    · simp only [List.map_cons, h2]; rfl
    · exact h2

end Verif.Spec.Later
