import Verif.Spec.Authority
/-!
# Decomposition of messages into elementary effects

`Micro E m s s'`: while handling message `m`, the state changes from `s` to `s'`
by one elementary effect. `Steps` is the reflexive transitive closure.
`step_steps` says that every message is a sequence of such effects. Nothing in
this file is a claim; it is proof infrastructure.
-/
namespace Verif

open Spec

variable {H : Type}

/-- The transaction of `transfer_from` (updates/icrc37.rs 776-789). -/
def transferFromTx (now : Nat) (caller : Principal) (arg : TransferFromArg) : Tx :=
  { op := .xferFrom, ts := now, tid := some arg.tid, from_ := some arg.from_, to_ := some arg.to_,
    memo := arg.memo, createdAt := arg.createdAt, spender := some ⟨caller, arg.spenderSub⟩ }

/-- The transaction of `approve_token` (updates/icrc37.rs 166-179). -/
def approveTx (now : Nat) (caller : Principal) (arg : ApproveTokenArg) : Tx :=
  { op := .approve, ts := now, tid := some arg.tid, from_ := some ⟨caller, arg.info.fromSub⟩,
    memo := arg.info.memo, createdAt := some arg.info.createdAt,
    spender := some arg.info.spender, exp := arg.info.expiresAt }

/-- The transaction of `approve_collection` (updates/icrc37.rs 334-347). -/
def approveCollTx (now : Nat) (caller : Principal) (info : ApprovalInfo) : Tx :=
  { op := .approveColl, ts := now, from_ := some ⟨caller, info.fromSub⟩, memo := info.memo,
    createdAt := some info.createdAt, spender := some info.spender, exp := info.expiresAt }

/-- The transaction of `revoke_token_approvals` (updates/icrc37.rs 482-495). -/
def revokeTx (now : Nat) (caller : Principal) (arg : RevokeTokenArg) : Tx :=
  { op := .revoke, ts := now, tid := some arg.tid, from_ := some ⟨caller, arg.fromSub⟩,
    memo := arg.memo, createdAt := arg.createdAt, spender := arg.spender }

/-- The transaction of `revoke_collection_approvals` (updates/icrc37.rs 609-622). -/
def revokeCollTx (now : Nat) (caller : Principal) (arg : RevokeCollArg) : Tx :=
  { op := .revokeColl, ts := now, from_ := some ⟨caller, none⟩, memo := arg.memo,
    createdAt := arg.createdAt, spender := arg.spender }

/-- The transaction of `burn_nft` (updates/management.rs 343-355). -/
def burnTx (now tid : Nat) (token : Token) : Tx :=
  { op := .burn, ts := now, tid := some tid, from_ := some token.owner, createdAt := some now }

/-- The transaction of `update_nft_metadata` (updates/management.rs 281-296). -/
def updateTx (now : Nat) (caller : Principal) (tid : Nat) (prev new : List (String × Value)) : Tx :=
  { op := .updateToken, ts := now, tid := some tid, from_ := some ⟨caller, none⟩,
    meta_ := some (prev, new), createdAt := some now }

/-- Elementary effects. -/
inductive Micro (E : Env H) : Msg → State H → State H → Prop
  /-- Only the rate limiter's table and the hidden ledger state change. -/
  | quiet {s : State H} {c now call} (w : Map Nat (List Nat)) (h : H) :
      Micro E (.call c now call) s { s with windows := w, hid := h }
  | xfer {s : State H} {c now args} (arg : TransferArg) (nft : Token) (h : H) (i : Nat)
      (harg : arg ∈ args) (hc : c ≠ anonymous)
      (tok : s.tokens.get arg.tid = some nft) (own : nft.owner.owner = c)
      (toOk : arg.to_.owner ≠ anonymous) (diff : (nft.owner == arg.to_) = false)
      (memo : checkMemo s.cfg arg.memo = some true)
      (timing : transferTiming s.cfg now (arg.createdAt.getD now) = some none)
      (add : E.ledger.add s.hid (transferTx now (arg.createdAt.getD now) arg nft) = (h, .ok i)) :
      Micro E (.call c now (.transfer args)) s
        (moveToken { s with hid := h, log := s.log ++ [transferTx now (arg.createdAt.getD now) arg nft] }
          nft arg.to_)
  | xferFrom {s : State H} {c now args} (arg : TransferFromArg) (nft : Token) (h : H) (i : Nat)
      (harg : arg ∈ args)
      (tok : s.tokens.get arg.tid = some nft) (own : (nft.owner == arg.from_) = true)
      (auth : MayMove s now arg.tid nft.owner ⟨c, arg.spenderSub⟩)
      (diff : (arg.from_ == arg.to_) = false) (toOk : (arg.to_ == anonymousAccount) = false)
      (timing : verifyTimingOpt s.cfg arg.createdAt now = none)
      (add : E.ledger.add s.hid (transferFromTx now c arg) = (h, .ok i)) :
      Micro E (.call c now (.transferFrom args)) s
        { moveToken { s with hid := h, log := s.log ++ [transferFromTx now c arg] } nft arg.to_ with
          tokAppr := s.tokAppr.del arg.tid, collAppr := s.collAppr.del arg.from_ }
  /-- `transfer_from` meets an expired token approval and drops it. -/
  | pruneTok {s : State H} {c now args} (arg : TransferFromArg) (harg : arg ∈ args)
      (m : Map Account Approval) (a : Approval) (hm : s.tokAppr.get arg.tid = some m)
      (ha : m.get ⟨c, arg.spenderSub⟩ = some a) (hexp : ¬ Live a now) :
      Micro E (.call c now (.transferFrom args)) s
        { s with tokAppr := s.tokAppr.set arg.tid (m.del ⟨c, arg.spenderSub⟩) }
  /-- The same for a collection approval of the token's owner. -/
  | pruneColl {s : State H} {c now args} (arg : TransferFromArg) (harg : arg ∈ args) (nft : Token)
      (tok : s.tokens.get arg.tid = some nft)
      (m : Map Account Approval) (a : Approval) (hm : s.collAppr.get nft.owner = some m)
      (ha : m.get ⟨c, arg.spenderSub⟩ = some a) (hexp : ¬ Live a now)
      (base : Map Account (Map Account Approval))
      (hbase : base = s.collAppr ∨ base = s.collAppr.del nft.owner) :
      Micro E (.call c now (.transferFrom args)) s
        { s with collAppr := base.set nft.owner (m.del ⟨c, arg.spenderSub⟩) }
  | approve {s : State H} {c now args} (arg : ApproveTokenArg) (owner : Account) (h : H) (i : Nat)
      (harg : arg ∈ args) (own : ownerOf s arg.tid = some owner)
      (eqv : (owner == ⟨c, arg.info.fromSub⟩) = true)
      (sp : (arg.info.spender == anonymousAccount) = false)
      (room : ∀ m, s.tokAppr.get arg.tid = some m → m.size < maxApprovals s.cfg)
      (timing : verifyTiming s.cfg arg.info.createdAt now = none)
      (add : E.ledger.add s.hid (approveTx now c arg) = (h, .ok i)) :
      Micro E (.call c now (.approveTokens args)) s
        { s with hid := h, log := s.log ++ [approveTx now c arg],
                 tokAppr := s.tokAppr.set arg.tid (((s.tokAppr.get arg.tid).getD ∅).set
                   arg.info.spender (mkApproval arg.info ⟨c, arg.info.fromSub⟩ now)) }
  | approveColl {s : State H} {c now args} (info : ApprovalInfo) (h : H) (i : Nat)
      (harg : info ∈ args) (sp : (info.spender == anonymousAccount) = false)
      (holds : ∃ e ∈ s.tokens.entries, e.2.owner.owner = c)
      (room : ∀ m, s.collAppr.get ⟨c, info.fromSub⟩ = some m → m.size < maxApprovals s.cfg)
      (timing : verifyTiming s.cfg info.createdAt now = none)
      (add : E.ledger.add s.hid (approveCollTx now c info) = (h, .ok i)) :
      Micro E (.call c now (.approveCollection args)) s
        { s with hid := h, log := s.log ++ [approveCollTx now c info],
                 collAppr := s.collAppr.set ⟨c, info.fromSub⟩
                   (((s.collAppr.get ⟨c, info.fromSub⟩).getD ∅).set info.spender
                     (mkApproval info ⟨c, info.fromSub⟩ now)) }
  | revokeTok {s : State H} {c now args} (arg : RevokeTokenArg) (owner : Account) (h : H) (i : Nat)
      (m : Map Account Approval) (harg : arg ∈ args) (own : ownerOf s arg.tid = some owner)
      (eqv : (owner == ⟨c, arg.fromSub⟩) = true) (hm : s.tokAppr.get arg.tid = some m)
      (timing : verifyTimingOpt s.cfg arg.createdAt now = none)
      (add : E.ledger.add s.hid (revokeTx now c arg) = (h, .ok i)) :
      Micro E (.call c now (.revokeTokens args)) s
        { s with hid := h, log := s.log ++ [revokeTx now c arg],
                 tokAppr := s.tokAppr.set arg.tid (dropSpender m arg.spender) }
  | revokeColl {s : State H} {c now args} (arg : RevokeCollArg) (h : H) (i : Nat)
      (m : Map Account Approval) (harg : arg ∈ args) (hm : s.collAppr.get ⟨c, none⟩ = some m)
      (timing : verifyTimingOpt s.cfg arg.createdAt now = none)
      (add : E.ledger.add s.hid (revokeCollTx now c arg) = (h, .ok i)) :
      Micro E (.call c now (.revokeCollection args)) s
        { s with hid := h, log := s.log ++ [revokeCollTx now c arg],
                 collAppr := s.collAppr.set ⟨c, none⟩ (dropSpender m arg.spender) }
  /-- An accepted mint: metadata, one transaction per request, tokens. -/
  | mint {s : State H} {c now} (reqs : List MintReq) (md : MetaTable) (h : H)
      (perm : hasPermission s.perms c .minting = true) (free : s.guards = [])
      (batch : reqs.length ≤ s.cfg.maxUpdateBatch.getD 100)
      (cap : s.tokens.size + reqs.length ≤ s.cfg.supplyCap.getD defaultSupplyCap)
      (memos : checkMemos s.cfg reqs = some true)
      (hmd : mintMetadata s.mdata s.lastId reqs = some md) :
      Micro E (.call c now (.mint reqs)) s
        (mintInsert { s with hid := h, mdata := md, lastId := s.lastId + reqs.length,
                             log := s.log ++ reqs.mapIdx fun k r => mintTx now (s.lastId + k) r }
          s.lastId reqs)
  /-- A mint cut short by the ledger after `n` transactions. -/
  | mintCut {s : State H} {c now} (reqs : List MintReq) (md : MetaTable) (h : H) (n : Nat)
      (perm : hasPermission s.perms c .minting = true) (free : s.guards = [])
      (hn : n < reqs.length)
      (hmd : mintMetadata s.mdata s.lastId reqs = some md) :
      Micro E (.call c now (.mint reqs)) s
        { s with hid := h, mdata := md,
                 log := s.log ++ (reqs.take n).mapIdx fun k r => mintTx now (s.lastId + k) r }
  | updateMeta {s : State H} {c now} (tid : Nat) (kvs) (token : Token) (md : MetaTable) (h : H) (i : Nat)
      (perm : hasPermission s.perms c .updateMetadata = true) (free : s.guards = [])
      (tok : s.tokens.get tid = some token) (hmd : replaceMetadata s.mdata token.id kvs = some md)
      (add : E.ledger.add s.hid (updateTx now c tid ((getAllData s.mdata tid).getD [])
        ((getAllData md tid).getD [])) = (h, .ok i)) :
      Micro E (.call c now (.updateNftMetadata tid kvs)) s
        { s with hid := h, mdata := md, tokens := s.tokens.set tid token,
                 log := s.log ++ [updateTx now c tid ((getAllData s.mdata tid).getD [])
                                    ((getAllData md tid).getD [])] }
  | updateMetaCut {s : State H} {c now} (tid : Nat) (kvs) (token : Token) (md : MetaTable) (h : H)
      (perm : hasPermission s.perms c .updateMetadata = true) (free : s.guards = [])
      (tok : s.tokens.get tid = some token) (hmd : replaceMetadata s.mdata token.id kvs = some md) :
      Micro E (.call c now (.updateNftMetadata tid kvs)) s { s with hid := h, mdata := md }
  | burn {s : State H} {c now} (tid : Nat) (token : Token) (h : H) (i : Nat) (free : s.guards = [])
      (tok : s.tokens.get tid = some token) (own : c = token.owner.owner)
      (add : E.ledger.add s.hid (burnTx now tid token) = (h, .ok i)) :
      Micro E (.call c now (.burn tid)) s
        { s with hid := h, log := s.log ++ [burnTx now tid token], tokens := s.tokens.del tid }
  | config {s : State H} {c now} (a : UpdateCollArg)
      (perm : hasPermission s.perms c .updateCollectionMetadata = true) (free : s.guards = []) :
      Micro E (.call c now (.updateCollectionMetadata a)) s { s with cfg := applyUpdate s.cfg a }
  | grant {s : State H} {c now} (p : Principal) (x : Permission)
      (perm : hasPermission s.perms c .manageAuthorities = true) (free : s.guards = []) :
      Micro E (.call c now (.grant p x)) s { s with perms := grantPermission s.perms p x }
  | revoke {s : State H} {c now} (p : Principal) (x : Permission)
      (perm : hasPermission s.perms c .manageAuthorities = true) (free : s.guards = []) :
      Micro E (.call c now (.revoke p x)) s { s with perms := revokePermission s.perms p x }
  /-- An upload call suspends: it holds the guard. -/
  | suspend {s : State H} {c now call} (p : Pending)
      (perm : hasPermission s.perms c .updateUploads = true) (free : s.guards = [])
      (hp : p.caller = c)
      (hcall :
        (∃ path size, call = .initUpload path size ∧ containsPath s.uploads path = false ∧
          size ≤ maxFileSize ∧ p = .init c path size s.subs) ∨
        (∃ key u, call = .storeChunk key ∧ s.uploads.get key = some u ∧ u.state ≠ .finalized ∧
          p = .store c key u) ∨
        (∃ key u, call = .finalizeUpload key ∧ s.uploads.get key = some u ∧ u.state = .inProgress ∧
          p = .finalize c key u) ∨
        (∃ key u, call = .cancelUpload key ∧ s.uploads.get key = some u ∧ u.state ≠ .finalized ∧
          p = .cancel c key u)) :
      Micro E (.call c now call) s { s with guards := [c], pending := s.pending ++ [p] }
  /-- An upload call finds its storage canister gone and drops the entry. -/
  | dropUpload {s : State H} {c now call} (key : String) (u : Upload)
      (perm : hasPermission s.perms c .updateUploads = true) (free : s.guards = [])
      (hu : s.uploads.get key = some u) (hst : u.state ≠ .finalized)
      (hgone : getSub s.subs u.canister = none)
      (hcall : call = .storeChunk key ∨ call = .finalizeUpload key ∨ call = .cancelUpload key) :
      Micro E (.call c now call) s { s with uploads := s.uploads.del key }
  | resume {s : State H} {now i ans} (p : Pending) (hp : s.pending[i]? = some p) :
      Micro E (.resume now i ans) s
        (guardLeave (resumeBody E { s with pending := s.pending.eraseIdx i } now p ans).1 p.caller)
  | resumeTrap {s : State H} {i} (p : Pending) (hp : s.pending[i]? = some p) :
      Micro E (.resumeTrap i) s (guardLeave { s with pending := s.pending.eraseIdx i } p.caller)
  | upgrade {s : State H} : Micro E .upgrade s (upgrade s)

/-- Sequences of elementary effects of one message. -/
inductive Steps (E : Env H) (m : Msg) : State H → State H → Prop
  | refl {s : State H} : Steps E m s s
  | tail {s t u : State H} : Steps E m s t → Micro E m t u → Steps E m s u

theorem Steps.trans {E : Env H} {m : Msg} {s t u : State H} (h : Steps E m s t)
    (h' : Steps E m t u) : Steps E m s u := by
  induction h' with
  | refl => exact h
  | tail _ hm ih => exact .tail ih hm

theorem Steps.one {E : Env H} {m : Msg} {s t : State H} (h : Micro E m s t) : Steps E m s t :=
  .tail .refl h

/-! ## Item functions -/

theorem guardWindow_eq (s : State H) (now tid : Nat) :
    guardWindow s now tid = ({ s with windows := (guardWindow s now tid).1.windows },
      (guardWindow s now tid).2) := rfl

theorem addTx_ok {L : Ledger H} {s s' : State H} {t : Tx} {i : Nat}
    (h : addTx L s t = (s', .ok i)) :
    ∃ h', L.add s.hid t = (h', .ok i) ∧ s' = { s with hid := h', log := s.log ++ [t] } := by
  unfold addTx at h
  split at h
  · rename_i h' i' heq
    simp only [Prod.mk.injEq, Except.ok.injEq] at h
    obtain ⟨h1, h2⟩ := h
    subst h2
    exact ⟨h', heq, h1.symm⟩
  · simp at h

theorem addTx_err {L : Ledger H} {s s' : State H} {t : Tx} {e : LedgerErr}
    (h : addTx L s t = (s', .error e)) :
    ∃ h', L.add s.hid t = (h', .error e) ∧ s' = { s with hid := h' } := by
  unfold addTx at h
  split at h
  · simp at h
  · rename_i h' i' heq
    simp only [Prod.mk.injEq, Except.error.injEq] at h
    obtain ⟨h1, h2⟩ := h
    subst h2
    exact ⟨h', heq, h1.symm⟩

/-- Outcomes of one `icrc7_transfer` item. -/
inductive XferOut (L : Ledger H) (s : State H) (c : Principal) (now : Nat) (arg : TransferArg) :
    State H → Except TokErr Nat → Prop
  | refused (w) (h : H) (e : TokErr) : XferOut L s c now arg { s with windows := w, hid := h } (.error e)
  | duplicate (w) (nft : Token) (h : H) (d : Nat)
      (tok : s.tokens.get arg.tid = some nft)
      (add : L.add s.hid (transferTx now (arg.createdAt.getD now) arg nft) = (h, .error (.duplicate d))) :
      XferOut L s c now arg { s with windows := w, hid := h } (.ok d)
  | moved (w) (nft : Token) (h : H) (i : Nat)
      (tok : s.tokens.get arg.tid = some nft) (own : nft.owner.owner = c)
      (toOk : arg.to_.owner ≠ anonymous) (diff : (nft.owner == arg.to_) = false)
      (memo : checkMemo s.cfg arg.memo = some true)
      (timing : transferTiming s.cfg now (arg.createdAt.getD now) = some none)
      (add : L.add s.hid (transferTx now (arg.createdAt.getD now) arg nft) = (h, .ok i)) :
      XferOut L s c now arg
        (moveToken { s with windows := w, hid := h,
                            log := s.log ++ [transferTx now (arg.createdAt.getD now) arg nft] }
          nft arg.to_) (.ok i)

theorem transferNft_out {L : Ledger H} {s s' : State H} {c : Principal} {now : Nat}
    {arg : TransferArg} {r : Except TokErr Nat}
    (h : transferNft L s c now arg = some (s', r)) : XferOut L s c now arg s' r := by
  unfold transferNft at h
  rw [guardWindow_eq] at h
  generalize (guardWindow s now arg.tid).1.windows = w at h
  generalize (guardWindow s now arg.tid).2 = ok at h
  dsimp only at h
  split at h
  · simp only [Option.some.injEq, Prod.mk.injEq] at h
    obtain ⟨rfl, rfl⟩ := h
    exact .refused w s.hid _
  split at h
  · simp only [Option.some.injEq, Prod.mk.injEq] at h
    obtain ⟨rfl, rfl⟩ := h
    exact .refused w s.hid _
  rename_i nft tok
  split at h
  · cases h
  · simp only [Option.some.injEq, Prod.mk.injEq] at h
    obtain ⟨rfl, rfl⟩ := h
    exact .refused w s.hid _
  rename_i memo
  split at h
  · simp only [Option.some.injEq, Prod.mk.injEq] at h
    obtain ⟨rfl, rfl⟩ := h
    exact .refused w s.hid _
  rename_i hchk
  simp only [not_or, Decidable.not_not, Bool.not_eq_true] at hchk
  split at h
  · cases h
  · simp only [Option.some.injEq, Prod.mk.injEq] at h
    obtain ⟨rfl, rfl⟩ := h
    exact .refused w s.hid _
  rename_i timing
  split at h
  · rename_i hadd
    obtain ⟨h', hl, rfl⟩ := addTx_ok hadd
    simp only [Option.some.injEq, Prod.mk.injEq] at h
    obtain ⟨rfl, rfl⟩ := h
    exact .moved w nft h' _ tok hchk.1 hchk.2.1 hchk.2.2 memo timing hl
  · rename_i hadd
    obtain ⟨h', hl, rfl⟩ := addTx_err hadd
    simp only [Option.some.injEq, Prod.mk.injEq] at h
    obtain ⟨rfl, rfl⟩ := h
    exact .duplicate w nft h' _ tok hl
  · rename_i hadd
    obtain ⟨h', hl, rfl⟩ := addTx_err hadd
    simp only [Option.some.injEq, Prod.mk.injEq] at h
    obtain ⟨rfl, rfl⟩ := h
    exact .refused w h' _

theorem runBatch_steps {A R : Type} {E : Env H} {m : Msg}
    {f : State H → A → Option (State H × R)} (args : List A)
    (hf : ∀ s a s' r, a ∈ args → f s a = some (s', r) → Steps E m s s') :
    ∀ {s s' : State H} {rs}, runBatch f s args = some (s', rs) → Steps E m s s' := by
  induction args with
  | nil =>
    intro s s' rs h
    simp only [runBatch, Option.some.injEq, Prod.mk.injEq] at h
    obtain ⟨rfl, _⟩ := h
    exact .refl
  | cons a as ih =>
    intro s s' rs h
    simp only [runBatch] at h
    split at h
    · cases h
    · rename_i s1 r1 h1
      split at h
      · cases h
      · rename_i s2 rs2 h2
        simp only [Option.some.injEq, Prod.mk.injEq] at h
        obtain ⟨rfl, _⟩ := h
        exact (hf s a s1 r1 (by simp) h1).trans
          (ih (fun s a s' r ha => hf s a s' r (by simp [ha])) h2)

theorem icrc7Transfer_steps {E : Env H} {s s' : State H} {c : Principal} {now : Nat}
    {args : List TransferArg} {rs}
    (h : icrc7Transfer E.ledger s c now args = some (s', rs)) :
    Steps E (.call c now (.transfer args)) s s' := by
  unfold icrc7Transfer at h
  split at h
  · simp only [Option.some.injEq, Prod.mk.injEq] at h
    obtain ⟨rfl, _⟩ := h; exact .refl
  split at h
  · cases h
  rename_i mx _
  split at h
  · simp only [Option.some.injEq, Prod.mk.injEq] at h
    obtain ⟨rfl, _⟩ := h; exact .refl
  split at h
  · simp only [Option.some.injEq, Prod.mk.injEq] at h
    obtain ⟨rfl, _⟩ := h; exact .refl
  rename_i hc
  refine runBatch_steps (args.take mx) ?_ h
  intro s a s' r ha hrun
  have ha' : a ∈ args := List.mem_of_mem_take ha
  have hout := transferNft_out hrun
  clear hrun
  cases hout with
  | refused w h e => exact .one (.quiet w h)
  | duplicate w nft h d tok add => exact .one (.quiet w h)
  | moved w nft h i tok own toOk diff memo timing add =>
    exact .tail (.one (.quiet w s.hid))
      (Micro.xfer (s := { s with windows := w, hid := s.hid }) a nft h i ha' hc tok own toOk diff memo timing add)

/-! ### approve_token, approve_collection -/

/-- Outcomes of one `icrc37_approve_tokens` item. -/
inductive ApproveOut (L : Ledger H) (s : State H) (c : Principal) (now : Nat) (arg : ApproveTokenArg) :
    State H → Except TokErr Nat → Prop
  | refused (w) (h : H) (e : TokErr) : ApproveOut L s c now arg { s with windows := w, hid := h } (.error e)
  | approved (w) (owner : Account) (h : H) (i : Nat)
      (own : ownerOf s arg.tid = some owner)
      (eqv : (owner == ⟨c, arg.info.fromSub⟩) = true)
      (sp : (arg.info.spender == anonymousAccount) = false)
      (room : ∀ m, s.tokAppr.get arg.tid = some m → m.size < maxApprovals s.cfg)
      (timing : verifyTiming s.cfg arg.info.createdAt now = none)
      (add : L.add s.hid (approveTx now c arg) = (h, .ok i)) :
      ApproveOut L s c now arg
        { s with windows := w, hid := h, log := s.log ++ [approveTx now c arg],
                 tokAppr := s.tokAppr.set arg.tid (((s.tokAppr.get arg.tid).getD ∅).set
                   arg.info.spender (mkApproval arg.info ⟨c, arg.info.fromSub⟩ now)) } (.ok i)

theorem room_of {α : Type} {m : Option α} {f : α → Nat} {k : Nat}
    (h : (m.any fun x => decide (k ≤ f x)) ≠ true) : ∀ x, m = some x → f x < k := by
  intro x hx
  subst hx
  simpa using h

theorem approveToken_out {L : Ledger H} {s s' : State H} {c : Principal} {now : Nat}
    {arg : ApproveTokenArg} {r : Except TokErr Nat}
    (h : approveToken L s c now arg = some (s', r)) : ApproveOut L s c now arg s' r := by
  unfold approveToken at h
  rw [guardWindow_eq] at h
  generalize (guardWindow s now arg.tid).1.windows = w at h
  generalize (guardWindow s now arg.tid).2 = ok at h
  dsimp only at h
  split at h
  · simp only [Option.some.injEq, Prod.mk.injEq] at h
    obtain ⟨rfl, rfl⟩ := h
    exact .refused w s.hid _
  split at h
  · simp only [Option.some.injEq, Prod.mk.injEq] at h
    obtain ⟨rfl, rfl⟩ := h
    exact .refused w s.hid _
  rename_i timing
  split at h
  · simp only [Option.some.injEq, Prod.mk.injEq] at h
    obtain ⟨rfl, rfl⟩ := h
    exact .refused w s.hid _
  rename_i owner own
  split at h
  · simp only [Option.some.injEq, Prod.mk.injEq] at h
    obtain ⟨rfl, rfl⟩ := h
    exact .refused w s.hid _
  rename_i eqv
  split at h
  · simp only [Option.some.injEq, Prod.mk.injEq] at h
    obtain ⟨rfl, rfl⟩ := h
    exact .refused w s.hid _
  rename_i sp
  split at h
  · simp only [Option.some.injEq, Prod.mk.injEq] at h
    obtain ⟨rfl, rfl⟩ := h
    exact .refused w s.hid _
  rename_i room
  split at h
  · rename_i hadd
    obtain ⟨h', hl, rfl⟩ := addTx_err hadd
    simp only [Option.some.injEq, Prod.mk.injEq] at h
    obtain ⟨rfl, rfl⟩ := h
    exact .refused w h' _
  · rename_i hadd
    obtain ⟨h', hl, rfl⟩ := addTx_ok hadd
    unfold putTokAppr at h
    split at h
    · cases h
    · rename_i s2 hput
      split at hput
      · simp only [Option.some.injEq, Prod.mk.injEq] at h hput
        obtain ⟨rfl, rfl⟩ := h
        subst hput
        exact .approved w owner h' _ own (by simpa using eqv) (by simpa using sp) (room_of room) timing hl
      · cases hput

theorem icrc37ApproveTokens_steps {E : Env H} {s s' : State H} {c : Principal} {now : Nat}
    {args : List ApproveTokenArg} {rs}
    (h : icrc37ApproveTokens E.ledger s c now args = some (s', rs)) :
    Steps E (.call c now (.approveTokens args)) s s' := by
  refine runBatch_steps args ?_ h
  intro s a s' r ha hrun
  have hout := approveToken_out hrun
  clear hrun
  cases hout with
  | refused w h e => exact .one (.quiet w h)
  | approved w owner h i own eqv sp room timing add =>
    exact .tail (.one (.quiet w s.hid))
      (Micro.approve (s := { s with windows := w, hid := s.hid }) a owner h i ha own eqv sp room timing add)

/-- Outcomes of one `icrc37_approve_collection` item. -/
inductive ApproveCollOut (L : Ledger H) (s : State H) (c : Principal) (now : Nat) (info : ApprovalInfo) :
    State H → Except TokErr Nat → Prop
  | refused (w) (h : H) (e : TokErr) : ApproveCollOut L s c now info { s with windows := w, hid := h } (.error e)
  | approved (w) (h : H) (i : Nat)
      (sp : (info.spender == anonymousAccount) = false)
      (holds : ∃ e ∈ s.tokens.entries, e.2.owner.owner = c)
      (room : ∀ m, s.collAppr.get ⟨c, info.fromSub⟩ = some m → m.size < maxApprovals s.cfg)
      (timing : verifyTiming s.cfg info.createdAt now = none)
      (add : L.add s.hid (approveCollTx now c info) = (h, .ok i)) :
      ApproveCollOut L s c now info
        { s with windows := w, hid := h, log := s.log ++ [approveCollTx now c info],
                 collAppr := s.collAppr.set ⟨c, info.fromSub⟩
                   (((s.collAppr.get ⟨c, info.fromSub⟩).getD ∅).set info.spender
                     (mkApproval info ⟨c, info.fromSub⟩ now)) } (.ok i)

theorem approveCollection_out {L : Ledger H} {s s' : State H} {c : Principal} {now : Nat}
    {info : ApprovalInfo} {r : Except TokErr Nat}
    (h : approveCollection L s c now info = (s', r)) : ApproveCollOut L s c now info s' r := by
  unfold approveCollection at h
  rw [guardWindow_eq] at h
  generalize (guardWindow s now 0).1.windows = w at h
  generalize (guardWindow s now 0).2 = ok at h
  dsimp only at h
  split at h
  · simp only [Prod.mk.injEq] at h
    obtain ⟨rfl, rfl⟩ := h
    exact .refused w s.hid _
  split at h
  · simp only [Prod.mk.injEq] at h
    obtain ⟨rfl, rfl⟩ := h
    exact .refused w s.hid _
  rename_i timing
  split at h
  · simp only [Prod.mk.injEq] at h
    obtain ⟨rfl, rfl⟩ := h
    exact .refused w s.hid _
  rename_i sp
  split at h
  · simp only [Prod.mk.injEq] at h
    obtain ⟨rfl, rfl⟩ := h
    exact .refused w s.hid _
  rename_i holds
  split at h
  · simp only [Prod.mk.injEq] at h
    obtain ⟨rfl, rfl⟩ := h
    exact .refused w s.hid _
  rename_i room
  split at h
  · rename_i hadd
    obtain ⟨h', hl, rfl⟩ := addTx_err hadd
    simp only [Prod.mk.injEq] at h
    obtain ⟨rfl, rfl⟩ := h
    exact .refused w h' _
  · rename_i hadd
    obtain ⟨h', hl, rfl⟩ := addTx_ok hadd
    simp only [Prod.mk.injEq] at h
    obtain ⟨rfl, rfl⟩ := h
    refine .approved w h' _ (by simpa using sp) ?_ (room_of room) timing hl
    simp only [Bool.not_eq_true', Bool.not_eq_false, List.any_eq_true, decide_eq_true_eq] at holds
    exact holds

theorem icrc37ApproveCollection_steps {E : Env H} {s s' : State H} {c : Principal} {now : Nat}
    {args : List ApprovalInfo} {rs}
    (h : icrc37ApproveCollection E.ledger s c now args = some (s', rs)) :
    Steps E (.call c now (.approveCollection args)) s s' := by
  refine runBatch_steps args ?_ h
  intro s a s' r ha hrun
  have hout := approveCollection_out (Option.some.inj hrun)
  clear hrun
  cases hout with
  | refused w h e => exact .one (.quiet w h)
  | approved w h i sp holds room timing add =>
    exact .tail (.one (.quiet w s.hid))
      (Micro.approveColl (s := { s with windows := w, hid := s.hid }) a h i ha sp holds room timing add)

/-! ### revocations -/

/-- Outcomes of one `icrc37_revoke_token_approvals` item. -/
inductive RevokeOut (L : Ledger H) (s : State H) (c : Principal) (now : Nat) (arg : RevokeTokenArg) :
    State H → Except TokErr Nat → Prop
  | refused (h : H) (e : TokErr) : RevokeOut L s c now arg { s with hid := h } (.error e)
  | revoked (owner : Account) (h : H) (i : Nat) (m : Map Account Approval)
      (own : ownerOf s arg.tid = some owner)
      (eqv : (owner == ⟨c, arg.fromSub⟩) = true) (hm : s.tokAppr.get arg.tid = some m)
      (timing : verifyTimingOpt s.cfg arg.createdAt now = none)
      (add : L.add s.hid (revokeTx now c arg) = (h, .ok i)) :
      RevokeOut L s c now arg
        { s with hid := h, log := s.log ++ [revokeTx now c arg],
                 tokAppr := s.tokAppr.set arg.tid (dropSpender m arg.spender) } (.ok i)

theorem revokeToken_out {L : Ledger H} {s s' : State H} {c : Principal} {now : Nat}
    {arg : RevokeTokenArg} {r : Except TokErr Nat}
    (h : revokeToken L s c now arg = some (s', r)) : RevokeOut L s c now arg s' r := by
  unfold revokeToken at h
  dsimp only at h
  split at h
  · simp only [Option.some.injEq, Prod.mk.injEq] at h
    obtain ⟨rfl, rfl⟩ := h
    exact .refused s.hid _
  rename_i timing
  split at h
  · simp only [Option.some.injEq, Prod.mk.injEq] at h
    obtain ⟨rfl, rfl⟩ := h
    exact .refused s.hid _
  rename_i owner own
  split at h
  · simp only [Option.some.injEq, Prod.mk.injEq] at h
    obtain ⟨rfl, rfl⟩ := h
    exact .refused s.hid _
  rename_i eqv
  split at h
  · simp only [Option.some.injEq, Prod.mk.injEq] at h
    obtain ⟨rfl, rfl⟩ := h
    exact .refused s.hid _
  rename_i m hm
  split at h
  · rename_i hadd
    obtain ⟨h', hl, rfl⟩ := addTx_err hadd
    simp only [Option.some.injEq, Prod.mk.injEq] at h
    obtain ⟨rfl, rfl⟩ := h
    exact .refused h' _
  · rename_i hadd
    obtain ⟨h', hl, rfl⟩ := addTx_ok hadd
    unfold putTokAppr at h
    split at h
    · cases h
    · rename_i s2 hput
      split at hput
      · simp only [Option.some.injEq, Prod.mk.injEq] at h hput
        obtain ⟨rfl, rfl⟩ := h
        subst hput
        exact .revoked owner h' _ m own (by simpa using eqv) hm timing hl
      · cases hput

theorem icrc37RevokeTokens_steps {E : Env H} {s s' : State H} {c : Principal} {now : Nat}
    {args : List RevokeTokenArg} {rs}
    (h : icrc37RevokeTokens E.ledger s c now args = some (s', rs)) :
    Steps E (.call c now (.revokeTokens args)) s s' := by
  unfold icrc37RevokeTokens at h
  split at h
  · cases h
  rename_i a as
  rw [guardWindow_eq] at h
  generalize (guardWindow s now a.tid).1.windows = w at h
  generalize (guardWindow s now a.tid).2 = ok at h
  dsimp only at h
  split at h
  · simp only [Option.some.injEq, Prod.mk.injEq] at h
    obtain ⟨rfl, _⟩ := h
    exact .one (.quiet w s.hid)
  split at h
  · cases h
  rename_i s2 rs2 h2
  simp only [Option.some.injEq, Prod.mk.injEq] at h
  obtain ⟨rfl, _⟩ := h
  refine Steps.trans (.one (.quiet w s.hid)) (runBatch_steps _ ?_ h2)
  intro s a' s' r ha hrun
  have ha' : a' ∈ a :: as := List.mem_of_mem_take ha
  have hout := revokeToken_out hrun
  clear hrun
  cases hout with
  | refused h e => exact .one (.quiet s.windows h)
  | revoked owner h i m own eqv hm timing add =>
    exact .one (.revokeTok a' owner h i m ha' own eqv hm timing add)

/-- Outcomes of one `icrc37_revoke_collection_approvals` item. -/
inductive RevokeCollOut (L : Ledger H) (s : State H) (c : Principal) (now : Nat) (arg : RevokeCollArg) :
    State H → Except TokErr Nat → Prop
  | refused (w) (h : H) (e : TokErr) : RevokeCollOut L s c now arg { s with windows := w, hid := h } (.error e)
  | revoked (w) (h : H) (i : Nat) (m : Map Account Approval)
      (hm : s.collAppr.get ⟨c, none⟩ = some m)
      (timing : verifyTimingOpt s.cfg arg.createdAt now = none)
      (add : L.add s.hid (revokeCollTx now c arg) = (h, .ok i)) :
      RevokeCollOut L s c now arg
        { s with windows := w, hid := h, log := s.log ++ [revokeCollTx now c arg],
                 collAppr := s.collAppr.set ⟨c, none⟩ (dropSpender m arg.spender) } (.ok i)

theorem revokeCollection_out {L : Ledger H} {s s' : State H} {c : Principal} {now : Nat}
    {arg : RevokeCollArg} {r : Except TokErr Nat}
    (h : revokeCollection L s c now arg = (s', r)) : RevokeCollOut L s c now arg s' r := by
  unfold revokeCollection at h
  rw [guardWindow_eq] at h
  generalize (guardWindow s now 0).1.windows = w at h
  generalize (guardWindow s now 0).2 = ok at h
  dsimp only at h
  split at h
  · simp only [Prod.mk.injEq] at h
    obtain ⟨rfl, rfl⟩ := h
    exact .refused w s.hid _
  split at h
  · simp only [Prod.mk.injEq] at h
    obtain ⟨rfl, rfl⟩ := h
    exact .refused w s.hid _
  rename_i timing
  split at h
  · simp only [Prod.mk.injEq] at h
    obtain ⟨rfl, rfl⟩ := h
    exact .refused w s.hid _
  rename_i m hm
  split at h
  · rename_i hadd
    obtain ⟨h', hl, rfl⟩ := addTx_err hadd
    simp only [Prod.mk.injEq] at h
    obtain ⟨rfl, rfl⟩ := h
    exact .refused w h' _
  · rename_i hadd
    obtain ⟨h', hl, rfl⟩ := addTx_ok hadd
    simp only [Prod.mk.injEq] at h
    obtain ⟨rfl, rfl⟩ := h
    exact .revoked w h' _ m hm timing hl

theorem icrc37RevokeCollection_steps {E : Env H} {s s' : State H} {c : Principal} {now : Nat}
    {args : List RevokeCollArg} {rs}
    (h : icrc37RevokeCollection E.ledger s c now args = some (s', rs)) :
    Steps E (.call c now (.revokeCollection args)) s s' := by
  refine runBatch_steps _ ?_ h
  intro s a s' r ha hrun
  have ha' : a ∈ args := List.mem_of_mem_take ha
  have hout := revokeCollection_out (Option.some.inj hrun)
  clear hrun
  cases hout with
  | refused w h e => exact .one (.quiet w h)
  | revoked w h i m hm timing add =>
    exact .tail (.one (.quiet w s.hid))
      (Micro.revokeColl (s := { s with windows := w, hid := s.hid }) a h i m ha' hm timing add)

/-! ### transfer_from -/

theorem expired_iff {a : Approval} {now : Nat} : expired a now = true ↔ ¬ Live a now := by
  unfold expired Live
  cases h : a.expiresAt with
  | none => simp
  | some e => simp

theorem not_expired_iff {a : Approval} {now : Nat} : expired a now = false ↔ Live a now := by
  rw [← Bool.not_eq_true, expired_iff]; simp

/-- The token approvals after the look-up of `transfer_from`. -/
def TokPruned (s : State H) (now tid : Nat) (sp : Account) (ta : Map Nat (Map Account Approval)) : Prop :=
  ta = s.tokAppr ∨ ∃ m a, s.tokAppr.get tid = some m ∧ m.get sp = some a ∧ ¬ Live a now ∧
    ta = s.tokAppr.set tid (m.del sp)

/-- The collection approvals after the look-up of `transfer_from`. -/
def CollPruned (s : State H) (now : Nat) (owner sp : Account)
    (ca : Map Account (Map Account Approval)) : Prop :=
  ca = s.collAppr ∨ ∃ m a base, s.collAppr.get owner = some m ∧ m.get sp = some a ∧ ¬ Live a now ∧
    (base = s.collAppr ∨ base = s.collAppr.del owner) ∧ ca = base.set owner (m.del sp)

theorem checkTokenApproval_out {s s' : State H} {now tid : Nat} {sp : Account} {b : Bool}
    (h : checkTokenApproval s now tid sp = some (s', b)) :
    ∃ ta, s' = { s with tokAppr := ta } ∧ TokPruned s now tid sp ta ∧
      (b = true ↔ ∃ a, TokenApproval s tid sp a ∧ Live a now) := by
  unfold checkTokenApproval at h
  split at h
  · rename_i hg
    simp only [Option.some.injEq, Prod.mk.injEq] at h
    obtain ⟨rfl, rfl⟩ := h
    exact ⟨s.tokAppr, rfl, .inl rfl, by simp [TokenApproval, hg]⟩
  rename_i m hg
  split at h
  · rename_i hg2
    simp only [Option.some.injEq, Prod.mk.injEq] at h
    obtain ⟨rfl, rfl⟩ := h
    exact ⟨s.tokAppr, rfl, .inl rfl, by simp [TokenApproval, hg, hg2]⟩
  rename_i a hg2
  split at h
  · rename_i hexp
    unfold putTokAppr at h
    split at h
    · cases h
    · rename_i s2 hput
      split at hput
      · simp only [Option.some.injEq, Prod.mk.injEq] at h hput
        obtain ⟨rfl, rfl⟩ := h
        subst hput
        refine ⟨_, rfl, .inr ⟨m, a, hg, hg2, expired_iff.1 hexp, rfl⟩, ?_⟩
        simp [TokenApproval, hg, hg2, expired_iff.1 hexp]
      · cases hput
  · rename_i hexp
    simp only [Option.some.injEq, Prod.mk.injEq] at h
    obtain ⟨rfl, rfl⟩ := h
    refine ⟨s.tokAppr, rfl, .inl rfl, ?_⟩
    simp [TokenApproval, hg, hg2, not_expired_iff.1 (Bool.not_eq_true _ ▸ hexp)]

theorem checkCollApproval_out (s : State H) (now : Nat) (owner sp : Account) :
    ∃ ca, (checkCollApproval s now owner sp).1 = { s with collAppr := ca } ∧
      CollPruned s now owner sp ca ∧
      ((checkCollApproval s now owner sp).2 = true ↔ ∃ a, CollApproval s owner sp a ∧ Live a now) := by
  unfold checkCollApproval
  split
  · rename_i hg
    exact ⟨s.collAppr, rfl, .inl rfl, by simp [CollApproval, hg]⟩
  rename_i m hg
  split
  · rename_i hg2
    exact ⟨s.collAppr, rfl, .inl rfl, by simp [CollApproval, hg, hg2]⟩
  rename_i a hg2
  split
  · rename_i hexp
    refine ⟨_, rfl, .inr ⟨m, a, _, hg, hg2, expired_iff.1 hexp, ?_, rfl⟩, ?_⟩
    · split
      · exact .inr rfl
      · exact .inl rfl
    · simp [CollApproval, hg, hg2, expired_iff.1 hexp]
  · rename_i hexp
    refine ⟨s.collAppr, rfl, .inl rfl, ?_⟩
    simp [CollApproval, hg, hg2, not_expired_iff.1 (Bool.not_eq_true _ ▸ hexp)]

/-- Outcomes of one `icrc37_transfer_from` item. -/
inductive FromOut (L : Ledger H) (s : State H) (c : Principal) (now : Nat) (arg : TransferFromArg) :
    State H → Except TokErr Nat → Prop
  | refused (w) (h : H) (ta ca) (e : TokErr)
      (hta : TokPruned s now arg.tid ⟨c, arg.spenderSub⟩ ta)
      (hca : ca = s.collAppr ∨ ∃ nft, s.tokens.get arg.tid = some nft ∧
        CollPruned s now nft.owner ⟨c, arg.spenderSub⟩ ca) :
      FromOut L s c now arg { s with windows := w, hid := h, tokAppr := ta, collAppr := ca } (.error e)
  | moved (w) (nft : Token) (h : H) (i : Nat)
      (tok : s.tokens.get arg.tid = some nft) (own : (nft.owner == arg.from_) = true)
      (auth : MayMove s now arg.tid nft.owner ⟨c, arg.spenderSub⟩)
      (diff : (arg.from_ == arg.to_) = false) (toOk : (arg.to_ == anonymousAccount) = false)
      (timing : verifyTimingOpt s.cfg arg.createdAt now = none)
      (add : L.add s.hid (transferFromTx now c arg) = (h, .ok i)) :
      FromOut L s c now arg
        { moveToken { s with windows := w, hid := h, log := s.log ++ [transferFromTx now c arg] }
            nft arg.to_ with
          tokAppr := s.tokAppr.del arg.tid, collAppr := s.collAppr.del arg.from_ } (.ok i)

theorem TokPruned.del {s : State H} {now tid : Nat} {sp : Account} {ta}
    (h : TokPruned s now tid sp ta) : ta.del tid = s.tokAppr.del tid := by
  rcases h with rfl | ⟨m, a, _, _, _, rfl⟩
  · rfl
  · exact Map.del_set _ _ _ _ (by simp)

theorem CollPruned.del {s : State H} {now : Nat} {owner sp from_ : Account} {ca}
    (h : CollPruned s now owner sp ca) (he : (owner == from_) = true) :
    ca.del from_ = s.collAppr.del from_ := by
  rcases h with rfl | ⟨m, a, base, _, _, _, hb, rfl⟩
  · rfl
  · rw [Map.del_set _ _ _ _ he]
    rcases hb with rfl | rfl
    · rfl
    · exact Map.del_del _ _ _ he

theorem transferFrom_out {L : Ledger H} {s s' : State H} {c : Principal} {now : Nat}
    {arg : TransferFromArg} {r : Except TokErr Nat}
    (h : transferFrom L s c now arg = some (s', r)) : FromOut L s c now arg s' r := by
  unfold transferFrom at h
  rw [guardWindow_eq] at h
  generalize (guardWindow s now arg.tid).1.windows = w at h
  generalize (guardWindow s now arg.tid).2 = ok at h
  dsimp only at h
  split at h
  · simp only [Option.some.injEq, Prod.mk.injEq] at h
    obtain ⟨rfl, rfl⟩ := h
    exact .refused w s.hid _ _ _ (.inl rfl) (.inl rfl)
  split at h
  · simp only [Option.some.injEq, Prod.mk.injEq] at h
    obtain ⟨rfl, rfl⟩ := h
    exact .refused w s.hid _ _ _ (.inl rfl) (.inl rfl)
  rename_i timing
  split at h
  · simp only [Option.some.injEq, Prod.mk.injEq] at h
    obtain ⟨rfl, rfl⟩ := h
    exact .refused w s.hid _ _ _ (.inl rfl) (.inl rfl)
  rename_i nft tok
  split at h
  · simp only [Option.some.injEq, Prod.mk.injEq] at h
    obtain ⟨rfl, rfl⟩ := h
    exact .refused w s.hid _ _ _ (.inl rfl) (.inl rfl)
  rename_i diff
  split at h
  · simp only [Option.some.injEq, Prod.mk.injEq] at h
    obtain ⟨rfl, rfl⟩ := h
    exact .refused w s.hid _ _ _ (.inl rfl) (.inl rfl)
  rename_i toOk
  split at h
  · cases h
  rename_i s1 hasTok hchk
  obtain ⟨ta, rfl, hta, htok⟩ := checkTokenApproval_out hchk
  have hcoll := checkCollApproval_out
    { s with windows := w, tokAppr := ta } now nft.owner ⟨c, arg.spenderSub⟩
  obtain ⟨ca, hs2, hca, hcollb⟩ := hcoll
  rw [hs2] at h
  generalize (checkCollApproval { s with windows := w, tokAppr := ta } now nft.owner
    ⟨c, arg.spenderSub⟩).2 = hasColl at h hcollb
  have hta' : TokPruned s now arg.tid ⟨c, arg.spenderSub⟩ ta := hta
  have hca' : CollPruned s now nft.owner ⟨c, arg.spenderSub⟩ ca := hca
  split at h
  · simp only [Option.some.injEq, Prod.mk.injEq] at h
    obtain ⟨rfl, rfl⟩ := h
    exact .refused w s.hid ta ca _ hta' (.inr ⟨nft, tok, hca'⟩)
  rename_i hauth
  split at h
  · rename_i hadd
    obtain ⟨h', hl, rfl⟩ := addTx_err hadd
    simp only [Option.some.injEq, Prod.mk.injEq] at h
    obtain ⟨rfl, rfl⟩ := h
    exact .refused w h' ta ca _ hta' (.inr ⟨nft, tok, hca'⟩)
  · rename_i hadd
    obtain ⟨h', hl, rfl⟩ := addTx_ok hadd
    simp only [moveToken, Map.get_del_self, Option.isSome_none, Bool.not_false, if_true,
      Option.some.injEq, Prod.mk.injEq] at h
    obtain ⟨rfl, rfl⟩ := h
    simp only [Bool.or_eq_true, Bool.not_eq_true', Bool.and_eq_true, not_or, Bool.not_eq_false,
      not_and] at hauth
    obtain ⟨own, hauth⟩ := hauth
    rw [TokPruned.del hta', CollPruned.del hca' own]
    refine FromOut.moved w nft h' _ tok own ?_ (by simpa using diff) (by simpa using toOk) timing hl
    by_cases h1 : (({ owner := c, sub := arg.spenderSub } : Account) == arg.from_) = true
    · left
      exact PartialEquivBEq.trans h1 (PartialEquivBEq.symm own)
    · by_cases h2 : hasTok = true
      · right; left
        exact htok.1 h2
      · right; right
        refine hcollb.1 ?_
        have := hauth ⟨by simpa using h1, by simpa using h2⟩
        simpa using this

theorem icrc37TransferFrom_steps {E : Env H} {s s' : State H} {c : Principal} {now : Nat}
    {args : List TransferFromArg} {rs}
    (h : icrc37TransferFrom E.ledger s c now args = some (s', rs)) :
    Steps E (.call c now (.transferFrom args)) s s' := by
  refine runBatch_steps _ ?_ h
  intro s a s' r ha hrun
  have hout := transferFrom_out hrun
  clear hrun
  cases hout with
  | refused w h ta ca e hta hca =>
    have h1 : Steps E (.call c now (.transferFrom args)) s { s with windows := w, hid := h } :=
      .one (.quiet w h)
    have h2 : Steps E (.call c now (.transferFrom args)) s
        { s with windows := w, hid := h, tokAppr := ta } := by
      rcases hta with rfl | ⟨m, ap, hg, hg2, hl, rfl⟩
      · exact h1
      · exact .tail h1 (Micro.pruneTok (s := { s with windows := w, hid := h }) a ha m ap hg hg2 hl)
    rcases hca with rfl | ⟨nft, tok, rfl | ⟨m, ap, base, hg, hg2, hl, hb, rfl⟩⟩
    · exact h2
    · exact h2
    · exact .tail h2 (Micro.pruneColl (s := { s with windows := w, hid := h, tokAppr := ta })
        a ha nft tok m ap hg hg2 hl base hb)
  | moved w nft h i tok own auth diff toOk timing add =>
    exact .tail (.one (.quiet w s.hid))
      (Micro.xferFrom (s := { s with windows := w, hid := s.hid }) a nft h i ha tok own auth diff toOk timing add)

end Verif
