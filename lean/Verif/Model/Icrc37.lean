import Verif.Model.Icrc7
/-!
# updates/icrc37.rs
-/
namespace Verif

variable {H : Type}

/-- types/icrc37.rs 12. -/
def defaultMaxApprovals : Nat := 10

/-- `usize::try_from(nat).unwrap_or(d)`. updates/icrc37.rs 122-135, 300-313, 403-410, 529-536. -/
def toUsizeOr (n d : Nat) : Nat := if n < USIZE then n else d

/-- `nat.try_into::<u64>().unwrap_or(d)`. updates/icrc37.rs 23-47. -/
def toU64Or (n d : Nat) : Nat := if n < U64 then n else d

/-- updates/icrc37.rs 21-48 `verify_approval_timing`; `none` is `Ok(())`. -/
def verifyTiming (cfg : Config) (created now : Nat) : Option TokErr :=
  if created > u64add now (toU64Or (cfg.permittedDrift.getD defaultDrift) defaultDrift) then
    some (.createdInFuture now)
  else if u64add created (toU64Or (cfg.txWindow.getD defaultTxWindow) 0) < now then some .tooOld
  else none

/-- The optional variant (updates/icrc37.rs 429-441, 570-582, 678-688). -/
def verifyTimingOpt (cfg : Config) (created : Option Nat) (now : Nat) : Option TokErr :=
  match created with
  | none => none
  | some c => verifyTiming cfg c now

/-- types/icrc37.rs 33-40. -/
structure ApprovalInfo where
  spender : Account
  fromSub : Option Subaccount := none
  expiresAt : Option Nat := none
  memo : Option Blob := none
  createdAt : Nat
  deriving DecidableEq, Repr

/-- types/icrc37.rs `ApproveTokenArg`. -/
structure ApproveTokenArg where
  tid : Nat
  info : ApprovalInfo
  deriving DecidableEq, Repr

/-- types/icrc37.rs `RevokeTokenApprovalArg`. -/
structure RevokeTokenArg where
  tid : Nat
  spender : Option Account := none
  fromSub : Option Subaccount := none
  memo : Option Blob := none
  createdAt : Option Nat := none
  deriving DecidableEq, Repr

/-- types/icrc37.rs `RevokeCollectionApprovalArg`; `from_subaccount` is not read
by the code. -/
structure RevokeCollArg where
  spender : Option Account := none
  fromSub : Option Subaccount := none
  memo : Option Blob := none
  createdAt : Option Nat := none
  deriving DecidableEq, Repr

/-- types/icrc37.rs `TransferFromArg`. -/
structure TransferFromArg where
  spenderSub : Option Subaccount := none
  from_ : Account
  to_ : Account
  tid : Nat
  memo : Option Blob := none
  createdAt : Option Nat := none
  deriving DecidableEq, Repr

/-- updates/icrc37.rs 113-116: the anonymous account compared against. -/
def anonymousAccount : Account := ⟨anonymous, none⟩

/-- `state.data.owner_of` (state.rs 191-195). -/
def ownerOf (s : State H) (tid : Nat) : Option Account := (s.tokens.get tid).map Token.owner

/-- updates/icrc37.rs 122-135 and 300-313. -/
def maxApprovals (cfg : Config) : Nat :=
  toUsizeOr (cfg.maxApprovals.getD defaultMaxApprovals) defaultMaxApprovals

/-- updates/icrc37.rs 403-410 and 529-536. -/
def maxRevoke (cfg : Config) : Nat :=
  toUsizeOr (cfg.maxRevoke.getD defaultMaxApprovals) defaultMaxApprovals

/-- `StableBTreeMap::insert` on the token approvals: the key is encoded as a
`u64` (types/wrapped_types.rs 33-41), which panics beyond 64 bits. -/
def putTokAppr (s : State H) (tid : Nat) (m : Map Account Approval) : Option (State H) :=
  if tid < U64 then some { s with tokAppr := s.tokAppr.set tid m } else none

/-- updates/icrc37.rs 139-145 and 292-298. -/
def mkApproval (info : ApprovalInfo) (from_ : Account) (now : Nat) : Approval :=
  { spender := info.spender, from_ := from_, expiresAt := info.expiresAt, createdAt := now,
    memo := info.memo }

/-- updates/icrc37.rs 65-212 `approve_token`. `none`: panic. -/
def approveToken (L : Ledger H) (s : State H) (caller : Principal) (now : Nat)
    (arg : ApproveTokenArg) : Option (State H × Except TokErr Nat) :=
  let (s, ok) := guardWindow s now arg.tid
  if !ok then some (s, .error (.generic 0))
  else match verifyTiming s.cfg arg.info.createdAt now with
  | some e => some (s, .error e)
  | none =>
    let fromAcc : Account := ⟨caller, arg.info.fromSub⟩
    match ownerOf s arg.tid with
    | none => some (s, .error .nonExistingTokenId)
    | some owner =>
      if (owner == fromAcc) = false then some (s, .error .unauthorized)
      else if (arg.info.spender == anonymousAccount) = true then some (s, .error .invalidSpender)
      else if (s.tokAppr.get arg.tid).any (fun m => decide (maxApprovals s.cfg ≤ m.size)) then
        some (s, .error (.generic 1))
      else
        match addTx L s { op := .approve, ts := now, tid := some arg.tid, from_ := some fromAcc,
                          memo := arg.info.memo, createdAt := some arg.info.createdAt,
                          spender := some arg.info.spender, exp := arg.info.expiresAt } with
        | (s, .error _) => some (s, .error (.generic 1))
        | (s, .ok i) =>
          match putTokAppr s arg.tid
              (((s.tokAppr.get arg.tid).getD ∅).set arg.info.spender (mkApproval arg.info fromAcc now)) with
          | none => none
          | some s => some (s, .ok i)

/-- updates/icrc37.rs 51-63 `icrc37_approve_tokens`. -/
def icrc37ApproveTokens (L : Ledger H) (s : State H) (caller : Principal) (now : Nat)
    (args : List ApproveTokenArg) : Option (State H × List (Except TokErr Nat)) :=
  runBatch (fun s a => approveToken L s caller now a) s args

/-- updates/icrc37.rs 231-377 `approve_collection`. It cannot panic. -/
def approveCollection (L : Ledger H) (s : State H) (caller : Principal) (now : Nat)
    (info : ApprovalInfo) : State H × Except TokErr Nat :=
  let (s, ok) := guardWindow s now 0
  if !ok then (s, .error (.generic 0))
  else match verifyTiming s.cfg info.createdAt now with
  | some e => (s, .error e)
  | none =>
    let fromAcc : Account := ⟨caller, info.fromSub⟩
    if (info.spender == anonymousAccount) = true then (s, .error .invalidSpender)
    else if !(s.tokens.entries.any fun e => decide (e.2.owner.owner = caller)) then
      (s, .error (.generic 1))
    else if (s.collAppr.get fromAcc).any (fun m => decide (maxApprovals s.cfg ≤ m.size)) then
      (s, .error (.generic 1))
    else
      match addTx L s { op := .approveColl, ts := now, from_ := some fromAcc, memo := info.memo,
                        createdAt := some info.createdAt, spender := some info.spender,
                        exp := info.expiresAt } with
      | (s, .error _) => (s, .error (.generic 1))
      | (s, .ok i) =>
        let m := ((s.collAppr.get fromAcc).getD ∅).set info.spender (mkApproval info fromAcc now)
        ({ s with collAppr := s.collAppr.set fromAcc m }, .ok i)

/-- updates/icrc37.rs 215-229 `icrc37_approve_collection`. -/
def icrc37ApproveCollection (L : Ledger H) (s : State H) (caller : Principal) (now : Nat)
    (args : List ApprovalInfo) : Option (State H × List (Except TokErr Nat)) :=
  runBatch (fun s a => some (approveCollection L s caller now a)) s args

/-- updates/icrc37.rs 474-478 / 601-605: remove one spender, or clear. -/
def dropSpender (m : Map Account Approval) (spender : Option Account) : Map Account Approval :=
  match spender with
  | some a => m.del a
  | none => ∅

/-- updates/icrc37.rs 422-515 `revoke_token_approvals`. `none`: panic. -/
def revokeToken (L : Ledger H) (s : State H) (caller : Principal) (now : Nat)
    (arg : RevokeTokenArg) : Option (State H × Except TokErr Nat) :=
  match verifyTimingOpt s.cfg arg.createdAt now with
  | some e => some (s, .error e)
  | none =>
    let fromAcc : Account := ⟨caller, arg.fromSub⟩
    match ownerOf s arg.tid with
    | none => some (s, .error .nonExistingTokenId)
    | some owner =>
      if (owner == fromAcc) = false then some (s, .error .unauthorized)
      else match s.tokAppr.get arg.tid with
      | none => some (s, .error .approvalDoesNotExist)
      | some m =>
        match addTx L s { op := .revoke, ts := now, tid := some arg.tid, from_ := some fromAcc,
                          memo := arg.memo, createdAt := arg.createdAt, spender := arg.spender } with
        | (s, .error _) => some (s, .error (.generic 1))
        | (s, .ok i) =>
          match putTokAppr s arg.tid (dropSpender m arg.spender) with
          | none => none
          | some s => some (s, .ok i)

/-- updates/icrc37.rs 380-420 `icrc37_revoke_token_approvals`: the rate limit is
charged to the first token only, `args[0]` panics on an empty batch, and items
beyond the maximum are dropped. `Except.error` is the whole-call error. -/
def icrc37RevokeTokens (L : Ledger H) (s : State H) (caller : Principal) (now : Nat)
    (args : List RevokeTokenArg) :
    Option (State H × Except TokErr (List (Except TokErr Nat))) :=
  match args with
  | [] => none
  | a :: _ =>
    let (s, ok) := guardWindow s now a.tid
    if !ok then some (s, .error (.generic 0))
    else match runBatch (fun s a => revokeToken L s caller now a) s (args.take (maxRevoke s.cfg)) with
      | none => none
      | some (s, rs) => some (s, .ok rs)

/-- updates/icrc37.rs 548-644 `revoke_collection_approvals`. It cannot panic.
The account is always the caller's default account (584-587). -/
def revokeCollection (L : Ledger H) (s : State H) (caller : Principal) (now : Nat)
    (arg : RevokeCollArg) : State H × Except TokErr Nat :=
  let (s, ok) := guardWindow s now 0
  if !ok then (s, .error (.generic 0))
  else match verifyTimingOpt s.cfg arg.createdAt now with
  | some e => (s, .error e)
  | none =>
    let fromAcc : Account := ⟨caller, none⟩
    match s.collAppr.get fromAcc with
    | none => (s, .error .approvalDoesNotExist)
    | some m =>
      match addTx L s { op := .revokeColl, ts := now, from_ := some fromAcc, memo := arg.memo,
                        createdAt := arg.createdAt, spender := arg.spender } with
      | (s, .error _) => (s, .error (.generic 1))
      | (s, .ok i) => ({ s with collAppr := s.collAppr.set fromAcc (dropSpender m arg.spender) }, .ok i)

/-- updates/icrc37.rs 518-546 `icrc37_revoke_collection_approvals`. -/
def icrc37RevokeCollection (L : Ledger H) (s : State H) (caller : Principal) (now : Nat)
    (args : List RevokeCollArg) : Option (State H × List (Except TokErr Nat)) :=
  runBatch (fun s a => some (revokeCollection L s caller now a)) s (args.take (maxRevoke s.cfg))

/-- `expires_at <= current_time` (updates/icrc37.rs 723-724, 748-750). -/
def expired (a : Approval) (now : Nat) : Bool :=
  match a.expiresAt with
  | some e => decide (e ≤ now)
  | none => false

/-- updates/icrc37.rs 718-738: is there a live token approval for `spender`?
An expired one is dropped from the table. -/
def checkTokenApproval (s : State H) (now tid : Nat) (spender : Account) :
    Option (State H × Bool) :=
  match s.tokAppr.get tid with
  | none => some (s, false)
  | some m =>
    match m.get spender with
    | none => some (s, false)
    | some a =>
      if expired a now then
        match putTokAppr s tid (m.del spender) with
        | none => none
        | some s => some (s, false)
      else some (s, true)

/-- updates/icrc37.rs 740-768: the same for the collection approvals of the
token's owner. An emptied table is removed and inserted again (752-759). -/
def checkCollApproval (s : State H) (now : Nat) (owner spender : Account) : State H × Bool :=
  match s.collAppr.get owner with
  | none => (s, false)
  | some m =>
    match m.get spender with
    | none => (s, false)
    | some a =>
      if expired a now then
        let m' := m.del spender
        let c := if m'.entries.isEmpty then s.collAppr.del owner else s.collAppr
        ({ s with collAppr := c.set owner m' }, false)
      else (s, true)

/-- `e.to_lowercase().contains("duplicate")` of updates/icrc37.rs 795. Lower
casing is ASCII only here. -/
def mentionsDuplicate (msg : String) : Bool :=
  let needle := "duplicate".toList
  let rec go : List Char → Bool
    | [] => needle.isPrefixOf []
    | c :: cs => needle.isPrefixOf (c :: cs) || go cs
  go (msg.toList.map Char.toLower)

/-- updates/icrc37.rs 793-811. -/
def transferFromLedgerErr : LedgerErr → TokErr
  | .icrc3 msg => if mentionsDuplicate msg then .duplicate 2 else .generic 1
  | _ => .generic 1

/-- updates/icrc37.rs 661-851 `transfer_from`. `none`: panic. -/
def transferFrom (L : Ledger H) (s : State H) (caller : Principal) (now : Nat)
    (arg : TransferFromArg) : Option (State H × Except TokErr Nat) :=
  let (s, ok) := guardWindow s now arg.tid
  if !ok then some (s, .error (.generic 0))
  else match verifyTimingOpt s.cfg arg.createdAt now with
  | some e => some (s, .error e)
  | none =>
    match s.tokens.get arg.tid with
    | none => some (s, .error .nonExistingTokenId)
    | some nft =>
      if (arg.from_ == arg.to_) = true then some (s, .error .invalidRecipient)
      else if (arg.to_ == anonymousAccount) = true then some (s, .error .invalidRecipient)
      else
        let spender : Account := ⟨caller, arg.spenderSub⟩
        match checkTokenApproval s now arg.tid spender with
        | none => none
        | some (s, hasTok) =>
          let (s, hasColl) := checkCollApproval s now nft.owner spender
          if !(nft.owner == arg.from_) || (!(spender == arg.from_) && !hasTok && !hasColl) then
            some (s, .error .unauthorized)
          else
            match addTx L s { op := .xferFrom, ts := now, tid := some arg.tid,
                              from_ := some arg.from_, to_ := some arg.to_, memo := arg.memo,
                              createdAt := arg.createdAt, spender := some spender } with
            | (s, .error e) => some (s, .error (transferFromLedgerErr e))
            | (s, .ok i) =>
              let s := moveToken s nft arg.to_
              let s := { s with tokAppr := s.tokAppr.del arg.tid }
              -- 838-848: `has_nfts` asks for the entry just removed
              let hasNfts := (s.tokAppr.get arg.tid).isSome
              let s := if !hasNfts then { s with collAppr := s.collAppr.del arg.from_ } else s
              some (s, .ok i)

/-- updates/icrc37.rs 647-659 `icrc37_transfer_from`. -/
def icrc37TransferFrom (L : Ledger H) (s : State H) (caller : Principal) (now : Nat)
    (args : List TransferFromArg) : Option (State H × List (Except TokErr Nat)) :=
  runBatch (fun s a => transferFrom L s caller now a) s args

end Verif
