import Verif.Spec.Basic
/-!
# What the error replies say

For every method, what an error reply claims about the call and the collection.
-/
namespace Verif.Spec

variable {H : Type}

/-- At least `n` different spenders are approved for token `tid`. -/
def TokenSpenders (s : State H) (tid n : Nat) : Prop :=
  ∃ sps : List Account, sps.Pairwise (fun x y => ¬ SameAccount x y) ∧
    (∀ sp ∈ sps, ∃ a, TokenApproval s tid sp a) ∧ n ≤ sps.length

/-- At least `n` different spenders are approved for the tokens of `o`. -/
def CollSpenders (s : State H) (o : Account) (n : Nat) : Prop :=
  ∃ sps : List Account, sps.Pairwise (fun x y => ¬ SameAccount x y) ∧
    (∀ sp ∈ sps, ∃ a, CollApproval s o sp a) ∧ n ≤ sps.length

/-- The ledger refuses `t`. -/
def Refuses (E : Env H) (s : State H) (t : Tx) : Prop := ∃ e, (E.ledger.add s.hid t).2 = .error e

/-- `msg` contains `word`, whatever the case of its letters. -/
def Mentions (msg : String) (word : List Char) : Prop :=
  ∃ before w after, msg.toList = before ++ w ++ after ∧ w.map Char.toLower = word

/-- The ledger refuses `t` with a text about a duplicate. -/
def RefusesAsDuplicate (E : Env H) (s : State H) (t : Tx) : Prop :=
  ∃ msg, (E.ledger.add s.hid t).2 = .error (.icrc3 msg) ∧ Mentions msg ['d', 'u', 'p', 'l', 'i', 'c', 'a', 't', 'e']

/-- The record of an `icrc37_transfer_from`. -/
def fromTx (c : Principal) (now : Nat) (arg : TransferFromArg) : Tx :=
  { op := .xferFrom, ts := now, tid := some arg.tid, from_ := some arg.from_, to_ := some arg.to_,
    memo := arg.memo, createdAt := arg.createdAt, spender := some ⟨c, arg.spenderSub⟩ }

/-- The record of an `icrc37_approve_tokens` item. -/
def approvalTx (c : Principal) (now : Nat) (arg : ApproveTokenArg) : Tx :=
  { op := .approve, ts := now, tid := some arg.tid, from_ := some ⟨c, arg.info.fromSub⟩,
    memo := arg.info.memo, createdAt := some arg.info.createdAt, spender := some arg.info.spender,
    exp := arg.info.expiresAt }

/-- The record of an `icrc37_approve_collection` item. -/
def collApprovalTx (c : Principal) (now : Nat) (info : ApprovalInfo) : Tx :=
  { op := .approveColl, ts := now, from_ := some ⟨c, info.fromSub⟩, memo := info.memo,
    createdAt := some info.createdAt, spender := some info.spender, exp := info.expiresAt }

/-- The record of an `icrc37_revoke_token_approvals` item. -/
def revocationTx (c : Principal) (now : Nat) (arg : RevokeTokenArg) : Tx :=
  { op := .revoke, ts := now, tid := some arg.tid, from_ := some ⟨c, arg.fromSub⟩, memo := arg.memo,
    createdAt := arg.createdAt, spender := arg.spender }

/-- The record of an `icrc37_revoke_collection_approvals` item: the account is the
caller's default account. -/
def collRevocationTx (c : Principal) (now : Nat) (arg : RevokeCollArg) : Tx :=
  { op := .revokeColl, ts := now, from_ := some ⟨c, none⟩, memo := arg.memo,
    createdAt := arg.createdAt, spender := arg.spender }

/-- The record of a burn of the token of `o`. -/
def burnRecord (now tid : Nat) (o : Account) : Tx :=
  { op := .burn, ts := now, tid := some tid, from_ := some o, createdAt := some now }

/-- A time error of an ICRC-37 method. -/
def TimeSays (s : State H) (now created : Nat) : TokErr → Prop
  | .tooOld => created + Window s < now
  | .createdInFuture n => n = now ∧ now + Drift s < created
  | _ => False

/-- What an error of an `icrc7_transfer` item says. `InvalidRecipient` also stands
for a caller who is not the owner. -/
def TransferSays (E : Env H) (s : State H) (c : Principal) (now : Nat) (arg : TransferArg) : TokErr → Prop
  | .nonExistingTokenId => ¬ TokenExists s arg.tid
  | .invalidRecipient => ∃ o, Owner s arg.tid = some o ∧
      (o.owner ≠ c ∨ arg.to_.owner = anonymous ∨ SameAccount o arg.to_)
  | .tooOld => arg.createdAt.getD now + (Window s + Drift s) < now
  | .createdInFuture n => n = now ∧ now + Drift s < arg.createdAt.getD now
  | .generic 0 => c = anonymous ∨ 5 ≤ recentCalls s now arg.tid ∨
      (∃ m, arg.memo = some m ∧ MemoLimit s < m.length) ∨ BatchLimit s = 0
  | .generic 2 => ∃ o, Owner s arg.tid = some o ∧ Refuses E s (xferTx now arg o)
  | _ => False

/-- What an error of an `icrc37_transfer_from` item says. -/
def TransferFromSays (E : Env H) (s : State H) (c : Principal) (now : Nat) (arg : TransferFromArg) : TokErr → Prop
  | .nonExistingTokenId => ¬ TokenExists s arg.tid
  | .invalidRecipient => SameAccount arg.from_ arg.to_ ∨ SameAccount arg.to_ ⟨anonymous, none⟩
  | .unauthorized => ∃ o, Owner s arg.tid = some o ∧
      (¬ SameAccount o arg.from_ ∨ ¬ MayMove s now arg.tid o ⟨c, arg.spenderSub⟩)
  | .generic 0 => 5 ≤ recentCalls s now arg.tid
  | .generic 1 => Refuses E s (fromTx c now arg) ∧ ¬ RefusesAsDuplicate E s (fromTx c now arg)
  | .duplicate _ => RefusesAsDuplicate E s (fromTx c now arg)
  | e => ∃ t, arg.createdAt = some t ∧ TimeSays s now t e

/-- What an error of an `icrc37_approve_tokens` item says. -/
def ApproveSays (E : Env H) (s : State H) (c : Principal) (now : Nat) (arg : ApproveTokenArg) : TokErr → Prop
  | .nonExistingTokenId => ¬ TokenExists s arg.tid
  | .unauthorized => ∃ o, Owner s arg.tid = some o ∧ ¬ SameAccount o ⟨c, arg.info.fromSub⟩
  | .invalidSpender => SameAccount arg.info.spender ⟨anonymous, none⟩
  | .generic 0 => 5 ≤ recentCalls s now arg.tid
  | .generic 1 => TokenSpenders s arg.tid (ApprovalLimit s) ∨ Refuses E s (approvalTx c now arg)
  | e => TimeSays s now arg.info.createdAt e

/-- What an error of an `icrc37_approve_collection` item says. All collection
approvals share the rate limit of token 0. -/
def ApproveCollSays (E : Env H) (s : State H) (c : Principal) (now : Nat) (info : ApprovalInfo) : TokErr → Prop
  | .invalidSpender => SameAccount info.spender ⟨anonymous, none⟩
  | .generic 0 => 5 ≤ recentCalls s now 0
  | .generic 1 => (∀ tid o, Owner s tid = some o → o.owner ≠ c) ∨
      CollSpenders s ⟨c, info.fromSub⟩ (ApprovalLimit s) ∨ Refuses E s (collApprovalTx c now info)
  | e => TimeSays s now info.createdAt e

/-- What an error of an `icrc37_revoke_token_approvals` item says. -/
def RevokeSays (E : Env H) (s : State H) (c : Principal) (now : Nat) (arg : RevokeTokenArg) : TokErr → Prop
  | .nonExistingTokenId => ¬ TokenExists s arg.tid
  | .unauthorized => ∃ o, Owner s arg.tid = some o ∧ ¬ SameAccount o ⟨c, arg.fromSub⟩
  | .approvalDoesNotExist => ∀ sp a, ¬ TokenApproval s arg.tid sp a
  | .generic 1 => Refuses E s (revocationTx c now arg)
  | e => ∃ t, arg.createdAt = some t ∧ TimeSays s now t e

/-- What an error of an `icrc37_revoke_collection_approvals` item says. -/
def RevokeCollSays (E : Env H) (s : State H) (c : Principal) (now : Nat) (arg : RevokeCollArg) : TokErr → Prop
  | .approvalDoesNotExist => ∀ sp a, ¬ CollApproval s ⟨c, none⟩ sp a
  | .generic 0 => 5 ≤ recentCalls s now 0
  | .generic 1 => Refuses E s (collRevocationTx c now arg)
  | e => ∃ t, arg.createdAt = some t ∧ TimeSays s now t e

/-- What an error of `mint` says. The error of the supply cap also stands for too
many requests; a guard entry stands for another management call that has not
ended. -/
def MintSays (E : Env H) (s : State H) (now : Nat) (reqs : List MintReq) : MgmtErr → Prop
  | .concurrentManagementCall => s.guards ≠ []
  | .exceedMaxAllowedSupplyCap => BatchLimit s < reqs.length ∨ Cap s < totalSupply s + reqs.length
  | .invalidMemo => ∃ r ∈ reqs, ∃ m, r.memo = some m ∧ MemoLimit s < m.length
  | .storageCanisterError => ∃ h t e, (E.ledger.add h t).2 = .error e ∧ t.op = .mint ∧ t.ts = now ∧
      ∃ r ∈ reqs, t.to_ = some r.owner ∧ t.memo = r.memo
  | _ => False

/-- What an error of `update_nft_metadata` says. -/
def UpdateSays (E : Env H) (s : State H) (now tid : Nat) : MgmtErr → Prop
  | .concurrentManagementCall => s.guards ≠ []
  | .tokenDoesNotExist => ¬ TokenExists s tid
  | .storageCanisterError => ∃ t, Refuses E s t ∧ t.op = .updateToken ∧ t.ts = now ∧ t.tid = some tid
  | _ => False

/-- What an error of `burn_nft` says. -/
def BurnSays (E : Env H) (s : State H) (c : Principal) (now tid : Nat) : MgmtErr → Prop
  | .concurrentManagementCall => s.guards ≠ []
  | .tokenDoesNotExist => ¬ TokenExists s tid
  | .notTokenOwner => ∃ o, Owner s tid = some o ∧ o.owner ≠ c
  | .storageCanisterError => ∃ o, Owner s tid = some o ∧ Refuses E s (burnRecord now tid o)
  | _ => False

end Verif.Spec
