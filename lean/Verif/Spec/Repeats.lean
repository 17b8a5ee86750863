import Verif.Spec.Basic
/-!
# Ledgers that recognise repeated requests
-/
namespace Verif.Spec

open Verif

variable {H : Type}

/-- Asked for transactions one after the other, the ledger went from the hidden state `h` to
`h'` and recorded exactly `l`. -/
inductive Recorded (L : Ledger H) (h : H) : List Tx → H → Prop
  | start : Recorded L h [] h
  | accepted {l h' h'' t i} : Recorded L h l h' → L.add h' t = (h'', .ok i) → Recorded L h (l ++ [t]) h''
  | refused {l h' h'' t e} : Recorded L h l h' → L.add h' t = (h'', .error e) → Recorded L h l h''

/-- Two transactions are the same request: they differ at most in the time they were recorded at. -/
def SameRequest (t t' : Tx) : Prop := t = { t' with ts := t.ts }

/-- The ledger recognises a request for `W` nanoseconds: whatever it was asked before, it does
not accept a transaction that is the same request as one it recorded at most `W` earlier. -/
def Recognises (L : Ledger H) (h₀ : H) (W : Nat) : Prop :=
  ∀ l h t i, Recorded L h₀ l h → (L.add h t).2 = .ok i → ∀ t' ∈ l, SameRequest t t' → t'.ts + W < t.ts

/-- The settings of the collection never allowed creation times further away than this: at most
`D` ahead of the clock, and a window of at most `W`. -/
def SettingsWithin (E : Env H) (s₀ : State H) (ms : List Msg) (W D : Nat) : Prop :=
  ∀ pre post, ms = pre ++ post → Window (run E s₀ pre) ≤ W ∧ Drift (run E s₀ pre) ≤ D

/-! The requests of the methods of ICRC-37, as records made at `now` for the caller `c`. -/

/-- A transfer on behalf of another account. -/
def fromRequest (now : Nat) (c : Principal) (arg : TransferFromArg) : Tx :=
  { op := .xferFrom, ts := now, tid := some arg.tid, from_ := some arg.from_, to_ := some arg.to_,
    spender := some ⟨c, arg.spenderSub⟩, memo := arg.memo, createdAt := arg.createdAt }

/-- An approval for one token. -/
def approveRequest (now : Nat) (c : Principal) (arg : ApproveTokenArg) : Tx :=
  { op := .approve, ts := now, tid := some arg.tid, from_ := some ⟨c, arg.info.fromSub⟩, spender := some arg.info.spender,
    memo := arg.info.memo, createdAt := some arg.info.createdAt, exp := arg.info.expiresAt }

/-- An approval for all tokens of an account. -/
def approveAllRequest (now : Nat) (c : Principal) (info : ApprovalInfo) : Tx :=
  { op := .approveColl, ts := now, from_ := some ⟨c, info.fromSub⟩, spender := some info.spender,
    memo := info.memo, createdAt := some info.createdAt, exp := info.expiresAt }

/-- The end of approvals for one token. -/
def revokeRequest (now : Nat) (c : Principal) (arg : RevokeTokenArg) : Tx :=
  { op := .revoke, ts := now, tid := some arg.tid, from_ := some ⟨c, arg.fromSub⟩, spender := arg.spender,
    memo := arg.memo, createdAt := arg.createdAt }

/-- The end of approvals for all tokens of the caller's default account. -/
def revokeAllRequest (now : Nat) (c : Principal) (arg : RevokeCollArg) : Tx :=
  { op := .revokeColl, ts := now, from_ := some ⟨c, none⟩, spender := arg.spender,
    memo := arg.memo, createdAt := arg.createdAt }

end Verif.Spec
