import Verif.Spec.Change
import Verif.Model.Gc
/-!
# The same history, later

Everything in a history that is a date is moved by the same amount of time: when
messages arrive, the dates users put into their requests, and the dates the
collection has stored.
-/
namespace Verif.Spec.Later

variable {H : Type}

/-- A stored approval. -/
def approval (d : Nat) (a : Approval) : Approval :=
  { a with expiresAt := a.expiresAt.map (· + d), createdAt := a.createdAt + d }

/-- The approvals of one token or one account. -/
def approvals (d : Nat) (m : Map Account Approval) : Map Account Approval := Change.map id (approval d) m

/-- An entry of a table of approvals. -/
def entry (d : Nat) (e : Account × Approval) : Account × Approval := (e.1, approval d e.2)

/-- An upload. -/
def upload (d : Nat) (u : Upload) : Upload := { u with initTs := u.initTs + d }

/-- A recorded transaction. -/
def tx (d : Nat) (t : Tx) : Tx :=
  { t with ts := t.ts + d, createdAt := t.createdAt.map (· + d), exp := t.exp.map (· + d) }

/-- A call that waits for another canister. -/
def pending (d : Nat) : Pending → Pending
  | .init c path n subs => .init c path n subs
  | .store c key u => .store c key (upload d u)
  | .finalize c key u => .finalize c key (upload d u)
  | .cancel c key u => .cancel c key (upload d u)

/-- The collection. -/
def state (d : Nat) (s : State H) : State H :=
  { s with windows := Change.map id (·.map (· + d)) s.windows,
           uploads := Change.map id (upload d) s.uploads,
           tokAppr := Change.map id (approvals d) s.tokAppr,
           collAppr := Change.map id (approvals d) s.collAppr,
           log := s.log.map (tx d),
           pending := s.pending.map (pending d) }

/-- The answers of the transaction log do not depend on the century. -/
def Timeless (d : Nat) (L : Ledger H) : Prop := ∀ h t, L.add h (tx d t) = L.add h t

/-! Requests. -/

def transferArg (d : Nat) (a : TransferArg) : TransferArg := { a with createdAt := a.createdAt.map (· + d) }
def info (d : Nat) (a : ApprovalInfo) : ApprovalInfo :=
  { a with expiresAt := a.expiresAt.map (· + d), createdAt := a.createdAt + d }
def approveArg (d : Nat) (a : ApproveTokenArg) : ApproveTokenArg := { a with info := info d a.info }
def revokeArg (d : Nat) (a : RevokeTokenArg) : RevokeTokenArg := { a with createdAt := a.createdAt.map (· + d) }
def revokeCollArg (d : Nat) (a : RevokeCollArg) : RevokeCollArg := { a with createdAt := a.createdAt.map (· + d) }
def fromArg (d : Nat) (a : TransferFromArg) : TransferFromArg := { a with createdAt := a.createdAt.map (· + d) }

/-- A request. -/
def call (d : Nat) : Call → Call
  | .transfer args => .transfer (args.map (transferArg d))
  | .approveTokens args => .approveTokens (args.map (approveArg d))
  | .approveCollection args => .approveCollection (args.map (info d))
  | .revokeTokens args => .revokeTokens (args.map (revokeArg d))
  | .revokeCollection args => .revokeCollection (args.map (revokeCollArg d))
  | .transferFrom args => .transferFrom (args.map (fromArg d))
  | c => c

/-- A message: it arrives later, too. -/
def msg (d : Nat) : Msg → Msg
  | .call c now x => .call c (now + d) (call d x)
  | .resume now i a => .resume (now + d) i a
  | .resumeTrap i => .resumeTrap i
  | .upgrade => .upgrade

/-- An error: "created in the future" tells the time of the canister. -/
def err (d : Nat) : TokErr → TokErr
  | .createdInFuture t => .createdInFuture (t + d)
  | e => e

/-- An answer to one item. -/
def item (d : Nat) : Except TokErr Nat → Except TokErr Nat
  | .error e => .error (err d e)
  | .ok n => .ok n

/-- A reply. -/
def reply (d : Nat) : Reply → Reply
  | .batch rs => .batch (rs.map (item d))
  | .batchErr e => .batchErr (err d e)
  | r => r

/-- The two settings that are lengths of time are at most `b`. -/
def Short (b : Nat) (cfg : Config) : Prop :=
  cfg.txWindow.getD defaultTxWindow ≤ b ∧ cfg.permittedDrift.getD defaultDrift ≤ b

/-- A message arrives neither within `2 * b` of the beginning of the clock nor,
moved by `d`, within `2 * b` of its end, and sets no length of time above `b`. -/
def Amid (b d : Nat) : Msg → Prop
  | .call _ now c => 2 * b ≤ now ∧ now + d + 2 * b < 2 ^ 64 ∧
    match c with
    | .updateCollectionMetadata a => (∀ v, a.txWindow = some v → v ≤ b) ∧ ∀ v, a.permittedDrift = some v → v ≤ b
    | _ => True
  | _ => True

end Verif.Spec.Later
