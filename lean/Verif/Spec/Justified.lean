import Verif.Spec.Audit
/-!
# Records that are justified by the records before them

What an auditor who has only the log checks of each record. The holder of a token is the
one the log so far says (`replay`), and so are the approvals (`LoggedToken`, `LoggedColl`).
-/
namespace Verif.Spec

open Verif

/-- According to the log so far, `a` holds `tid`. -/
def HeldBy (log : List Tx) (tid : Nat) (a : Account) : Prop := ∃ o, replay log tid = some o ∧ SameAccount o a

/-- According to the log so far, `sp` may move the token `tid` of `a` at time `t`: they are the
same account, or `sp` has an approval for the token or for the collection of `a` that has not
expired. -/
def Entitled (log : List Tx) (t tid : Nat) (a sp : Account) : Prop :=
  SameAccount sp a ∨ (∃ ap, LoggedToken log tid sp ap ∧ Live ap t) ∨ ∃ ap, LoggedColl log a sp ap ∧ Live ap t

/-- The record `r` is in order after the log `log`.

* Tokens are minted that the log has not mentioned.
* Transfers and burns are from the holder, transfers to another account that is not
  anonymous, and those on behalf of the holder by a spender who is entitled.
* Approvals are by the holder, collection approvals by the holder of some token, to spenders
  that are not anonymous.
* Revocations are by the holder, and of collection approvals by the default account that gave
  some, after approvals were given.
* Metadata is updated of tokens that are held. -/
def Justified (log : List Tx) (r : Tx) : Prop :=
  match r.op with
  | .mint => ∃ tid to_, r.tid = some tid ∧ r.to_ = some to_ ∧ ∀ t ∈ log, t.tid ≠ some tid
  | .xfer => ∃ tid a b, r.tid = some tid ∧ r.from_ = some a ∧ r.to_ = some b ∧ HeldBy log tid a ∧
      ¬ SameAccount a b ∧ b.owner ≠ anonymous
  | .xferFrom => ∃ tid a b sp, r.tid = some tid ∧ r.from_ = some a ∧ r.to_ = some b ∧ r.spender = some sp ∧
      HeldBy log tid a ∧ Entitled log r.ts tid a sp ∧ ¬ SameAccount a b ∧ ¬ SameAccount b ⟨anonymous, none⟩
  | .burn => ∃ tid a, r.tid = some tid ∧ r.from_ = some a ∧ HeldBy log tid a
  | .approve => ∃ tid a sp, r.tid = some tid ∧ r.from_ = some a ∧ r.spender = some sp ∧ HeldBy log tid a ∧
      ¬ SameAccount sp ⟨anonymous, none⟩
  | .approveColl => ∃ a sp, r.tid = none ∧ r.from_ = some a ∧ r.spender = some sp ∧
      (∃ tid o, replay log tid = some o ∧ o.owner = a.owner) ∧ ¬ SameAccount sp ⟨anonymous, none⟩
  | .revoke => ∃ tid a, r.tid = some tid ∧ r.from_ = some a ∧ HeldBy log tid a ∧
      ∃ t ∈ log, t.op = .approve ∧ t.tid = some tid
  | .revokeColl => ∃ a, r.tid = none ∧ r.from_ = some a ∧ a.sub = none ∧ ∃ t ∈ log, t.op = .approveColl ∧ MadeFrom t a
  | .updateToken => ∃ tid a, r.tid = some tid ∧ HeldBy log tid a

/-- A mint of a token that the log has mentioned only in mints. -/
def Remint (log : List Tx) (r : Tx) : Prop :=
  r.op = .mint ∧ ∃ tid to_, r.tid = some tid ∧ r.to_ = some to_ ∧ ∀ t ∈ log, t.tid = some tid → t.op = .mint

/-- The times of the calls of a history never go back. -/
def Clock (ms : List Msg) : Prop :=
  ∀ pre c now call post, ms = pre ++ .call c now call :: post → UpTo now pre

end Verif.Spec
