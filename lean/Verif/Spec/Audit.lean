import Verif.Spec.Authority
import Verif.Spec.Basic
/-!
# Reading the approvals in force off the transaction log
-/
namespace Verif.Spec

open Verif

variable {H : Type}

/-- The last word of the log on a subject is a grant: it has a granting record and
nothing after that record touches the subject. -/
def LastWord (log : List Tx) (grants touches : Tx → Prop) : Prop :=
  ∃ before r after, log = before ++ r :: after ∧ grants r ∧ ∀ t ∈ after, ¬ touches t

/-- `r` writes down the approval `a`: the spender, the granter, the expiry, the memo
and the time of the call. -/
def WritesDown (r : Tx) (a : Approval) : Prop :=
  r.spender = some a.spender ∧ r.from_ = some a.from_ ∧ r.exp = a.expiresAt ∧ r.memo = a.memo ∧
    r.ts = a.createdAt

/-- The record is about the spender: it names them, or, for a revocation, names nobody. -/
def About (r : Tx) (sp : Account) : Prop := ∀ x, r.spender = some x → SameAccount x sp

/-- `r` grants the token approval `a` to `sp` for `tid`. -/
def GrantsToken (tid : Nat) (sp : Account) (a : Approval) (r : Tx) : Prop :=
  r.op = .approve ∧ r.tid = some tid ∧ WritesDown r a ∧ SameAccount a.spender sp

/-- `r` replaces or ends the token approval of `sp` for `tid`: a new approval of the
same spender, a revocation that names them or names nobody, or a transfer by
`icrc37_transfer_from`. -/
def TouchesToken (tid : Nat) (sp : Account) (r : Tx) : Prop :=
  r.tid = some tid ∧ ((r.op = .approve ∧ About r sp) ∨ (r.op = .revoke ∧ About r sp) ∨ r.op = .xferFrom)

/-- The log says that `sp` holds the approval `a` for `tid`. -/
def LoggedToken (log : List Tx) (tid : Nat) (sp : Account) (a : Approval) : Prop :=
  LastWord log (GrantsToken tid sp a) (TouchesToken tid sp)

/-- `r` grants the collection approval `a` of `o` to `sp`. -/
def GrantsColl (o sp : Account) (a : Approval) (r : Tx) : Prop :=
  r.op = .approveColl ∧ WritesDown r a ∧ SameAccount a.from_ o ∧ SameAccount a.spender sp

/-- The record was made from the account `o`. -/
def MadeFrom (r : Tx) (o : Account) : Prop := ∃ x, r.from_ = some x ∧ SameAccount x o

/-- `r` replaces or ends the collection approval of `o` for `sp`: a new approval of
the same spender, a revocation that names them or names nobody, or a transfer of any
token of `o` by `icrc37_transfer_from`. -/
def TouchesColl (o sp : Account) (r : Tx) : Prop :=
  MadeFrom r o ∧
    ((r.op = .approveColl ∧ About r sp) ∨ (r.op = .revokeColl ∧ About r sp) ∨ r.op = .xferFrom)

/-- The log says that `sp` holds the collection approval `a` of `o`. -/
def LoggedColl (log : List Tx) (o sp : Account) (a : Approval) : Prop :=
  LastWord log (GrantsColl o sp a) (TouchesColl o sp)

/-- No call of the history came after `T`. -/
def UpTo (T : Nat) (ms : List Msg) : Prop := ∀ c now call, Msg.call c now call ∈ ms → now ≤ T

/-- What an auditor following ICRC-37 takes as the end of a token approval: also
a plain transfer and a burn of the token. -/
def StandardTouchesToken (tid : Nat) (sp : Account) (r : Tx) : Prop :=
  TouchesToken tid sp r ∨ (r.tid = some tid ∧ (r.op = .xfer ∨ r.op = .burn))

/-- What an auditor following ICRC-37 takes as the end of a collection approval: a
transfer is none. -/
def StandardTouchesColl (o sp : Account) (r : Tx) : Prop :=
  MadeFrom r o ∧ ((r.op = .approveColl ∧ About r sp) ∨ (r.op = .revokeColl ∧ About r sp))

end Verif.Spec
