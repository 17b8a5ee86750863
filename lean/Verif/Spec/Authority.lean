import Verif.Model.System
/-!
# Specification: who may move a token

Independent of the code paths of `transfer_from`.
-/
namespace Verif.Spec

variable {H : Type}

/-- `a` has not expired at time `now`: it carries no expiry, or one strictly in
the future. -/
def Live (a : Approval) (now : Nat) : Prop := ∀ e, a.expiresAt = some e → now < e

/-- `a` is recorded as the token approval of `spender` for token `tid`. -/
def TokenApproval (s : State H) (tid : Nat) (spender : Account) (a : Approval) : Prop :=
  ∃ m, s.tokAppr.get tid = some m ∧ m.get spender = some a

/-- `a` is recorded as the collection approval of `spender` granted by `owner`. -/
def CollApproval (s : State H) (owner spender : Account) (a : Approval) : Prop :=
  ∃ m, s.collAppr.get owner = some m ∧ m.get spender = some a

/-- `spender` may move token `tid`, owned by `owner`, at time `now`. -/
def MayMove (s : State H) (now tid : Nat) (owner spender : Account) : Prop :=
  (spender == owner) = true ∨
  (∃ a, TokenApproval s tid spender a ∧ Live a now) ∨
  (∃ a, CollApproval s owner spender a ∧ Live a now)

/-- The account that owns token `tid`, if it exists. -/
def Owner (s : State H) (tid : Nat) : Option Account := (s.tokens.get tid).map Token.owner

end Verif.Spec
