import Verif.Spec.Basic
/-!
# Specification: the account a request names

A principal has many accounts, told apart by their subaccounts. The requests of
ICRC-7 and ICRC-37 say in `from_subaccount` (or in `from`) which account they are
about.
-/
namespace Verif.Spec

variable {H : Type}

/-- Message `m` names account `a` as the one it acts for. `burn_nft` has no field for
the subaccount: it names every account of its caller. -/
def NamesAccount (m : Msg) (a : Account) : Prop :=
  match m with
  | .call c _ (.transfer args) => ∃ x ∈ args, SameAccount ⟨c, x.fromSub⟩ a
  | .call c _ (.approveTokens args) => ∃ x ∈ args, SameAccount ⟨c, x.info.fromSub⟩ a
  | .call c _ (.revokeTokens args) => ∃ x ∈ args, SameAccount ⟨c, x.fromSub⟩ a
  | .call c _ (.approveCollection args) => ∃ x ∈ args, SameAccount ⟨c, x.fromSub⟩ a
  | .call c _ (.revokeCollection args) => ∃ x ∈ args, SameAccount ⟨c, x.fromSub⟩ a
  | .call _ _ (.transferFrom args) => ∃ x ∈ args, SameAccount x.from_ a
  | .call c _ (.burn _) => c = a.owner
  | _ => False

/-- What the code makes of it: `icrc7_transfer` is about any account of the caller, and
`icrc37_revoke_collection_approvals` about the default account. -/
def ActsFor (m : Msg) (a : Account) : Prop :=
  match m with
  | .call c _ (.transfer args) => args ≠ [] ∧ c = a.owner
  | .call c _ (.revokeCollection args) => args ≠ [] ∧ SameAccount ⟨c, none⟩ a
  | m => NamesAccount m a

/-- `ap` has not run out when `m` is executed. -/
def LiveAt (m : Msg) (ap : Approval) : Prop := ∀ c now k, m = .call c now k → Live ap now

/-- Message `m`, taking the collection from `s` to `s'`, leaves account `a` alone: it
keeps its tokens, exactly the token approvals for them and exactly its collection
approvals, except for approvals that have run out. -/
structure Spares (m : Msg) (s s' : State H) (a : Account) : Prop where
  tokens : ∀ tid o, Owner s tid = some o → SameAccount o a → Owner s' tid = some o
  tokenKept : ∀ tid o sp ap, Owner s tid = some o → SameAccount o a → TokenApproval s tid sp ap → LiveAt m ap →
    TokenApproval s' tid sp ap
  tokenNew : ∀ tid o sp ap, Owner s tid = some o → SameAccount o a → TokenApproval s' tid sp ap →
    TokenApproval s tid sp ap
  collKept : ∀ sp ap, CollApproval s a sp ap → LiveAt m ap → CollApproval s' a sp ap
  collNew : ∀ sp ap, CollApproval s' a sp ap → CollApproval s a sp ap

end Verif.Spec
