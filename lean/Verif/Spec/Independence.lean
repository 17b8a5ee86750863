import Verif.Spec.Errors
/-!
# Traffic about other tokens (C90)
-/
namespace Verif.Spec

variable {H : Type}

/-- An item of the message names the token. -/
def Names (tid : Nat) : Msg → Prop
  | .call _ _ (.transfer args) => ∃ a ∈ args, a.tid = tid
  | .call _ _ (.approveTokens args) => ∃ a ∈ args, a.tid = tid
  | .call _ _ (.revokeTokens args) => ∃ a ∈ args, a.tid = tid
  | .call _ _ (.transferFrom args) => ∃ a ∈ args, a.tid = tid
  | .call _ _ (.burn t) => t = tid
  | .call _ _ (.updateNftMetadata t _) => t = tid
  | _ => False

/-- The message changes settings of the collection. -/
def Reconfigures : Msg → Prop
  | .call _ _ (.updateCollectionMetadata _) => True
  | _ => False

/-- The message has to do neither with the token nor with the settings. -/
def Elsewhere (tid : Nat) (m : Msg) : Prop := ¬ Names tid m ∧ ¬ Reconfigures m

/-- The call transfers the token, approves spenders for it or revokes their approvals,
and does nothing else. -/
def OnlyAbout (tid : Nat) : Call → Prop
  | .transfer args => ∀ a ∈ args, a.tid = tid
  | .approveTokens args => ∀ a ∈ args, a.tid = tid
  | .revokeTokens args => ∀ a ∈ args, a.tid = tid
  | _ => False

/-- The same answer, up to the numbers of the records. -/
def SameItem : Except TokErr Nat → Except TokErr Nat → Prop
  | .ok _, .ok _ => True
  | .error e, .error e' => e = e'
  | _, _ => False

/-- Item by item the same answers, up to the numbers of the records. -/
inductive SameItems : List (Except TokErr Nat) → List (Except TokErr Nat) → Prop
  | nil : SameItems [] []
  | cons {r r' rs rs'} : SameItem r r' → SameItems rs rs' → SameItems (r :: rs) (r' :: rs')

/-- The same reply, up to the numbers of the records. -/
def SameReply : Reply → Reply → Prop
  | .batch rs, .batch rs' => SameItems rs rs'
  | .batchErr e, .batchErr e' => e = e'
  | .mgmt r, .mgmt r' => r = r'
  | .trapped, .trapped => True
  | _, _ => False

/-- A history `ms` is made of messages elsewhere and of the calls `own`, in this order,
about nothing but the token. -/
inductive Amid (tid : Nat) : List Msg → List Msg → Prop
  | nil : Amid tid [] []
  | other {m ms own} : Elsewhere tid m → Amid tid ms own → Amid tid (m :: ms) own
  | own {c now call ms own} : OnlyAbout tid call → Amid tid ms own →
      Amid tid (.call c now call :: ms) (.call c now call :: own)

/-- The message does not concern collection approvals: it neither grants nor revokes any
and is no `icrc37_transfer_from`, which uses them. -/
def NoCollection : Msg → Prop
  | .call _ _ (.approveCollection _) | .call _ _ (.revokeCollection _) | .call _ _ (.transferFrom _) => False
  | _ => True

/-- A ledger that takes every record. -/
def TakesAll (L : Ledger H) : Prop := ∀ h t, ∃ i, (L.add h t).2 = .ok i

end Verif.Spec
