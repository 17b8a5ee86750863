import Verif.Model.Codec
import Verif.Model.System
/-!
# Specification: values that occur

The model writes a `BTreeMap` as the list of its entries; only lists without
repeated keys are maps.
-/
namespace Verif.Spec

mutual
/-- No map inside the value repeats a key. -/
def Proper : Value → Prop
  | .array vs => ProperL vs
  | .map kvs => (kvs.map Prod.fst).Nodup ∧ ProperM kvs
  | _ => True
def ProperL : List Value → Prop
  | [] => True
  | v :: vs => Proper v ∧ ProperL vs
def ProperM : List (String × Value) → Prop
  | [] => True
  | (_, v) :: kvs => Proper v ∧ ProperM kvs
end

/-- A principal has at most 29 bytes, a subaccount exactly 32. -/
def ValidAccount (a : Account) : Prop := a.owner.length ≤ 29 ∧ ∀ s, a.sub = some s → s.length = 32

/-- Accounts are valid and times are 64-bit numbers. -/
def ValidApproval (a : Approval) : Prop :=
  ValidAccount a.spender ∧ ValidAccount a.from_ ∧ a.createdAt < 2 ^ 64 ∧ (∀ e, a.expiresAt = some e → e < 2 ^ 64) ∧
    ∀ m, a.memo = some m → m.length < 2 ^ 64

/-- Valid parts, in 64 bits. -/
def ValidKey : IndexKey → Prop
  | .account a => ValidAccount a
  | .blockType s => (utf8 s).length < 2 ^ 64
  | .tokenId n => n < 2 ^ 64

/-- What is asked for when spenders are approved has parts of the sizes their types have: a
principal has at most 29 bytes, a subaccount 32, and times and lengths are 64-bit numbers. -/
def TypedInfo (info : ApprovalInfo) : Prop :=
  ValidAccount info.spender ∧ (∀ s, info.fromSub = some s → s.length = 32) ∧
    (∀ e, info.expiresAt = some e → e < 2 ^ 64) ∧ ∀ m, info.memo = some m → m.length < 2 ^ 64

/-- So has a message, as far as approvals are concerned. -/
def TypedMsg : Msg → Prop
  | .call c now (.approveTokens args) => c.length ≤ 29 ∧ now < 2 ^ 64 ∧ ∀ a ∈ args, TypedInfo a.info
  | .call c now (.approveCollection args) => c.length ≤ 29 ∧ now < 2 ^ 64 ∧ ∀ a ∈ args, TypedInfo a
  | _ => True

end Verif.Spec
