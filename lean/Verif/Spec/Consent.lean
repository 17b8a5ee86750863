import Verif.Model.Consent
import Verif.Model.System
/-!
# Specification of consent messages
-/
namespace Verif.Spec

/-- The methods that have a consent message. -/
def consentMethods : List String :=
  ["icrc7_transfer", "icrc37_approve_tokens", "icrc37_approve_collection", "icrc37_revoke_token_approvals",
    "icrc37_revoke_collection_approvals", "icrc37_transfer_from"]

/-- How many items the argument of a request asks for, if it decodes. -/
def itemCount (dec : Decoders) (r : ConsentRequest) : Option Nat :=
  if r.method = "icrc7_transfer" then (dec.transfer r.arg).map List.length
  else if r.method = "icrc37_approve_tokens" then (dec.approveTokens r.arg).map List.length
  else if r.method = "icrc37_approve_collection" then (dec.approveColl r.arg).map List.length
  else if r.method = "icrc37_revoke_token_approvals" then (dec.revokeTokens r.arg).map List.length
  else if r.method = "icrc37_revoke_collection_approvals" then (dec.revokeColl r.arg).map List.length
  else if r.method = "icrc37_transfer_from" then (dec.transferFrom r.arg).map List.length
  else none

/-- The methods whose message tells how many items are asked for. -/
def countedMethods : List String :=
  ["icrc7_transfer", "icrc37_approve_tokens", "icrc37_revoke_token_approvals", "icrc37_transfer_from"]

/-- A message names a method: it ends with it. -/
def names (message method : String) : Prop := ∃ before, message = before ++ "Method: " ++ method

/-- What a method does, in a word. -/
def action (method : String) : String :=
  if method ∈ ["icrc7_transfer", "icrc37_transfer_from"] then "transfer"
  else if method ∈ ["icrc37_approve_tokens", "icrc37_approve_collection"] then "approve"
  else "revoke"

/-- A message has these words in it. -/
def mentions (message words : String) : Prop := ∃ before after, message = before ++ words ++ after

/-- The call a request asks consent for, if its argument decodes. -/
def asksFor (dec : Decoders) (r : ConsentRequest) : Option Call :=
  if r.method = "icrc7_transfer" then (dec.transfer r.arg).map .transfer
  else if r.method = "icrc37_approve_tokens" then (dec.approveTokens r.arg).map .approveTokens
  else if r.method = "icrc37_approve_collection" then (dec.approveColl r.arg).map .approveCollection
  else if r.method = "icrc37_revoke_token_approvals" then (dec.revokeTokens r.arg).map .revokeTokens
  else if r.method = "icrc37_revoke_collection_approvals" then (dec.revokeColl r.arg).map .revokeCollection
  else if r.method = "icrc37_transfer_from" then (dec.transferFrom r.arg).map .transferFrom
  else none

end Verif.Spec
