import Verif.Model.Icrc37
/-!
# Consent messages and supported standards

Files are in /repo/src/core_nft/src. The lists `fields` the handlers build
(queries/icrc21.rs 49-65 and its copies) are dropped by the code before it answers;
building them reads the state and cannot fail, and they are left out.
-/
namespace Verif

/-- `Decode!` (external crate `candid`) at the six argument types: any partial
functions of the bytes. Called in the handlers of queries/icrc21.rs 46-60 and following. -/
structure Decoders where
  transfer : Blob → Option (List TransferArg)
  approveTokens : Blob → Option (List ApproveTokenArg)
  approveColl : Blob → Option (List ApprovalInfo)
  revokeTokens : Blob → Option (List RevokeTokenArg)
  revokeColl : Blob → Option (List RevokeCollArg)
  transferFrom : Blob → Option (List TransferFromArg)

/-- `ConsentMessageMetadata` of `icrc_ledger_types`. Imported in queries/icrc21.rs 11. -/
structure ConsentMetadata where
  language : String
  utcOffset : Option Int := none
  deriving DecidableEq, Repr

/-- `DisplayMessageType` of `icrc_ledger_types`: plain text, or pages of lines. External, part
of the request type of types/icrc21.rs 2-5; not read by the code. -/
inductive Device where
  | generic
  | lines (charactersPerLine linesPerPage : Nat)
  deriving DecidableEq, Repr

/-- `ConsentMessageRequest` of `icrc_ledger_types`; the wish for a device format
(`device_spec`) is not read by the code. types/icrc21.rs 2-5. -/
structure ConsentRequest where
  method : String
  arg : Blob
  metadata : ConsentMetadata
  device : Option Device := none
  deriving DecidableEq, Repr

/-- The answer: a message (always a `GenericDisplayMessage`, queries/icrc21.rs 31)
with metadata, or `UnsupportedCanisterCall` with a description (42-43). No other
error is ever answered. -/
inductive ConsentReply where
  | ok (message : String) (metadata : ConsentMetadata)
  | unsupported (description : String)
  deriving DecidableEq, Repr

/-- queries/icrc21.rs 67-74, 106-114, 186-191 and 259-264: the text for a batch of
`n` items. -/
def batchText (n : Nat) (one : String) (several : String × String) : String :=
  if n > 1 then several.1 ++ Nat.repr n ++ several.2 else one

/-- queries/icrc21.rs 14-274 `icrc21_canister_call_consent_message`. `text` prints a
principal. `none`: a trap (147, `first().unwrap()` on no items). -/
def consent (dec : Decoders) (text : Principal → String) (r : ConsentRequest) : Option ConsentReply :=
  if r.method = "icrc7_transfer" then
    match dec.transfer r.arg with
    | some args => some (.ok (batchText args.length "You are about to transfer an NFT. Method: icrc7_transfer"
        ("You are about to transfer ", " NFTs. Method: icrc7_transfer")) r.metadata)
    | none => some (.unsupported "Failed to decode transfer arguments")
  else if r.method = "icrc37_approve_tokens" then
    match dec.approveTokens r.arg with
    | some args => some (.ok (batchText args.length
        "You are about to approve an NFT for transfer. Method: icrc37_approve_tokens"
        ("You are about to approve ", " NFTs for transfer. Method: icrc37_approve_tokens")) r.metadata)
    | none => some (.unsupported "Failed to decode approve_tokens arguments")
  else if r.method = "icrc37_approve_collection" then
    match dec.approveColl r.arg with
    | some args =>
      match args with
      | [] => none
      | a :: _ => some (.ok ("You are about to approve " ++ text a.spender.owner ++
          " to transfer all your nft available in the collection. Method: icrc37_approve_collection") r.metadata)
    | none => some (.unsupported "Failed to decode approve_collection arguments")
  else if r.method = "icrc37_revoke_token_approvals" then
    match dec.revokeTokens r.arg with
    | some args => some (.ok (batchText args.length
        "You are about to revoke approval for an NFT. Method: icrc37_revoke_token_approvals"
        ("You are about to revoke approvals for ", " NFTs. Method: icrc37_revoke_token_approvals")) r.metadata)
    | none => some (.unsupported "Failed to decode revoke_token_approvals arguments")
  else if r.method = "icrc37_revoke_collection_approvals" then
    match dec.revokeColl r.arg with
    | some _ => some (.ok
        "You are about to revoke collection approvals. Method: icrc37_revoke_collection_approvals" r.metadata)
    | none => some (.unsupported "Failed to decode revoke_collection_approvals arguments")
  else if r.method = "icrc37_transfer_from" then
    match dec.transferFrom r.arg with
    | some args => some (.ok (batchText args.length
        "You are about to transfer an NFT using approval. Method: icrc37_transfer_from"
        ("You are about to transfer ", " NFTs using approval. Method: icrc37_transfer_from")) r.metadata)
    | none => some (.unsupported "Failed to decode transfer_from arguments")
  else some (.unsupported ("Method '" ++ r.method ++ "' is not supported"))

/-- queries/icrc10.rs 6-30 `icrc10_supported_standards`: names and addresses, in order. -/
def supportedStandards : List (String × String) :=
  [("ICRC-37", "https://github.com/dfinity/ICRC/blob/main/ICRCs/ICRC-37/ICRC-37.md"),
    ("ICRC-3", "https://github.com/dfinity/ICRC-1/blob/main/standards/ICRC-3/README.md"),
    ("ICRC-7", "https://github.com/dfinity/ICRC/blob/main/ICRCs/ICRC-7/ICRC-7.md"),
    ("ICRC-10", "https://github.com/dfinity/ICRC/blob/main/ICRCs/ICRC-10/ICRC-10.md"),
    ("ICRC-21",
      "https://github.com/dfinity/wg-identity-authentication/blob/main/topics/ICRC-21/icrc_21_consent_msg.md")]

end Verif
