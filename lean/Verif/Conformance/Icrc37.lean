import Verif.Conformance.Setup
/-!
# core_suite/tests/test_icrc37.rs on the model

Each theorem cites the test it runs; see `Setup` for what these files are for.
-/
namespace Verif.Conformance

set_option maxRecDepth 20000

/-- A token for `owner1`, then the given messages (from the thirtieth minute on). -/
def withToken (ms : List Msg) : List Msg := mintNft 0 owner1 :: ms

def revokeTok (n : Nat) (who : Principal) (tid : Nat) (spender : Account) : Msg :=
  .call who (at_ n) (.revokeTokens [{ tid := tid, spender := some spender, createdAt := some (at_ n) }])

def revokeColl (n : Nat) (who : Principal) (spender : Account) : Msg :=
  .call who (at_ n) (.revokeCollection [{ spender := some spender, createdAt := some (at_ n) }])

def tokenApprovals (s : State Nat) (tid : Nat) : List Account :=
  (icrc37GetTokenApprovals s id tid none none).map ApprovalInfo.spender

def collectionApprovals (s : State Nat) (a : Account) : List Account :=
  (icrc37GetCollectionApprovals s id a none none).map ApprovalInfo.spender

/-- 24 test_icrc37_approve_tokens. -/
theorem test_icrc37_approve_tokens :
    oks start (withToken [approve (minute 30) p1 1 owner2]) = [true, true] ∧
    icrc37IsApproved (after start (withToken [approve (minute 30) p1 1 owner2])) (at_ (minute 31))
      [{ spender := owner2, tid := 1 }] = [true] := by decide

/-- 103 test_icrc37_approve_collection: the owner's listing has the spender. -/
theorem test_icrc37_approve_collection :
    oks start (withToken [approveAll (minute 30) p1 owner2]) = [true, true] ∧
    collectionApprovals (after start (withToken [approveAll (minute 30) p1 owner2])) owner1 = [owner2] := by decide

/-- 187 test_icrc37_revoke_token_approvals. -/
theorem test_icrc37_revoke_token_approvals :
    oks start (withToken [approve (minute 30) p1 1 owner2, revokeTok (minute 31) p1 1 owner2]) = [true, true, true] ∧
    icrc37IsApproved (after start (withToken [approve (minute 30) p1 1 owner2, revokeTok (minute 31) p1 1 owner2]))
      (at_ (minute 32)) [{ spender := owner2, tid := 1 }] = [false] := by decide

/-- 290 test_icrc37_transfer_from, and 631 single_approval_authorized. -/
theorem test_icrc37_transfer_from :
    oks start (withToken [approve (minute 30) p1 1 owner2,
      sendFrom (minute 31) p2 { from_ := owner1, to_ := owner2, tid := 1, createdAt := some (at_ (minute 31)) }])
      = [true, true, true] ∧
    icrc7OwnerOf (after start (withToken [approve (minute 30) p1 1 owner2,
      sendFrom (minute 31) p2 { from_ := owner1, to_ := owner2, tid := 1, createdAt := some (at_ (minute 31)) }])) [1]
      = some [some owner2] := by decide

/-- 386 and 402: the limits are those of the set-up. -/
theorem test_icrc37_limits : icrc37MaxApprovals start = some 10 ∧ icrc37MaxRevokeApprovals start = some 10 := by decide

/-- 418 test_icrc37_transfer_from_unauthorized_account. -/
theorem test_icrc37_transfer_from_unauthorized_account :
    oks start (withToken [approve (minute 30) p1 1 owner2,
      sendFrom (minute 31) p3 { from_ := owner1, to_ := owner3, tid := 1 }]) = [true, true, false] ∧
    icrc7OwnerOf (after start (withToken [approve (minute 30) p1 1 owner2,
      sendFrom (minute 31) p3 { from_ := owner1, to_ := owner3, tid := 1 }])) [1] = some [some owner1] := by decide

def approveTwo : Msg := .call p1 (at_ (minute 30)) (.approveTokens
  [{ tid := 1, info := { spender := owner2, createdAt := at_ (minute 30) } },
   { tid := 1, info := { spender := owner3, createdAt := at_ (minute 30) } }])

/-- 514 test_icrc37_transfer_from_multiple_approvals_unauthorized. -/
theorem test_icrc37_transfer_from_multiple_approvals_unauthorized :
    oks start (withToken [approveTwo, sendFrom (minute 31) p4 { from_ := owner1, to_ := owner4, tid := 1 }])
      = [true, true, false] ∧
    icrc7OwnerOf (after start (withToken [approveTwo,
      sendFrom (minute 31) p4 { from_ := owner1, to_ := owner4, tid := 1 }])) [1] = some [some owner1] := by decide

/-- 727 test_icrc37_transfer_from_multiple_approvals_authorized. -/
theorem test_icrc37_transfer_from_multiple_approvals_authorized :
    oks start (withToken [approveTwo, sendFrom (minute 31) p3 { from_ := owner1, to_ := owner3, tid := 1 }])
      = [true, true, true] := by decide

/-- 843 test_icrc37_transfer_from_sequential_approvals: the transfer by the first
spender ends the approval of the second. -/
theorem test_icrc37_transfer_from_sequential_approvals :
    oks start (withToken [approveTwo, sendFrom (minute 31) p2 { from_ := owner1, to_ := owner2, tid := 1 },
      sendFrom (minute 32) p3 { from_ := owner2, to_ := owner3, tid := 1 }]) = [true, true, true, false] ∧
    icrc7OwnerOf (after start (withToken [approveTwo,
      sendFrom (minute 31) p2 { from_ := owner1, to_ := owner2, tid := 1 },
      sendFrom (minute 32) p3 { from_ := owner2, to_ := owner3, tid := 1 }])) [1] = some [some owner2] := by decide

/-- A fresh spender. -/
def spender (i : Nat) : Account := ⟨[20, UInt8.ofNat i], none⟩

def tenApprovals : List Msg := (List.range 10).map fun i => approve (minute (30 + i)) p1 1 (spender i)
def tenRevocations : List Msg := (List.range 10).map fun i => revokeTok (minute (60 + i)) p1 1 (spender i)

/-- 1002 test_icrc37_revoke_token_approvals_max_limit: ten approvals succeed, the
eleventh does not, the listing has ten, and ten revocations succeed. -/
theorem test_icrc37_revoke_token_approvals_max_limit :
    oks start (withToken (tenApprovals ++ [approve (minute 40) p1 1 (spender 10)]))
      = List.replicate 11 true ++ [false] ∧
    (tokenApprovals (after start (withToken tenApprovals)) 1).length = 10 ∧
    oks (after start (withToken (tenApprovals ++ [approve (minute 40) p1 1 (spender 10)]))) tenRevocations
      = List.replicate 10 true ∧
    tokenApprovals (after start (withToken (tenApprovals ++ tenRevocations))) 1 = [] := by decide

def tenCollApprovals : List Msg := (List.range 10).map fun i => approveAll (minute (30 + i)) p1 (spender i)
def tenCollRevocations : List Msg := (List.range 10).map fun i => revokeColl (minute (60 + i)) p1 (spender i)

/-- 1205 test_icrc37_revoke_collection_approvals_max_limit and 1427
…_within_limit. -/
theorem test_icrc37_revoke_collection_approvals_max_limit :
    oks start (withToken (tenCollApprovals ++ [approveAll (minute 40) p1 (spender 10)]))
      = List.replicate 11 true ++ [false] ∧
    (collectionApprovals (after start (withToken tenCollApprovals)) owner1).length = 10 ∧
    oks (after start (withToken tenCollApprovals)) tenCollRevocations = List.replicate 10 true ∧
    collectionApprovals (after start (withToken (tenCollApprovals ++ tenCollRevocations))) owner1 = [] := by decide

/-- 1581 test_icrc37_approve_collection_with_nft: a spender for the collection moves a token. -/
theorem test_icrc37_approve_collection_with_nft :
    oks start (withToken [approveAll (minute 30) p1 owner2,
      sendFrom (minute 31) p2 { from_ := owner1, to_ := owner2, tid := 1 }]) = [true, true, true] := by decide

/-- Approvals for the token and for the collection. -/
def both : List Msg := [approve (minute 30) p1 1 owner2, approveAll (minute 31) p1 owner2]

/-- 1709 test_icrc37_approvals_reset_after_transfer_as_owner: the spender takes the
token and, now its owner, moves it on with `icrc37_transfer_from`. -/
theorem test_icrc37_approvals_reset_after_transfer_as_owner :
    oks start (withToken (both ++ [sendFrom (minute 32) p2 { from_ := owner1, to_ := owner2, tid := 1 },
      sendFrom (minute 33) p2 { from_ := owner2, to_ := owner3, tid := 1 }])) = [true, true, true, true, true] ∧
    tokenApprovals (after start (withToken (both ++ [sendFrom (minute 32) p2 { from_ := owner1, to_ := owner2, tid := 1 },
      sendFrom (minute 33) p2 { from_ := owner2, to_ := owner3, tid := 1 }]))) 1 = [] := by decide

/-- 1905 test_icrc37_approvals_reset_after_transfer: after a transfer to a third
party the spender cannot move the token again, and the previous owner's approvals,
for the token and for the collection, are gone. (The last is what the test expects;
it is the behaviour DESIGN.md lists under C21.) -/
def handedOn : List Msg := withToken (both ++ [sendFrom (minute 32) p2 { from_ := owner1, to_ := owner3, tid := 1 },
  sendFrom (minute 33) p2 { from_ := owner3, to_ := owner4, tid := 1 }])

theorem test_icrc37_approvals_reset_after_transfer :
    oks start handedOn = [true, true, true, true, false] ∧
    icrc7OwnerOf (after start handedOn) [1] = some [some owner3] ∧
    tokenApprovals (after start handedOn) 1 = [] ∧ collectionApprovals (after start handedOn) owner1 = [] := by decide

/-- 2120 test_icrc37_approve_and_revoke_before_transfer. -/
theorem test_icrc37_approve_and_revoke_before_transfer :
    oks start (withToken [approve (minute 30) p1 1 owner2, revokeTok (minute 31) p1 1 owner2,
      sendFrom (minute 32) p2 { from_ := owner1, to_ := owner2, tid := 1 }]) = [true, true, true, false] := by decide

/-- `icrc37_approve_tokens` of token 1 in the thirtieth minute. -/
def approveWith (info : ApprovalInfo) : Msg := .call p1 (at_ (minute 30)) (.approveTokens [⟨1, info⟩])

/-- 2246 test_icrc37_approve_with_expiration: expires after a minute, used after two. -/
theorem test_icrc37_approve_with_expiration :
    oks start (withToken [approveWith { spender := owner2, createdAt := at_ (minute 30), expiresAt := some (at_ (minute 31)) },
      sendFrom (minute 32) p2 { from_ := owner1, to_ := owner3, tid := 1 }]) = [true, true, false] := by decide

/-- 2348 test_icrc37_approve_with_subaccount. -/
theorem test_icrc37_approve_with_subaccount :
    oks start [mintNft 0 ⟨p1, some (List.replicate 32 1)⟩,
      approveWith ⟨⟨p2, some (List.replicate 32 1)⟩, some (List.replicate 32 1), none, none, at_ (minute 30)⟩,
      sendFrom (minute 31) p2 ⟨some (List.replicate 32 1), ⟨p1, some (List.replicate 32 1)⟩, owner3, 1, none, none⟩] = [true, true, true] ∧
    icrc7OwnerOf (after start [mintNft 0 ⟨p1, some (List.replicate 32 1)⟩,
      approveWith ⟨⟨p2, some (List.replicate 32 1)⟩, some (List.replicate 32 1), none, none, at_ (minute 30)⟩,
      sendFrom (minute 31) p2 ⟨some (List.replicate 32 1), ⟨p1, some (List.replicate 32 1)⟩, owner3, 1, none, none⟩]) [1] = some [some owner3] := by decide

/-- 2444 test_icrc37_approve_with_memo. -/
theorem test_icrc37_approve_with_memo :
    oks start (withToken [approveWith { spender := owner2, createdAt := at_ (minute 30), memo := some [116, 101, 115, 116] },
      sendFrom (minute 31) p2 { from_ := owner1, to_ := owner3, tid := 1, memo := some [116, 101, 115, 116] }])
      = [true, true, true] := by decide

/-- 2540 test_icrc37_approvals_persistence_after_upgrade: approvals outlive an
upgrade, and the spender can use them. -/
theorem test_icrc37_approvals_persistence_after_upgrade :
    tokenApprovals (after start (withToken (both ++ [.upgrade]))) 1 = [owner2] ∧
    collectionApprovals (after start (withToken (both ++ [.upgrade]))) owner1 = [owner2] ∧
    icrc37IsApproved (after start (withToken (both ++ [.upgrade]))) (at_ (minute 32))
      [{ spender := owner2, tid := 1 }] = [true] ∧
    oks (after start (withToken (both ++ [.upgrade])))
      [sendFrom (minute 33) p2 { from_ := owner1, to_ := owner2, tid := 1 }] = [true] := by decide

/-- Approvals a microsecond apart, all created at the same time. -/
def quickApproval (i : Nat) : Msg := .call p1 (at_ (minute 30) + 1000 * i)
  (.approveTokens [{ tid := 1, info := { spender := owner2, createdAt := at_ (minute 30) } }])

/-- 2780 test_icrc37_approve_tokens_sliding_window_rate_limit: five calls are
admitted, the sixth is refused, a later one is admitted again. -/
theorem test_icrc37_approve_tokens_sliding_window_rate_limit :
    oks start (withToken ((List.range 6).map quickApproval ++ [approve (minute 30 + 60001000) p1 1 owner2]))
      = [true, true, true, true, true, true, false, true] := by decide

end Verif.Conformance
