import Verif.Conformance.Setup
/-!
# core_suite/tests/test_icrc7.rs on the model

Each theorem cites the test it runs; see `Setup` for what these files are for.
-/
namespace Verif.Conformance

set_option maxRecDepth 20000

def mint1 : Msg := mintNft 0 owner1

/-- 30-53: the collection answers what it was set up with. -/
theorem test_icrc7_setup : icrc7Symbol start = "MC" ∧ icrc7Name start = "MyCollection" ∧
    icrc7Description start = none ∧ icrc7Logo start = none ∧ icrc7SupplyCap start = some 10 ∧
    icrc7MaxQueryBatchSize start = none ∧ icrc7MaxUpdateBatchSize start = none ∧
    icrc7DefaultTakeValue start = none ∧ icrc7MaxTakeValue start = none ∧ icrc7MaxMemoSize start = none ∧
    icrc7AtomicBatchTransfers start = none ∧ icrc7TxWindow start = none ∧ icrc7PermittedDrift start = none := by
  decide

/-- 62 test_icrc7_total_supply. -/
theorem test_icrc7_total_supply : totalSupply start = 0 ∧ totalSupply (after start [mint1]) = 1 ∧
    totalSupply (after start [mint1, mintNft (minute 30) owner2]) = 2 := by decide

/-- 121 test_icrc7_token_metadata_simple: the stored record is returned. -/
theorem test_icrc7_token_metadata_simple :
    icrc7TokenMetadata (after start [mint1]) [1] = some [some [("name", .text "test")]] := by decide

/-- Ten mints, half an hour apart. -/
def tenMints : List Msg := (List.range 10).map fun i => mintNft (minute (30 * i)) owner1

/-- 714 test_icrc7_supply_cap: ten mints succeed, the eleventh does not. -/
theorem test_icrc7_supply_cap : oks start tenMints = List.replicate 10 true ∧
    (play start (tenMints ++ [mintNft (minute 300) owner1])).2.getLast?.bind mgmtErr
      = some .exceedMaxAllowedSupplyCap ∧
    totalSupply (after start (tenMints ++ [mintNft (minute 300) owner1])) = 10 := by decide

/-- 1065 test_icrc7_transfer. -/
theorem test_icrc7_transfer :
    oks start [mint1, send (minute 30) p1 { to_ := owner2, tid := 1 }] = [true, true] ∧
    icrc7OwnerOf (after start [mint1, send (minute 30) p1 { to_ := owner2, tid := 1 }]) [1]
      = some [some owner2] := by decide

/-- 1135 test_icrc7_collection_metadata: the total supply is part of the metadata. -/
theorem test_icrc7_collection_metadata :
    (icrc7CollectionMetadata start).lookup "icrc7:total_supply" = some (.nat 0) ∧
    (icrc7CollectionMetadata start).lookup "icrc7:symbol" = some (.text "MC") ∧
    (icrc7CollectionMetadata start).lookup "icrc7:name" = some (.text "MyCollection") ∧
    (icrc7CollectionMetadata (after start [mint1])).lookup "icrc7:total_supply" = some (.nat 1) := by decide

/-- 1460 test_icrc7_tokens. -/
theorem test_icrc7_tokens : icrc7Tokens start none none = some [] ∧
    icrc7Tokens (after start [mint1]) none none = some [1] ∧
    icrc7Tokens (after start [mint1, mintNft (minute 30) owner2]) none none = some [1, 2] := by decide

/-- 1532 test_icrc7_tokens_of: a transfer moves the token from one list to the other. -/
theorem test_icrc7_tokens_of :
    icrc7TokensOf (after start [mint1]) owner1 none none = some [1] ∧
    icrc7TokensOf (after start [mint1, send (minute 30) p1 { to_ := owner2, tid := 1 }]) owner1 none none = some [] ∧
    icrc7TokensOf (after start [mint1, send (minute 30) p1 { to_ := owner2, tid := 1 }]) owner2 none none
      = some [1] := by decide

/-- 1635 test_icrc7_balance_of. -/
theorem test_icrc7_balance_of :
    icrc7BalanceOf (after start [mint1]) [owner1] = some [1] ∧
    icrc7BalanceOf (after start [mint1, send (minute 30) p1 { to_ := owner2, tid := 1 }]) [owner1, owner2]
      = some [0, 1] := by decide

def threeMints : List Msg := (List.range 3).map fun i => mintNft (minute (30 * i)) owner1

/-- 1710 test_icrc7_transfer_batch: three tokens in one call of a collection with
atomic batches. -/
theorem test_icrc7_transfer_batch :
    oks startAtomic (threeMints ++ [.call p1 (at_ (minute 90)) (.transfer
      [{ to_ := owner2, tid := 1 }, { to_ := owner2, tid := 2 }, { to_ := owner2, tid := 3 }])])
      = [true, true, true, true] ∧
    icrc7OwnerOf (after startAtomic (threeMints ++ [.call p1 (at_ (minute 90)) (.transfer
      [{ to_ := owner2, tid := 1 }, { to_ := owner2, tid := 2 }, { to_ := owner2, tid := 3 }])])) [1, 2, 3]
      = some [some owner2, some owner2, some owner2] := by decide

/-- 1774 test_icrc7_transfer_invalid_recipient: to the anonymous principal. -/
theorem test_icrc7_transfer_invalid_recipient :
    (play start [mint1, send (minute 30) p1 { to_ := ⟨anonymous, none⟩, tid := 1 }]).2.getLast?.bind firstErr
      = some .invalidRecipient := by decide

/-- A transfer in the thirtieth minute with the given creation time. -/
def timed (created : Nat) : List Msg := [mint1, send (minute 30) p1 { to_ := owner2, tid := 1, createdAt := some created }]

/-- 1833 test_icrc7_transfer_permitted_drift: 100 ms ahead is too far. -/
theorem test_icrc7_transfer_permitted_drift :
    (play start (timed (at_ (minute 30 + 100)))).2.getLast?.bind firstErr
      = some (.createdInFuture (at_ (minute 30))) := by decide

/-- 1895 test_icrc7_transfer_within_permitted_drift: 10 ms ahead is not. -/
theorem test_icrc7_transfer_within_permitted_drift :
    oks start (timed (at_ (minute 30 + 10))) = [true, true] := by decide

/-- 1961 test_icrc7_transfer_too_old: an hour ago. -/
theorem test_icrc7_transfer_too_old :
    (play start [mintNft 0 owner1, send (minute 120) p1 { to_ := owner2, tid := 1, createdAt := some (at_ (minute 60)) }]).2.getLast?.bind
      firstErr = some .tooOld := by decide

/-- 2023 test_icrc7_transfer_old_but_valid: five seconds ago. -/
theorem test_icrc7_transfer_old_but_valid :
    oks start (timed (at_ (minute 30 - 5000))) = [true, true] := by decide

/-- 2090 test_icrc7_transfer_batch_with_memo. -/
theorem test_icrc7_transfer_batch_with_memo :
    oks startAtomic (threeMints ++ [.call p1 (at_ (minute 90)) (.transfer
      ((List.range 3).map fun i => { to_ := owner2, tid := i + 1, memo := some [116, 101, 115, 116, UInt8.ofNat i] }))])
      = [true, true, true, true] := by decide

/-- 2159 test_icrc7_transfer_batch_with_subaccounts: to three subaccounts. -/
theorem test_icrc7_transfer_batch_with_subaccounts :
    icrc7OwnerOf (after startAtomic (threeMints ++ [.call p1 (at_ (minute 90)) (.transfer
      ((List.range 3).map fun i => { to_ := ⟨p2, some (List.replicate 32 (UInt8.ofNat i))⟩, tid := i + 1 }))])) [1, 2, 3]
      = some ((List.range 3).map fun i => some ⟨p2, some (List.replicate 32 (UInt8.ofNat i))⟩) := by decide

/-- 2252 test_icrc7_transfer_batch_with_time_constraints: creation times 0, 1, 2 ms
ahead. -/
theorem test_icrc7_transfer_batch_with_time_constraints :
    oks startAtomic (threeMints ++ [.call p1 (at_ (minute 90)) (.transfer
      ((List.range 3).map fun i => { to_ := owner2, tid := i + 1, createdAt := some (at_ (minute 90 + i)) }))])
      = [true, true, true, true] := by decide

/-- 2320 test_icrc7_transfer_max_memo_size: a memo of the default maximal length. -/
theorem test_icrc7_transfer_max_memo_size :
    oks start [mint1, send (minute 30) p1 { to_ := owner2, tid := 1, memo := some (List.replicate 32 0) }]
      = [true, true] := by decide

/-- 2388 test_icrc7_transfer_with_supply_cap: transfers at the cap succeed. -/
theorem test_icrc7_transfer_with_supply_cap :
    oks start (tenMints ++ [send (minute 300) p1 { to_ := owner2, tid := 10 }]) = List.replicate 11 true := by decide

/-- 2439 test_icrc7_transfer_chain. -/
theorem test_icrc7_transfer_chain :
    oks start [mint1, send (minute 30) p1 { to_ := owner2, tid := 1 }, send (minute 31) p2 { to_ := owner3, tid := 1 },
      send (minute 32) p3 { to_ := owner4, tid := 1 }] = [true, true, true, true] ∧
    icrc7OwnerOf (after start [mint1, send (minute 30) p1 { to_ := owner2, tid := 1 },
      send (minute 31) p2 { to_ := owner3, tid := 1 }, send (minute 32) p3 { to_ := owner4, tid := 1 }]) [1]
      = some [some owner4] := by decide

/-- 2544 test_icrc7_transfer_after_fail: a refused transfer does not stop the next. -/
theorem test_icrc7_transfer_after_fail :
    oks start [mint1, send (minute 30) p1 { to_ := ⟨anonymous, none⟩, tid := 1 },
      send (minute 31) p1 { to_ := owner2, tid := 1 }] = [true, false, true] ∧
    icrc7OwnerOf (after start [mint1, send (minute 30) p1 { to_ := ⟨anonymous, none⟩, tid := 1 },
      send (minute 31) p1 { to_ := owner2, tid := 1 }]) [1] = some [some owner2] := by decide

/-- 3225 test_icrc7_balance_of_comprehensive: a transfer, an approval and a transfer
by the approved spender. -/
def balances : List Msg :=
  [mint1, send (minute 30) p1 { to_ := owner2, tid := 1 }, approve (minute 31) p2 1 owner3,
   sendFrom (minute 32) p3 { from_ := owner2, to_ := owner3, tid := 1 }]

theorem test_icrc7_balance_of_comprehensive :
    ((play start balances).2.map fun r => (items r).map fun x => x.toOption) = [[], [some 2], [some 3], [some 4]] ∧
    icrc7BalanceOf (after start balances) [owner1, owner2, owner3] = some [0, 0, 1] ∧
    totalSupply (after start balances) = 1 := by decide

/-- 1198 test_icrc3_logs_metadata_updates: the update is recorded for the token. -/
theorem test_icrc3_logs_metadata_updates :
    oks start [mint1, .call controller (at_ (minute 30)) (.updateNftMetadata 1 [("name", .text "new")])]
      = [true, true] ∧
    icrc7TokenMetadata (after start [mint1, .call controller (at_ (minute 30))
      (.updateNftMetadata 1 [("name", .text "new")])]) [1] = some [some [("name", .text "new")]] := by decide

end Verif.Conformance
