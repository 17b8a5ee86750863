import Verif.Conformance.Setup
import Verif.Props.Chain
/-!
# index_suite/tests/test_index.rs on the model

Each theorem cites the test it runs; see `Setup` for what these files are for. The
collection's records are published as blocks (`Texts.chain`), and the ledger answers
every request of the index with the blocks it asked for. A burn is not part of the
tests, although one of them announces it.
-/
namespace Verif.Conformance

set_option maxRecDepth 20000

def parse : ParsePrincipal := ChainDemo.texts.parse

/-- Let the ledger answer until the call is finished (at most `fuel` requests). -/
def settle (log : List Tx) : Nat → Ix × IxOut → Ix × IxOut
  | 0, r => r
  | fuel + 1, (ix, .waiting i) =>
    match ix.tasks.get i with
    | none => (ix, .none)
    | some (_, f) =>
      let (a, n) := chunkRequest (f.chunks.headD [])
      let ids := (List.range' a n).filter fun j => decide (j < log.length)
      settle log fuel (ixStep parse ix (.resume 5 i (.ledger (ids.map fun j => ⟨j, ChainDemo.texts.chain log j⟩) [])))
  | _, r => r

/-- The index after a run of its job. -/
def indexed (log : List Tx) : Ix := (settle log 10 (ixStep parse Ix.fresh .tick)).1

/-- The ids of the blocks `get_blocks` answers. -/
def getBlocks (log : List Tx) (a : GetArgs) : Option (List Nat) :=
  match (settle log 10 (ixStep parse (indexed log) (.get a))).2 with
  | .response bs _ => some (bs.map Block.id)
  | _ => none

/-- `n` mints, a minute apart, to owner 1 and owner 2 in turn. -/
def mints (n : Nat) : List Msg := (List.range n).map fun i => mintNft (minute i) (if i % 2 == 0 then owner1 else owner2)

/-- Transfers of the first `n` of these tokens to the other owner. -/
def swaps (n : Nat) : List Msg := (List.range n).map fun i =>
  send (minute (100 + i)) (if i % 2 == 0 then p1 else p2) { to_ := if i % 2 == 0 then owner2 else owner1, tid := i + 1 }

/-- Updates of the metadata of the given tokens. -/
def updates (tids : List Nat) : List Msg := tids.map fun t =>
  .call controller (at_ (minute (200 + t))) (.updateNftMetadata t [("name", .text "Updated NFT")])

def logOf (s : State Nat) (ms : List Msg) : List Tx := (after s ms).log

def all (length : Nat) (sort : Option SortDir := none) : GetArgs := ⟨0, length, [], sort⟩

/-- 17 test_icrc7_transfer_simple_index. -/
theorem test_icrc7_transfer_simple_index : getBlocks (logOf start (mints 1)) (all 10) = some [0] := by decide

/-- 62 test_get_blocks_multiple_mints. -/
theorem test_get_blocks_multiple_mints : getBlocks (logOf start (mints 5)) (all 10) = some [0, 1, 2, 3, 4] := by decide

/-- 134 test_get_blocks_mints_and_transfers. -/
theorem test_get_blocks_mints_and_transfers :
    getBlocks (logOf start (mints 3 ++ swaps 3)) (all 20) = some (List.range 6) := by decide

/-- 236 test_get_blocks_mints_transfers_and_updates. -/
theorem test_get_blocks_mints_transfers_and_updates :
    getBlocks (logOf start (mints 2 ++ swaps 1 ++ updates [2])) (all 20) = some (List.range 4) := by decide

/-- 364 test_get_blocks_large_sequence. -/
theorem test_get_blocks_large_sequence :
    getBlocks (logOf start (mints 10 ++ swaps 5 ++ updates [6, 7, 8])) (all 50) = some (List.range 18) := by decide

/-- 496 test_get_blocks_pagination. -/
theorem test_get_blocks_pagination :
    getBlocks (logOf start (mints 8)) ⟨0, 3, [], none⟩ = some [0, 1, 2] ∧
    getBlocks (logOf start (mints 8)) ⟨3, 3, [], none⟩ = some [3, 4, 5] ∧
    getBlocks (logOf start (mints 8)) ⟨6, 3, [], none⟩ = some [6, 7] ∧
    getBlocks (logOf start (mints 8)) (all 20) = some (List.range 8) := by decide

/-- 630 test_get_blocks_with_real_filters. -/
theorem test_get_blocks_with_real_filters :
    getBlocks (logOf start (mints 3 ++ swaps 1)) ⟨0, 20, [.blockType "7mint"], none⟩ = some [0, 1, 2] ∧
    getBlocks (logOf start (mints 3 ++ swaps 1)) ⟨0, 20, [.blockType "7xfer"], none⟩ = some [3] := by decide

/-- 760 test_get_blocks_complex_filters_and_ordering. -/
def busyLog : List Tx := logOf start (mints 5 ++ swaps 3 ++ updates [1, 2] ++ [send (minute 300) p1 { to_ := owner2, tid := 5 }])

theorem test_get_blocks_complex_filters_and_ordering :
    getBlocks busyLog (all 20 (some .asc)) = some (List.range 11) ∧
    getBlocks busyLog (all 20 (some .desc)) = some (List.range 11).reverse ∧
    getBlocks busyLog ⟨0, 20, [.account owner1], some .asc⟩ = some [0, 2, 4, 5, 6, 7, 10] ∧
    getBlocks busyLog ⟨0, 20, [.account owner2], some .desc⟩ = some [10, 7, 6, 5, 3, 1] ∧
    getBlocks busyLog ⟨0, 20, [.blockType "7mint"], some .asc⟩ = some [0, 1, 2, 3, 4] ∧
    (getBlocks busyLog ⟨0, 20, [.blockType "7xfer"], some .desc⟩).map List.length = some 4 ∧
    getBlocks busyLog ⟨0, 20, [.account owner1, .blockType "7mint"], some .asc⟩ = some [0, 2, 4] ∧
    getBlocks busyLog ⟨1, 1, [.account owner1, .blockType "7mint"], some .asc⟩ = some [2] := by decide

def longLog : List Tx := logOf startNoLimit (mints 15 ++ swaps 5)

/-- 1177 test_get_blocks_descending_order_with_limit. The last line is what the test
asserts although it announces the *next* ten blocks (1374: `expected_last_block_id - 1
+ 10`): `start` is ignored (DESIGN.md, C44). -/
theorem test_get_blocks_descending_order_with_limit :
    getBlocks longLog (all 50 (some .desc)) = some (List.range 20).reverse ∧
    getBlocks longLog (all 10 (some .desc)) = some (List.range' 10 10).reverse ∧
    (getBlocks longLog ⟨10, 10, [], some .desc⟩).bind List.head? = some 19 := by decide

/-- 1400 test_get_blocks_filter_by_token_id. -/
theorem test_get_blocks_filter_by_token_id :
    getBlocks (logOf start (mints 5 ++ swaps 3)) (all 20) = some (List.range 8) ∧
    getBlocks (logOf start (mints 5 ++ swaps 3)) ⟨0, 20, [.tokenId 1], some .asc⟩ = some [0, 5] := by decide

end Verif.Conformance
