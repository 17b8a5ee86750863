import Verif.Conformance.Management
import Verif.Conformance.Icrc7
import Verif.Model.Web
/-!
# The tests of metadata in core_suite/tests/test_icrc7.rs, and test_icrc3.rs

Each theorem cites the test it runs; see `Setup` for what these files are for. The
documents the tests upload are given by their addresses; what the storage canister then
serves is outside the model.
-/
namespace Verif.Conformance

set_option maxRecDepth 40000

/-- utils.rs `create_default_icrc97_metadata`. -/
def icrc97 (url : String) : List (String × Value) := [("icrc97:metadata", .array [.text url])]

def update (n : Nat) (md : List (String × Value)) : Msg := .call controller (at_ n) (.updateNftMetadata 1 md)

/-- `icrc7_token_metadata` of the token. -/
def shown (s : State Nat) : Option (List (String × Value)) := ((icrc7TokenMetadata s [1]).bind List.head?).bind id

/-- 283 test_icrc7_token_metadata_multiple_insert and 504 …_dup_name: a document is
uploaded and the token points to it, twice. -/
theorem test_icrc7_token_metadata_multiple_insert :
    shown (after start ([mintNft 0 owner1 (icrc97 "/a.json")] ++ uploadFile 1000 "/b.json" 1 ++ [update 5000 (icrc97 "/b.json")]))
      = some [("icrc97:metadata", .array [.text "/b.json"])] ∧
    shown (after start ([mintNft 0 owner1 (icrc97 "/a.json")] ++ uploadFile 1000 "/b.json" 1 ++ [update 5000 (icrc97 "/b.json")] ++
      uploadFile 6000 "/c.json" 1 ++ [update 9000 (icrc97 "/c.json")]))
      = some [("icrc97:metadata", .array [.text "/c.json"])] := by decide

/-- 766 test_icrc7_transfer_with_metadata_updates: before and after a transfer. -/
def around : List Msg :=
  [mintNft 0 owner1 (icrc97 "/a.json"), update 1000 (icrc97 "/b.json"), send 2000 p1 { to_ := owner2, tid := 1 },
   update 3000 (icrc97 "/c.json")]

theorem test_icrc7_transfer_with_metadata_updates :
    oks start around = [true, true, true, true] ∧ icrc7OwnerOf (after start around) [1] = some [some owner2] ∧
    shown (after start around) = some [("icrc97:metadata", .array [.text "/c.json"])] := by decide

def plain : List (String × Value) :=
  [("name", .text "NFT with HashMap"), ("description", .text "Direct description without URL"),
   ("image", .text "https://example.com/image.png"), ("external_url", .text "https://example.com"),
   ("attributes", .array [.map [("trait_type", .text "Rarity"), ("value", .text "Legendary")],
     .map [("trait_type", .text "Level"), ("value", .nat 100)], .map [("trait_type", .text "Power"), ("value", .int 999)]])]

/-- 2622 test_icrc7_mint_with_hashmap_metadata: every entry is shown. -/
theorem test_icrc7_mint_with_hashmap_metadata :
    plain.all (fun e => ((shown (after start [mintNft 0 owner1 plain])).getD []).contains e) = true := by decide

def nested : List (String × Value) :=
  [("name", .text "Complex NFT"), ("description", .text "NFT with complex metadata"),
   ("image", .text "https://example.com/complex.png"), ("animation_url", .text "https://example.com/animation.mp4"),
   ("background_color", .text "000000"), ("youtube_url", .text "https://youtube.com/watch?v=example"),
   ("properties", .map [("category", .text "image"),
     ("files", .array [
       .map [("size", .nat 1024), ("type", .text "image/png"), ("uri", .text "https://example.com/file1.png")],
       .map [("size", .nat 2048), ("type", .text "video/mp4"), ("uri", .text "https://example.com/file2.mp4")]]),
     ("max_supply", .nat 1000), ("price", .int 1000000)]),
   ("attributes", .array [
     .map [("display_type", .text "boost_percentage"), ("trait_type", .text "Rarity"), ("value", .text "Epic")],
     .map [("max_value", .nat 100), ("trait_type", .text "Level"), ("value", .nat 50)],
     .map [("trait_type", .text "Power"), ("value", .int 500)],
     .map [("trait_type", .text "Element"), ("value", .text "Fire")]])]

/-- 2720 test_icrc7_mint_with_complex_hashmap_metadata. -/
theorem test_icrc7_mint_with_complex_hashmap_metadata :
    nested.all (fun e => ((shown (after start [mintNft 0 owner1 nested])).getD []).contains e) = true := by decide

def initial : List (String × Value) :=
  [("name", .text "Initial NFT"), ("description", .text "Initial description"), ("level", .nat 1)]

def updated : List (String × Value) :=
  [("name", .text "Updated NFT"), ("description", .text "Updated description"), ("level", .nat 10),
   ("new_attribute", .text "New value"), ("power", .int 100)]

/-- 2885 test_icrc7_mint_with_hashmap_and_update_metadata. -/
theorem test_icrc7_mint_with_hashmap_and_update_metadata :
    oks start [mintNft 0 owner1 initial, update 1000 updated] = [true, true] ∧
    initial.all (fun e => ((shown (after start [mintNft 0 owner1 initial])).getD []).contains e) = true ∧
    updated.all (fun e => ((shown (after start [mintNft 0 owner1 initial, update 1000 updated])).getD []).contains e) = true := by
  decide

def logged : List Msg :=
  [mintNft 0 owner1 [("name", .text "NFT ICRC3 Test"), ("description", .text "ICRC3 logs test with HashMap"),
     ("test_attribute", .text "test_value"), ("test_number", .nat 42)],
   update 1000 [("name", .text "NFT ICRC3 Updated"), ("description", .text "Updated description for ICRC3 test"),
     ("test_attribute", .text "new_value"), ("test_number", .nat 84)]]

/-- 3012 test_icrc7_mint_with_hashmap_and_icrc3_logs: the update is recorded with its
token, and the first entry shown is the one with the smallest key. -/
theorem test_icrc7_mint_with_hashmap_and_icrc3_logs :
    oks start logged = [true, true] ∧
    ((after start logged).log.map fun r => (r.op.name, r.tid)) = [("7mint", some 1), ("7update_token", some 1)] ∧
    (shown (after start logged)).bind List.head? = some ("description", .text "Updated description for ICRC3 test") := by
  decide

/-- test_icrc3.rs 101 test_icrc3_get_blocks_after_multiple_operations: five mints and
three transfers, in this order. -/
theorem test_icrc3_get_blocks_after_multiple_operations :
    ((after start ((List.range 5).map (fun i => mintNft (minute i) owner1) ++
      (List.range 3).map fun i => send (minute (10 + i)) p1 { to_ := owner2, tid := i + 1 })).log.map fun r => r.op.name)
      = List.replicate 5 "7mint" ++ List.replicate 3 "7xfer" := by decide

/-- test_icrc3.rs 356 test_icrc3_supported_block_types. -/
theorem test_icrc3_supported_block_types :
    ["7mint", "7burn", "7xfer", "7update_token"].all (fun b => supportedBlocks.contains b) = true := by decide

end Verif.Conformance
