import Verif.Props.Codec
import Verif.Model.Index
/-!
# The unit tests of the repository on the model

src/index_icrc7/src/blocks.rs 630-703, src/core_nft/src/types/value_custom.rs 123-290
and src/index_icrc7/src/wrapped_values.rs 268-435 (the same tests as the second); see
`Setup` for what these files are for.
-/
namespace Verif.Conformance

/-- blocks.rs 634-702. -/
theorem test_group_consecutive_block_ids :
    groupConsecutive [] = [] ∧
    groupConsecutive [42] = [[42]] ∧
    groupConsecutive [1, 2, 3, 4, 5] = [[1, 2, 3, 4, 5]] ∧
    groupConsecutive [1, 3, 5, 7, 9] = [[1], [3], [5], [7], [9]] ∧
    groupConsecutive [1, 2, 3, 5, 6, 8, 9, 10] = [[1, 2, 3], [5, 6], [8, 9, 10]] ∧
    groupConsecutive [1, 2, 5, 6, 7, 10, 11, 15] = [[1, 2], [5, 6, 7], [10, 11], [15]] ∧
    groupConsecutive [1000, 1001, 1002, 2000, 2001, 3000] = [[1000, 1001, 1002], [2000, 2001], [3000]] ∧
    groupConsecutive [0, 1, 2, 3] = [[0, 1, 2, 3]] ∧
    groupConsecutive [5, 4, 3, 2, 1] = [[5], [4], [3], [2], [1]] := by decide

/-- What the tests of value_custom.rs check of a value. -/
def roundTrips (v : Value) : Prop := ∃ bs, encValue v = some bs ∧ valueOfBytes bs = some v

private theorem roundTrips_of {v : Value} (h : (encValue v).any (fun bs => decide (bs.length < 2 ^ 64)) = true)
    (hp : Spec.Proper v) : roundTrips v := by
  obtain ⟨bs, hb, hl⟩ := (Option.any_eq_true _ _).1 h
  exact ⟨bs, hb, C36_from_bytes hb hp (of_decide_eq_true hl)⟩

/-- 131 and 140, 149, 158: the scalars. -/
theorem test_roundtrip_scalars : roundTrips (.blob [1, 2, 3]) ∧ roundTrips (.text "hello") ∧ roundTrips (.nat 42) ∧
    roundTrips (.int (-42)) :=
  ⟨roundTrips_of (by decide) trivial, roundTrips_of (by decide) trivial, roundTrips_of (by decide) trivial,
    roundTrips_of (by decide) trivial⟩

/-- 167 test_roundtrip_array. -/
theorem test_roundtrip_array : roundTrips (.array [.text "one", .nat 2, .int (-3)]) :=
  roundTrips_of (by decide) (by simp [Spec.Proper, Spec.ProperL])

/-- 180 test_roundtrip_map. -/
theorem test_roundtrip_map : roundTrips (.map [("a", .nat 1), ("b", .text "value")]) :=
  roundTrips_of (by decide) (by simp [Spec.Proper, Spec.ProperM])

/-- 192 test_roundtrip_nested. -/
theorem test_roundtrip_nested : roundTrips (.array [.map [("nested", .int 123)], .text "end"]) :=
  roundTrips_of (by decide) (by simp [Spec.Proper, Spec.ProperL, Spec.ProperM])

/-- 208 test_map_with_array_values. -/
theorem test_map_with_array_values :
    roundTrips (.map [("list", .array [.nat 1, .text "two", .int (-3)]), ("text", .text "hello")]) :=
  roundTrips_of (by decide) (by simp [Spec.Proper, Spec.ProperL, Spec.ProperM])

/-- 228 test_array_with_map_elements. -/
theorem test_array_with_map_elements :
    roundTrips (.array [.map [("a", .nat 100), ("b", .text "value")], .text "middle", .map [("x", .int (-42))]]) :=
  roundTrips_of (by decide) (by simp [Spec.Proper, Spec.ProperL, Spec.ProperM])

/-- 249 test_deeply_nested_structure. -/
theorem test_deeply_nested_structure :
    roundTrips (.array [.text "start", .map [("level3", .array [.nat 7, .int (-8)])], .text "end"]) :=
  roundTrips_of (by decide) (by simp [Spec.Proper, Spec.ProperL, Spec.ProperM])

/-- 272 test_map_with_nested_map_and_array. -/
theorem test_map_with_nested_map_and_array :
    roundTrips (.map [("nested_array", .array [.map [("deep", .int 999)], .nat 123]),
      ("nested_map", .map [("deep", .int 999)]), ("simple", .text "test")]) :=
  roundTrips_of (by decide) (by simp [Spec.Proper, Spec.ProperL, Spec.ProperM])

end Verif.Conformance
