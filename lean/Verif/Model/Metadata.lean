import Verif.Model.Icrc37
/-!
# types/metadata.rs: the stable metadata table

A `BTreeMap<String, Value>` is a `Map String Value`; `getAllData` lists it by
ascending key, as its iterator does. Reading a row back decodes what was
encoded when it was written: `Verif.Props.Codec` proves that this gives back the
same row, and that encoding panics exactly when a value is out of range.
-/
namespace Verif

mutual
/-- Values the encoder of types/value_custom.rs 25-66 accepts: `Nat`s fit `u64`,
`Int`s fit `i64`; everything else makes an `unwrap` panic. -/
def Value.inRange : Value → Bool
  | .blob _ => true
  | .text _ => true
  | .nat n => decide (n < U64)
  | .int i => decide (-9223372036854775808 ≤ i ∧ i < 9223372036854775808)
  | .array vs => Value.inRangeL vs
  | .map kvs => Value.inRangeM kvs
/-- All elements of an array value. types/value_custom.rs 50-56. -/
def Value.inRangeL : List Value → Bool
  | [] => true
  | v :: vs => v.inRange && Value.inRangeL vs
/-- All values of a map value. types/value_custom.rs 57-64. -/
def Value.inRangeM : List (String × Value) → Bool
  | [] => true
  | (_, v) :: kvs => v.inRange && Value.inRangeM kvs
end

/-- The stable table, keyed by token id. types/metadata.rs 13-15. -/
abbrev MetaTable := Map Nat (Map String Value)

/-- types/metadata.rs 108-127 `insert_data` (with `nft_id = Some(tid)`). `none`:
the key (types/wrapped_types.rs 33-41) or the value (types/value_custom.rs
38-47) does not fit 64 bits and the encoder panics. The values already stored
are in range, so only the new one is checked. -/
def insertData (t : MetaTable) (tid : Nat) (k : String) (v : Value) : Option MetaTable :=
  if decide (tid < U64) && v.inRange then
    some (t.set tid (((t.get tid).getD ∅).set k v))
  else none

/-- types/nft.rs 45-60 `add_metadata`. -/
def addMetadata : MetaTable → Nat → List (String × Value) → Option MetaTable
  | t, _, [] => some t
  | t, tid, (k, v) :: kvs =>
    match insertData t tid k v with
    | none => none
    | some t => addMetadata t tid kvs

/-- `Vec<(String, Value)>` collected into a `BTreeMap`: the last value of a
repeated key wins (types/nft.rs 71). -/
def collectMap (kvs : List (String × Value)) : Map String Value :=
  kvs.foldl (fun m kv => m.set kv.1 kv.2) ∅

/-- types/nft.rs 62-75 `replace_metadata` and types/metadata.rs 225-233
`replace_all_data`. -/
def replaceMetadata (t : MetaTable) (tid : Nat) (kvs : List (String × Value)) : Option MetaTable :=
  addMetadata (t.del tid) tid (collectMap kvs).entries

/-- Puts an entry before the first one whose key is not smaller. The order of `BTreeMap`
(external), as iterated in types/metadata.rs 37-60. -/
def insertKey (p : String × Value) : List (String × Value) → List (String × Value)
  | [] => [p]
  | q :: qs => if p.1 ≤ q.1 then p :: q :: qs else q :: insertKey p qs

/-- The entries of a `BTreeMap<String, Value>` in the order of its iterator: by
ascending key (types/metadata.rs 19; types/nft.rs 34-36 and 73 walk it). Rust
compares strings by their UTF-8 bytes, Lean by their code points; the two orders
agree. -/
def sortKeys (l : List (String × Value)) : List (String × Value) := l.foldr insertKey []

/-- types/metadata.rs 146-176 `get_all_data` for one token; `none` is the
"Data not found" error. -/
def getAllData (t : MetaTable) (tid : Nat) : Option (List (String × Value)) :=
  (t.get tid).map fun m => sortKeys m.entries

end Verif
