import Verif.Model.Client
/-!
# Specification of the command-line client
-/
namespace Verif.Spec

/-- The spellings of a permission: the label, the label without underscores, the
label with hyphens. -/
def spellings (p : Permission) : List (List Char) :=
  [(permissionLabel p).toList, (permissionLabel p).toList.filter (· ≠ '_'),
    (permissionLabel p).toList.map fun c => if c = '_' then '-' else c]

/-- Two strings are the same up to the case of ASCII letters. -/
def sameUpToCase (s s' : String) : Prop := s.toList.map Char.toLower = s'.toList.map Char.toLower

/-- The document has this field, with this value. -/
def HasField (kvs : List (String × Json)) (k : String) (v : Json) : Prop := (⟨kvs⟩ : Map String Json).get k = some v

/-- A string, if present. -/
def TextIfPresent (kvs : List (String × Json)) (k : String) : Prop := ∀ v, HasField kvs k v → ∃ s, v = .str s

/-- A well-formed attribute. -/
def GoodAttribute (j : Json) : Prop :=
  ∃ kvs, j = .obj kvs ∧ (∃ s, HasField kvs "trait_type" (.str s)) ∧ (∃ v, HasField kvs "value" v) ∧
    TextIfPresent kvs "display_type"

/-- A well-formed metadata document. -/
def GoodMetadata (j : Json) : Prop :=
  ∃ kvs, j = .obj kvs ∧ (∀ k ∈ ["name", "description", "image", "external_url"], TextIfPresent kvs k) ∧
    ∀ v, HasField kvs "attributes" v → ∃ l, v = .arr l ∧ ∀ a ∈ l, GoodAttribute a

/-- What is wrong with an attribute, in the client's words. -/
inductive AttributeFault : Json → String → Prop
  | shape {j : Json} (h : ∀ kvs, j ≠ .obj kvs) : AttributeFault j "must be an object"
  | noTrait {kvs : List (String × Json)} (h : ¬ ∃ v, HasField kvs "trait_type" v) :
    AttributeFault (.obj kvs) "must have 'trait_type' field"
  | trait {kvs : List (String × Json)} {v : Json} (h : HasField kvs "trait_type" v) (hv : ∀ s, v ≠ .str s) :
    AttributeFault (.obj kvs) "'trait_type' must be a string"
  | noValue {kvs : List (String × Json)} (h : ¬ ∃ v, HasField kvs "value" v) :
    AttributeFault (.obj kvs) "must have 'value' field"
  | display {kvs : List (String × Json)} {v : Json} (h : HasField kvs "display_type" v) (hv : ∀ s, v ≠ .str s) :
    AttributeFault (.obj kvs) "'display_type' must be a string"

/-- What is wrong with a document, in the client's words. An attribute is named by
its position, counted from 0, and it is the first one with a fault. -/
inductive MetadataFault : Json → String → Prop
  | shape {j : Json} (h : ∀ kvs, j ≠ .obj kvs) : MetadataFault j "Metadata must be a JSON object"
  | text {kvs : List (String × Json)} {k : String} {v : Json} (hk : k ∈ ["name", "description", "image", "external_url"])
    (h : HasField kvs k v) (hv : ∀ s, v ≠ .str s) : MetadataFault (.obj kvs) ("'" ++ k ++ "' field must be a string")
  | attributes {kvs : List (String × Json)} {v : Json} (h : HasField kvs "attributes" v) (hv : ∀ l, v ≠ .arr l) :
    MetadataFault (.obj kvs) "'attributes' field must be an array"
  | oneAttribute {kvs : List (String × Json)} {before after : List Json} {a : Json} {words : String}
    (h : HasField kvs "attributes" (.arr (before ++ a :: after))) (hb : ∀ b ∈ before, GoodAttribute b)
    (ha : AttributeFault a words) : MetadataFault (.obj kvs) ("Attribute " ++ toString before.length ++ " " ++ words)

end Verif.Spec
