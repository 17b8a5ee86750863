import Verif.Model.Index
/-!
# The command-line client

Files are in /repo/cmdline/src. Prompts, network calls and printing are left out; what
is modelled is what the client computes from its input.
-/
namespace Verif

/-! ## calls/uploads.rs -/

/-- calls/uploads.rs 84-91, the reads of `upload_file`: `File::read` returns at least
one byte unless the file is at its end, and at most what fits into the buffer;
`read i` is what the operating system is willing to give at the `i`-th read. Each pair
is the `chunk_id` and `chunk_data` of one `store_chunk` call (93-103). -/
def chunkLoop (chunk : Nat) (read : Nat → Nat) : Nat → Nat → Blob → List (Nat × Blob)
  | 0, _, _ => []
  | n + 1, i, rest =>
    let k := min (max 1 (read i)) (min chunk rest.length)
    if k = 0 then [] else (i, rest.take k) :: chunkLoop chunk read n (i + 1) (rest.drop k)

/-- calls/uploads.rs 52-105: the `store_chunk` calls of `upload_file`, if no call
fails. `none`: the client panics (division by a chunk size of zero, 82). -/
def uploadChunks (chunk : Nat) (read : Nat → Nat) (file : Blob) : Option (List (Nat × Blob)) :=
  if chunk = 0 then none
  else some (chunkLoop chunk read ((u64add file.length chunk + (U64 - 1)) % U64 / chunk) 0 file)

/-! ## calls/permissions.rs -/

/-- calls/permissions.rs 6-25 `parse_permission_from_str`. -/
def parsePermission (input : String) : Option Permission :=
  let s := lowercase input
  if s = "minting" then some .minting
  else if s = "manageauthorities" ∨ s = "manage_authorities" ∨ s = "manage-authorities" then some .manageAuthorities
  else if s = "updatemetadata" ∨ s = "update_metadata" ∨ s = "update-metadata" then some .updateMetadata
  else if s = "updatecollectionmetadata" ∨ s = "update_collection_metadata" ∨ s = "update-collection-metadata" then
    some .updateCollectionMetadata
  else if s = "readuploads" ∨ s = "read_uploads" ∨ s = "read-uploads" then some .readUploads
  else if s = "updateuploads" ∨ s = "update_uploads" ∨ s = "update-uploads" then some .updateUploads
  else none

/-- commands.rs 256-263: the labels printed. -/
def permissionLabel : Permission → String
  | .minting => "minting"
  | .manageAuthorities => "manage_authorities"
  | .updateMetadata => "update_metadata"
  | .updateCollectionMetadata => "update_collection_metadata"
  | .readUploads => "read_uploads"
  | .updateUploads => "update_uploads"

/-! ## metadata.rs -/

/-- `serde_json::Value`; numbers by their text, objects by their entries (the keys of
a `serde_json` object are unique). External crate, as used in cmdline/src/metadata.rs 16-254. -/
inductive Json where
  | null
  | bool (b : Bool)
  | num (s : String)
  | str (s : String)
  | arr (l : List Json)
  | obj (kvs : List (String × Json))
  deriving Repr

/-- `serde_json::Map::get`. Used in cmdline/src/metadata.rs 16-66. -/
def jsonGet (kvs : List (String × Json)) (k : String) : Option Json := (⟨kvs⟩ : Map String Json).get k

/-- `serde_json::Value::is_string`. Used in cmdline/src/metadata.rs 18-66. -/
def Json.isString : Json → Bool
  | .str _ => true
  | _ => false

/-- metadata.rs 17-39, each of the four tests: an error if the field is there and is
no string. -/
def checkText (kvs : List (String × Json)) (k : String) : Except String Unit :=
  match jsonGet kvs k with
  | some v => if v.isString then .ok () else .error ("'" ++ k ++ "' field must be a string")
  | none => .ok ()

/-- metadata.rs 46-69: one attribute. -/
def checkAttribute (i : Nat) : Json → Except String Unit
  | .obj kvs =>
    match jsonGet kvs "trait_type" with
    | none => .error ("Attribute " ++ Nat.repr i ++ " must have 'trait_type' field")
    | some t =>
      if !t.isString then .error ("Attribute " ++ Nat.repr i ++ " 'trait_type' must be a string")
      else
        match jsonGet kvs "value" with
        | none => .error ("Attribute " ++ Nat.repr i ++ " must have 'value' field")
        | some _ =>
          match jsonGet kvs "display_type" with
          | some d =>
            if d.isString then .ok () else .error ("Attribute " ++ Nat.repr i ++ " 'display_type' must be a string")
          | none => .ok ()
  | _ => .error ("Attribute " ++ Nat.repr i ++ " must be an object")

/-- metadata.rs 46-70: the loop over the attributes. -/
def checkAttributes : Nat → List Json → Except String Unit
  | _, [] => .ok ()
  | i, a :: as =>
    match checkAttribute i a with
    | .error e => .error e
    | .ok () => checkAttributes (i + 1) as

/-- metadata.rs 10-74 `validate_icrc97_metadata` (a copy is in utils.rs 31-95). -/
def validateMetadata : Json → Except String Unit
  | .obj kvs => do
    checkText kvs "name"
    checkText kvs "description"
    checkText kvs "image"
    checkText kvs "external_url"
    match jsonGet kvs "attributes" with
    | some (.arr l) => checkAttributes 0 l
    | some _ => .error "'attributes' field must be an array"
    | none => .ok ()
  | _ => .error "Metadata must be a JSON object"

/-- `metadata[k] = v` on an object. cmdline/src/metadata.rs 165-171. -/
def jsonSet (kvs : List (String × Json)) (k : String) (v : Json) : List (String × Json) :=
  ((⟨kvs⟩ : Map String Json).set k v).entries

/-- `if let Some(x) = o { metadata[k] = json!(x) }`. cmdline/src/metadata.rs 144-254. -/
def jsonSetOpt (kvs : List (String × Json)) (k : String) : Option String → List (String × Json)
  | some s => jsonSet kvs k (.str s)
  | none => kvs

/-- metadata.rs 237-250: one attribute of `create_icrc97_metadata`. -/
def createAttribute (a : String × Json × Option String) : Json :=
  .obj (jsonSetOpt [("trait_type", .str a.1), ("value", a.2.1)] "display_type" a.2.2)

/-- metadata.rs 216-254 `create_icrc97_metadata`. The order of the entries of an
object is not modelled (`serde_json` keeps them sorted by key). -/
def createMetadata (name description : String) (image external : Option String)
    (attributes : List (String × Json × Option String)) : Json :=
  let m := [("description", .str description), ("name", .str name)]
  let m := jsonSetOpt m "image" image
  let m := jsonSetOpt m "external_url" external
  .obj (if attributes.isEmpty then m else jsonSet m "attributes" (.arr (attributes.map createAttribute)))

/-! ## commands.rs: handle_mint -/

/-- `str::split` at a character. Standard library, used in cmdline/src/commands.rs 82 and 187. -/
def splitAt (c : Char) : List Char → List (List Char)
  | [] => [[]]
  | x :: xs =>
    if x = c then [] :: splitAt c xs
    else
      match splitAt c xs with
      | [] => [[x]]
      | p :: ps => (x :: p) :: ps

/-- The value of a decimal digit. Standard library, part of `parseU64` (cmdline/src/commands.rs
191). -/
def digitVal (c : Char) : Option Nat := if 48 ≤ c.toNat ∧ c.toNat ≤ 57 then some (c.toNat - 48) else none

/-- The value of a non-empty string of decimal digits. Standard library, part of `parseU64`
(cmdline/src/commands.rs 191). -/
def digitsVal : List Char → Option Nat
  | [] => none
  | l => l.foldl (fun acc c => match acc, digitVal c with | some n, some d => some (n * 10 + d) | _, _ => none) (some 0)

/-- `str::parse::<u64>`: an optional plus sign, then digits. Standard library, used in
cmdline/src/commands.rs 191 and metadata.rs 102. -/
def parseU64 (l : List Char) : Option Nat :=
  let l := match l with | '+' :: t => t | l => l
  match digitsVal l with
  | some n => if n < U64 then some n else none
  | none => none

/-- `str::parse::<i64>`: an optional sign, then digits. Standard library, used in
cmdline/src/commands.rs 195 and metadata.rs 109. -/
def parseI64 (l : List Char) : Option Int :=
  match l with
  | '-' :: t =>
    match digitsVal t with
    | some n => if n ≤ 2 ^ 63 then some (-(n : Int)) else none
    | none => none
  | l =>
    let l := match l with | '+' :: t => t | l => l
    match digitsVal l with
    | some n => if n < 2 ^ 63 then some (n : Int) else none
    | none => none

/-- commands.rs 189-201: the type of a value given on the command line. -/
def guessValue (l : List Char) : Value :=
  match parseU64 l with
  | some n => .nat n
  | none =>
    match parseI64 l with
    | some i => .int i
    | none => .text (String.ofList l)

/-- commands.rs 184-204: one `--metadata` entry. `none`: the entry is passed over. -/
def parseEntry (entry : String) : Option (String × Value) :=
  match splitAt ':' entry.toList with
  | k :: v :: _ => some (String.ofList k, guessValue v)
  | _ => none

/-- commands.rs 181-206: all of them. -/
def parseEntries (entries : List String) : List (String × Value) := entries.filterMap parseEntry

/-- metadata.rs 137-142 `create_icrc97_metadata_from_url`. -/
def metadataFromUrl (url : String) : List (String × Value) := [("icrc97:metadata", .array [.text url])]

end Verif
