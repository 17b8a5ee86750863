import Verif.Model.Client
import Verif.Model.System
import Verif.Model.Queries
import Verif.Model.Codec
/-!
# The commands of the command-line client

Files are in /repo/cmdline/src. Reading the command line (`clap`), the files and the
network layer (`ic_agent`) are left out: the functions below start from the parsed
arguments, the lines typed by the user and the outcomes of calls.
-/
namespace Verif

/-! ## calls/uploads.rs: the upload command -/

/-- The calls of calls/uploads.rs 10-50. `hash` is the hexadecimal SHA-256 of the
file. -/
inductive ClientCall where
  | init (path : String) (size chunk : Nat) (hash : String)
  | store (path : String) (id : Nat) (data : Blob)
  | finalize (path : String)
  deriving DecidableEq, Repr

/-- What `call_and_wait` gives: an error (rejected, trapped, not delivered), or the
reply of the method. The results used in cmdline/src/calls/mint.rs 8-35 and calls/uploads.rs
10-51; the agent is an external crate. -/
inductive Outcome where
  | failed
  | reply (r : Except MgmtErr MgmtOk)

/-- calls/uploads.rs 10-32, `init` and `store`: the reply is not decoded, so every
reply counts as success. -/
def Outcome.passes : Outcome → Bool
  | .failed => false
  | .reply _ => true

/-- calls/uploads.rs 34-50 `finalize`: the reply is decoded. `urlOf` is `Url::parse`. -/
def Outcome.url (urlOf : String → Option String) : Outcome → Option String
  | .reply (.ok (.url u)) => urlOf u
  | _ => none

/-- Calls made one after the other until one fails (the `?` operator). `serve` is what
happens outside: a call changes the world and has an outcome. cmdline/src/calls/uploads.rs
53-115. -/
def sendAll {W : Type} (serve : W → ClientCall → W × Outcome) (w : W) :
    List ClientCall → W × List (ClientCall × Outcome) × Bool
  | [] => (w, [], true)
  | c :: cs =>
    match serve w c with
    | (w, o) =>
      if o.passes then
        match sendAll serve w cs with
        | (w, l, b) => (w, (c, o) :: l, b)
      else (w, [(c, o)], false)

/-- calls/uploads.rs 52-115 `upload_file`: the calls made with their outcomes, and the
address it reports; `none` is an error (or the panic for a chunk size of zero, 82). The
file is read in full for its hash and a second time for the chunks; it is taken not to
change meanwhile, and reading it not to fail. -/
def uploadFile {W : Type} (serve : W → ClientCall → W × Outcome) (hash : Blob → String)
    (urlOf : String → Option String) (chunk : Nat) (read : Nat → Nat) (file : Blob) (path : String) (w : W) :
    W × List (ClientCall × Outcome) × Option String :=
  match sendAll serve w (.init path file.length chunk (hash file) ::
      ((uploadChunks chunk read file).getD []).map fun c => .store path c.1 c.2) with
  | (w, l, false) => (w, l, none)
  | (w, l, true) =>
    if chunk = 0 then (w, l, none)
    else
      match serve w (.finalize path) with
      | (w, o) => (w, l ++ [(.finalize path, o)], o.url urlOf)

/-- The method called. The collection passes the chunk size, the hash and the data on to
the storage canister. cmdline/src/calls/uploads.rs 10-51, calls/mint.rs 8-35;
updates/management.rs 373-508. -/
def ClientCall.toCall : ClientCall → Call
  | .init path size _ _ => .initUpload path size
  | .store path _ _ => .storeChunk path
  | .finalize path => .finalizeUpload path

/-- A call that is handled by a collection in state `s`: at time `now` it is received,
at `now'` the answer it waits for arrives. No repo code of its own: the network between
cmdline/src/calls/uploads.rs 10-51 and updates/management.rs 373-508. -/
def serveCall {H : Type} (E : Env H) (c : Principal) (now now' : Nat) (ans : Answer) (s : State H) (call : ClientCall) :
    State H × Outcome :=
  match step E s (.call c now call.toCall) with
  | (s, .suspended) =>
    match step E s (.resume now' (s.pending.length - 1) ans) with
    | (s, .mgmt r) => (s, .reply r)
    | (s, _) => (s, .failed)
  | (s, .mgmt r) => (s, .reply r)
  | (s, _) => (s, .failed)

/-- What surrounds the `k`-th call: the messages the collection handles before it, its
times, the answers of the storage canisters. No repo code of its own: the schedule around
cmdline/src/calls/uploads.rs 53-115. -/
structure Round where
  before : List Msg := []
  now : Nat := 0
  now' : Nat := 0
  ans : Answer := {}

/-- The collection as the world of the client: its state and the number of calls made. No repo
code of its own: the network between cmdline/src/calls/uploads.rs 53-115 and
updates/management.rs 373-508. -/
def collServe {H : Type} (E : Env H) (c : Principal) (rounds : Nat → Round) (w : State H × Nat) (call : ClientCall) :
    (State H × Nat) × Outcome :=
  let r := rounds w.2
  let x := serveCall E c r.now r.now' r.ans (run E w.1 r.before) call
  ((x.1, w.2 + 1), x.2)

/-- commands.rs 119-151 `handle_upload_metadata`: the document is checked and uploaded
under its hash. `parse` is `serde_json::from_str` on the content of the file, `none` if it
is not UTF-8 or no JSON. -/
def uploadMetadata {W : Type} (serve : W → ClientCall → W × Outcome) (hash : Blob → String)
    (urlOf : String → Option String) (parse : Blob → Option Json) (chunk : Nat) (read : Nat → Nat) (file : Blob) (w : W) :
    W × List (ClientCall × Outcome) × Option String :=
  match parse file with
  | none => (w, [], none)
  | some j =>
    match validateMetadata j with
    | .error _ => (w, [], none)
    | .ok () => uploadFile serve hash urlOf chunk read file ("/" ++ hash file ++ ".json") w

/-! ## commands.rs 61-117: handle_create_metadata -/

/-- Remove one sign. Standard library, part of the parsing at cmdline/src/commands.rs 85. -/
def dropSign : List Char → List Char
  | '+' :: l => l
  | '-' :: l => l
  | l => l

/-- The words `str::parse::<f64>` takes for infinity and for NaN. Standard library, used at
cmdline/src/commands.rs 85 and metadata.rs 184. -/
def isSpecialFloat (l : List Char) : Bool :=
  let w := lowercase (String.ofList (dropSign l))
  w = "inf" ∨ w = "infinity" ∨ w = "nan"

/-- A decimal digit. Standard library, part of the parsing at cmdline/src/commands.rs 85. -/
def isDig (c : Char) : Bool := (digitVal c).isSome

/-- The exponent of a decimal number. Standard library, part of the parsing at
cmdline/src/commands.rs 85. -/
def isExponent : List Char → Bool
  | [] => true
  | c :: l =>
    if c = 'e' ∨ c = 'E' then
      let d := dropSign l
      !d.isEmpty && d.all isDig
    else false

/-- The other strings `str::parse::<f64>` takes: an optional sign, digits with an
optional point, at least one digit, an optional exponent. Standard library, used at
cmdline/src/commands.rs 85 and metadata.rs 184. -/
def isDecimal (l : List Char) : Bool :=
  let l := dropSign l
  let ip := l.takeWhile isDig
  let r := l.dropWhile isDig
  match r with
  | '.' :: r =>
    (!ip.isEmpty || !(r.takeWhile isDig).isEmpty) && isExponent (r.dropWhile isDig)
  | r => !ip.isEmpty && isExponent r

/-- commands.rs 85-89, the part for numbers: `parse::<f64>` and then `json!`, which makes
`null` of infinities and NaN. `shown` gives the text of the closest double of a decimal
number, `none` if that is infinite. -/
def floatJson (shown : List Char → Option String) (l : List Char) : Option Json :=
  if isSpecialFloat l then some .null
  else if isDecimal l then
    some (match shown l with
      | some t => .num t
      | none => .null)
  else none

/-- commands.rs 85-89. -/
def attributeValue (shown : List Char → Option String) (l : List Char) : Json :=
  match floatJson shown l with
  | some j => j
  | none => .str (String.ofList l)

/-- commands.rs 82-96: one `--attribute`. `none`: it is passed over. -/
def parseAttribute (shown : List Char → Option String) (entry : String) : Option (String × Json × Option String) :=
  match splitAt ':' entry.toList with
  | t :: v :: rest => some (String.ofList t, attributeValue shown v, rest.head?.map String.ofList)
  | _ => none

/-- commands.rs 69-109 and 111-112, without `--interactive`: the document written, or an
error. The case without name and description is a dialogue, `createDialog`. -/
def createCommand (shown : List Char → Option String) (name description image external : Option String)
    (attributes : List String) : Except String Json :=
  match name with
  | none => .error "Name is required in non-interactive mode (use --interactive for interactive mode)"
  | some name =>
    match description with
    | none => .error "Description is required in non-interactive mode (use --interactive for interactive mode)"
    | some description =>
      let m := createMetadata name description image external (attributes.filterMap (parseAttribute shown))
      match validateMetadata m with
      | .error e => .error e
      | .ok () => .ok m

/-! ## prompts.rs (a copy is in utils.rs 97-166) -/

/-- `char::is_whitespace`. Standard library, part of `trim` (cmdline/src/prompts.rs 8). -/
def isSpace (c : Char) : Bool :=
  let n := c.toNat
  (9 ≤ n ∧ n ≤ 13) ∨ n = 32 ∨ n = 0x85 ∨ n = 0xA0 ∨ n = 0x1680 ∨ (0x2000 ≤ n ∧ n ≤ 0x200A) ∨ n = 0x2028 ∨ n = 0x2029 ∨
    n = 0x202F ∨ n = 0x205F ∨ n = 0x3000

/-- `str::trim`. Standard library, used at cmdline/src/prompts.rs 8. -/
def trim (s : String) : String :=
  String.ofList ((s.toList.dropWhile isSpace).reverse.dropWhile isSpace).reverse

/-- prompts.rs 3-9 `prompt_input`: the next line; at the end of the input `read_line`
gives an empty line, again and again. -/
def promptInput : List String → String × List String
  | [] => ("", [])
  | l :: ls => (trim l, ls)

/-- prompts.rs 11-18 `prompt_optional`. -/
def promptOptional (ls : List String) : Option String × List String :=
  let r := promptInput ls
  (if r.1 = "" then none else some r.1, r.2)

/-- prompts.rs 20-29 `prompt_bool`: asks until the answer is yes or no. `none`: at the end
of the input it asks forever. -/
def promptBool : List String → Option (Bool × List String)
  | [] => none
  | l :: ls =>
    let x := lowercase (trim l)
    if x = "y" ∨ x = "yes" then some (true, ls)
    else if x = "n" ∨ x = "no" then some (false, ls)
    else promptBool ls

/-- prompts.rs 32-50 `prompt_display_type(true)`. -/
def promptNumberType : List String → Option String × List String
  | [] => (none, [])
  | l :: ls =>
    let x := trim l
    if x = "1" then (some "number", ls)
    else if x = "2" then (some "boost_number", ls)
    else if x = "3" then (some "boost_percentage", ls)
    else if x = "4" then (some "date", ls)
    else if x = "5" ∨ x = "" then (none, ls)
    else promptNumberType ls

/-- prompts.rs 51-71 `prompt_display_type(false)`. -/
def promptTextType : List String → Option String × List String
  | [] => (none, [])
  | l :: ls =>
    let x := trim l
    if x = "1" ∨ x = "" then (none, ls)
    else if x = "2" then promptOptional ls
    else promptTextType ls

/-! ## metadata.rs: the dialogues -/

/-- metadata.rs 184-190: the value as JSON, and the question for the display type of a
number or of a text. -/
def dialogType (shown : List Char → Option String) (v : String) (ls : List String) : Json × Option String × List String :=
  match floatJson shown v.toList with
  | some j => (j, promptNumberType ls)
  | none => (.str v, promptTextType ls)

/-- metadata.rs 169-206, the loop over the attributes; `none`: the dialogue never ends.
Every round with a trait takes a line of the input, so `fuel` rounds are enough if there
are no more lines than that. -/
def dialogAttributes (shown : List Char → Option String) :
    Nat → List String → Option (List (String × Json × Option String) × List String)
  | 0, ls => some ([], ls)
  | fuel + 1, ls =>
    match promptInput ls with
    | (t, ls) =>
      if t = "" then some ([], ls)
      else
        match promptInput ls with
        | (v, ls) =>
          match dialogType shown v ls with
          | (j, d, ls) =>
            match promptBool ls with
            | none => none
            | some (false, ls) => some ([(t, j, d)], ls)
            | some (true, ls) =>
              match dialogAttributes shown fuel ls with
              | none => none
              | some (l, ls) => some ((t, j, d) :: l, ls)

/-- metadata.rs 144-214 `create_metadata_interactive`, which builds its document by the
same statements as `create_icrc97_metadata`; then commands.rs 109. `none`: it never
ends. -/
def createDialog (shown : List Char → Option String) (ls : List String) : Option (Except String Json) :=
  match promptInput ls with
  | (name, ls) =>
    if name = "" then some (.error "Name is required")
    else
      match promptInput ls with
      | (description, ls) =>
        if description = "" then some (.error "Description is required")
        else
          match promptOptional ls with
          | (image, ls) =>
            match promptOptional ls with
            | (external, ls) =>
              match promptBool ls with
              | none => none
              | some (more, ls) =>
                match (if more then (dialogAttributes shown ls.length ls).map Prod.fst else some []) with
                | none => none
                | some attributes =>
                  let m := createMetadata name description image external attributes
                  some (match validateMetadata m with
                    | .error e => .error e
                    | .ok () => .ok m)

/-- metadata.rs 93-124: one value. `none`: the text cannot be read, the command stops.
`b64` is the base64 decoder. -/
def dialogValue (b64 : String → Option Blob) (ls : List String) : Option Value × List String :=
  match promptInput ls with
  | (kind, ls) =>
    match promptInput ls with
    | (x, ls) =>
      if kind = "1" then (some (.text x), ls)
      else if kind = "2" then ((parseU64 x.toList).map fun n => .nat n, ls)
      else if kind = "3" then ((parseI64 x.toList).map fun n => .int n, ls)
      else if kind = "4" then ((b64 x).map fun b => .blob b, ls)
      else (some (.text x), ls)

/-- metadata.rs 76-135 `create_metadata_interactive_hashmap`. `none`: the dialogue never
ends; `some none`: it stops with an error. -/
def dialogEntries (b64 : String → Option Blob) : Nat → List String → Option (Option (List (String × Value)))
  | 0, _ => some (some [])
  | fuel + 1, ls =>
    match promptInput ls with
    | (key, ls) =>
      if key = "" then some (some [])
      else
        match dialogValue b64 ls with
        | (none, _) => some none
        | (some v, ls) =>
          match promptBool ls with
          | none => none
          | some (false, _) => some (some [(key, v)])
          | some (true, ls) => (dialogEntries b64 fuel ls).map fun o => o.map fun l => (key, v) :: l

/-- The whole dialogue: every round takes a line, so the number of lines bounds the
rounds. cmdline/src/commands.rs 153-223 and metadata.rs 76-135. -/
def mintDialog (b64 : String → Option Blob) (ls : List String) : Option (Option (List (String × Value))) :=
  dialogEntries b64 ls.length ls

/-! ## commands.rs 153-223: handle_mint -/

/-- The value of a hexadecimal digit. External crate, part of `hex::decode`
(cmdline/src/commands.rs 166). -/
def hexVal (c : Char) : Option Nat :=
  let n := c.toNat
  if 48 ≤ n ∧ n ≤ 57 then some (n - 48)
  else if 97 ≤ n ∧ n ≤ 102 then some (n - 87)
  else if 65 ≤ n ∧ n ≤ 70 then some (n - 55)
  else none

/-- `hex::decode` (external crate): two digits per byte. Called at cmdline/src/commands.rs 166. -/
def hexDecode : List Char → Option Blob
  | [] => some []
  | [_] => none
  | a :: b :: l =>
    match hexVal a, hexVal b, hexDecode l with
    | some x, some y, some r => some (UInt8.ofNat (x * 16 + y) :: r)
    | _, _, _ => none

/-- commands.rs 165-175: outer `none` is an error. -/
def parseSubaccount : Option String → Option (Option Subaccount)
  | none => some none
  | some t =>
    match hexDecode t.toList with
    | none => none
    | some b => if b.length ≠ 32 then none else some (some b)

/-- commands.rs 153-219 `handle_mint` up to the call, and the request of calls/mint.rs
16-22. `none` is an error. `principalOf` is `Principal::from_text`; `dialog` is the
outcome of the dialogue if `--interactive` is given. The argument `name` is read but
not used (159). -/
def mintCommand (principalOf : String → Option Principal) (owner _name : String) (memo sub url : Option String)
    (dialog : Option (List (String × Value))) (entries : List String) : Option (List MintReq) :=
  match principalOf owner with
  | none => none
  | some p =>
    match parseSubaccount sub with
    | none => none
    | some sub =>
      let metadata :=
        match url, dialog with
        | some u, _ => metadataFromUrl u
        | none, some l => l
        | none, none => parseEntries entries
      some [{ owner := ⟨p, sub⟩, memo := memo.map utf8, metadata := metadata }]

/-- calls/mint.rs 24-36 and commands.rs 212-222: the request is sent, and the command
prints the id answered, or an error (`none`). `lost`: the collection handles the call, but
the client does not get to see the reply. -/
def runMint {H : Type} (E : Env H) (c : Principal) (now : Nat) (lost : Bool) (s : State H) :
    Option (List MintReq) → State H × Option Nat
  | none => (s, none)
  | some reqs =>
    match step E s (.call c now (.mint reqs)) with
    | (s', .mgmt (.ok (.id tid))) => (s', if lost then none else some tid)
    | (s', _) => (s', none)

/-! ## commands.rs: permissions -/

/-- commands.rs 230-276: the subcommands of `permissions`, with their arguments. -/
inductive PermCommand where
  | grant (principal permission : String)
  | revoke (principal permission : String)
  | list (principal : String)
  | has (principal permission : String)

/-- commands.rs 252-268: the lines printed for a list of permissions. -/
def permissionLines (l : List Permission) : List String :=
  if l.isEmpty then ["No permissions"] else "Permissions:" :: l.map fun p => "- " ++ permissionLabel p

/-- commands.rs 225-281 `handle_permissions` and calls/permissions.rs 27-108, run against
a collection: the state after it and the lines printed, or an error (`none`).
`principalOf` is `Principal::from_text`; `lost` as for `runMint`. -/
def runPermissions {H : Type} (principalOf : String → Option Principal) (E : Env H) (c : Principal) (now : Nat)
    (lost : Bool) (s : State H) : PermCommand → State H × Option (List String)
  | .grant p x =>
    match principalOf p, parsePermission x with
    | some p, some x =>
      match step E s (.call c now (.grant p x)) with
      | (s', .mgmt (.ok _)) => (s', if lost then none else some ["Permission granted successfully"])
      | (s', _) => (s', none)
    | _, _ => (s, none)
  | .revoke p x =>
    match principalOf p, parsePermission x with
    | some p, some x =>
      match step E s (.call c now (.revoke p x)) with
      | (s', .mgmt (.ok _)) => (s', if lost then none else some ["Permission revoked successfully"])
      | (s', _) => (s', none)
    | _, _ => (s, none)
  | .list p =>
    match principalOf p with
    | some p =>
      match getUserPermissions s c p with
      | some (some l) => (s, if lost then none else some (permissionLines l))
      | _ => (s, none)
    | none => (s, none)
  | .has p x =>
    match principalOf p, parsePermission x with
    | some p, some x =>
      match hasPermissionQuery s c p x with
      | some b => (s, if lost then none else some [if b then "true" else "false"])
      | none => (s, none)
    | _, _ => (s, none)

end Verif
