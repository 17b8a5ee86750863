import Verif.Lemmas.Client
/-!
# C52–C54, C62, C85 The command-line client
-/
namespace Verif

open Spec

/-! ## C52 Chunked uploads reassemble -/

/-- If every read fills the buffer or reaches the end of the file, the chunks sent
are numbered from 0, there are `⌈size / chunk⌉` of them, all but the last have the
chunk size, none is empty or larger, and their concatenation is the file. Missing: a
file of almost 2^64 bytes, and an operating system that returns less than was asked
for (`C52_violated_short`). -/
theorem C52_reassemble_partial {chunk : Nat} {read : Nat → Nat} {file : Blob} (hc : 1 ≤ chunk)
    (hsize : file.length + chunk ≤ 2 ^ 64 - 1) (hread : ∀ i, chunk ≤ read i) :
    ∃ sent, uploadChunks chunk read file = some sent ∧
      sent.map Prod.fst = List.range sent.length ∧
      sent.length = (file.length + chunk - 1) / chunk ∧
      (∀ c ∈ sent, 1 ≤ c.2.length ∧ c.2.length ≤ chunk) ∧
      (∀ c ∈ sent.dropLast, c.2.length = chunk) ∧
      sent.flatMap Prod.snd = file := by
  have hn := upload_count (len := file.length) (chunk := chunk) (by omega) hsize
  refine ⟨_, by unfold uploadChunks; rw [if_neg (by omega), hn], ?_⟩
  have hany := chunkLoop_any chunk read ((file.length + chunk - 1) / chunk) 0 file
  have hfull := chunkLoop_full (by omega) hread ((file.length + chunk - 1) / chunk) 0 file (ceil_spec (by omega))
  obtain ⟨h1, h2, -, -⟩ := hany
  obtain ⟨f1, f2, f3, f4⟩ := hfull
  refine ⟨by rw [h1, List.range_eq_range'], ?_, fun c hm => ⟨?_, (h2 c hm).2⟩, f2, f1⟩
  · refine (Nat.div_eq_of_lt_le ?_ ?_).symm
    · omega
    · rw [Nat.succ_mul]; omega
  · have := (h2 c hm).1
    cases hcs : c.2 with
    | nil => exact absurd hcs this
    | cons _ _ => simp

/-- The hypotheses are met: five bytes in chunks of two. -/
example : ∃ sent, uploadChunks 2 (fun _ => 2) [1, 2, 3, 4, 5] = some sent ∧ sent = [(0, [1, 2]), (1, [3, 4]), (2, [5])] ∧
    sent.length = (5 + 2 - 1) / 2 := by
  obtain ⟨sent, h, -, hl, -⟩ := C52_reassemble_partial (chunk := 2) (read := fun _ => 2) (file := [1, 2, 3, 4, 5])
    (by decide) (by decide) (fun _ => Nat.le_refl 2)
  refine ⟨sent, h, ?_, hl⟩
  have h' : uploadChunks 2 (fun _ => 2) [1, 2, 3, 4, 5] = some [(0, [1, 2]), (1, [3, 4]), (2, [5])] := by decide
  rw [h'] at h
  exact (Option.some.inj h).symm

/-- Whatever the reads return, the chunks are numbered from 0, none is empty or larger
than the chunk size, there are at most `⌈size / chunk⌉`, and their concatenation is
the beginning of the file. -/
theorem C52_prefix {chunk : Nat} {read : Nat → Nat} {file : Blob} {sent : List (Nat × Blob)}
    (hsize : file.length + chunk ≤ 2 ^ 64 - 1) (h : uploadChunks chunk read file = some sent) :
    1 ≤ chunk ∧ sent.map Prod.fst = List.range sent.length ∧ sent.length ≤ (file.length + chunk - 1) / chunk ∧
      (∀ c ∈ sent, 1 ≤ c.2.length ∧ c.2.length ≤ chunk) ∧ sent.flatMap Prod.snd <+: file := by
  unfold uploadChunks at h
  split at h
  · cases h
  rename_i hc
  have hn := upload_count (len := file.length) (chunk := chunk) (by omega) hsize
  rw [hn] at h
  obtain rfl := Option.some.inj h
  obtain ⟨h1, h2, h3, h4⟩ := chunkLoop_any chunk read ((file.length + chunk - 1) / chunk) 0 file
  refine ⟨by omega, by rw [h1, List.range_eq_range'], h4, fun c hm => ⟨?_, (h2 c hm).2⟩, h3⟩
  have := (h2 c hm).1
  cases hcs : c.2 with
  | nil => exact absurd hcs this
  | cons _ _ => simp

/-- The hypotheses are met: a read that returns one byte of three. -/
example : ∃ sent, uploadChunks 3 (fun _ => 1) [1, 2, 3, 4] = some sent ∧ sent.length ≤ 2 ∧
    sent.flatMap Prod.snd <+: [1, 2, 3, 4] :=
  ⟨_, rfl, (C52_prefix (chunk := 3) (read := fun _ => 1) (file := [1, 2, 3, 4]) (by decide) rfl).2.2.1,
    (C52_prefix (chunk := 3) (read := fun _ => 1) (file := [1, 2, 3, 4]) (by decide) rfl).2.2.2.2⟩

/-- The full property fails: a read may return less than was asked for, but the number
of reads is fixed beforehand, so the end of the file is not sent. -/
theorem C52_violated_short :
    ¬ ∀ (chunk : Nat) (read : Nat → Nat) (file : Blob), 1 ≤ chunk → ∃ sent, uploadChunks chunk read file = some sent ∧
      sent.flatMap Prod.snd = file := by
  intro h
  obtain ⟨sent, hs, hf⟩ := h 3 (fun _ => 1) [1, 2, 3, 4] (by decide)
  have hw : uploadChunks 3 (fun _ => 1) [1, 2, 3, 4] = some [(0, [1]), (1, [2])] := by decide
  rw [hw] at hs
  obtain rfl := Option.some.inj hs
  exact absurd hf (by decide)

/-! ## C53 Client labels round-trip -/

/-- Every label printed is parsed back to its permission. -/
theorem C53_round_trip (p : Permission) : parsePermission (permissionLabel p) = some p := by
  cases p <;> decide

/-- Different permissions have different labels. -/
theorem C53_distinct {p q : Permission} (h : permissionLabel p = permissionLabel q) : p = q := by
  have := C53_round_trip p
  rw [h, C53_round_trip q] at this
  exact (Option.some.inj this).symm

example : permissionLabel .minting ≠ permissionLabel .readUploads := fun h => absurd (C53_distinct h) (by decide)

/-- Parsing ignores the case of letters. -/
theorem C53_case {s s' : String} (h : sameUpToCase s s') : parsePermission s = parsePermission s' := by
  unfold parsePermission
  rw [lowercase_congr h]

example : parsePermission "Manage_AUTHORITIES" = some .manageAuthorities :=
  (C53_case (s' := permissionLabel .manageAuthorities) (by unfold sameUpToCase; decide)).trans (C53_round_trip _)

/-- A word is parsed to a permission exactly if it is, up to case, one of the three
spellings of its label: with underscores, with hyphens, with neither. -/
theorem C53_exact {s : String} {p : Permission} :
    parsePermission s = some p ↔ s.toList.map Char.toLower ∈ spellings p := by
  rw [parsePermission_iff]
  constructor
  · intro h
    have := (map_lower_iff (spellings_plain p _ h)).1 rfl
    rw [this]; exact h
  · intro h
    have := (map_lower_iff (spellings_plain p _ h)).2 rfl
    rw [this]; exact h

/-- Any other word is rejected. -/
theorem C53_rejected {s : String} : parsePermission s = none ↔ ∀ p, s.toList.map Char.toLower ∉ spellings p := by
  constructor
  · intro h p hp
    rw [C53_exact.2 hp] at h
    cases h
  · intro h
    cases hp : parsePermission s with
    | none => rfl
    | some p => exact absurd (C53_exact.1 hp) (h p)

example : parsePermission "Update-Collection-Metadata" = some .updateCollectionMetadata ∧
    parsePermission "update-collection_metadata" = none ∧ parsePermission "mint" = none :=
  ⟨C53_exact.2 (by decide), C53_rejected.2 (by intro p; cases p <;> decide), C53_rejected.2 (by intro p; cases p <;> decide)⟩

/-- The names of the block types of the indexer are parsed back, whatever the case. -/
theorem C53_block_type {s : String} {t : BlockType} (h : sameUpToCase s t.name) : BlockType.parse s = some t := by
  rw [parse_iff, lowercase_congr h]
  cases t <;> decide

example : BlockType.parse "37APPROVE" = some .approve := C53_block_type (by unfold sameUpToCase; decide)

/-- Any other name is rejected. -/
theorem C53_block_rejected {s : String} : BlockType.parse s = none ↔ ∀ t : BlockType, lowercase s ≠ t.name := by
  constructor
  · intro h t ht
    rw [parse_iff.2 ht] at h
    cases h
  · intro h
    cases ht : BlockType.parse s with
    | none => rfl
    | some t => exact absurd (parse_iff.1 ht) (h t)

example : BlockType.parse "xfer" = none := C53_block_rejected.2 (by intro t; cases t <;> decide)

/-! ## C54 Metadata documents are validated -/

/-- A document is accepted exactly if it is well formed. -/
theorem C54_exact {j : Json} : validateMetadata j = .ok () ↔ GoodMetadata j := validateMetadata_iff

/-- The hypotheses of both directions are met. -/
example : GoodMetadata (.obj [("name", .str "a"), ("attributes", .arr [.obj [("trait_type", .str "size"), ("value", .num "3")]])]) ∧
    ¬ GoodMetadata (.obj [("name", .num "1")]) ∧ ¬ GoodMetadata (.arr []) :=
  ⟨C54_exact.1 rfl, fun h => absurd (C54_exact.2 h) (by intro h; cases h),
    fun h => absurd (C54_exact.2 h) (by intro h; cases h)⟩

/-- Every document the client creates is accepted, and has the fields it was created
from. -/
theorem C54_created (name description : String) (image external : Option String)
    (attributes : List (String × Json × Option String)) :
    validateMetadata (createMetadata name description image external attributes) = .ok () ∧
    ∃ kvs, createMetadata name description image external attributes = .obj kvs ∧
      HasField kvs "name" (.str name) ∧ HasField kvs "description" (.str description) ∧
      (∀ v, HasField kvs "image" v ↔ ∃ s, image = some s ∧ v = .str s) ∧
      (∀ v, HasField kvs "external_url" v ↔ ∃ s, external = some s ∧ v = .str s) ∧
      (∀ v, HasField kvs "attributes" v ↔ attributes ≠ [] ∧ v = .arr (attributes.map createAttribute)) := by
  have hget : ∀ (kvs : List (String × Json)) (k k' : String) (v : Json),
      (⟨jsonSet kvs k v⟩ : Map String Json).get k' = if k' = k then some v else (⟨kvs⟩ : Map String Json).get k' :=
    fun kvs k k' v => (Map.get_set _ _ _ _).trans (by simp [eq_comm (a := k)])
  have hopt : ∀ (kvs : List (String × Json)) (k k' : String) (o : Option String),
      (⟨jsonSetOpt kvs k o⟩ : Map String Json).get k' =
        if k' = k then (o.map Json.str).or ((⟨kvs⟩ : Map String Json).get k') else (⟨kvs⟩ : Map String Json).get k' := by
    intro kvs k k' o
    cases o with
    | none => simp [jsonSetOpt]
    | some s => simp only [jsonSetOpt, hget]; split <;> simp
  have hattr : ∀ a, GoodAttribute (createAttribute a) := by
    intro a
    refine ⟨_, rfl, ⟨a.1, ?_⟩, ⟨a.2.1, ?_⟩, ?_⟩
    · unfold HasField; rw [hopt, if_neg (by decide)]; rfl
    · unfold HasField; rw [hopt, if_neg (by decide)]; rfl
    · intro v hv
      unfold HasField at hv
      rw [hopt, if_pos rfl] at hv
      cases h : a.2.2 with
      | none => rw [h] at hv; exact absurd hv (by simp [Map.get, Map.getL])
      | some s => rw [h] at hv; exact ⟨s, by simpa using hv.symm⟩
  have key : ∃ kvs, createMetadata name description image external attributes = .obj kvs ∧
      HasField kvs "name" (.str name) ∧ HasField kvs "description" (.str description) ∧
      (∀ v, HasField kvs "image" v ↔ ∃ s, image = some s ∧ v = .str s) ∧
      (∀ v, HasField kvs "external_url" v ↔ ∃ s, external = some s ∧ v = .str s) ∧
      (∀ v, HasField kvs "attributes" v ↔ attributes ≠ [] ∧ v = .arr (attributes.map createAttribute)) := by
    have hif : ∀ (m : List (String × Json)) (k : String), (⟨if attributes.isEmpty then m else
        jsonSet m "attributes" (.arr (attributes.map createAttribute))⟩ : Map String Json).get k =
        if k = "attributes" ∧ attributes ≠ [] then some (.arr (attributes.map createAttribute))
        else (⟨m⟩ : Map String Json).get k := by
      intro m k
      cases attributes with
      | nil => simp
      | cons a l => simp [hget]
    refine ⟨_, rfl, ?_, ?_, fun v => ?_, fun v => ?_, fun v => ?_⟩
    all_goals unfold HasField; rw [hif, hopt, hopt]
    · simp [Map.get, Map.getL]
    · simp [Map.get, Map.getL]
    · cases image <;> simp [Map.get, Map.getL, eq_comm]
    · cases external <;> simp [Map.get, Map.getL, eq_comm]
    · cases attributes <;> simp [Map.get, Map.getL, eq_comm]
  refine ⟨?_, key⟩
  obtain ⟨kvs, hk, h1, h2, h3, h4, h5⟩ := key
  rw [C54_exact, hk]
  refine ⟨kvs, rfl, ?_, ?_⟩
  · intro k hm v hv
    simp only [List.mem_cons, List.not_mem_nil, or_false] at hm
    rcases hm with rfl | rfl | rfl | rfl
    · exact ⟨_, Option.some.inj (hv.symm.trans h1)⟩
    · exact ⟨_, Option.some.inj (hv.symm.trans h2)⟩
    · obtain ⟨s, -, hs⟩ := (h3 v).1 hv; exact ⟨s, hs⟩
    · obtain ⟨s, -, hs⟩ := (h4 v).1 hv; exact ⟨s, hs⟩
  · intro v hv
    refine ⟨_, ((h5 v).1 hv).2, ?_⟩
    intro a ha
    obtain ⟨b, -, rfl⟩ := List.mem_map.1 ha
    exact hattr b

example : validateMetadata (createMetadata "n" "d" none (some "u") [("size", .num "3", some "number")]) = .ok () :=
  (C54_created _ _ _ _ _).1

/-! ## C85 The client says what is wrong with a document -/

private theorem isString_false {v : Json} (h : v.isString = false) (s : String) : v ≠ .str s := by
  rintro rfl; cases h

private theorem checkText_error {kvs : List (String × Json)} {k msg : String} (h : checkText kvs k = .error msg) :
    ∃ v, HasField kvs k v ∧ (∀ s, v ≠ .str s) ∧ msg = "'" ++ k ++ "' field must be a string" := by
  unfold checkText at h
  split at h
  · rename_i v hv
    split at h
    · cases h
    · rename_i hs
      cases h
      exact ⟨v, hv, isString_false (by simpa using hs), rfl⟩
  · cases h

private theorem checkAttribute_error {i : Nat} {a : Json} {msg : String} (h : checkAttribute i a = .error msg) :
    ∃ words, AttributeFault a words ∧ msg = "Attribute " ++ toString i ++ " " ++ words := by
  have words : ∀ w w' : String, " " ++ w = w' → "Attribute " ++ Nat.repr i ++ w' = "Attribute " ++ toString i ++ " " ++ w := by
    rintro w w' rfl
    show _ = "Attribute " ++ Nat.repr i ++ " " ++ w
    simp only [String.append_assoc]
  unfold checkAttribute at h
  split at h
  · rename_i kvs
    split at h
    · rename_i ht
      cases h
      exact ⟨_, .noTrait (fun ⟨v, hv⟩ => nomatch (show jsonGet kvs "trait_type" = none from ht).symm.trans hv), words _ _ rfl⟩
    · rename_i t ht
      split at h
      · rename_i hs
        cases h
        exact ⟨_, .trait ht (isString_false (by simpa using hs)), words _ _ rfl⟩
      · split at h
        · rename_i hv
          cases h
          exact ⟨_, .noValue (fun ⟨v, hv'⟩ => nomatch (show jsonGet kvs "value" = none from hv).symm.trans hv'),
            words _ _ rfl⟩
        · split at h
          · rename_i d hd
            split at h
            · cases h
            · rename_i hs
              cases h
              exact ⟨_, .display hd (isString_false (by simpa using hs)), words _ _ rfl⟩
          · cases h
  · rename_i hno
    cases h
    exact ⟨_, .shape (fun kvs hk => hno kvs hk), words _ _ rfl⟩

private theorem checkAttributes_error {msg : String} : ∀ {l : List Json} {i : Nat}, checkAttributes i l = .error msg →
    ∃ before a after words, l = before ++ a :: after ∧ (∀ b ∈ before, GoodAttribute b) ∧ AttributeFault a words ∧
      msg = "Attribute " ++ toString (i + before.length) ++ " " ++ words
  | [], _, h => by cases h
  | a :: as, i, h => by
    unfold checkAttributes at h
    split at h
    · rename_i e he
      cases h
      obtain ⟨words, hf, hm⟩ := checkAttribute_error he
      exact ⟨[], a, as, words, rfl, (fun _ h => nomatch h), hf, hm⟩
    · rename_i ok hok
      obtain ⟨before, b, after, words, rfl, hb, hf, hm⟩ := checkAttributes_error h
      refine ⟨a :: before, b, after, words, rfl, ?_, hf, ?_⟩
      · intro x hx
        rcases List.mem_cons.1 hx with rfl | hx
        · exact checkAttribute_iff.1 hok
        · exact hb x hx
      · rw [hm]
        congr 3
        show Nat.repr _ = Nat.repr _
        congr 1
        simp only [List.length_cons]
        omega

/-- **C85.** If a document is refused, the message names a fault the document has. -/
theorem C85_reason {j : Json} {msg : String} (h : validateMetadata j = .error msg) : MetadataFault j msg := by
  unfold validateMetadata at h
  split at h
  · rename_i kvs
    have step : ∀ {k : String} {rest : Except String Unit}, k ∈ ["name", "description", "image", "external_url"] →
        (checkText kvs k >>= fun _ => rest) = .error msg → MetadataFault (.obj kvs) msg ∨ rest = .error msg := by
      intro k rest hk h
      cases hc : checkText kvs k with
      | error e =>
        rw [hc] at h
        cases h
        obtain ⟨v, hv, hs, rfl⟩ := checkText_error hc
        exact .inl (.text hk hv hs)
      | ok u => rw [hc] at h; exact .inr h
    rcases step (by simp) h with hf | h
    · exact hf
    rcases step (by simp) h with hf | h
    · exact hf
    rcases step (by simp) h with hf | h
    · exact hf
    rcases step (by simp) h with hf | h
    · exact hf
    split at h
    · rename_i l hl
      obtain ⟨before, a, after, words, rfl, hb, hf, rfl⟩ := checkAttributes_error h
      rw [Nat.zero_add]
      exact .oneAttribute hl hb hf
    · rename_i v hno hv
      cases h
      exact .attributes hv fun l hl => hno l hl
    · cases h
  · rename_i hno
    cases h
    exact .shape fun kvs hk => hno kvs hk

/-- **C85.** A fault excludes acceptance, so every message is about a document that is
refused. -/
theorem C85_faulty {j : Json} {msg : String} (h : MetadataFault j msg) : validateMetadata j ≠ .ok () := by
  intro hok
  obtain ⟨kvs', rfl, hT, hA⟩ := C54_exact.1 hok
  cases h with
  | shape h => exact h _ rfl
  | text hk h hv => obtain ⟨s, hs⟩ := hT _ hk _ h; exact hv s hs
  | attributes h hv => obtain ⟨l, hl, _⟩ := hA _ h; exact hv l hl
  | oneAttribute h hb ha =>
    obtain ⟨l, hl, hg⟩ := hA _ h
    cases hl
    obtain ⟨kvs, rfl, ⟨s, hs⟩, ⟨v, hv⟩, hd⟩ := hg _ (List.mem_append_right _ (List.mem_cons_self ..))
    cases ha with
    | shape h => exact h _ rfl
    | noTrait h => exact h ⟨_, hs⟩
    | trait h hv' => exact hv' s (Option.some.inj (h.symm.trans hs))
    | noValue h => exact h ⟨v, hv⟩
    | display h hv' => obtain ⟨s, hs⟩ := hd _ h; exact hv' s hs

/-- A document whose second attribute has no value. -/
example : ∃ msg, validateMetadata (.obj [("name", .str "a"), ("attributes", .arr [
      .obj [("trait_type", .str "size"), ("value", .num "3")], .obj [("trait_type", .str "colour")]])]) = .error msg ∧
    msg = "Attribute 1 must have 'value' field" := ⟨_, rfl, rfl⟩

/-! ## C62 Metadata given on the command line -/

/-- An entry `KEY:VALUE` without further colons is read as that key, with the value:
a natural number below 2^64 as a number, a negative number down to -2^63 as an
integer, and text containing anything but digits and signs as that text. Missing:
values containing a colon, entries without one. -/
theorem C62_entry_partial {k v : List Char} (hk : ':' ∉ k) (hv : ':' ∉ v) :
    ∃ x, parseEntry (String.ofList (k ++ ':' :: v)) = some (String.ofList k, x) ∧
      (∀ n : Nat, n < 2 ^ 64 → v = (toString n).toList → x = .nat n) ∧
      (∀ n : Nat, n ≤ 2 ^ 63 → v = '-' :: (toString n).toList → x = .int (-(n : Int))) ∧
      ((∃ c ∈ v, c.isDigit = false ∧ c ≠ '+' ∧ c ≠ '-') → x = .text (String.ofList v)) := by
  refine ⟨_, parseEntry_colon hk hv, fun n hn h => ?_, fun n hn h => ?_, fun ⟨c, hc, hd, h⟩ => guessValue_text ⟨c, hc, ?_, h⟩⟩
  · subst h; exact guessValue_nat hn
  · subst h; exact guessValue_neg hn
  · unfold digitVal
    rw [if_neg]
    intro h'
    have : c.isDigit = true := by
      simp only [Char.isDigit, Bool.and_eq_true, decide_eq_true_eq]
      exact ⟨h'.1, h'.2⟩
    rw [this] at hd; cases hd

example : parseEntry "size:12" = some ("size", .nat 12) ∧ parseEntry "t:-4" = some ("t", .int (-4)) ∧
    parseEntry "c:dark blue" = some ("c", .text "dark blue") := by
  obtain ⟨x, hx, h1, -⟩ := C62_entry_partial (k := "size".toList) (v := "12".toList) (by decide) (by decide)
  obtain ⟨y, hy, -, h2, -⟩ := C62_entry_partial (k := "t".toList) (v := "-4".toList) (by decide) (by decide)
  obtain ⟨z, hz, -, -, h3⟩ := C62_entry_partial (k := "c".toList) (v := "dark blue".toList) (by decide) (by decide)
  rw [h1 12 (by decide) (by decide)] at hx
  rw [h2 4 (by decide) (by decide)] at hy
  rw [h3 (by decide)] at hz
  exact ⟨hx, hy, hz⟩

/-- Entries are read in order, each on its own. -/
theorem C62_order (es es' : List String) : parseEntries (es ++ es') = parseEntries es ++ parseEntries es' := by
  unfold parseEntries
  rw [List.filterMap_append]

example : (parseEntries ["a:1", "b:2"]).map Prod.fst = (parseEntries ["a:1"] ++ parseEntries ["b:2"]).map Prod.fst := by
  rw [← C62_order]; rfl

/-- The full property fails: whatever follows a second colon is cut off. -/
theorem C62_violated_colon {k v : List Char} (hk : ':' ∉ k) (hv : ':' ∉ v) (rest : List Char) :
    parseEntry (String.ofList (k ++ ':' :: v ++ ':' :: rest)) = parseEntry (String.ofList (k ++ ':' :: v)) := by
  rw [parseEntry_colon hk hv]
  unfold parseEntry
  rw [String.toList_ofList, List.append_assoc, List.cons_append, splitAt_first hk, splitAt_first hv]

/-- An address is stored as its scheme. -/
example : parseEntry "image:https://origyn.com/1.png" = some ("image", .text "https") :=
  (C62_violated_colon (k := "image".toList) (v := "https".toList) (by decide) (by decide) "//origyn.com/1.png".toList).trans
    ((parseEntry_colon (by decide) (by decide)).trans (by rw [guessValue_text ⟨'h', by decide, by decide⟩]; simp))

/-- The full property fails: an entry without a colon is passed over without an
error. -/
theorem C62_violated_dropped {e : String} (h : ':' ∉ e.toList) : parseEntries [e] = [] := by
  unfold parseEntries
  rw [List.filterMap_cons, parseEntry_none h]
  rfl

example : parseEntries ["name=Rare", "size:3"] = [("size", .nat 3)] := by
  have h : parseEntry "size:3" = some ("size", .nat 3) :=
    (parseEntry_colon (k := "size".toList) (v := "3".toList) (by decide) (by decide)).trans
      (by rw [show "3".toList = (Nat.repr 3).toList by decide, guessValue_nat (by decide)]; simp)
  have hd : parseEntries ["name=Rare"] = [] := C62_violated_dropped (by decide)
  rw [show ["name=Rare", "size:3"] = ["name=Rare"] ++ ["size:3"] from rfl, C62_order, hd]
  simp [parseEntries, h]

end Verif
