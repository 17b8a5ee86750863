import Verif.Model.Metadata
/-!
# Byte encodings of what is kept in stable memory

`minicbor` 1.0.0 and `minicbor-derive` 0.17.0 are external crates; the part of
them the project uses is written out here from the CBOR format (RFC 8949) they
implement: definite lengths only, shortest heads when writing, any head when
reading. Reading returns `none` for every error or panic. An encoder returns
`none` where the code panics.

`Verif.Props.Codec` proves that what is written is read back, byte for byte.
-/
namespace Verif

/-- `Vec<u8>`, the stored form (`Cow<[u8]>`) of types/wrapped_types.rs 33-167 and types/value_custom.rs 1-117. -/
abbrev Bytes := List UInt8

/-! ## CBOR items -/

/-- `k` bytes of `n`, most significant first (`to_be_bytes`). Standard library, inside minicbor
(external) as used in types/value_custom.rs 25-66. -/
def beBytes : Nat → Nat → Bytes
  | 0, _ => []
  | k + 1, n => UInt8.ofNat (n / 256 ^ k) :: beBytes k n

/-- `from_be_bytes`. Standard library, inside minicbor (external) as used in
types/value_custom.rs 68-117. -/
def beNat (bs : Bytes) : Nat := bs.foldl (fun a b => a * 256 + b.toNat) 0

/-- The head of an item of major type `major` with argument `n`: minicbor's
`type_len`, and `u8`/`u32`/`u64` for major type 0. External crate, called from
types/value_custom.rs 25-66 and types/metadata.rs 37-60. -/
def head (major n : Nat) : Bytes :=
  if n < 24 then [UInt8.ofNat (major * 32 + n)]
  else if n < 256 then UInt8.ofNat (major * 32 + 24) :: beBytes 1 n
  else if n < 65536 then UInt8.ofNat (major * 32 + 25) :: beBytes 2 n
  else if n < 4294967296 then UInt8.ofNat (major * 32 + 26) :: beBytes 4 n
  else UInt8.ofNat (major * 32 + 27) :: beBytes 8 n

/-- The next `k` bytes. Inside minicbor (external), called from types/value_custom.rs 68-117. -/
def readN (k : Nat) (bs : Bytes) : Option (Bytes × Bytes) :=
  if bs.length < k then none else some (bs.take k, bs.drop k)

/-- A big-endian number of `k` bytes. Inside minicbor (external), called from
types/value_custom.rs 68-117. -/
def readBe (k : Nat) (bs : Bytes) : Option (Nat × Bytes) := (readN k bs).map fun r => (beNat r.1, r.2)

/-- Read a head of major type `major`. Indefinite lengths (31) make the callers'
`unwrap` panic, 28 to 30 are malformed. Inside minicbor (external), called from
types/value_custom.rs 68-117. -/
def readHead (major : Nat) : Bytes → Option (Nat × Bytes)
  | [] => none
  | b :: bs =>
    if b.toNat / 32 ≠ major then none
    else
      let m := b.toNat % 32
      if m < 24 then some (m, bs)
      else if m = 24 then readBe 1 bs
      else if m = 25 then readBe 2 bs
      else if m = 26 then readBe 4 bs
      else if m = 27 then readBe 8 bs
      else none

/-- `Encoder::bytes`. External; called in types/value_custom.rs 25-66 and types/wrapped_types.rs
33-167. -/
def encBytes (b : Blob) : Bytes := head 2 b.length ++ b

/-- `Decoder::bytes`. External; called in types/value_custom.rs 68-117 and
types/wrapped_types.rs 33-167. -/
def readBytes (bs : Bytes) : Option (Blob × Bytes) :=
  match readHead 2 bs with
  | none => none
  | some (n, bs) => readN n bs

/-- The UTF-8 bytes of a string. Standard library, inside `Encoder::str` (types/value_custom.rs
25-66). -/
def utf8 (s : String) : Bytes := s.toByteArray.data.toList

/-- `Encoder::str`. External; called in types/value_custom.rs 25-66 and types/metadata.rs 37-60. -/
def encStr (s : String) : Bytes := head 3 (utf8 s).length ++ utf8 s

/-- `str::from_utf8`. Standard library, inside `Decoder::str` (types/value_custom.rs 68-117). -/
def ofUtf8 (b : Bytes) : Option String := String.fromUTF8? ⟨b.toArray⟩

/-- `Decoder::str`. External; called in types/value_custom.rs 68-117 and types/metadata.rs
37-60. -/
def readStr (bs : Bytes) : Option (String × Bytes) :=
  match readHead 3 bs with
  | none => none
  | some (n, bs) =>
    match readN n bs with
    | none => none
    | some (b, bs) => (ofUtf8 b).map fun s => (s, bs)

/-- `Decoder::u8`, `u32`, `u64`: an unsigned number below `bound`. External; called in
types/value_custom.rs 68-117 and types/wrapped_types.rs 33-50. -/
def readUint (bound : Nat) (bs : Bytes) : Option (Nat × Bytes) :=
  match readHead 0 bs with
  | none => none
  | some (n, bs) => if n < bound then some (n, bs) else none

/-- `Encoder::i64`. External; called in types/value_custom.rs 25-66. -/
def encI64 (i : Int) : Bytes := if 0 ≤ i then head 0 i.toNat else head 1 (-1 - i).toNat

/-- `Decoder::i64`. External; called in types/value_custom.rs 68-117. -/
def readI64 (bs : Bytes) : Option (Int × Bytes) :=
  match readHead 0 bs with
  | some (n, bs) => if n < 9223372036854775808 then some (Int.ofNat n, bs) else none
  | none =>
    match readHead 1 bs with
    | some (n, bs) => if n < 9223372036854775808 then some (-1 - Int.ofNat n, bs) else none
    | none => none

/-- `Encoder::null`. External; called in types/wrapped_types.rs 79-115. -/
def encNull : Bytes := [0xf6]

/-- Run a reader `n` times: the `for _ in 0..len` loops of the decoders. types/value_custom.rs
68-117 and types/metadata.rs 37-60. -/
def readMany {A : Type} (rd : Bytes → Option (A × Bytes)) : Nat → Bytes → Option (List A × Bytes)
  | 0, bs => some ([], bs)
  | n + 1, bs =>
    match rd bs with
    | none => none
    | some (a, bs) => (readMany rd n bs).map fun r => (a :: r.1, r.2)

/-! ## types/value_custom.rs, and the copy in /repo/src/index_icrc7/src/wrapped_values.rs 146-265 -/

mutual
/-- types/value_custom.rs 25-66: `[tag, payload]`. `none`: a `try_from(..).unwrap()`
panics. The pairs of a map come in the order of the list. -/
def encValue : Value → Option Bytes
  | .blob b => some (head 4 2 ++ (head 0 0 ++ encBytes b))
  | .text s => some (head 4 2 ++ (head 0 1 ++ encStr s))
  | .nat n => if n < U64 then some (head 4 2 ++ (head 0 2 ++ head 0 n)) else none
  | .int i =>
    if -9223372036854775808 ≤ i ∧ i < 9223372036854775808 then some (head 4 2 ++ (head 0 3 ++ encI64 i)) else none
  | .array vs => (encValues vs).map fun r => head 4 2 ++ (head 0 4 ++ (head 4 vs.length ++ r))
  | .map kvs => (encPairs kvs).map fun r => head 4 2 ++ (head 0 5 ++ (head 5 kvs.length ++ r))
/-- types/value_custom.rs 51-53. -/
def encValues : List Value → Option Bytes
  | [] => some []
  | v :: vs =>
    match encValue v with
    | none => none
    | some a => (encValues vs).map fun b => a ++ b
/-- types/value_custom.rs 58-61. -/
def encPairs : List (String × Value) → Option Bytes
  | [] => some []
  | (k, v) :: kvs =>
    match encValue v with
    | none => none
    | some a => (encPairs kvs).map fun b => encStr k ++ (a ++ b)
end

/-- One key and one value, with a given reader for values. types/value_custom.rs 68-117 and
types/metadata.rs 37-60. -/
def readPair (rd : Bytes → Option (Value × Bytes)) (bs : Bytes) : Option ((String × Value) × Bytes) :=
  match readStr bs with
  | none => none
  | some (k, bs) => (rd bs).map fun r => ((k, r.1), r.2)

/-- types/value_custom.rs 69-120. The recursion of the decoder is bounded by
`fuel`; every level reads at least one byte, so the number of bytes is enough
(`decValue_fuel`). A repeated key overwrites (110). -/
def decValue : Nat → Bytes → Option (Value × Bytes)
  | 0, _ => none
  | fuel + 1, bs =>
    match readHead 4 bs with
    | none => none
    | some (len, bs) =>
      if len ≠ 2 then none
      else
        match readUint 256 bs with
        | none => none
        | some (tag, bs) =>
          if tag = 0 then (readBytes bs).map fun r => (.blob r.1, r.2)
          else if tag = 1 then (readStr bs).map fun r => (.text r.1, r.2)
          else if tag = 2 then (readUint U64 bs).map fun r => (.nat r.1, r.2)
          else if tag = 3 then (readI64 bs).map fun r => (.int r.1, r.2)
          else if tag = 4 then
            match readHead 4 bs with
            | none => none
            | some (n, bs) => (readMany (decValue fuel) n bs).map fun r => (.array r.1, r.2)
          else if tag = 5 then
            match readHead 5 bs with
            | none => none
            | some (n, bs) =>
              (readMany (readPair (decValue fuel)) n bs).map fun r => (.map (collectMap r.1).entries, r.2)
          else none

/-- types/value_custom.rs 17-20 `from_bytes`; trailing bytes are ignored. -/
def valueOfBytes (bs : Bytes) : Option Value := (decValue bs.length bs).map Prod.fst

/-! ## types/metadata.rs -/

/-- types/metadata.rs 36-49: a row of the metadata table. -/
def encRow (r : Map String Value) : Option Bytes := (encPairs r.entries).map fun b => head 5 r.entries.length ++ b

/-- types/metadata.rs 51-62 and 29-31 `from_bytes`. -/
def rowOfBytes (bs : Bytes) : Option (Map String Value) :=
  match readHead 5 bs with
  | none => none
  | some (n, bs') => (readMany (readPair (decValue bs.length)) n bs').map fun r => collectMap r.1

/-! ## types/wrapped_types.rs, and the copy in /repo/src/index_icrc7/src/wrapped_values.rs 10-144 -/

/-- types/wrapped_types.rs 33-41. `none`: `unwrap` panics. -/
def encNat (n : Nat) : Option Bytes := if n < U64 then some (head 0 n) else none

/-- types/wrapped_types.rs 44-52. -/
def readNat (bs : Bytes) : Option (Nat × Bytes) := readUint U64 bs

/-- types/wrapped_types.rs 79-92. -/
def encAccount (a : Account) : Bytes :=
  head 4 2 ++ (encBytes a.owner ++ match a.sub with | some s => encBytes s | none => encNull)

/-- types/wrapped_types.rs 95-122. `Principal::from_slice` panics above 29 bytes,
`copy_from_slice` unless there are 32. -/
def readAccount (bs : Bytes) : Option (Account × Bytes) :=
  match readHead 4 bs with
  | none => none
  | some (len, bs) =>
    if len ≠ 2 then none
    else
      match readBytes bs with
      | none => none
      | some (owner, bs) =>
        if 29 < owner.length then none
        else
          match bs with
          | [] => none
          | b :: rest =>
            if b = 0xf6 then some (⟨owner, none⟩, rest)
            else
              match readBytes (b :: rest) with
              | none => none
              | some (sub, rest) => if sub.length = 32 then some (⟨owner, some sub⟩, rest) else none

/-- `Vec<u8>` in a derived codec: an array of numbers. External derive macro, applied in
types/icrc37.rs 19-31. -/
def encByteArray (b : Blob) : Bytes := head 4 b.length ++ (b.flatMap fun x => head 0 x.toNat)

/-- Reading it back. External derive macro, applied in types/icrc37.rs 19-31. -/
def readByteArray (bs : Bytes) : Option (Blob × Bytes) :=
  match readHead 4 bs with
  | none => none
  | some (n, bs) => (readMany (readUint 256) n bs).map fun r => (r.1.map UInt8.ofNat, r.2)

/-- An optional `u64` field that is not the last one. External derive macro, applied in
types/icrc37.rs 19-31. -/
def encTime : Option Nat → Bytes
  | some e => head 0 e
  | none => encNull

/-- types/icrc37.rs 19-31, derived: an array of the five fields; `minicbor-derive`
leaves a missing last field out and writes any other missing field as null. -/
def encApproval (a : Approval) : Bytes :=
  head 4 (if a.memo.isSome then 5 else 4) ++
    (encAccount a.spender ++ (encAccount a.from_ ++
      (encTime a.expiresAt ++
        (head 0 a.createdAt ++ match a.memo with | some m => encByteArray m | none => []))))

/-- An optional field: null, or the value. External derive macro, applied in types/icrc37.rs
19-31. -/
def readOpt {A : Type} (rd : Bytes → Option (A × Bytes)) : Bytes → Option (Option A × Bytes)
  | [] => none
  | b :: bs => if b = 0xf6 then some (none, bs) else (rd (b :: bs)).map fun r => (some r.1, r.2)

/-- types/icrc37.rs 19-31, derived. Arrays longer than the five fields, whose
rest the derived decoder skips, are never written and not modelled. -/
def readApproval (bs : Bytes) : Option (Approval × Bytes) :=
  match readHead 4 bs with
  | none => none
  | some (len, bs) =>
    if len ≠ 4 ∧ len ≠ 5 then none
    else
      match readAccount bs with
      | none => none
      | some (sp, bs) =>
        match readAccount bs with
        | none => none
        | some (fr, bs) =>
          match readOpt (readUint U64) bs with
          | none => none
          | some (ex, bs) =>
            match readUint U64 bs with
            | none => none
            | some (cr, bs) =>
              if len = 4 then some (⟨sp, fr, ex, cr, none⟩, bs)
              else (readOpt readByteArray bs).map fun r => (⟨sp, fr, ex, cr, r.1⟩, r.2)

/-- types/wrapped_types.rs 140-153: a table of approvals, in the order of the
hash map's walk. -/
def encApprovals (l : List (Account × Approval)) : Bytes :=
  head 5 l.length ++ l.flatMap fun e => encAccount e.1 ++ encApproval e.2

/-- One entry of the table. types/icrc37.rs 19-31 (derived, external macro). -/
def readApprovalEntry (bs : Bytes) : Option ((Account × Approval) × Bytes) :=
  match readAccount bs with
  | none => none
  | some (k, bs) => (readApproval bs).map fun r => ((k, r.1), r.2)

/-- types/wrapped_types.rs 155-167. -/
def readApprovals (bs : Bytes) : Option (Map Account Approval × Bytes) :=
  match readHead 5 bs with
  | none => none
  | some (n, bs) =>
    (readMany readApprovalEntry n bs).map fun r => (r.1.foldl (fun m e => m.set e.1 e.2) ∅, r.2)

/-! ## /repo/src/index_icrc7/src/index.rs and cache.rs -/

/-- /repo/src/index_icrc7/src/index.rs 28-36 `IndexType`. -/
inductive IndexKey where
  | account (a : Account)
  | blockType (s : String)
  | tokenId (n : Nat)
  deriving DecidableEq, Repr

/-- Keys of the index compare like their contents: accounts by owner and
effective subaccount (/repo/src/index_icrc7/src/index.rs 25-27, derived). -/
def IndexKey.same : IndexKey → IndexKey → Bool
  | .account a, .account b => a == b
  | .blockType a, .blockType b => decide (a = b)
  | .tokenId a, .tokenId b => decide (a = b)
  | _, _ => false

/-- The derived `Eq` of `IndexType`, src/index_icrc7/src/index.rs 25-36. -/
instance instBEqIndexKey : BEq IndexKey := ⟨IndexKey.same⟩

theorem IndexKey.beq_def (a b : IndexKey) : (a == b) = a.same b := rfl

/-- The derived `Eq` of `IndexType`, src/index_icrc7/src/index.rs 25-36. -/
instance : EquivBEq IndexKey where
  rfl := by intro a; cases a <;> simp [IndexKey.beq_def, IndexKey.same]
  symm := by
    intro a b h
    cases a <;> cases b <;> simp [IndexKey.beq_def, IndexKey.same] at h ⊢
    · exact BEq.symm h
    · exact h.symm
    · exact h.symm
  trans := by
    intro a b c h1 h2
    cases a <;> cases b <;> simp [IndexKey.beq_def, IndexKey.same] at h1 <;>
      cases c <;> simp [IndexKey.beq_def, IndexKey.same] at h2 ⊢
    · exact BEq.trans h1 h2
    · exact h1.trans h2
    · exact h1.trans h2

/-- The derived codec of `IndexType`: `[variant, [field]]`. `none`: the token id
does not fit 64 bits. src/index_icrc7/src/index.rs 25-36 and 55-73. -/
def encIndexKey : IndexKey → Option Bytes
  | .account a => some (head 4 2 ++ (head 0 0 ++ (head 4 1 ++ encAccount a)))
  | .blockType s => some (head 4 2 ++ (head 0 1 ++ (head 4 1 ++ encStr s)))
  | .tokenId n => (encNat n).map fun b => head 4 2 ++ (head 0 2 ++ (head 4 1 ++ b))

/-- Reading it back (/repo/src/index_icrc7/src/index.rs 52-63). Only one-field
arrays are modelled. -/
def readIndexKey (bs : Bytes) : Option (IndexKey × Bytes) :=
  match readHead 4 bs with
  | none => none
  | some (len, bs) =>
    if len ≠ 2 then none
    else
      match readI64 bs with
      | none => none
      | some (variant, bs) =>
        match readHead 4 bs with
        | none => none
        | some (fields, bs) =>
          if fields ≠ 1 then none
          else if variant = 0 then (readAccount bs).map fun r => (.account r.1, r.2)
          else if variant = 1 then (readStr bs).map fun r => (.blockType r.1, r.2)
          else if variant = 2 then (readNat bs).map fun r => (.tokenId r.1, r.2)
          else none

/-- /repo/src/index_icrc7/src/index.rs 66-70: the block ids of an entry, `u64`s. -/
def encIds (l : List Nat) : Bytes := head 4 l.length ++ l.flatMap fun n => head 0 n

/-- /repo/src/index_icrc7/src/index.rs 72-75. -/
def readIds (bs : Bytes) : Option (List Nat × Bytes) :=
  match readHead 4 bs with
  | none => none
  | some (n, bs) => readMany (readUint U64) n bs

/-- `to_le_bytes` of a `u64`. Standard library, used in src/index_icrc7/src/cache.rs 14-23. -/
def le64 (n : Nat) : Bytes := (beBytes 8 n).reverse

/-- /repo/src/index_icrc7/src/cache.rs 14-22. -/
def encCacheEntry (ts : Nat) (v : Value) : Option Bytes := (encValue v).map fun b => le64 ts ++ b

/-- /repo/src/index_icrc7/src/cache.rs 24-40. -/
def cacheEntryOfBytes (bs : Bytes) : Option (Nat × Value) :=
  if bs.length < 8 then none
  else (valueOfBytes (bs.drop 8)).map fun v => (beNat (bs.take 8).reverse, v)

end Verif
