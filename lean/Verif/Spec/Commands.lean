import Verif.Model.Commands
import Verif.Spec.Client
/-!
# Specification of the commands of the client
-/
namespace Verif.Spec

/-! ## Numbers -/

/-- Only decimal digits. -/
def Digits (l : List Char) : Prop := ∀ c ∈ l, c.isDigit = true

/-- Empty or a sign. -/
def Sign (l : List Char) : Prop := l = [] ∨ l = ['+'] ∨ l = ['-']

/-- A decimal number: sign, digits, point and digits, exponent, all optional but at least
one digit before or after the point. -/
def Decimal (v : List Char) : Prop :=
  ∃ sign int frac exp, v = sign ++ (int ++ (frac ++ exp)) ∧ Sign sign ∧ Digits int ∧
    (frac = [] ∧ int ≠ [] ∨ ∃ f, frac = '.' :: f ∧ Digits f ∧ (int ≠ [] ∨ f ≠ [])) ∧
    (exp = [] ∨ ∃ e s d, exp = e :: (s ++ d) ∧ (e = 'e' ∨ e = 'E') ∧ Sign s ∧ Digits d ∧ d ≠ [])

/-- The words for infinity and not-a-number, with a sign, in capitals or not. -/
def InfinityOrNaN (v : List Char) : Prop :=
  ∃ sign w, v = sign ++ w ∧ Sign sign ∧
    w.map Char.toLower ∈ ["inf".toList, "infinity".toList, "nan".toList]

/-- What an attribute value should become: a number as a number, anything else as the
text it is. -/
def ShownAs (shown : List Char → Option String) (v : String) (j : Json) : Prop :=
  (Decimal v.toList ∧ ∃ t, shown v.toList = some t ∧ j = .num t) ∨ (¬ Decimal v.toList ∧ j = .str v)

/-- A natural number in decimal notation, with or without a plus sign. -/
def Natural (x : String) (n : Nat) : Prop :=
  ∃ sign ds, x.toList = sign ++ ds ∧ (sign = [] ∨ sign = ['+']) ∧ Digits ds ∧ ds ≠ [] ∧ Nat.ofDigitChars 10 ds 0 = n

/-- An integer in decimal notation, with or without a sign. -/
def Integer (x : String) (z : Int) : Prop :=
  (∃ n : Nat, Natural x n ∧ z = n) ∨
  ∃ ds, x.toList = '-' :: ds ∧ Digits ds ∧ ds ≠ [] ∧ z = -(Nat.ofDigitChars 10 ds 0 : Int)

/-- What a value given on the command line stands for: a number if it is one of 64
bits, otherwise an integer if it is one of 64 bits, otherwise the text itself. -/
def StandsFor (v : String) (x : Value) : Prop :=
  (∃ n, Natural v n ∧ n < 2 ^ 64 ∧ x = .nat n) ∨
  ((¬ ∃ n, Natural v n ∧ n < 2 ^ 64) ∧ ∃ z, Integer v z ∧ -2 ^ 63 ≤ z ∧ z < 2 ^ 63 ∧ x = .int z) ∨
  ((¬ ∃ n, Natural v n ∧ n < 2 ^ 64) ∧ (¬ ∃ z, Integer v z ∧ -2 ^ 63 ≤ z ∧ z < 2 ^ 63) ∧ x = .text v)

/-! ## Dialogues -/

/-- The white space characters of Unicode. -/
def blanks : List Nat :=
  [0x09, 0x0A, 0x0B, 0x0C, 0x0D, 0x20, 0x85, 0xA0, 0x1680, 0x2000, 0x2001, 0x2002, 0x2003, 0x2004, 0x2005, 0x2006, 0x2007,
    0x2008, 0x2009, 0x200A, 0x2028, 0x2029, 0x202F, 0x205F, 0x3000]

def Blank (c : Char) : Prop := c.toNat ∈ blanks

instance (c : Char) : Decidable (Blank c) := inferInstanceAs (Decidable (c.toNat ∈ blanks))

/-- The line `l` says `x`: it is `x`, perhaps with white space before and after it (the
end of the line at least), and `x` neither begins nor ends with white space. -/
def Typed (x l : String) : Prop :=
  ∃ before after, l.toList = before ++ (x.toList ++ after) ∧ (∀ c ∈ before, Blank c) ∧ (∀ c ∈ after, Blank c) ∧
    (∀ c ∈ x.toList.head?, ¬ Blank c) ∧ (∀ c ∈ x.toList.getLast?, ¬ Blank c)

/-- The line says `x`, or nothing. -/
def TypedOpt : Option String → String → Prop
  | none, l => Typed "" l
  | some x, l => x ≠ "" ∧ Typed x l

/-- The ways to say yes. -/
def yesWords : List String := ["y", "Y", "yes", "yeS", "yEs", "yES", "Yes", "YeS", "YEs", "YES"]

/-- The ways to say no. -/
def noWords : List String := ["n", "N", "no", "nO", "No", "NO"]

/-- These lines answer yes or no, the last one in a way that is understood. -/
inductive Answers : Bool → List String → Prop
  | yes {x l} (h : x ∈ yesWords) (ht : Typed x l) : Answers true [l]
  | no {x l} (h : x ∈ noWords) (ht : Typed x l) : Answers false [l]
  | again {x l b ls} (h : x ∉ yesWords ∧ x ∉ noWords) (ht : Typed x l) (hs : Answers b ls) : Answers b (l :: ls)

/-- What the user wants: the text fields and the attributes, each with a trait, a value
and a display type. -/
structure Wish where
  name : String
  description : String
  image : Option String
  external : Option String
  attributes : List (String × String × Option String)

/-- The document says what was wished for: the text fields, and one attribute per
attribute, in order. -/
def Describes (shown : List Char → Option String) (w : Wish) (kvs : List (String × Json)) : Prop :=
  HasField kvs "name" (.str w.name) ∧ HasField kvs "description" (.str w.description) ∧
  (∀ v, HasField kvs "image" v ↔ ∃ s, w.image = some s ∧ v = .str s) ∧
  (∀ v, HasField kvs "external_url" v ↔ ∃ s, w.external = some s ∧ v = .str s) ∧
  (w.attributes = [] → ∀ v, ¬ HasField kvs "attributes" v) ∧
  (w.attributes ≠ [] → ∃ l, HasField kvs "attributes" (.arr l) ∧ l.length = w.attributes.length ∧
    ∀ (i : Nat) a, w.attributes[i]? = some a → ∃ fields j, l[i]? = some (.obj fields) ∧
      HasField fields "trait_type" (.str a.1) ∧ HasField fields "value" j ∧ ShownAs shown a.2.1 j ∧
      ∀ x, HasField fields "display_type" x ↔ ∃ d, a.2.2 = some d ∧ x = .str d)

/-- The text of an attribute on the command line, as the help text describes it:
`trait_type:value[:display_type]`. -/
def attributeText (a : String × String × Option String) : String :=
  String.ofList (a.1.toList ++ ':' :: a.2.1.toList ++
    match a.2.2 with
    | some d => ':' :: d.toList
    | none => [])

/-- These lines choose this display type for a number, from the list shown. -/
inductive NumberLines : Option String → List String → Prop
  | number {l} (h : Typed "1" l) : NumberLines (some "number") [l]
  | boostNumber {l} (h : Typed "2" l) : NumberLines (some "boost_number") [l]
  | boostPercentage {l} (h : Typed "3" l) : NumberLines (some "boost_percentage") [l]
  | date {l} (h : Typed "4" l) : NumberLines (some "date") [l]
  | plain {l} (h : Typed "5" l) : NumberLines none [l]
  | skip {l} (h : Typed "" l) : NumberLines none [l]
  | again {x l d ls} (h : x ∉ ["1", "2", "3", "4", "5", ""]) (ht : Typed x l) (hs : NumberLines d ls) : NumberLines d (l :: ls)

/-- These lines choose this display type for a text: none, or one of the user's own. -/
inductive TextLines : Option String → List String → Prop
  | plain {l} (h : Typed "1" l) : TextLines none [l]
  | skip {l} (h : Typed "" l) : TextLines none [l]
  | own {l d l'} (h : Typed "2" l) (hd : TypedOpt d l') : TextLines d [l, l']
  | again {x l d ls} (h : x ∉ ["1", "2", ""]) (ht : Typed x l) (hs : TextLines d ls) : TextLines d (l :: ls)

/-- These lines choose this display type for this value. -/
def Chooses (v : String) (d : Option String) (ls : List String) : Prop :=
  (Decimal v.toList ∧ NumberLines d ls) ∨ (¬ Decimal v.toList ∧ TextLines d ls)

/-- These lines answer the questions about the attributes: trait, value, display type,
and whether there is another one. An empty trait ends the list too. -/
inductive AttributeLines : List (String × String × Option String) → List String → Prop
  | stop {l} (h : Typed "" l) : AttributeLines [] [l]
  | last {t v d lt lv ls ln} (ht : Typed t lt ∧ t ≠ "") (hv : Typed v lv) (hd : Chooses v d ls) (hn : Answers false ln) :
      AttributeLines [(t, v, d)] (lt :: lv :: (ls ++ ln))
  | more {t v d lt lv ls ly as ls'} (ht : Typed t lt ∧ t ≠ "") (hv : Typed v lv) (hd : Chooses v d ls) (hy : Answers true ly)
      (hs : AttributeLines as ls') : AttributeLines ((t, v, d) :: as) (lt :: lv :: (ls ++ (ly ++ ls')))

/-- These lines answer all questions of the dialogue. -/
def WishLines (w : Wish) (ls : List String) : Prop :=
  ∃ ln ld li le tail, ls = ln :: ld :: li :: le :: tail ∧ (Typed w.name ln ∧ w.name ≠ "") ∧
    (Typed w.description ld ∧ w.description ≠ "") ∧ TypedOpt w.image li ∧ TypedOpt w.external le ∧
    ((w.attributes = [] ∧ Answers false tail) ∨
      ∃ yes as, tail = yes ++ as ∧ Answers true yes ∧ AttributeLines w.attributes as)

/-- These lines enter this metadata value: its kind, from the list shown (anything not
listed is text), and the value itself. `b64` is the base64 decoder. -/
inductive ValueLines (b64 : String → Option Blob) : Value → List String → Prop
  | text {k l x l'} (hk : k ∉ ["2", "3", "4"]) (ht : Typed k l) (hx : Typed x l') : ValueLines b64 (.text x) [l, l']
  | nat {l x n l'} (ht : Typed "2" l) (hx : Typed x l') (hn : Natural x n) (hr : n < 2 ^ 64) : ValueLines b64 (.nat n) [l, l']
  | int {l x z l'} (ht : Typed "3" l) (hx : Typed x l') (hz : Integer x z) (hr : -2 ^ 63 ≤ z ∧ z < 2 ^ 63) :
      ValueLines b64 (.int z) [l, l']
  | blob {l x b l'} (ht : Typed "4" l) (hx : Typed x l') (hb : b64 x = some b) : ValueLines b64 (.blob b) [l, l']

/-- These lines enter a value that cannot be read: not a number of 64 bits, or not
base64. -/
inductive BadValueLines (b64 : String → Option Blob) : List String → Prop
  | nat {l x l'} (ht : Typed "2" l) (hx : Typed x l') (hn : ¬ ∃ n, Natural x n ∧ n < 2 ^ 64) : BadValueLines b64 [l, l']
  | int {l x l'} (ht : Typed "3" l) (hx : Typed x l') (hz : ¬ ∃ z, Integer x z ∧ -2 ^ 63 ≤ z ∧ z < 2 ^ 63) :
      BadValueLines b64 [l, l']
  | blob {l x l'} (ht : Typed "4" l) (hx : Typed x l') (hb : b64 x = none) : BadValueLines b64 [l, l']

/-- These lines enter these entries; `done` if the user says that there are no more, or
leaves the key empty, otherwise the lines end where the next key is asked for. -/
inductive EntryLines (b64 : String → Option Blob) : Bool → List (String × Value) → List String → Prop
  | open : EntryLines b64 false [] []
  | stop {l} (h : Typed "" l) : EntryLines b64 true [] [l]
  | last {k v lk ls ln} (hk : Typed k lk ∧ k ≠ "") (hv : ValueLines b64 v ls) (hn : Answers false ln) :
      EntryLines b64 true [(k, v)] (lk :: (ls ++ ln))
  | more {done k v lk ls ly kvs ls'} (hk : Typed k lk ∧ k ≠ "") (hv : ValueLines b64 v ls) (hy : Answers true ly)
      (hs : EntryLines b64 done kvs ls') : EntryLines b64 done ((k, v) :: kvs) (lk :: (ls ++ (ly ++ ls')))

/-! ## Subaccounts -/

/-- The lower-case hexadecimal digit of a number below 16. -/
def hexDigit (n : Nat) : Char := if n < 10 then Char.ofNat (48 + n) else Char.ofNat (87 + n)

/-- The hexadecimal text of bytes. -/
def hexText (b : Blob) : List Char := b.flatMap fun x => [hexDigit (x.toNat / 16), hexDigit (x.toNat % 16)]

/-! ## Uploads -/

/-- The reply of the collection is a consent. -/
def Accepted : Outcome → Prop
  | .reply (.ok _) => True
  | _ => False

/-! ## Minting -/

/-- `account` is the subaccount written as `text`: none if no text is given, otherwise
the 32 bytes of which the text is the hexadecimal notation, in any case. -/
def SubaccountOf (text : Option String) (account : Option Subaccount) : Prop :=
  match text with
  | none => account = none
  | some t => ∃ b, b.length = 32 ∧ t.toList.map Char.toLower = hexText b ∧ account = some b

/-- The metadata asked for: that at an address, or else the entries of the dialogue, or
else those of the command line. -/
def askedMetadata : Option String → Option (List (String × Value)) → List String → List (String × Value)
  | some url, _, _ => [("icrc97:metadata", .array [.text url])]
  | none, some l, _ => l
  | none, none, entries => parseEntries entries

end Verif.Spec
