import Verif.Spec.Commands
import Verif.Lemmas.Client
/-!
# Lemmas on the commands of the client
-/
namespace Verif

open Spec

/-! ## Numbers -/

theorem isDig_iff {c : Char} : isDig c = true ↔ c.isDigit = true := by
  unfold isDig digitVal
  simp only [Char.isDigit, Bool.and_eq_true, decide_eq_true_eq]
  have h1 : '0'.val ≤ c.val ↔ 48 ≤ c.toNat := by rfl
  have h2 : c.val ≤ '9'.val ↔ c.toNat ≤ 57 := by rfl
  rw [ge_iff_le, h1, h2]
  split <;> simp_all

theorem dropSign_spec (v : List Char) : ∃ s, Sign s ∧ v = s ++ dropSign v := by
  unfold dropSign
  split
  · exact ⟨['+'], .inr (.inl rfl), rfl⟩
  · exact ⟨['-'], .inr (.inr rfl), rfl⟩
  · exact ⟨[], .inl rfl, rfl⟩

/-- A sign is removed, if what follows does not begin with a sign. -/
theorem dropSign_append {s r : List Char} (hs : Sign s) (hr : ∀ c l, r = c :: l → c ≠ '+' ∧ c ≠ '-') :
    dropSign (s ++ r) = r := by
  rcases hs with rfl | rfl | rfl
  · cases r with
    | nil => rfl
    | cons c l =>
      obtain ⟨h1, h2⟩ := hr c l rfl
      simp only [List.nil_append]
      unfold dropSign
      split
      · rename_i h; cases h; exact absurd rfl h1
      · rename_i h; cases h; exact absurd rfl h2
      · rfl
  · rfl
  · rfl

theorem digit_not_sign {c : Char} (h : c.isDigit = true) : c ≠ '+' ∧ c ≠ '-' := by
  constructor <;> (rintro rfl; revert h; decide)

theorem all_isDig {l : List Char} : l.all isDig = true ↔ Digits l := by
  rw [List.all_eq_true]
  exact ⟨fun h c hc => isDig_iff.1 (h c hc), fun h c hc => isDig_iff.2 (h c hc)⟩

theorem digits_takeWhile (l : List Char) : Digits (l.takeWhile isDig) := by
  induction l with
  | nil => intro c hc; cases hc
  | cons a l ih =>
    rw [List.takeWhile_cons]
    split
    · rename_i h
      intro c hc
      rcases List.mem_cons.1 hc with rfl | hc
      · exact isDig_iff.1 h
      · exact ih c hc
    · intro c hc; cases hc

theorem digits_span {d r : List Char} (hd : Digits d) (hr : ∀ c l, r = c :: l → isDig c = false) :
    (d ++ r).takeWhile isDig = d ∧ (d ++ r).dropWhile isDig = r := by
  induction d with
  | nil =>
    cases r with
    | nil => exact ⟨rfl, rfl⟩
    | cons c l => simp [hr c l rfl]
  | cons a d ih =>
    have ha : isDig a = true := isDig_iff.2 (hd a List.mem_cons_self)
    obtain ⟨h1, h2⟩ := ih (fun c hc => hd c (List.mem_cons_of_mem _ hc))
    simp [ha, h1, h2]

theorem isExponent_iff {l : List Char} : isExponent l = true ↔
    (l = [] ∨ ∃ e s d, l = e :: (s ++ d) ∧ (e = 'e' ∨ e = 'E') ∧ Sign s ∧ Digits d ∧ d ≠ []) := by
  cases l with
  | nil => simp [isExponent]
  | cons c l =>
    simp only [isExponent]
    constructor
    · intro h
      split at h
      · rename_i hc
        simp only [Bool.and_eq_true, Bool.not_eq_true', List.isEmpty_eq_false_iff] at h
        obtain ⟨s, hs, he⟩ := dropSign_spec l
        exact .inr ⟨c, s, dropSign l, by rw [← he], hc, hs, all_isDig.1 h.2, h.1⟩
      · cases h
    · rintro (h | ⟨e, s, d, h, he, hs, hd, hne⟩)
      · cases h
      obtain ⟨rfl, rfl⟩ := List.cons.inj h
      rw [if_pos he, dropSign_append hs (fun c l hl => digit_not_sign (hd c (by rw [hl]; exact List.mem_cons_self)))]
      simp [hne, all_isDig.2 hd]

theorem isDecimal_iff {v : List Char} : isDecimal v = true ↔ Decimal v := by
  constructor
  · intro h
    obtain ⟨s, hs, he⟩ := dropSign_spec v
    unfold isDecimal at h
    simp only at h
    have hsplit := (List.takeWhile_append_dropWhile (p := isDig) (l := dropSign v)).symm
    split at h
    · rename_i r hr
      simp only [Bool.and_eq_true, Bool.or_eq_true, Bool.not_eq_true', List.isEmpty_eq_false_iff] at h
      refine ⟨s, _, '.' :: r.takeWhile isDig, r.dropWhile isDig, ?_, hs, digits_takeWhile (dropSign v),
        .inr ⟨_, rfl, digits_takeWhile r, h.1⟩, isExponent_iff.1 h.2⟩
      rw [List.cons_append, List.takeWhile_append_dropWhile, ← hr, ← hsplit, ← he]
    · simp only [Bool.and_eq_true, Bool.not_eq_true', List.isEmpty_eq_false_iff] at h
      refine ⟨s, _, [], (dropSign v).dropWhile isDig, ?_, hs, digits_takeWhile (dropSign v), .inl ⟨rfl, h.1⟩,
        isExponent_iff.1 h.2⟩
      rw [List.nil_append, ← hsplit, ← he]
  · rintro ⟨s, int, frac, exp, rfl, hs, hint, hfrac, hexp⟩
    have hexp' : ∀ c l, exp = c :: l → isDig c = false ∧ c ≠ '+' ∧ c ≠ '-' ∧ c ≠ '.' := by
      intro c l hl
      rcases hexp with rfl | ⟨e, s, d, rfl, he, -⟩
      · cases hl
      · obtain ⟨rfl, -⟩ := List.cons.inj hl
        rcases he with rfl | rfl <;> decide
    have hexp2 := isExponent_iff.2 hexp
    rcases hfrac with ⟨rfl, hne⟩ | ⟨f, rfl, hf, hne⟩
    · rw [List.nil_append]
      have hd : dropSign (s ++ (int ++ exp)) = int ++ exp := by
        refine dropSign_append hs fun c l hl => ?_
        cases int with
        | nil => exact absurd rfl hne
        | cons a as =>
          obtain ⟨rfl, -⟩ := List.cons.inj hl
          exact digit_not_sign (hint _ List.mem_cons_self)
      obtain ⟨h1, h2⟩ := digits_span hint (r := exp) (fun c l hl => (hexp' c l hl).1)
      unfold isDecimal
      simp only [hd, h1, h2]
      split
      · rename_i r hr; exact absurd rfl (hexp' _ _ rfl).2.2.2
      · simp [hne, hexp2]
    · rw [List.cons_append]
      have hd : dropSign (s ++ (int ++ ('.' :: (f ++ exp)))) = int ++ ('.' :: (f ++ exp)) := by
        refine dropSign_append hs fun c l hl => ?_
        cases int with
        | nil =>
          obtain ⟨rfl, -⟩ := List.cons.inj hl
          decide
        | cons a as =>
          obtain ⟨rfl, -⟩ := List.cons.inj hl
          exact digit_not_sign (hint _ List.mem_cons_self)
      obtain ⟨h1, h2⟩ := digits_span hint (r := '.' :: (f ++ exp)) (fun c l hl => by
        obtain ⟨rfl, -⟩ := List.cons.inj hl; decide)
      obtain ⟨h3, h4⟩ := digits_span hf (r := exp) (fun c l hl => (hexp' c l hl).1)
      unfold isDecimal
      simp only [hd, h1, h2, h3, h4]
      rcases hne with hne | hne <;> simp [hne, hexp2]

theorem special_iff {v : List Char} : isSpecialFloat v = true ↔ InfinityOrNaN v := by
  have hw : ∀ (x : List Char), (lowercase (String.ofList x) = "inf" ∨ lowercase (String.ofList x) = "infinity" ∨
      lowercase (String.ofList x) = "nan") ↔ x.map Char.toLower ∈ ["inf".toList, "infinity".toList, "nan".toList] := by
    intro x
    simp only [lowercase_eq, String.toList_ofList, List.mem_cons, List.not_mem_nil, or_false]
    rw [map_lower_iff (by decide), map_lower_iff (by decide), map_lower_iff (by decide)]
  unfold isSpecialFloat
  simp only [decide_eq_true_eq, hw]
  constructor
  · intro h
    obtain ⟨s, hs, he⟩ := dropSign_spec v
    exact ⟨s, _, he, hs, h⟩
  · rintro ⟨s, w, rfl, hs, h⟩
    rw [dropSign_append hs]
    · exact h
    · rintro c l rfl
      refine ⟨?_, ?_⟩ <;>
      · rintro rfl
        rw [List.map_cons] at h
        revert h
        simp

theorem special_not_decimal {v : List Char} (h : InfinityOrNaN v) : ¬ Decimal v := by
  obtain ⟨s, w, rfl, hs, h⟩ := h
  rintro hd
  have hd := isDecimal_iff.2 hd
  unfold isDecimal at hd
  have hw : ∀ c l, w = c :: l → c.isDigit = false ∧ c ≠ '+' ∧ c ≠ '-' ∧ c ≠ '.' := by
    rintro c l rfl
    rw [List.map_cons] at h
    refine ⟨?_, ?_, ?_, ?_⟩
    · cases hc : c.isDigit with
      | false => rfl
      | true =>
        exfalso
        have : c.toLower = c := by
          unfold Char.toLower
          rw [dif_neg]
          simp only [Char.isDigit, Bool.and_eq_true, decide_eq_true_eq] at hc
          intro h'
          have h1 := UInt32.le_iff_toNat_le.1 hc.2
          have h2 := UInt32.le_iff_toNat_le.1 h'.1
          have h3 : ('9'.val).toNat = 57 := rfl
          have h4 : ('A'.val).toNat = 65 := rfl
          omega
        rw [this] at h
        simp only [List.mem_cons, List.not_mem_nil, or_false] at h
        rcases h with h | h | h <;> (obtain ⟨rfl, -⟩ := List.cons.inj h; revert hc; decide)
    all_goals
      rintro rfl
      revert h
      simp
  rw [dropSign_append hs (fun c l hl => ⟨(hw c l hl).2.1, (hw c l hl).2.2.1⟩)] at hd
  cases w with
  | nil => revert h; simp
  | cons c l =>
    obtain ⟨h1, h2, h3, h4⟩ := hw c l rfl
    have h5 : isDig c = false := by
      cases hc : isDig c with
      | false => rfl
      | true => rw [isDig_iff.1 hc] at h1; cases h1
    simp only [List.takeWhile_cons, List.dropWhile_cons, h5] at hd
    simp only [Bool.false_eq_true, if_false] at hd
    split at hd
    · rename_i r hr; obtain ⟨rfl, -⟩ := List.cons.inj hr; exact h4 rfl
    · simp at hd

theorem floatJson_text {shown : List Char → Option String} {v : List Char} (h1 : ¬ Decimal v) (h2 : ¬ InfinityOrNaN v) :
    floatJson shown v = none := by
  unfold floatJson
  rw [if_neg (fun h => h2 (special_iff.1 h)), if_neg (fun h => h1 (isDecimal_iff.1 h))]

theorem floatJson_number {shown : List Char → Option String} {v : List Char} (h : Decimal v) {t : String}
    (ht : shown v = some t) : floatJson shown v = some (.num t) := by
  unfold floatJson
  rw [if_neg (fun h' => special_not_decimal (special_iff.1 h') h), if_pos (isDecimal_iff.2 h), ht]

/-! ## Numbers of 64 bits -/

theorem digitsVal_iff {l : List Char} {n : Nat} :
    digitsVal l = some n ↔ Digits l ∧ l ≠ [] ∧ Nat.ofDigitChars 10 l 0 = n := by
  by_cases hd : Digits l
  · cases l with
    | nil => simp [digitsVal]
    | cons c l =>
      have : digitsVal (c :: l) = some (Nat.ofDigitChars 10 (c :: l) 0) := digits_fold (l := c :: l) hd 0
      rw [this]
      simp [hd]
  · have hn : digitsVal l = none := by
      apply digitsVal_bad
      simp only [Digits, Classical.not_forall] at hd
      obtain ⟨c, hc, hb⟩ := hd
      refine ⟨c, hc, ?_⟩
      cases hv : digitVal c with
      | none => rfl
      | some v => exact absurd (isDig_iff.1 (by unfold isDig; rw [hv]; rfl)) hb
    rw [hn]
    simp [hd]

theorem natural_plus {x : String} {t : List Char} (h : x.toList = '+' :: t) {n : Nat} :
    Natural x n ↔ digitsVal t = some n := by
  rw [digitsVal_iff]
  constructor
  · rintro ⟨sign, ds, h', hs, hd, hne, hv⟩
    rw [h] at h'
    rcases hs with rfl | rfl
    · cases ds with
      | nil => exact absurd rfl hne
      | cons c ds =>
        cases h'
        exact absurd rfl (digit_not_sign (hd _ List.mem_cons_self)).1
    · cases h'
      exact ⟨hd, hne, hv⟩
  · exact fun h' => ⟨['+'], t, h, .inr rfl, h'⟩

theorem natural_bare {x : String} (h : ∀ t, x.toList ≠ '+' :: t) {n : Nat} :
    Natural x n ↔ digitsVal x.toList = some n := by
  rw [digitsVal_iff]
  constructor
  · rintro ⟨sign, ds, h', hs, hd, hne, hv⟩
    rcases hs with rfl | rfl
    · rw [h', List.nil_append]
      exact ⟨hd, hne, hv⟩
    · exact absurd h' (h _)
  · exact fun h' => ⟨[], _, rfl, .inl rfl, h'⟩

theorem parseU64_iff {x : String} {n : Nat} : parseU64 x.toList = some n ↔ Natural x n ∧ n < 2 ^ 64 := by
  have key : ∀ l, (match digitsVal l with | some n => if n < U64 then some n else none | none => none) = some n ↔
      digitsVal l = some n ∧ n < 2 ^ 64 := by
    intro l
    have : U64 = 2 ^ 64 := rfl
    cases digitsVal l with
    | none => simp
    | some m => grind
  by_cases hp : ∃ t, x.toList = '+' :: t
  · obtain ⟨t, ht⟩ := hp
    rw [natural_plus ht, ← key, ht]
    rfl
  · have hp : ∀ t, x.toList ≠ '+' :: t := fun t ht => hp ⟨t, ht⟩
    rw [natural_bare hp, ← key]
    unfold parseU64
    split
    · rename_i t ht; exact absurd ht (hp t)
    · rfl

theorem parseI64_iff {x : String} {z : Int} : parseI64 x.toList = some z ↔ Integer x z ∧ -2 ^ 63 ≤ z ∧ z < 2 ^ 63 := by
  by_cases hm : ∃ t, x.toList = '-' :: t
  · obtain ⟨t, ht⟩ := hm
    have hint : Integer x z ↔ ∃ n, digitsVal t = some n ∧ z = -(n : Int) := by
      constructor
      · rintro (⟨n, ⟨sign, ds, h, hs, hd, hne, -⟩, -⟩ | ⟨ds, h, hd, hne, rfl⟩)
        · exfalso
          rw [ht] at h
          rcases hs with rfl | rfl
          · cases ds with
            | nil => exact hne rfl
            | cons c ds =>
              cases h
              exact (digit_not_sign (hd _ List.mem_cons_self)).2 rfl
          · cases h
        · rw [ht] at h
          cases h
          exact ⟨_, digitsVal_iff.2 ⟨hd, hne, rfl⟩, rfl⟩
      · rintro ⟨n, h, rfl⟩
        obtain ⟨h1, h2, rfl⟩ := digitsVal_iff.1 h
        exact .inr ⟨t, ht, h1, h2, rfl⟩
    rw [hint, ht]
    show (match digitsVal t with | some n => if n ≤ 2 ^ 63 then some (-(n : Int)) else none | none => none) = some z ↔ _
    generalize digitsVal t = o
    cases o with
    | none => simp
    | some n =>
      dsimp only
      constructor
      · intro h
        split at h
        · cases h; exact ⟨⟨n, rfl, rfl⟩, by omega, by omega⟩
        · cases h
      · rintro ⟨⟨n', h, rfl⟩, h1, h2⟩
        cases h
        rw [if_pos (by omega)]
  · have hint : Integer x z ↔ ∃ n : Nat, Natural x n ∧ z = n := by
      constructor
      · rintro (h | ⟨ds, h, -⟩)
        · exact h
        · exact absurd ⟨ds, h⟩ hm
      · exact .inl
    have key : ∀ l, (match digitsVal l with | some n => if n < 2 ^ 63 then some (n : Int) else none | none => none) = some z ↔
        (∃ n : Nat, digitsVal l = some n ∧ z = n) ∧ -2 ^ 63 ≤ z ∧ z < 2 ^ 63 := by
      intro l
      cases digitsVal l with
      | none => simp
      | some m =>
        dsimp only
        constructor
        · intro h
          split at h
          · cases h; exact ⟨⟨m, rfl, rfl⟩, by omega, by omega⟩
          · cases h
        · rintro ⟨⟨n', h, rfl⟩, h1, h2⟩
          cases h
          rw [if_pos (by omega)]
    rw [hint]
    by_cases hp : ∃ t, x.toList = '+' :: t
    · obtain ⟨t, ht⟩ := hp
      simp only [natural_plus ht]
      rw [← key, ht]
      rfl
    · have hp : ∀ t, x.toList ≠ '+' :: t := fun t ht => hp ⟨t, ht⟩
      simp only [natural_bare hp]
      rw [← key]
      unfold parseI64
      split
      · rename_i heq; exact absurd ⟨_, heq⟩ hm
      · split
        · rename_i t ht; exact absurd ht (hp t)
        · rfl

/-! ## Dialogues -/

theorem isSpace_iff {c : Char} : isSpace c = true ↔ Blank c := by
  unfold isSpace Blank blanks
  simp only [decide_eq_true_eq, List.mem_cons, List.not_mem_nil, or_false]
  omega

theorem dropWhile_blank {l r : List Char} (h : ∀ c ∈ l, Blank c) (hr : ∀ c, r.head? = some c → ¬ Blank c) :
    (l ++ r).dropWhile isSpace = r := by
  induction l with
  | nil =>
    cases r with
    | nil => rfl
    | cons c r =>
      have : isSpace c = false := by
        have := hr c rfl
        rw [← isSpace_iff] at this
        simpa using this
      rw [List.nil_append, List.dropWhile_cons, this]
      rfl
  | cons c l ih =>
    rw [List.cons_append, List.dropWhile_cons, isSpace_iff.2 (h c List.mem_cons_self)]
    exact ih fun c hc => h c (List.mem_cons_of_mem _ hc)

theorem trim_typed {x l : String} (h : Typed x l) : trim l = x := by
  obtain ⟨before, after, hl, hb, ha, hh, hg⟩ := h
  unfold trim
  rw [hl]
  have key : (x.toList ++ after).reverse.dropWhile isSpace = x.toList.reverse ∨ x.toList = [] := by
    cases hx : x.toList with
    | nil => exact .inr rfl
    | cons c r =>
      left
      rw [← hx, List.reverse_append]
      refine dropWhile_blank (fun c hc => ha c (List.mem_reverse.1 hc)) ?_
      intro c hc
      rw [List.head?_reverse] at hc
      exact hg c hc
  rcases key with key | key
  · cases hx : x.toList with
    | nil =>
      have h1 : (before ++ ([] ++ after)).dropWhile isSpace = [] := by
        have := dropWhile_blank (l := before ++ after) (r := [])
          (fun c hc => (List.mem_append.1 hc).elim (hb c) (ha c)) (fun c hc => by cases hc)
        rwa [List.append_nil] at this
      rw [h1]
      exact (String.toList_injective (hx.trans rfl)).symm
    | cons c r =>
      rw [dropWhile_blank hb (by intro c' hc'; exact hh c' (by rw [hx]; exact hc')), ← hx, key, List.reverse_reverse,
        String.ofList_toList]
  · rw [key]
    have h1 : (before ++ ([] ++ after)).dropWhile isSpace = [] := by
      have := dropWhile_blank (l := before ++ after) (r := [])
        (fun c hc => (List.mem_append.1 hc).elim (hb c) (ha c)) (fun c hc => by cases hc)
      rwa [List.append_nil] at this
    rw [h1]
    exact (String.toList_injective (key.trans rfl)).symm

/-- A text with no white space at either end is typed by itself. -/
theorem typed_self {x : String} (h1 : ∀ c ∈ x.toList.head?, ¬ Blank c)
    (h2 : ∀ c ∈ x.toList.getLast?, ¬ Blank c) : Typed x x :=
  ⟨[], [], by simp, by simp, by simp, h1, h2⟩

theorem lowerChar_letter {c t u : Char} (hu : 65 ≤ u.toNat ∧ u.toNat ≤ 90) (ht : t.toNat = u.toNat + 32) (hk : t ≠ 'k') :
    lowerChar c = t ↔ c = t ∨ c = u := by
  have hv : ∀ n, n < 123 → (Char.ofNat n).toNat = n := by decide
  unfold lowerChar
  constructor
  · intro h
    split at h
    · rename_i hc
      right
      apply Char.toNat_inj.1
      have := congrArg Char.toNat h
      rw [hv _ (by omega)] at this
      omega
    · split at h
      · exact absurd h.symm hk
      · exact .inl h
  · rintro (rfl | rfl)
    · rw [if_neg (by omega), if_neg (by omega)]
    · rw [if_pos hu]
      apply Char.toNat_inj.1
      rw [hv _ (by omega), ht]

theorem lowercase_word {x : String} {w : List Char} : lowercase x = String.ofList w ↔ x.toList.map lowerChar = w := by
  unfold lowercase
  constructor
  · intro h
    have := congrArg String.toList h
    rwa [String.toList_ofList, String.toList_ofList] at this
  · intro h; rw [h]

theorem string_eq_iff {x : String} {w : List Char} : x = String.ofList w ↔ x.toList = w := by
  constructor
  · intro h; rw [h, String.toList_ofList]
  · intro h; rw [← h, String.ofList_toList]

theorem yes_iff {x : String} : (lowercase x = "y" ∨ lowercase x = "yes") ↔ x ∈ yesWords := by
  have hy := fun c => lowerChar_letter (c := c) (t := 'y') (u := 'Y') (by decide) (by decide) (by decide)
  have he := fun c => lowerChar_letter (c := c) (t := 'e') (u := 'E') (by decide) (by decide) (by decide)
  have hs := fun c => lowerChar_letter (c := c) (t := 's') (u := 'S') (by decide) (by decide) (by decide)
  rw [show "y" = String.ofList ['y'] from rfl, show "yes" = String.ofList ['y', 'e', 's'] from rfl, lowercase_word, lowercase_word]
  have hmem : x ∈ yesWords ↔ x.toList ∈ yesWords.map String.toList := by
    rw [List.mem_map]
    exact ⟨fun h => ⟨x, h, rfl⟩, fun ⟨y, h1, h2⟩ => String.toList_injective h2 ▸ h1⟩
  rw [hmem, show yesWords.map String.toList = [['y'], ['Y'], ['y', 'e', 's'], ['y', 'e', 'S'], ['y', 'E', 's'], ['y', 'E', 'S'],
    ['Y', 'e', 's'], ['Y', 'e', 'S'], ['Y', 'E', 's'], ['Y', 'E', 'S']] from by decide]
  match x.toList with
  | [] => simp
  | [a] => simp [hy]
  | [a, b] => simp
  | [a, b, c] =>
    simp [hy, he, hs]
    grind
  | a :: b :: c :: d :: l => simp

theorem no_iff {x : String} : (lowercase x = "n" ∨ lowercase x = "no") ↔ x ∈ noWords := by
  have hn := fun c => lowerChar_letter (c := c) (t := 'n') (u := 'N') (by decide) (by decide) (by decide)
  have ho := fun c => lowerChar_letter (c := c) (t := 'o') (u := 'O') (by decide) (by decide) (by decide)
  rw [show "n" = String.ofList ['n'] from rfl, show "no" = String.ofList ['n', 'o'] from rfl, lowercase_word, lowercase_word]
  have hmem : x ∈ noWords ↔ x.toList ∈ noWords.map String.toList := by
    rw [List.mem_map]
    exact ⟨fun h => ⟨x, h, rfl⟩, fun ⟨y, h1, h2⟩ => String.toList_injective h2 ▸ h1⟩
  rw [hmem, show noWords.map String.toList = [['n'], ['N'], ['n', 'o'], ['n', 'O'], ['N', 'o'], ['N', 'O']] from by decide]
  match x.toList with
  | [] => simp
  | [a] => simp [hn]
  | [a, b] =>
    simp [hn, ho]
    grind
  | a :: b :: c :: l => simp

theorem promptBool_answers {b : Bool} {ls : List String} (h : Answers b ls) (r : List String) :
    promptBool (ls ++ r) = some (b, r) := by
  induction h with
  | yes h ht =>
    simp only [List.cons_append, List.nil_append, promptBool, trim_typed ht]
    rw [if_pos (yes_iff.2 h)]
  | @no x l h ht =>
    simp only [List.cons_append, List.nil_append, promptBool, trim_typed ht]
    rw [if_neg (fun h' => ?_), if_pos (no_iff.2 h)]
    have : ∀ w ∈ noWords, w ∉ yesWords := by decide
    exact this x h (yes_iff.1 h')
  | again h ht hs ih =>
    simp only [List.cons_append, promptBool, trim_typed ht]
    rw [if_neg (fun h' => h.1 (yes_iff.1 h')), if_neg (fun h' => h.2 (no_iff.1 h')), ih]

theorem promptOptional_typed {o : Option String} {l : String} (h : TypedOpt o l) (r : List String) :
    promptOptional (l :: r) = (o, r) := by
  cases o with
  | none => simp only [promptOptional, promptInput, trim_typed (show Typed "" l from h), if_true]
  | some x =>
    obtain ⟨h2, h1⟩ := h
    simp only [promptOptional, promptInput, trim_typed h1, h2, if_false]

theorem numberType_lines {d : Option String} {ls : List String} (h : NumberLines d ls) (r : List String) :
    promptNumberType (ls ++ r) = (d, r) := by
  induction h with
  | number h => simp only [List.cons_append, List.nil_append, promptNumberType, trim_typed h]; rfl
  | boostNumber h => simp only [List.cons_append, List.nil_append, promptNumberType, trim_typed h]; rfl
  | boostPercentage h => simp only [List.cons_append, List.nil_append, promptNumberType, trim_typed h]; rfl
  | date h => simp only [List.cons_append, List.nil_append, promptNumberType, trim_typed h]; rfl
  | plain h => simp only [List.cons_append, List.nil_append, promptNumberType, trim_typed h]; rfl
  | skip h => simp only [List.cons_append, List.nil_append, promptNumberType, trim_typed h]; rfl
  | again h ht hs ih =>
    simp only [List.mem_cons, List.not_mem_nil, or_false, not_or] at h
    obtain ⟨h1, h2, h3, h4, h5, h6⟩ := h
    simp only [List.cons_append, promptNumberType, trim_typed ht, h1, h2, h3, h4, h5, h6, if_false, or_self, ih]

theorem textType_lines {d : Option String} {ls : List String} (h : TextLines d ls) (r : List String) :
    promptTextType (ls ++ r) = (d, r) := by
  induction h with
  | plain h => simp only [List.cons_append, List.nil_append, promptTextType, trim_typed h]; rfl
  | skip h => simp only [List.cons_append, List.nil_append, promptTextType, trim_typed h]; rfl
  | own h hd =>
    simp only [List.cons_append, List.nil_append, promptTextType, trim_typed h]
    rw [if_neg (by decide), if_pos trivial]
    exact promptOptional_typed hd r
  | again h ht hs ih =>
    simp only [List.mem_cons, List.not_mem_nil, or_false, not_or] at h
    obtain ⟨h1, h2, h3⟩ := h
    simp only [List.cons_append, promptTextType, trim_typed ht, h1, h2, h3, if_false, or_self, ih]

theorem attributeLines_length {as : List (String × String × Option String)} {ls : List String}
    (h : AttributeLines as ls) : as.length < ls.length := by
  induction h with
  | stop => simp
  | last => simp
  | more _ _ _ _ _ ih => simp; omega

theorem dialogAttributes_lines {shown : List Char → Option String} {as : List (String × String × Option String)}
    {ls : List String} (h : AttributeLines as ls)
    (hnum : ∀ a ∈ as, (Decimal a.2.1.toList → (shown a.2.1.toList).isSome) ∧ ¬ InfinityOrNaN a.2.1.toList)
    {rest : List String} : ∀ fuel, as.length < fuel → dialogAttributes shown fuel (ls ++ rest) =
      some (as.map fun a => (a.1, attributeValue shown a.2.1.toList, a.2.2), rest) := by
  have one : ∀ {v : String} {d : Option String} {cs : List String} (_ : Chooses v d cs)
      (_ : (Decimal v.toList → (shown v.toList).isSome) ∧ ¬ InfinityOrNaN v.toList) (r : List String),
      dialogType shown v (cs ++ r) = (attributeValue shown v.toList, d, r) := by
    intro v d cs hc hn r
    unfold dialogType attributeValue
    rcases hc with ⟨hdec, hc⟩ | ⟨hdec, hc⟩
    · obtain ⟨x, hx⟩ := Option.isSome_iff_exists.1 (hn.1 hdec)
      rw [floatJson_number hdec hx]
      simp only [numberType_lines hc]
    · rw [floatJson_text hdec hn.2]
      simp only [textType_lines hc, String.ofList_toList]
  induction h with
  | stop h =>
    intro fuel hf
    cases fuel with
    | zero => simp at hf
    | succ fuel =>
      unfold dialogAttributes
      simp only [List.cons_append, List.nil_append, promptInput, trim_typed h, if_true, List.map_nil]
  | @last t v d lt lv cs ln ht hv hd hn =>
    intro fuel hf
    cases fuel with
    | zero => simp at hf
    | succ fuel =>
      have h1 := one hd (hnum _ List.mem_cons_self) (ln ++ rest)
      unfold dialogAttributes
      simp only [List.append_assoc, List.cons_append, promptInput, trim_typed ht.1,
        trim_typed hv, ht.2, if_false, h1, promptBool_answers hn]
      rfl
  | @more t v d lt lv cs ly as ls' ht hv hd hy hs ih =>
    intro fuel hf
    cases fuel with
    | zero => simp at hf
    | succ fuel =>
      have h1 := one hd (hnum _ List.mem_cons_self) (ly ++ (ls' ++ rest))
      have h2 := ih (fun a ha => hnum a (List.mem_cons_of_mem _ ha)) fuel (by simp at hf; omega)
      unfold dialogAttributes
      simp only [List.append_assoc, List.cons_append, promptInput, trim_typed ht.1,
        trim_typed hv, ht.2, if_false, h1, promptBool_answers hy, h2]
      rfl

theorem dialogValue_lines {b64 : String → Option Blob} {v : Value} {ls : List String} (h : ValueLines b64 v ls)
    (rest : List String) : dialogValue b64 (ls ++ rest) = (some v, rest) := by
  cases h with
  | @text k l x l' hk ht hx =>
    simp only [List.mem_cons, List.not_mem_nil, or_false, not_or] at hk
    obtain ⟨h2, h3, h4⟩ := hk
    simp only [dialogValue, List.cons_append, List.nil_append, promptInput, trim_typed ht, trim_typed hx, h2, h3, h4, if_false]
    split <;> rfl
  | nat ht hx hn hr =>
    simp only [dialogValue, List.cons_append, List.nil_append, promptInput, trim_typed ht, trim_typed hx]
    rw [if_neg (by decide), if_pos trivial, parseU64_iff.2 ⟨hn, hr⟩]
    rfl
  | int ht hx hn hr =>
    simp only [dialogValue, List.cons_append, List.nil_append, promptInput, trim_typed ht, trim_typed hx]
    rw [if_neg (by decide), if_neg (by decide), if_pos trivial, parseI64_iff.2 ⟨hn, hr⟩]
    rfl
  | blob ht hx hb =>
    simp only [dialogValue, List.cons_append, List.nil_append, promptInput, trim_typed ht, trim_typed hx]
    rw [if_neg (by decide), if_neg (by decide), if_neg (by decide), if_pos trivial, hb]
    rfl

theorem dialogValue_bad {b64 : String → Option Blob} {ls : List String} (h : BadValueLines b64 ls)
    (rest : List String) : dialogValue b64 (ls ++ rest) = (none, rest) := by
  cases h with
  | @nat l x l' ht hx hn =>
    have : parseU64 x.toList = none := by
      cases hp : parseU64 x.toList with
      | none => rfl
      | some n => exact absurd ⟨n, parseU64_iff.1 hp⟩ hn
    simp only [dialogValue, List.cons_append, List.nil_append, promptInput, trim_typed ht, trim_typed hx]
    rw [if_neg (by decide), if_pos trivial, this]
    rfl
  | @int l x l' ht hx hn =>
    have : parseI64 x.toList = none := by
      cases hp : parseI64 x.toList with
      | none => rfl
      | some n => exact absurd ⟨n, parseI64_iff.1 hp⟩ hn
    simp only [dialogValue, List.cons_append, List.nil_append, promptInput, trim_typed ht, trim_typed hx]
    rw [if_neg (by decide), if_neg (by decide), if_pos trivial, this]
    rfl
  | blob ht hx hb =>
    simp only [dialogValue, List.cons_append, List.nil_append, promptInput, trim_typed ht, trim_typed hx]
    rw [if_neg (by decide), if_neg (by decide), if_neg (by decide), if_pos trivial, hb]
    rfl

theorem entryLines_length {b64 : String → Option Blob} {done : Bool} {kvs : List (String × Value)} {ls : List String}
    (h : EntryLines b64 done kvs ls) : kvs.length ≤ ls.length := by
  induction h with
  | «open» => simp
  | stop => simp
  | last => simp
  | more _ _ _ _ ih => simp; omega

theorem dialogEntries_lines {b64 : String → Option Blob} {done : Bool} {kvs : List (String × Value)} {ls : List String}
    (h : EntryLines b64 done kvs ls) (rest : List String) :
    ∀ fuel, kvs.length ≤ fuel → dialogEntries b64 fuel (ls ++ rest) =
      if done then some (some kvs)
      else (dialogEntries b64 (fuel - kvs.length) rest).map fun o => o.map fun l => kvs ++ l := by
  induction h with
  | «open» =>
    intro fuel _
    simp
  | stop h =>
    intro fuel _
    cases fuel with
    | zero => rfl
    | succ fuel =>
      unfold dialogEntries
      simp only [List.cons_append, List.nil_append, promptInput, trim_typed h, if_true]
  | @last k v lk ls ln hk hv hn =>
    intro fuel hf
    cases fuel with
    | zero => simp at hf
    | succ fuel =>
      unfold dialogEntries
      simp only [List.append_assoc, List.cons_append, promptInput, trim_typed hk.1, hk.2,
        if_false, dialogValue_lines hv, promptBool_answers hn, if_true]
  | @more done k v lk ls ly kvs ls' hk hv hy hs ih =>
    intro fuel hf
    cases fuel with
    | zero => simp at hf
    | succ fuel =>
      have h2 := ih fuel (by simp at hf; omega)
      rw [dialogEntries]
      simp only [List.append_assoc, List.cons_append, promptInput, trim_typed hk.1, hk.2,
        if_false, dialogValue_lines hv, promptBool_answers hy, h2]
      cases done with
      | true => rfl
      | false =>
        rw [if_neg (by decide), if_neg (by decide), List.length_cons, Nat.add_sub_add_right]
        cases dialogEntries b64 (fuel - kvs.length) rest with
        | none => rfl
        | some o => cases o <;> rfl

/-! ## Hexadecimal text -/

theorem hexVal_iff {c : Char} {v : Nat} : hexVal c = some v ↔ v < 16 ∧ c.toLower = hexDigit v := by
  have hdig : ∀ v, v < 16 → (hexDigit v).toNat = if v < 10 then 48 + v else 87 + v := by decide
  have hlow : c.toLower.toNat = if 65 ≤ c.toNat ∧ c.toNat ≤ 90 then c.toNat + 32 else c.toNat := by
    by_cases hx : c.val ≥ 'A'.val ∧ c.val ≤ 'Z'.val
    · have h1 : 65 ≤ c.toNat ∧ c.toNat ≤ 90 := ⟨hx.1, hx.2⟩
      have all : ∀ n, n < 26 → (Char.ofNat (65 + n)).toLower.toNat = 65 + n + 32 := by decide
      have := all (c.toNat - 65) (by omega)
      rw [show 65 + (c.toNat - 65) = c.toNat by omega, Char.ofNat_toNat] at this
      rw [if_pos h1, this]
    · have h1 : ¬ (65 ≤ c.toNat ∧ c.toNat ≤ 90) := fun h => hx ⟨h.1, h.2⟩
      rw [if_neg h1]
      unfold Char.toLower
      rw [dif_neg hx]
  have heq : ∀ d : Char, c.toLower = d ↔ c.toLower.toNat = d.toNat :=
    fun d => ⟨fun h => by rw [h], fun h => Char.ext (UInt32.toNat_inj.1 h)⟩
  unfold hexVal
  simp only
  constructor
  · intro h
    have hv : v < 16 := by
      repeat' (split at h)
      all_goals simp at h
      all_goals omega
    refine ⟨hv, ?_⟩
    rw [heq, hlow, hdig v hv]
    repeat' (split at h)
    all_goals simp at h
    all_goals (split <;> split <;> omega)
  · rintro ⟨hv, h⟩
    rw [heq, hlow, hdig v hv] at h
    split at h <;> split at h
    all_goals
      repeat' split
      all_goals simp
      all_goals omega

theorem hexText_length (b : Blob) : (hexText b).length = 2 * b.length := by
  unfold hexText
  induction b with
  | nil => rfl
  | cons x b ih => rw [List.flatMap_cons, List.length_append, ih]; simp; omega

theorem hexText_cons (x : UInt8) (b : Blob) :
    hexText (x :: b) = hexDigit (x.toNat / 16) :: hexDigit (x.toNat % 16) :: hexText b := by
  unfold hexText
  simp

theorem hexDecode_iff : ∀ {l : List Char} {b : Blob}, hexDecode l = some b ↔ l.map Char.toLower = hexText b := by
  intro l
  induction l using hexDecode.induct with
  | case1 =>
    intro b
    unfold hexDecode
    cases b with
    | nil => simp [hexText]
    | cons x b => simp [hexText_cons]
  | case2 c =>
    intro b
    unfold hexDecode
    cases b with
    | nil => simp [hexText]
    | cons x b => simp [hexText_cons]
  | case3 c d l x y r hr hy hx ih =>
    intro b
    have e := ih.1 hr
    obtain ⟨hx1, hx2⟩ := hexVal_iff.1 hx
    obtain ⟨hy1, hy2⟩ := hexVal_iff.1 hy
    unfold hexDecode
    simp only [hx, hy, hr]
    cases b with
    | nil => simp [hexText]
    | cons z b =>
      rw [hexText_cons, List.map_cons, List.map_cons, hx2, hy2]
      simp only [Option.some.injEq, List.cons.injEq]
      constructor
      · rintro ⟨rfl, rfl⟩
        have hz : (UInt8.ofNat (x * 16 + y)).toNat = x * 16 + y := by
          rw [UInt8.toNat_ofNat']; omega
        rw [hz]
        exact ⟨congrArg hexDigit (by omega), congrArg hexDigit (by omega), e⟩
      · rintro ⟨h1, h2, h3⟩
        have inj : ∀ a, a < 16 → ∀ b, b < 16 → hexDigit a = hexDigit b → a = b := by decide
        have hz := z.toNat_lt
        have e1 := inj _ hx1 _ (by omega) h1
        have e2 := inj _ hy1 _ (by omega) h2
        refine ⟨?_, ?_⟩
        · apply UInt8.toNat_inj.1
          rw [UInt8.toNat_ofNat']; omega
        · exact Option.some.inj (hr.symm.trans (ih.2 h3))
  | case4 c d l hno ih =>
    intro b
    unfold hexDecode
    cases b with
    | nil =>
      simp only [hexText]
      constructor
      · intro h; cases h
      · intro h; simp at h
    | cons z b =>
      rw [hexText_cons]
      constructor
      · intro h
        split at h
        · rename_i x y r hx hy hr; exact absurd hr (hno _ _ _ hx hy)
        · cases h
      · intro h
        simp only [List.map_cons, List.cons.injEq] at h
        obtain ⟨h1, h2, h3⟩ := h
        have hz := z.toNat_lt
        have hx := hexVal_iff.2 ⟨show z.toNat / 16 < 16 by omega, h1⟩
        have hy := hexVal_iff.2 ⟨show z.toNat % 16 < 16 by omega, h2⟩
        exact absurd (ih.2 h3) (hno _ _ _ hx hy)

end Verif
