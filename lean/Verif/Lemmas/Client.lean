import Verif.Spec.Client
import Verif.Lemmas.Index
/-! # Lemmas about the command-line client -/
namespace Verif

open Spec

/-! ## Chunks -/

/-- Any reads: the chunks are numbered in order, not empty, small enough, and a
prefix of the file. -/
theorem chunkLoop_any (chunk : Nat) (read : Nat → Nat) (n : Nat) : ∀ (i : Nat) (rest : Blob),
    (chunkLoop chunk read n i rest).map Prod.fst = List.range' i (chunkLoop chunk read n i rest).length ∧
    (∀ c ∈ chunkLoop chunk read n i rest, c.2 ≠ [] ∧ c.2.length ≤ chunk) ∧
    (chunkLoop chunk read n i rest).flatMap Prod.snd <+: rest ∧ (chunkLoop chunk read n i rest).length ≤ n := by
  induction n with
  | zero => intro i rest; simp [chunkLoop]
  | succ n ih =>
    intro i rest
    unfold chunkLoop
    dsimp only
    split
    · simp
    · rename_i hk
      obtain ⟨h1, h2, h3, h4⟩ := ih (i + 1) (rest.drop (min (max 1 (read i)) (min chunk rest.length)))
      refine ⟨?_, ?_, ?_, ?_⟩
      · rw [List.map_cons, h1, List.length_cons, List.range'_succ]
      · intro c hc
        rcases List.mem_cons.1 hc with rfl | hc
        · constructor
          · intro h
            have := congrArg List.length h
            rw [List.length_take, List.length_nil] at this
            omega
          · rw [List.length_take]; omega
        · exact h2 c hc
      · rw [List.flatMap_cons]
        obtain ⟨t, ht⟩ := h3
        refine ⟨t, ?_⟩
        rw [List.append_assoc, ht, List.take_append_drop]
      · rw [List.length_cons]; omega

/-- Full reads: the whole file, all chunks but the last of the full size. -/
theorem chunkLoop_full {chunk : Nat} (hc : 0 < chunk) {read : Nat → Nat} (hr : ∀ i, chunk ≤ read i) (n : Nat) :
    ∀ (i : Nat) (rest : Blob), rest.length ≤ n * chunk →
    (chunkLoop chunk read n i rest).flatMap Prod.snd = rest ∧
    (∀ c ∈ (chunkLoop chunk read n i rest).dropLast, c.2.length = chunk) ∧
    rest.length ≤ (chunkLoop chunk read n i rest).length * chunk ∧
    (chunkLoop chunk read n i rest).length * chunk < rest.length + chunk := by
  induction n with
  | zero =>
    intro i rest h
    have : rest = [] := List.length_eq_zero_iff.1 (by omega)
    simp [chunkLoop, this, hc]
  | succ n ih =>
    intro i rest h
    unfold chunkLoop
    dsimp only
    have hk : min (max 1 (read i)) (min chunk rest.length) = min chunk rest.length := by
      have := hr i
      omega
    rw [hk]
    split
    · rename_i h0
      have : rest = [] := List.length_eq_zero_iff.1 (by omega)
      simp [this, hc]
    · rename_i h0
      have hmul : (n + 1) * chunk = n * chunk + chunk := Nat.succ_mul n chunk
      obtain ⟨h1, h2, h3, h4⟩ := ih (i + 1) (rest.drop (min chunk rest.length)) (by rw [List.length_drop]; omega)
      rw [List.length_drop] at h3 h4
      refine ⟨?_, ?_, ?_, ?_⟩
      · rw [List.flatMap_cons, h1, List.take_append_drop]
      · intro c hm
        cases hl : chunkLoop chunk read n (i + 1) (rest.drop (min chunk rest.length)) with
        | nil => rw [hl] at hm; simp at hm
        | cons x xs =>
          rw [hl, List.dropLast_cons_of_ne_nil (by simp)] at hm
          rcases List.mem_cons.1 hm with rfl | hm
          · rw [hl] at h4
            rw [List.length_cons, Nat.succ_mul] at h4
            rw [List.length_take]
            omega
          · exact h2 c (by rw [hl]; exact hm)
      · rw [List.length_cons, Nat.succ_mul]; omega
      · rw [List.length_cons, Nat.succ_mul]
        by_cases hle : chunk ≤ rest.length
        · omega
        · have : rest.length - min chunk rest.length = 0 := by omega
          rw [this] at h4
          have hz : (chunkLoop chunk read n (i + 1) (rest.drop (min chunk rest.length))).length = 0 := by
            refine Classical.byContradiction fun hne => ?_
            have := Nat.le_mul_of_pos_left chunk (Nat.pos_of_ne_zero hne)
            omega
          rw [hz]
          omega

theorem ceil_spec {len chunk : Nat} (hc : 0 < chunk) : len ≤ (len + chunk - 1) / chunk * chunk := by
  have h1 := Nat.div_add_mod (len + chunk - 1) chunk
  have h2 := Nat.mod_lt (len + chunk - 1) hc
  rw [Nat.mul_comm] at h1
  omega

theorem upload_count {len chunk : Nat} (hc : 0 < chunk) (h : len + chunk ≤ 2 ^ 64 - 1) :
    (u64add len chunk + (U64 - 1)) % U64 / chunk = (len + chunk - 1) / chunk := by
  have hU : U64 = 18446744073709551616 := rfl
  have h1 : u64add len chunk = len + chunk := Nat.mod_eq_of_lt (b := U64) (by omega)
  rw [h1, show len + chunk + (U64 - 1) = (len + chunk - 1) + U64 by omega, Nat.add_mod_right,
    Nat.mod_eq_of_lt (by omega)]

/-! ## Labels -/

theorem toLower_eq {c d : Char} (h : c.toLower = d.toLower) : lowerChar c = lowerChar d := by
  have key : ∀ x : Char, lowerChar x.toLower = lowerChar x := by
    intro x
    by_cases hx : x.val ≥ 'A'.val ∧ x.val ≤ 'Z'.val
    · have h1 : 65 ≤ x.toNat ∧ x.toNat ≤ 90 := ⟨hx.1, hx.2⟩
      have all : ∀ n, n < 26 → lowerChar (Char.ofNat (65 + n)).toLower = lowerChar (Char.ofNat (65 + n)) := by decide
      have := all (x.toNat - 65) (by omega)
      rwa [show 65 + (x.toNat - 65) = x.toNat by omega, Char.ofNat_toNat] at this
    · unfold Char.toLower
      rw [dif_neg hx]
  rw [← key c, h, key d]

theorem lowercase_congr {s s' : String} (h : sameUpToCase s s') : lowercase s = lowercase s' := by
  unfold lowercase
  congr 1
  unfold sameUpToCase at h
  generalize s.toList = l at h
  generalize s'.toList = l' at h
  induction l generalizing l' with
  | nil => cases l' with | nil => rfl | cons _ _ => simp at h
  | cons c l ih =>
    cases l' with
    | nil => simp at h
    | cons d l' =>
      rw [List.map_cons, List.map_cons, List.cons.injEq] at h ⊢
      exact ⟨toLower_eq h.1, ih _ h.2⟩

theorem lowercase_eq {s w : String} : lowercase s = w ↔ s.toList.map lowerChar = w.toList := by
  unfold lowercase
  constructor
  · rintro rfl; simp
  · intro h; rw [h]; simp

theorem parsePermission_iff {s : String} {p : Permission} :
    parsePermission s = some p ↔ s.toList.map lowerChar ∈ spellings p := by
  have hs : ∀ w : List Char, s.toList.map lowerChar = w ↔ lowercase s = String.ofList w := by
    intro w
    rw [lowercase_eq]; simp
  have hm : s.toList.map lowerChar ∈ spellings p ↔ ∃ w ∈ (spellings p).map String.ofList, lowercase s = w := by
    constructor
    · intro h
      exact ⟨_, List.mem_map_of_mem h, (hs _).1 rfl⟩
    · rintro ⟨w, hw, he⟩
      obtain ⟨x, hx, rfl⟩ := List.mem_map.1 hw
      rw [(hs x).2 he]; exact hx
  rw [hm]
  unfold parsePermission
  dsimp only
  generalize lowercase s = l
  constructor
  · intro h
    repeat' split at h
    all_goals first | cases h | skip
    all_goals (refine ⟨l, ?_, rfl⟩)
    all_goals rename_i hl
    · subst hl; decide
    all_goals (rcases hl with rfl | rfl | rfl <;> decide)
  · rintro ⟨w, hw, rfl⟩
    have : ∀ p, ∀ w ∈ (spellings p).map String.ofList, parsePermission w = some p ∧ lowercase w = w := by
      intro p; cases p <;> decide
    obtain ⟨h1, h2⟩ := this p l hw
    unfold parsePermission at h1
    rw [h2] at h1
    exact h1

/-! ## Validation -/

theorem isString_iff {v : Json} : v.isString = true ↔ ∃ s, v = .str s := by
  cases v <;> simp [Json.isString]

theorem checkText_iff {kvs : List (String × Json)} {k : String} :
    checkText kvs k = .ok () ↔ TextIfPresent kvs k := by
  unfold checkText TextIfPresent HasField jsonGet
  cases (⟨kvs⟩ : Map String Json).get k with
  | none => simp
  | some v =>
    simp only [Option.some.injEq, forall_eq']
    rw [← isString_iff]
    cases v.isString <;> simp

theorem checkAttribute_iff {i : Nat} {j : Json} : checkAttribute i j = .ok () ↔ GoodAttribute j := by
  unfold GoodAttribute
  cases j with
  | obj kvs =>
    simp only [Json.obj.injEq, exists_eq_left', checkAttribute]
    unfold HasField TextIfPresent HasField jsonGet
    cases (⟨kvs⟩ : Map String Json).get "trait_type" with
    | none => simp
    | some t =>
      simp only [Option.some.injEq]
      have ht := isString_iff (v := t)
      cases htb : t.isString with
      | false =>
        have : ¬ ∃ s, t = .str s := by rw [← ht, htb]; simp
        simp [this]
      | true =>
        have : ∃ s, t = .str s := by rw [← ht, htb]
        simp only [this, true_and, Bool.not_true, Bool.false_eq_true, if_false]
        cases (⟨kvs⟩ : Map String Json).get "value" with
        | none => simp
        | some v =>
          cases (⟨kvs⟩ : Map String Json).get "display_type" with
          | none => simp
          | some d =>
            have hd := isString_iff (v := d)
            simp only [Option.some.injEq, exists_eq', true_and, forall_eq', ← hd]
            cases d.isString <;> simp
  | _ => simp [checkAttribute]

theorem checkAttributes_iff {l : List Json} : ∀ {i : Nat}, checkAttributes i l = .ok () ↔ ∀ a ∈ l, GoodAttribute a := by
  induction l with
  | nil => intro i; simp [checkAttributes]
  | cons a l ih =>
    intro i
    rw [checkAttributes, List.forall_mem_cons, ← checkAttribute_iff (i := i), ← ih (i := i + 1)]
    cases checkAttribute i a with
    | error e => simp
    | ok u => simp

theorem validateMetadata_iff {j : Json} : validateMetadata j = .ok () ↔ GoodMetadata j := by
  unfold GoodMetadata
  cases j with
  | obj kvs =>
    simp only [Json.obj.injEq, exists_eq_left', validateMetadata, List.forall_mem_cons, List.not_mem_nil, false_implies,
      implies_true, and_true, ← checkText_iff]
    cases checkText kvs "name" with
    | error e => simp [bind, Except.bind]
    | ok u =>
    cases checkText kvs "description" with
    | error e => simp [bind, Except.bind]
    | ok u =>
    cases checkText kvs "image" with
    | error e => simp [bind, Except.bind]
    | ok u =>
    cases checkText kvs "external_url" with
    | error e => simp [bind, Except.bind]
    | ok u =>
    simp only [bind, Except.bind, HasField, jsonGet, true_and]
    cases (⟨kvs⟩ : Map String Json).get "attributes" with
    | none => simp
    | some v =>
      cases v with
      | arr l => simp [checkAttributes_iff]
      | _ => simp
  | _ => simp [validateMetadata]

theorem lowerChar_iff {c d : Char} (hk : d ≠ 'k') (hK : d.toNat ≠ 0x212A) : lowerChar c = d ↔ c.toLower = d := by
  by_cases hx : c.val ≥ 'A'.val ∧ c.val ≤ 'Z'.val
  · have h1 : 65 ≤ c.toNat ∧ c.toNat ≤ 90 := ⟨hx.1, hx.2⟩
    have all : ∀ n, n < 26 → lowerChar (Char.ofNat (65 + n)) = (Char.ofNat (65 + n)).toLower := by decide
    have := all (c.toNat - 65) (by omega)
    rw [show 65 + (c.toNat - 65) = c.toNat by omega, Char.ofNat_toNat] at this
    rw [this]
  · have h1 : ¬ (65 ≤ c.toNat ∧ c.toNat ≤ 90) := fun h => hx ⟨h.1, h.2⟩
    have h2 : c.toLower = c := by
      unfold Char.toLower
      rw [dif_neg hx]
    rw [h2]
    unfold lowerChar
    rw [if_neg h1]
    by_cases h3 : c.toNat = 0x212A
    · rw [if_pos h3]
      exact ⟨fun h => absurd h.symm hk, fun h => absurd h3 (h ▸ hK)⟩
    · rw [if_neg h3]

theorem map_lower_iff {l w : List Char} (hw : ∀ d ∈ w, d ≠ 'k' ∧ d.toNat ≠ 0x212A) :
    l.map lowerChar = w ↔ l.map Char.toLower = w := by
  induction l generalizing w with
  | nil => simp
  | cons c l ih =>
    cases w with
    | nil => simp
    | cons d w =>
      simp only [List.map_cons, List.cons.injEq]
      rw [lowerChar_iff (hw d (by simp)).1 (hw d (by simp)).2, ih (fun d hd => hw d (by simp [hd]))]

theorem spellings_plain (p : Permission) : ∀ w ∈ spellings p, ∀ d ∈ w, d ≠ 'k' ∧ d.toNat ≠ 0x212A := by
  cases p <;> decide

/-! ## Entries on the command line -/

theorem splitAt_none {c : Char} {l : List Char} (h : c ∉ l) : splitAt c l = [l] := by
  induction l with
  | nil => rfl
  | cons x xs ih =>
    rw [List.mem_cons, not_or] at h
    simp only [splitAt, if_neg (Ne.symm h.1), ih h.2]

theorem splitAt_first {c : Char} {k v : List Char} (h : c ∉ k) : splitAt c (k ++ c :: v) = k :: splitAt c v := by
  induction k with
  | nil => simp [splitAt]
  | cons x xs ih =>
    rw [List.mem_cons, not_or] at h
    simp only [List.cons_append, splitAt, if_neg (Ne.symm h.1), ih h.2]

theorem digitVal_isDigit {c : Char} (h : c.isDigit = true) : digitVal c = some (c.toNat - 48) := by
  have : 48 ≤ c.toNat ∧ c.toNat ≤ 57 := by
    simp only [Char.isDigit, Bool.and_eq_true, decide_eq_true_eq] at h
    exact ⟨h.1, h.2⟩
  simp [digitVal, this]

theorem digits_fold {l : List Char} (h : ∀ c ∈ l, c.isDigit = true) : ∀ n : Nat,
    l.foldl (fun acc c => match acc, digitVal c with | some n, some d => some (n * 10 + d) | _, _ => none) (some n) =
      some (Nat.ofDigitChars 10 l n) := by
  induction l with
  | nil => intro n; simp
  | cons c l ih =>
    intro n
    rw [List.foldl_cons, digitVal_isDigit (h c (by simp)), Nat.ofDigitChars_cons]
    dsimp only
    rw [ih (fun c hc => h c (by simp [hc])), Nat.mul_comm 10 n]
    rfl

theorem digits_fold_none (l : List Char) :
    l.foldl (fun (acc : Option Nat) c => match acc, digitVal c with | some n, some d => some (n * 10 + d) | _, _ => none) none =
      none := by
  induction l with
  | nil => rfl
  | cons c l ih => rw [List.foldl_cons]; exact ih

theorem digits_fold_bad {l : List Char} (h : ∃ c ∈ l, digitVal c = none) : ∀ o : Option Nat,
    l.foldl (fun acc c => match acc, digitVal c with | some n, some d => some (n * 10 + d) | _, _ => none) o = none := by
  induction l with
  | nil => obtain ⟨c, hc, _⟩ := h; cases hc
  | cons c l ih =>
    intro o
    rw [List.foldl_cons]
    cases hd : digitVal c with
    | none => cases o <;> exact digits_fold_none l
    | some d =>
      obtain ⟨c', hc', hb⟩ := h
      rcases List.mem_cons.1 hc' with rfl | hm
      · rw [hd] at hb; cases hb
      · exact ih ⟨c', hm, hb⟩ _

theorem digitsVal_repr (n : Nat) : digitsVal (Nat.repr n).toList = some n := by
  have hd : ∀ c ∈ Nat.toDigits 10 n, c.isDigit = true := fun c hc => Nat.isDigit_of_mem_toDigits (by omega) (by omega) hc
  have hne : Nat.toDigits 10 n ≠ [] := by
    intro h
    have := Nat.length_toDigits_pos (b := 10) (n := n)
    rw [h] at this; cases this
  rw [Nat.repr_eq_ofList_toDigits, String.toList_ofList]
  have hf := digits_fold hd 0
  rw [Nat.ofDigitChars_ten_toDigits] at hf
  revert hf hne
  generalize Nat.toDigits 10 n = l
  intro hne hf
  cases l with
  | nil => exact absurd rfl hne
  | cons c l => exact hf

theorem digitsVal_bad {l : List Char} (h : ∃ c ∈ l, digitVal c = none) : digitsVal l = none := by
  cases l with
  | nil => rfl
  | cons c l => exact digits_fold_bad h _

theorem repr_head {n : Nat} : ∃ c l, (Nat.repr n).toList = c :: l ∧ c.isDigit = true := by
  rw [Nat.repr_eq_ofList_toDigits, String.toList_ofList]
  have hd : ∀ c ∈ Nat.toDigits 10 n, c.isDigit = true := fun c hc => Nat.isDigit_of_mem_toDigits (by omega) (by omega) hc
  have := Nat.length_toDigits_pos (b := 10) (n := n)
  cases h : Nat.toDigits 10 n with
  | nil => rw [h] at this; cases this
  | cons c l => exact ⟨c, l, rfl, hd c (by simp [h])⟩

theorem parseU64_repr {n : Nat} (h : n < U64) : parseU64 (Nat.repr n).toList = some n := by
  have hv := digitsVal_repr n
  obtain ⟨c, l, hl, hc⟩ := repr_head (n := n)
  rw [hl] at hv ⊢
  have hp : c ≠ '+' := by rintro rfl; cases hc
  unfold parseU64
  split
  · rename_i heq; cases heq; exact absurd rfl hp
  · simp only [hv, if_pos h]

theorem parseU64_minus {l : List Char} : parseU64 ('-' :: l) = none := by
  have : digitsVal ('-' :: l) = none := digitsVal_bad ⟨'-', by simp, by decide⟩
  unfold parseU64
  split
  · rename_i heq; cases heq
  · simp only [this]

theorem guessValue_nat {n : Nat} (h : n < U64) : guessValue (Nat.repr n).toList = .nat n := by
  simp only [guessValue, parseU64_repr h]

theorem guessValue_neg {n : Nat} (h : n ≤ 2 ^ 63) : guessValue ('-' :: (Nat.repr n).toList) = .int (-(n : Int)) := by
  simp only [guessValue, parseU64_minus, parseI64, digitsVal_repr, if_pos h]

theorem guessValue_text {l : List Char} (h : ∃ c ∈ l, digitVal c = none ∧ c ≠ '+' ∧ c ≠ '-') :
    guessValue l = .text (String.ofList l) := by
  obtain ⟨c, hc, hd, hp, hm⟩ := h
  have hb : digitsVal l = none := digitsVal_bad ⟨c, hc, hd⟩
  have ht : ∀ x t, l = x :: t → (x = '+' ∨ x = '-') → digitsVal t = none := by
    rintro x t rfl hx
    rcases List.mem_cons.1 hc with rfl | hmem
    · rcases hx with rfl | rfl
      · exact absurd rfl hp
      · exact absurd rfl hm
    · exact digitsVal_bad ⟨c, hmem, hd⟩
  have h1 : parseU64 l = none := by
    unfold parseU64
    split
    · simp only [ht _ _ rfl (.inl rfl)]
    · simp only [hb]
  have h2 : parseI64 l = none := by
    unfold parseI64
    split
    · simp only [ht _ _ rfl (.inr rfl)]
    · split
      · simp only [ht _ _ rfl (.inl rfl)]
      · simp only [hb]
  simp only [guessValue, h1, h2]

theorem parseEntry_colon {k v : List Char} (hk : ':' ∉ k) (hv : ':' ∉ v) :
    parseEntry (String.ofList (k ++ ':' :: v)) = some (String.ofList k, guessValue v) := by
  unfold parseEntry
  rw [String.toList_ofList, splitAt_first hk, splitAt_none hv]

theorem parseEntry_none {e : String} (h : ':' ∉ e.toList) : parseEntry e = none := by
  unfold parseEntry
  rw [splitAt_none h]

end Verif
