import Verif.Spec.Consent
/-! # Lemmas about consent messages -/
namespace Verif

open Spec

/-- The last word of a message. -/
def lastWord (l : List Char) : List Char := (l.reverse.takeWhile fun c => c ≠ ' ').reverse

theorem lastWord_append (before w : List Char) (h : ∀ c ∈ w, c ≠ ' ') : lastWord (before ++ ' ' :: w) = w := by
  unfold lastWord
  rw [List.reverse_append, List.reverse_cons, List.append_assoc]
  rw [List.takeWhile_append_of_pos (by
    intro c hc
    simpa using h c (List.mem_reverse.1 hc))]
  simp

theorem consent_cases (dec : Decoders) (text : Principal → String) (r : ConsentRequest) :
    (∃ message, consent dec text r = some (.ok message r.metadata) ∧ names message r.method ∧
      r.method ∈ consentMethods ∧ (itemCount dec r).isSome) ∨
    (∃ d, consent dec text r = some (.unsupported d) ∧ itemCount dec r = none) ∨
    (consent dec text r = none ∧ r.method = "icrc37_approve_collection" ∧ itemCount dec r = some 0) := by
  have nm : ∀ (n : Nat) {one b sev w : String} (a c : String), one = a ++ "Method: " ++ w → sev = c ++ "Method: " ++ w →
      names (batchText n one (b, sev)) w := by
    intro n one b sev w a c h1 h2
    subst h1 h2
    unfold batchText
    split
    · exact ⟨b ++ Nat.repr n ++ c, by simp [String.append_assoc]⟩
    · exact ⟨a, rfl⟩
  unfold consent itemCount
  split
  · rename_i h
    rw [h]
    cases dec.transfer r.arg with
    | none => exact .inr (.inl ⟨_, rfl, rfl⟩)
    | some args => exact .inl ⟨_, rfl, nm _ "You are about to transfer an NFT. " " NFTs. " (by decide) (by decide), by decide, rfl⟩
  split
  · rename_i h
    rw [h]
    cases dec.approveTokens r.arg with
    | none => exact .inr (.inl ⟨_, rfl, rfl⟩)
    | some args =>
      exact .inl ⟨_, rfl, nm _ "You are about to approve an NFT for transfer. " " NFTs for transfer. " (by decide) (by decide), by decide, rfl⟩
  split
  · rename_i h
    rw [h]
    cases dec.approveColl r.arg with
    | none => exact .inr (.inl ⟨_, rfl, rfl⟩)
    | some args =>
      cases args with
      | nil => exact .inr (.inr ⟨rfl, rfl, rfl⟩)
      | cons a as =>
        refine .inl ⟨_, rfl, ⟨"You are about to approve " ++ text a.spender.owner ++
          " to transfer all your nft available in the collection. ", ?_⟩, by decide, rfl⟩
        rw [show " to transfer all your nft available in the collection. Method: icrc37_approve_collection" =
          " to transfer all your nft available in the collection. " ++ "Method: " ++ "icrc37_approve_collection" by decide]
        simp only [String.append_assoc]
  split
  · rename_i h
    rw [h]
    cases dec.revokeTokens r.arg with
    | none => exact .inr (.inl ⟨_, rfl, rfl⟩)
    | some args =>
      exact .inl ⟨_, rfl, nm _ "You are about to revoke approval for an NFT. " " NFTs. " (by decide) (by decide), by decide, rfl⟩
  split
  · rename_i h
    rw [h]
    cases dec.revokeColl r.arg with
    | none => exact .inr (.inl ⟨_, rfl, rfl⟩)
    | some args => exact .inl ⟨_, rfl, ⟨"You are about to revoke collection approvals. ", by decide⟩, by decide, rfl⟩
  split
  · rename_i h
    rw [h]
    cases dec.transferFrom r.arg with
    | none => exact .inr (.inl ⟨_, rfl, rfl⟩)
    | some args =>
      exact .inl ⟨_, rfl, nm _ "You are about to transfer an NFT using approval. " " NFTs using approval. " (by decide) (by decide),
        by decide, rfl⟩
  · exact .inr (.inl ⟨_, rfl, rfl⟩)

theorem append_cancel {a b c d : String} (h : a ++ b ++ d = a ++ c ++ d) : b = c := by
  have := congrArg String.toList h
  simp only [String.toList_append, List.append_assoc, List.append_cancel_left_eq] at this
  exact String.toList_injective (List.append_cancel_right this)

theorem batchText_eq {n n' : Nat} {one : String} {several : String × String}
    (hne : ∀ n, several.1 ++ Nat.repr n ++ several.2 ≠ one) (h : batchText n one several = batchText n' one several) :
    n = n' ∨ n ≤ 1 ∧ n' ≤ 1 := by
  unfold batchText at h
  split at h <;> split at h
  · left
    have := congrArg String.toList (append_cancel h)
    rw [Nat.toList_repr, Nat.toList_repr] at this
    rw [← Nat.ofDigitChars_ten_toDigits (n := n), this, Nat.ofDigitChars_ten_toDigits]
  · exact absurd h (hne n)
  · exact absurd h.symm (hne n')
  · right; omega

/-- A digit and a letter in the same place. -/
theorem digit_ne {p q : String} {rest : String} {c : Char} {cs : List Char} (n : Nat) (hq : q.toList = p.toList ++ c :: cs)
    (hc : c.isDigit = false) : p ++ Nat.repr n ++ rest ≠ q := by
  intro h
  have := congrArg String.toList h
  rw [hq, String.toList_append, String.toList_append, List.append_assoc, List.append_cancel_left_eq, Nat.toList_repr] at this
  cases hd : Nat.toDigits 10 n with
  | nil => exact absurd hd Nat.toDigits_ne_nil
  | cons x xs =>
    rw [hd, List.cons_append, List.cons.injEq] at this
    have hx := Nat.isDigit_of_mem_toDigits (c := x) (b := 10) (n := n) (by decide) (by decide) (by rw [hd]; exact List.mem_cons_self)
    rw [this.1, hc] at hx
    cases hx

theorem prefix_ne {p x rest q : String} (h : q.toList.take p.toList.length ≠ p.toList) : p ++ x ++ rest ≠ q := by
  intro he
  apply h
  rw [← he, String.toList_append, String.toList_append, List.append_assoc, List.take_left]

end Verif
