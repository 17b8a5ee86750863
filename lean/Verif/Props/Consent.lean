import Verif.Lemmas.Consent
/-!
# C46 Consent messages match the method
-/
namespace Verif

open Spec

namespace ConsentDemo

/-- Every argument decodes to as many items as it has bytes. -/
def dec : Decoders where
  transfer b := some (b.map fun _ => { to_ := ⟨[1], none⟩, tid := 0 })
  approveTokens b := some (b.map fun x => ⟨x.toNat, { spender := ⟨[x], none⟩, createdAt := 0 }⟩)
  approveColl b := some (b.map fun x => { spender := ⟨[x], none⟩, createdAt := 0 })
  revokeTokens b := some (b.map fun x => { tid := x.toNat })
  revokeColl b := some (b.map fun x => { spender := some ⟨[x], none⟩ })
  transferFrom _ := none

def text (p : Principal) : String := if p = [1] then "one" else "other"

def req (method : String) (arg : Blob) : ConsentRequest := ⟨method, arg, { language := "en" }, none⟩

end ConsentDemo

open ConsentDemo

/-- A consent message is given only for one of the six methods, ends with the name
of the method asked for, and carries the metadata of the request. -/
theorem C46_names {dec : Decoders} {text : Principal → String} {r : ConsentRequest} {message : String}
    {metadata : ConsentMetadata} (h : consent dec text r = some (.ok message metadata)) :
    r.method ∈ consentMethods ∧ names message r.method ∧ metadata = r.metadata := by
  rcases consent_cases dec text r with ⟨m, h1, h2, h3, _⟩ | ⟨d, h1, _⟩ | ⟨h1, _⟩
  · rw [h1] at h
    cases h
    exact ⟨h3, h2, rfl⟩
  · rw [h1] at h; cases h
  · rw [h1] at h; cases h

example : consent dec text (req "icrc7_transfer" [1, 2, 3]) =
    some (.ok "You are about to transfer 3 NFTs. Method: icrc7_transfer" { language := "en" }) := by decide

/-- The message tells the method: requests for different methods never get the same
message. -/
theorem C46_distinct {dec dec' : Decoders} {text text' : Principal → String} {r r' : ConsentRequest} {message : String}
    {metadata metadata' : ConsentMetadata} (h : consent dec text r = some (.ok message metadata))
    (h' : consent dec' text' r' = some (.ok message metadata')) : r.method = r'.method := by
  have key : ∀ {m : String}, m ∈ consentMethods → names message m → lastWord message.toList = m.toList := by
    intro m hm ⟨before, hb⟩
    rw [hb]
    have : ∀ w ∈ consentMethods, ∀ c ∈ w.toList, c ≠ ' ' := by decide
    rw [String.toList_append, String.toList_append,
      show "Method: ".toList = "Method:".toList ++ [' '] from by decide, List.append_assoc, List.append_assoc,
      ← List.append_assoc]
    exact lastWord_append _ _ (this m hm)
  obtain ⟨h1, h2, _⟩ := C46_names h
  obtain ⟨h1', h2', _⟩ := C46_names h'
  exact String.toList_injective ((key h1 h2).symm.trans (key h1' h2'))

example : ∃ m m', consent dec text (req "icrc7_transfer" [1]) = some (.ok m { language := "en" }) ∧
    consent dec text (req "icrc37_approve_tokens" [1]) = some (.ok m' { language := "en" }) ∧ m ≠ m' :=
  ⟨"You are about to transfer an NFT. Method: icrc7_transfer",
    "You are about to approve an NFT for transfer. Method: icrc37_approve_tokens", by decide, by decide, by decide⟩

/-- Any other method, and any argument that does not decode, is answered with
`UnsupportedCanisterCall`; and nothing else is. -/
theorem C46_unsupported (dec : Decoders) (text : Principal → String) (r : ConsentRequest) :
    (∃ d, consent dec text r = some (.unsupported d)) ↔ r.method ∉ consentMethods ∨ itemCount dec r = none := by
  constructor
  · rintro ⟨d, h⟩
    rcases consent_cases dec text r with ⟨m, h1, _⟩ | ⟨d, _, h1⟩ | ⟨h1, _⟩
    · rw [h1] at h; cases h
    · exact .inr h1
    · rw [h1] at h; cases h
  · intro h
    rcases consent_cases dec text r with ⟨m, _, _, h3, h4⟩ | ⟨d, h1, _⟩ | ⟨_, h2, h3⟩
    · rcases h with h | h
      · exact absurd h3 h
      · rw [h] at h4; cases h4
    · exact ⟨d, h1⟩
    · rcases h with h | h
      · exact absurd (by rw [h2]; decide) h
      · rw [h3] at h; cases h

example : consent dec text (req "burn_nft" []) = some (.unsupported "Method 'burn_nft' is not supported") ∧
    consent dec text (req "icrc37_transfer_from" [1]) = some (.unsupported "Failed to decode transfer_from arguments") := by
  decide

/-- The description of an unsupported method quotes it. -/
theorem C46_quotes {dec : Decoders} {text : Principal → String} {r : ConsentRequest} (h : r.method ∉ consentMethods) :
    consent dec text r = some (.unsupported ("Method '" ++ r.method ++ "' is not supported")) := by
  unfold consent
  have : ∀ m ∈ consentMethods, r.method ≠ m := fun m hm he => h (he ▸ hm)
  rw [if_neg (this _ (by decide)), if_neg (this _ (by decide)), if_neg (this _ (by decide)), if_neg (this _ (by decide)),
    if_neg (this _ (by decide)), if_neg (this _ (by decide))]

/-- An argument that does not decode is described by the method asked for, without
the name of its standard. -/
theorem C46_undecodable {dec : Decoders} {text : Principal → String} {r : ConsentRequest} (hm : r.method ∈ consentMethods)
    (h : itemCount dec r = none) : ∃ standard short, standard ∈ ["icrc7", "icrc37"] ∧
      r.method = standard ++ "_" ++ short ∧
      consent dec text r = some (.unsupported ("Failed to decode " ++ short ++ " arguments")) := by
  simp only [consentMethods, List.mem_cons, List.not_mem_nil, or_false] at hm
  rcases hm with hm | hm | hm | hm | hm | hm <;> simp [itemCount, hm] at h
  · exact ⟨"icrc7", "transfer", by decide, by rw [hm]; decide, by simp [consent, hm, h]⟩
  · exact ⟨"icrc37", "approve_tokens", by decide, by rw [hm]; decide, by simp [consent, hm, h]⟩
  · exact ⟨"icrc37", "approve_collection", by decide, by rw [hm]; decide, by simp [consent, hm, h]⟩
  · exact ⟨"icrc37", "revoke_token_approvals", by decide, by rw [hm]; decide, by simp [consent, hm, h]⟩
  · exact ⟨"icrc37", "revoke_collection_approvals", by decide, by rw [hm]; decide, by simp [consent, hm, h]⟩
  · exact ⟨"icrc37", "transfer_from", by decide, by rw [hm]; decide, by simp [consent, hm, h]⟩

example : itemCount dec (req "icrc37_transfer_from" [1]) = none := by decide

/-- For the methods with a count, one item and several are told apart, and so are
different numbers of items. Missing for the full property: the two collection
methods (`C46_violated_several`, `C46_violated_revoke`), and batches of no items
(`C46_violated_empty`, `C46_violated_none`). -/
theorem C46_count_partial {dec : Decoders} {text : Principal → String} {r r' : ConsentRequest} {message : String}
    {metadata metadata' : ConsentMetadata} (hm : r.method ∈ countedMethods) (hsame : r'.method = r.method) {n n' : Nat}
    (hn : itemCount dec r = some n) (hn' : itemCount dec r' = some n')
    (h : consent dec text r = some (.ok message metadata)) (h' : consent dec text r' = some (.ok message metadata')) :
    n = n' ∨ n ≤ 1 ∧ n' ≤ 1 := by
  simp only [countedMethods, List.mem_cons, List.not_mem_nil, or_false] at hm
  rcases hm with hm | hm | hm | hm <;> rw [hm] at hsame <;>
    simp [itemCount, hm] at hn <;> simp [itemCount, hsame] at hn' <;>
    obtain ⟨l, hl, rfl⟩ := hn <;> obtain ⟨l', hl', rfl⟩ := hn' <;>
    simp [consent, hm, hl] at h <;> simp [consent, hsame, hl'] at h' <;>
    refine batchText_eq ?_ (h.1.trans h'.1.symm) <;> intro k
  · exact digit_ne k (c := 'a') (cs := "n NFT. Method: icrc7_transfer".toList) (by decide) (by decide)
  · exact digit_ne k (c := 'a') (cs := "n NFT for transfer. Method: icrc37_approve_tokens".toList) (by decide) (by decide)
  · exact prefix_ne (by decide)
  · exact digit_ne k (c := 'a') (cs := "n NFT using approval. Method: icrc37_transfer_from".toList) (by decide) (by decide)


example : itemCount dec (req "icrc7_transfer" [1, 2, 3]) = some 3 ∧ itemCount dec (req "icrc7_transfer" [1]) = some 1 ∧
    consent dec text (req "icrc7_transfer" [1]) =
      some (.ok "You are about to transfer an NFT. Method: icrc7_transfer" { language := "en" }) := by decide

/-- The message says what will be done: to transfer, to approve or to revoke. -/
theorem C46_action {dec : Decoders} {text : Principal → String} {r : ConsentRequest} {message : String}
    {metadata : ConsentMetadata} (h : consent dec text r = some (.ok message metadata)) :
    ∃ rest, message = "You are about to " ++ action r.method ++ " " ++ rest := by
  have several : ∀ (n : Nat) (a b c : String) (p : String), (p ++ b) = a → ∀ q : String, p ++ c = q →
      ∀ e : String, ∃ rest, batchText n a (q, e) = p ++ rest := by
    intro n a b c p ha q hq e
    unfold batchText
    split
    · exact ⟨c ++ Nat.repr n ++ e, by subst hq; simp [String.append_assoc]⟩
    · exact ⟨b, ha.symm⟩
  obtain ⟨hm, -, -⟩ := C46_names h
  simp only [consentMethods, List.mem_cons, List.not_mem_nil, or_false] at hm
  rcases hm with hm | hm | hm | hm | hm | hm <;> simp [consent, hm] at h <;> rw [hm]
  · split at h
    · cases h
      exact several _ _ "an NFT. Method: icrc7_transfer" "" ("You are about to " ++ "transfer" ++ " ") (by decide) _ (by decide) _
    · cases h
  · split at h
    · cases h
      exact several _ _ "an NFT for transfer. Method: icrc37_approve_tokens" "" ("You are about to " ++ "approve" ++ " ")
        (by decide) _ (by decide) _
    · cases h
  · split at h
    · split at h
      · cases h
      · cases h
        rename_i a l _
        refine ⟨text a.spender.owner ++
          " to transfer all your nft available in the collection. Method: icrc37_approve_collection", ?_⟩
        rw [show "You are about to " ++ action "icrc37_approve_collection" ++ " " = "You are about to approve " from by decide,
          String.append_assoc]
    · cases h
  · split at h
    · cases h
      exact several _ _ "approval for an NFT. Method: icrc37_revoke_token_approvals" "approvals for "
        ("You are about to " ++ "revoke" ++ " ") (by decide) _ (by decide) _
    · cases h
  · split at h
    · cases h
      exact ⟨"collection approvals. Method: icrc37_revoke_collection_approvals", by decide⟩
    · cases h
  · split at h
    · cases h
      exact several _ _ "an NFT using approval. Method: icrc37_transfer_from" "" ("You are about to " ++ "transfer" ++ " ")
        (by decide) _ (by decide) _
    · cases h

example : ∃ rest, "You are about to transfer 3 NFTs. Method: icrc7_transfer" = "You are about to " ++ "transfer" ++ " " ++ rest :=
  C46_action (dec := dec) (text := text) (r := req "icrc7_transfer" [1, 2, 3]) (metadata := { language := "en" }) (by decide)

/-- The message says how many tokens it is about, if there are several. -/
theorem C46_number {dec : Decoders} {text : Principal → String} {r : ConsentRequest} {message : String}
    {metadata : ConsentMetadata} (hm : r.method ∈ countedMethods) {n : Nat} (hn : itemCount dec r = some n)
    (h : consent dec text r = some (.ok message metadata)) :
    (2 ≤ n → mentions message (" " ++ toString n ++ " NFTs")) ∧ (n = 1 → mentions message " an NFT") := by
  have key : ∀ (k : Nat) (one p q a b c d : String), one = a ++ " an NFT" ++ b → p = c ++ " " → q = " NFTs" ++ d →
      (2 ≤ k → mentions (batchText k one (p, q)) (" " ++ toString k ++ " NFTs")) ∧
      (k = 1 → mentions (batchText k one (p, q)) " an NFT") := by
    intro k one p q a b c d h1 h2 h3
    subst h1 h2 h3
    unfold batchText
    constructor
    · intro hk
      rw [if_pos (by omega)]
      exact ⟨c, d, by simp [String.append_assoc]⟩
    · intro hk
      rw [if_neg (by omega)]
      exact ⟨a, b, rfl⟩
  simp only [countedMethods, List.mem_cons, List.not_mem_nil, or_false] at hm
  rcases hm with hm | hm | hm | hm <;>
    simp [itemCount, hm] at hn <;> obtain ⟨l, hl, rfl⟩ := hn <;>
    simp [consent, hm, hl] at h <;> obtain ⟨rfl, -⟩ := h
  · exact key _ _ _ _ "You are about to transfer" ". Method: icrc7_transfer" "You are about to transfer"
      ". Method: icrc7_transfer" (by decide) (by decide) (by decide)
  · exact key _ _ _ _ "You are about to approve" " for transfer. Method: icrc37_approve_tokens" "You are about to approve"
      " for transfer. Method: icrc37_approve_tokens" (by decide) (by decide) (by decide)
  · exact key _ _ _ _ "You are about to revoke approval for" ". Method: icrc37_revoke_token_approvals"
      "You are about to revoke approvals for" ". Method: icrc37_revoke_token_approvals" (by decide) (by decide) (by decide)
  · exact key _ _ _ _ "You are about to transfer" " using approval. Method: icrc37_transfer_from" "You are about to transfer"
      " using approval. Method: icrc37_transfer_from" (by decide) (by decide) (by decide)

example : mentions "You are about to transfer 3 NFTs. Method: icrc7_transfer" " 3 NFTs" :=
  (C46_number (dec := dec) (text := text) (r := req "icrc7_transfer" [1, 2, 3]) (metadata := { language := "en" }) (n := 3)
    (by decide) (by decide) (by decide)).1 (by decide)

/-- The message for a collection approval says who will be able to transfer: the first
spender asked for (the only one shown, `C46_violated_several`). -/
theorem C46_spender {dec : Decoders} {text : Principal → String} {r : ConsentRequest} {message : String}
    {metadata : ConsentMetadata} (hm : r.method = "icrc37_approve_collection") {a : ApprovalInfo} {l : List ApprovalInfo}
    (ha : dec.approveColl r.arg = some (a :: l)) (h : consent dec text r = some (.ok message metadata)) :
    mentions message (" " ++ text a.spender.owner ++ " to transfer all your nft") := by
  simp [consent, hm, ha] at h
  obtain ⟨rfl, -⟩ := h
  refine ⟨"You are about to approve", " available in the collection. Method: icrc37_approve_collection", ?_⟩
  rw [show "You are about to approve " = "You are about to approve" ++ " " from by decide,
    show " to transfer all your nft available in the collection. Method: icrc37_approve_collection" =
      " to transfer all your nft" ++ " available in the collection. Method: icrc37_approve_collection" from by decide]
  simp only [String.append_assoc]

example : mentions "You are about to approve one to transfer all your nft available in the collection. Method: icrc37_approve_collection"
    " one to transfer all your nft" :=
  C46_spender (dec := dec) (text := text) (r := req "icrc37_approve_collection" [1]) (metadata := { language := "en" })
    (a := { spender := ⟨[1], none⟩, createdAt := 0 }) (l := []) rfl rfl (by decide)

/-- Traps happen for one kind of request only: a collection approval with no
items. -/
theorem C46_trap (dec : Decoders) (text : Principal → String) (r : ConsentRequest) :
    consent dec text r = none ↔ r.method = "icrc37_approve_collection" ∧ itemCount dec r = some 0 := by
  constructor
  · intro h
    rcases consent_cases dec text r with ⟨m, h1, _⟩ | ⟨d, h1, _⟩ | ⟨_, h2, h3⟩
    · rw [h1] at h; cases h
    · rw [h1] at h; cases h
    · exact ⟨h2, h3⟩
  · rintro ⟨h1, h2⟩
    simp [itemCount, h1] at h2
    simp [consent, h1, h2]

/-- **Violated**: a request for the consent message of an empty collection
approval is not answered at all: it traps. -/
theorem C46_violated_empty : consent dec text (req "icrc37_approve_collection" []) = none := by decide

/-- **Violated**: for collection approvals, one item and several are not told apart:
only the first spender is shown, whoever the others are. -/
theorem C46_violated_several : consent dec text (req "icrc37_approve_collection" [1, 66]) =
    consent dec text (req "icrc37_approve_collection" [1]) ∧
    itemCount dec (req "icrc37_approve_collection" [1, 66]) = some 2 ∧
    itemCount dec (req "icrc37_approve_collection" [1]) = some 1 := by decide

/-- **Violated**: nor are they for revocations of collection approvals. -/
theorem C46_violated_revoke : consent dec text (req "icrc37_revoke_collection_approvals" [1, 66]) =
    consent dec text (req "icrc37_revoke_collection_approvals" [1]) := by decide

/-- **Violated**: a batch of no items is described as one item. -/
theorem C46_violated_none : consent dec text (req "icrc7_transfer" []) =
    some (.ok "You are about to transfer an NFT. Method: icrc7_transfer" { language := "en" }) := by decide

end Verif
