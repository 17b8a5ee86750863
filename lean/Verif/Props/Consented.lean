import Verif.Props.Consent
import Verif.Props.Demo
/-!
# What a user consents to (C104)
-/
namespace Verif

open Spec

private theorem asks_transfer {dec : Decoders} {q : ConsentRequest} {l : List TransferArg}
    (h : asksFor dec q = some (.transfer l)) : q.method = "icrc7_transfer" ∧ dec.transfer q.arg = some l := by
  unfold asksFor at h
  grind [Option.map_eq_some_iff]

private theorem asks_approveTok {dec : Decoders} {q : ConsentRequest} {l : List ApproveTokenArg}
    (h : asksFor dec q = some (.approveTokens l)) : q.method = "icrc37_approve_tokens" ∧ dec.approveTokens q.arg = some l := by
  unfold asksFor at h
  grind [Option.map_eq_some_iff]

private theorem asks_approveColl {dec : Decoders} {q : ConsentRequest} {l : List ApprovalInfo}
    (h : asksFor dec q = some (.approveCollection l)) : q.method = "icrc37_approve_collection" ∧ dec.approveColl q.arg = some l := by
  unfold asksFor at h
  grind [Option.map_eq_some_iff]

private theorem asks_revokeTok {dec : Decoders} {q : ConsentRequest} {l : List RevokeTokenArg}
    (h : asksFor dec q = some (.revokeTokens l)) : q.method = "icrc37_revoke_token_approvals" ∧ dec.revokeTokens q.arg = some l := by
  unfold asksFor at h
  grind [Option.map_eq_some_iff]

private theorem asks_from {dec : Decoders} {q : ConsentRequest} {l : List TransferFromArg}
    (h : asksFor dec q = some (.transferFrom l)) : q.method = "icrc37_transfer_from" ∧ dec.transferFrom q.arg = some l := by
  unfold asksFor at h
  grind [Option.map_eq_some_iff]

/-- C104, the part that holds: requests that get the same message ask for calls of the same
method; of the same number of items, where the number is told, as far as there are several; and
of the same first spender, for collection approvals. Missing: the tokens, recipients, spenders
and owners (`C104_violated`), the number of items of the collection methods
(`C46_violated_several`, `C46_violated_revoke`). -/
theorem C104_same_partial {dec : Decoders} {text : Principal → String} {r r' : ConsentRequest} {message : String}
    {metadata metadata' : ConsentMetadata} (h : consent dec text r = some (.ok message metadata))
    (h' : consent dec text r' = some (.ok message metadata')) :
    r.method = r'.method ∧
    (r.method ∈ countedMethods → ∀ n n', itemCount dec r = some n → itemCount dec r' = some n' → n = n' ∨ n ≤ 1 ∧ n' ≤ 1) ∧
    (∀ a l a' l', asksFor dec r = some (.approveCollection (a :: l)) → asksFor dec r' = some (.approveCollection (a' :: l')) →
      text a.spender.owner = text a'.spender.owner) := by
  have hm := C46_distinct h h'
  refine ⟨hm, fun hc n n' hn hn' => C46_count_partial hc hm.symm hn hn' h h', ?_⟩
  intro a l a' l' ha ha'
  obtain ⟨h1, h2⟩ := asks_approveColl ha
  obtain ⟨h1', h2'⟩ := asks_approveColl ha'
  simp [consent, h1, h2] at h
  simp [consent, h1', h2'] at h'
  obtain ⟨rfl, -⟩ := h
  have h3 := h'.1
  have h4 := congrArg String.toList h3
  simp only [String.toList_append] at h4
  rw [List.append_assoc, List.append_assoc, List.append_cancel_left_eq, List.append_cancel_right_eq] at h4
  exact (String.toList_inj.1 h4).symm

/-- C104 is false of what is consented to: whatever token it is and whoever receives it, the
transfer of one token gets the same message, and so do the delegated transfer of one token, the
approval of one token and the revocation of the approvals of one token; the format the device
asks for makes no difference. -/
theorem C104_violated {dec : Decoders} {text : Principal → String} {r r' : ConsentRequest}
    (hd : r'.metadata = r.metadata) :
    (∀ a a', asksFor dec r = some (.transfer [a]) → asksFor dec r' = some (.transfer [a']) →
      consent dec text r' = consent dec text r) ∧
    (∀ a a', asksFor dec r = some (.transferFrom [a]) → asksFor dec r' = some (.transferFrom [a']) →
      consent dec text r' = consent dec text r) ∧
    (∀ a a', asksFor dec r = some (.approveTokens [a]) → asksFor dec r' = some (.approveTokens [a']) →
      consent dec text r' = consent dec text r) ∧
    (∀ a a', asksFor dec r = some (.revokeTokens [a]) → asksFor dec r' = some (.revokeTokens [a']) →
      consent dec text r' = consent dec text r) := by
  refine ⟨?_, ?_, ?_, ?_⟩
  · intro a a' ha ha'
    obtain ⟨h1, h2⟩ := asks_transfer ha
    obtain ⟨h1', h2'⟩ := asks_transfer ha'
    simp [consent, h1, h1', h2, h2', hd]
  · intro a a' ha ha'
    obtain ⟨h1, h2⟩ := asks_from ha
    obtain ⟨h1', h2'⟩ := asks_from ha'
    simp [consent, h1, h1', h2, h2', hd]
  · intro a a' ha ha'
    obtain ⟨h1, h2⟩ := asks_approveTok ha
    obtain ⟨h1', h2'⟩ := asks_approveTok ha'
    simp [consent, h1, h1', h2, h2', hd]
  · intro a a' ha ha'
    obtain ⟨h1, h2⟩ := asks_revokeTok ha
    obtain ⟨h1', h2'⟩ := asks_revokeTok ha'
    simp [consent, h1, h1', h2, h2', hd]

namespace Consented

/-- A decoder for the two calls below. -/
def dec : Decoders where
  transfer b := some (if b = [1] then [{ to_ := Demo.bob, tid := 1 }] else [{ to_ := Demo.carol, tid := 2 }])
  approveTokens _ := none
  approveColl b := some (b.map fun x => { spender := ⟨[x], none⟩, createdAt := 0 })
  revokeTokens _ := none
  revokeColl _ := none
  transferFrom _ := none

end Consented

/-- Two requests as in `C104_violated`. -/
example : asksFor Consented.dec (ConsentDemo.req "icrc7_transfer" [1]) = some (.transfer [{ to_ := Demo.bob, tid := 1 }]) ∧
    asksFor Consented.dec (ConsentDemo.req "icrc7_transfer" [2]) = some (.transfer [{ to_ := Demo.carol, tid := 2 }]) :=
  ⟨rfl, rfl⟩

/-- C104 is false: alice is shown the same message for giving token 1 to bob and for giving
token 2 to carol. -/
theorem C104_violated_effect : ∃ (r r' : ConsentRequest) (message : String) (k k' : Call),
    consent Consented.dec ConsentDemo.text r = some (.ok message r.metadata) ∧
    consent Consented.dec ConsentDemo.text r' = some (.ok message r.metadata) ∧
    asksFor Consented.dec r = some k ∧ asksFor Consented.dec r' = some k' ∧
    Owner Demo.s1 1 = some Demo.alice ∧ Owner Demo.s1 2 = some Demo.alice ∧
    Owner (step Demo.env Demo.s1 (.call [1] (Demo.ms 200) k)).1 1 = some Demo.bob ∧
    Owner (step Demo.env Demo.s1 (.call [1] (Demo.ms 200) k)).1 2 = some Demo.alice ∧
    Owner (step Demo.env Demo.s1 (.call [1] (Demo.ms 200) k')).1 1 = some Demo.alice ∧
    Owner (step Demo.env Demo.s1 (.call [1] (Demo.ms 200) k')).1 2 = some Demo.carol :=
  ⟨⟨"icrc7_transfer", [1], { language := "en" }, some .generic⟩,
    ⟨"icrc7_transfer", [2], { language := "en" }, some (.lines 20 3)⟩,
    "You are about to transfer an NFT. Method: icrc7_transfer", .transfer [{ to_ := Demo.bob, tid := 1 }],
    .transfer [{ to_ := Demo.carol, tid := 2 }], by decide, by decide, rfl, rfl, rfl, rfl, rfl, rfl, rfl, rfl⟩

/-- Different spenders of collection approvals, and different methods, get different messages. -/
example : consent Consented.dec ConsentDemo.text (ConsentDemo.req "icrc37_approve_collection" [1]) ≠
      consent Consented.dec ConsentDemo.text (ConsentDemo.req "icrc37_approve_collection" [2]) ∧
    asksFor Consented.dec (ConsentDemo.req "icrc37_approve_collection" [1]) =
      some (.approveCollection [{ spender := ⟨[1], none⟩, createdAt := 0 }]) := ⟨by decide, rfl⟩

end Verif
