import Verif.Lemmas.Renumber
import Verif.Props.Demo
/-!
# C122: no token is special
-/
namespace Verif.Spec

variable {H : Type}

/-- **C122.** Renumber the tokens that exist, throughout the collection and the calls:
every call gets the same reply (with the new number where the reply names a token), and
the collection ends up the same, renumbered. So no token number is built into the code:
what happens to a token depends on what is recorded about it, not on its number. Not
renumbered are 0, which is no token's number, and the numbers that are still to be given
out. -/
theorem C122_replies (r : Renumbering) (E : Env H) (s : State H) (hs : Reachable E s) (next : r.next ≤ s.lastId)
    (msgs : List Msg) :
    replies (r.env E) (r.state s) (msgs.map r.msg) = (replies E s msgs).map r.reply ∧
      run (r.env E) (r.state s) (msgs.map r.msg) = r.state (run E s msgs) :=
  r.run_num E s hs.tokInv next msgs

/-- **C122**, the transaction log: the same transactions, with the new numbers. -/
theorem C122_log (r : Renumbering) (E : Env H) (s : State H) (hs : Reachable E s) (next : r.next ≤ s.lastId)
    (msgs : List Msg) :
    (run (r.env E) (r.state s) (msgs.map r.msg)).log = (run E s msgs).log.map r.tx := by
  rw [(C122_replies r E s hs next msgs).2]
  rfl

/-- **C122**, queries: they answer the question about the new numbers as they answered
the question about the old ones. -/
theorem C122_queries (r : Renumbering) (s : State H) (now : Nat) (ids : List Nat) (as : List Account)
    (qs : List IsApprovedArg) :
    icrc7OwnerOf (r.state s) (ids.map r.to) = icrc7OwnerOf s ids ∧
      icrc7TokenMetadata (r.state s) (ids.map r.to) = icrc7TokenMetadata s ids ∧
      icrc7BalanceOf (r.state s) as = icrc7BalanceOf s as ∧
      totalSupply (r.state s) = totalSupply s ∧
      icrc7CollectionMetadata (r.state s) = icrc7CollectionMetadata s ∧
      icrc37IsApproved (r.state s) now (qs.map fun q => { q with tid := r.to q.tid }) = icrc37IsApproved s now qs := by
  refine ⟨?_, ?_, ?_, r.totalSupply_num s, ?_, ?_⟩
  · simp only [icrc7OwnerOf, queryBatch, List.length_map, List.map_map, Renumbering.state_cfg]
    rw [show ownerOf (r.state s) ∘ r.to = ownerOf s from funext fun n => r.ownerOf_num s n]
  · simp only [icrc7TokenMetadata, queryBatch, List.length_map, List.map_map, Renumbering.state_cfg]
    rw [show (fun tid => ((r.state s).tokens.get tid).map (tokenMetadata (r.state s))) ∘ r.to
        = fun tid => (s.tokens.get tid).map (tokenMetadata s) from funext fun n => r.tokenMetadata_num s n]
  · simp only [icrc7BalanceOf, queryBatch, Renumbering.state_cfg]
    rw [show balanceOf (r.state s) = balanceOf s from funext fun a => r.balanceOf_num s a]
    rfl
  · simp only [icrc7CollectionMetadata, r.totalSupply_num, Renumbering.state_cfg]
  · simp only [icrc37IsApproved, List.map_map]
    exact List.map_congr_left fun q _ => r.isApproved_num s now q

/-- **C122**, listings of tokens: the same tokens are on the pages, under their new numbers
(pages of at least one token being allowed). -/
theorem C122_listed (r : Renumbering) (s : State H) (hmax : 1 ≤ s.cfg.maxTake.getD 100) (a : Account) (n : Nat) (hn : 1 ≤ n) :
    ((∃ prev take pg, icrc7Tokens (r.state s) prev take = some pg ∧ r.to n ∈ pg) ↔
        ∃ prev take pg, icrc7Tokens s prev take = some pg ∧ n ∈ pg) ∧
      ((∃ prev take pg, icrc7TokensOf (r.state s) a prev take = some pg ∧ r.to n ∈ pg) ↔
        ∃ prev take pg, icrc7TokensOf s a prev take = some pg ∧ n ∈ pg) := by
  constructor
  · simp only [icrc7Tokens, Renumbering.listed_iff hn hmax, Renumbering.listed_iff (r.positive hn)
      (show 1 ≤ (r.state s).cfg.maxTake.getD 100 from hmax), r.mem_keys_num]
  · simp only [icrc7TokensOf, Renumbering.listed_iff hn hmax, Renumbering.listed_iff (r.positive hn)
      (show 1 ≤ (r.state s).cfg.maxTake.getD 100 from hmax), r.mem_tokenIdsOf_num]

/-- **C122**, listings of approvals, page by page. -/
theorem C122_approvals (r : Renumbering) (s : State H) (a : Account) (tid : Nat)
    (walk : List (Account × Approval) → List (Account × Approval)) (prev : Option ApprovalInfo) (take : Option Nat) :
    icrc37GetTokenApprovals (r.state s) walk (r.to tid) prev take = icrc37GetTokenApprovals s walk tid prev take ∧
      icrc37GetCollectionApprovals (r.state s) walk a prev take = icrc37GetCollectionApprovals s walk a prev take := by
  refine ⟨?_, rfl⟩
  simp only [icrc37GetTokenApprovals, Renumbering.state_tokAppr, Renumbering.get_mapNid]

/-- Tokens 2 and 3 of the demo change numbers. -/
def Demo.twoThree : Renumbering := .swap 4 2 3 (by decide) (by decide) (by decide)

-- the hypotheses of `C122_replies` are met by tokens 2 (Alice's) and 3 (Bob's) of the demo
example : Reachable Demo.env Demo.s1 ∧ Demo.twoThree.next ≤ Demo.s1.lastId := ⟨Demo.s1_reach, by decide⟩

-- after the exchange token 2 is Bob's and token 3 is Alice's
example : icrc7OwnerOf (Demo.twoThree.state Demo.s1) [1, 2, 3] = icrc7OwnerOf Demo.s1 [1, 3, 2] := by decide

-- Alice sends token 2 to Carol; after the exchange the same call is about token 3, and token 3 is then Carol's
example :
    (Demo.twoThree.msg (.call [1] 100 (.transfer [{ to_ := Demo.carol, tid := 2 }]))
        = .call [1] 100 (.transfer [{ to_ := Demo.carol, tid := 3 }])) ∧
      icrc7OwnerOf (run Demo.env Demo.s1 [.call [1] 100 (.transfer [{ to_ := Demo.carol, tid := 2 }])]) [1, 2, 3]
        = some [some Demo.alice, some Demo.carol, some Demo.bob] ∧
      icrc7OwnerOf (run (Demo.twoThree.env Demo.env) (Demo.twoThree.state Demo.s1)
          [.call [1] 100 (.transfer [{ to_ := Demo.carol, tid := 3 }])]) [1, 2, 3]
        = some [some Demo.alice, some Demo.bob, some Demo.carol] := ⟨rfl, by decide, by decide⟩

end Verif.Spec
