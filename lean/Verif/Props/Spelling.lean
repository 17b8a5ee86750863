import Verif.Lemmas.Spelling
import Verif.Props.Demo
/-!
# C107: how an account is written makes no difference
-/
namespace Verif.Spec

variable {H : Type}

/-- **C107**, what "the same account" is: the plain spellings agree exactly if the
owners agree and the subaccounts do, an absent one counting as 32 zero bytes. -/
theorem C107_same (a b : Account) :
    plain.account a = plain.account b ↔ a.owner = b.owner ∧ a.sub.getD zeroSub = b.sub.getD zeroSub := by
  obtain ⟨p, x⟩ := a
  obtain ⟨q, y⟩ := b
  have h : plainSub x = plainSub y ↔ x.getD zeroSub = y.getD zeroSub := by
    unfold plainSub
    cases x with
    | none =>
      cases y with
      | none => simp
      | some y => by_cases e : y = zeroSub <;> simp [e, eq_comm]
    | some x =>
      cases y with
      | none => by_cases e : x = zeroSub <;> simp [e]
      | some y => by_cases e : x = zeroSub <;> by_cases e' : y = zeroSub <;> simp [e, e', eq_comm]
  rw [← h]
  show (⟨p, plainSub x⟩ : Account) = ⟨q, plainSub y⟩ ↔ _
  simp

/-- **C107** (part). Two histories whose messages differ at most in how accounts
and subaccounts are spelled, on collections that differ at most in this, get word
for word the same replies, and leave collections that differ at most in this.
`blind`: the transaction log does not look at the spelling. -/
theorem C107_replies_partial (E : Env H) (blind : SpellingBlind E.ledger) (s s' : State H)
    (hs : plain.state s = plain.state s') (msgs msgs' : List Msg)
    (hm : msgs.map plain.msg = msgs'.map plain.msg) :
    replies E s msgs = replies E s' msgs' ∧ plain.state (run E s msgs) = plain.state (run E s' msgs') := by
  have w := plain_worlds blind
  constructor
  · rw [← plain.replies_ren w, ← plain.replies_ren w s', hs, hm]
  · rw [← plain.run_ren w, ← plain.run_ren w s', hs, hm]

/-- **C107**, reachable states: a collection that can occur, written plainly, can
occur. -/
theorem C107_reachable (E : Env H) (blind : SpellingBlind E.ledger) (s : State H) (h : Reachable E s) :
    Reachable E (plain.state s) := by
  obtain ⟨v, hid, c, a, s₀, msgs, h0, h1⟩ := h
  refine ⟨v, hid, plain.to c, plain.initArgs a, plain.state s₀, msgs.map plain.msg, ?_, ?_⟩
  · rw [plain.init_ren, h0]; rfl
  · rw [plain.run_ren (plain_worlds blind), h1]

/-- **C107**, answers: collections that differ at most in spelling answer the token
queries alike; the owners are named in possibly different spellings. -/
theorem C107_answers (s s' : State H) (hs : plain.state s = plain.state s') (ids : List Nat)
    (as as' : List Account) (has : as.map plain.account = as'.map plain.account)
    (a a' : Account) (ha : plain.account a = plain.account a') (prev take : Option Nat) :
    (icrc7OwnerOf s ids).map (·.map (·.map plain.account)) = (icrc7OwnerOf s' ids).map (·.map (·.map plain.account)) ∧
      icrc7BalanceOf s as = icrc7BalanceOf s' as' ∧
      icrc7Tokens s prev take = icrc7Tokens s' prev take ∧
      icrc7TokensOf s a prev take = icrc7TokensOf s' a' prev take ∧
      icrc7TokenMetadata s ids = icrc7TokenMetadata s' ids ∧
      icrc7CollectionMetadata s = icrc7CollectionMetadata s' := by
  obtain ⟨h1, h2, h3, h4, h5, h6⟩ := plain.queries_ren s ids as a prev take
  obtain ⟨k1, k2, k3, k4, k5, k6⟩ := plain.queries_ren s' ids as' a' prev take
  rw [← h1, ← h2, ← h3, ← h4, ← h5, ← h6, ← k1, ← k2, ← k3, ← k4, ← k5, ← k6, hs, has, ha]
  exact ⟨rfl, rfl, rfl, rfl, rfl, rfl⟩

/-- **C107**, listings of approvals: the account asked about and the approval to
continue after may be spelled either way. -/
theorem C107_approvals (s : State H) (a a' : Account) (ha : plain.account a = plain.account a') (tid : Nat)
    (walk : List (Account × Approval) → List (Account × Approval)) (p p' : Option ApprovalInfo)
    (hp : p.map plain.info = p'.map plain.info) (take : Option Nat) :
    icrc37GetTokenApprovals s walk tid p take = icrc37GetTokenApprovals s walk tid p' take ∧
      icrc37GetCollectionApprovals s walk a p take = icrc37GetCollectionApprovals s walk a' p' take := by
  have key : ∀ l, approvalPage l p take = approvalPage l p' take := by
    intro l
    cases p with
    | none =>
      cases p' with
      | none => rfl
      | some q => simp at hp
    | some q =>
      cases p' with
      | none => simp at hp
      | some q' =>
        have h : plain.account q.spender = plain.account q'.spender :=
          congrArg ApprovalInfo.spender (Option.some.inj hp)
        have e : ∀ b : Account, (b == q.spender) = (b == q'.spender) := fun b => by
          rw [← plain.account_beq, h, plain.account_beq]
        simp only [approvalPage, e]
  refine ⟨?_, ?_⟩
  · simp only [icrc37GetTokenApprovals, key]
  · have e : (a == a') = true := by rw [← plain.account_beq, ha]; exact BEq.rfl
    simp only [icrc37GetCollectionApprovals, key, Map.get_congr s.collAppr e]

/-- **C107** (part), `icrc37_is_approved`: the spelling makes no difference for a
spender that has not itself approved itself for the collection. -/
theorem C107_is_approved_partial (s : State H) (now : Nat) (q q' : IsApprovedArg)
    (hq : plain.isApprovedArg q = plain.isApprovedArg q')
    (noself : ∀ m, s.collAppr.get q.spender = some m → ∀ e ∈ m.entries, (e.1 == q.spender) = false) :
    icrc37IsApproved s now [q] = icrc37IsApproved s now [q'] := by
  obtain ⟨a, x, t⟩ := q
  obtain ⟨a', x', t'⟩ := q'
  have ht : t = t' := congrArg IsApprovedArg.tid hq
  have ha : plain.account a = plain.account a' := congrArg IsApprovedArg.spender hq
  have hx : plainSub x = plainSub x' := congrArg IsApprovedArg.fromSub hq
  subst ht
  have e : (a == a') = true := by rw [← plain.account_beq, ha]; exact BEq.rfl
  have ho : a.owner = a'.owner := (Account.beq_iff.1 e).1
  have hf : plain.account ⟨a.owner, x⟩ = plain.account ⟨a'.owner, x'⟩ := by
    show (⟨a.owner, plainSub x⟩ : Account) = ⟨a'.owner, plainSub x'⟩
    rw [ho, hx]
  have e2 : ∀ b : Account, (b == (⟨a.owner, x⟩ : Account)) = (b == (⟨a'.owner, x'⟩ : Account)) := fun b => by
    rw [← plain.account_beq, hf, plain.account_beq]
  have none' : ∀ c : Account, (a == c) = true → ((s.collAppr.get c).getD ∅).entries.any (fun e =>
      decide (e.1.owner = c.owner) && decide (e.1.sub = c.sub)) = false := by
    intro c hc
    rw [← Map.get_congr s.collAppr hc]
    cases hm : s.collAppr.get a with
    | none => rfl
    | some m =>
      rw [List.any_eq_false]
      intro k hk h
      simp only [Bool.and_eq_true, decide_eq_true_eq] at h
      have h1 : k.1 = c := by
        obtain ⟨⟨o, b⟩, v⟩ := k
        obtain ⟨o', b'⟩ := c
        simp_all
      have h2 := noself m hm k hk
      rw [h1] at h2
      simp only at h2
      rw [BEq.symm hc] at h2
      cases h2
  simp only [icrc37IsApproved, List.map_cons, List.map_nil]
  unfold isApproved
  simp only [none' a BEq.rfl, none' a' e, e2]
  cases s.tokAppr.get t with
  | none => rfl
  | some m => simp only [Map.get_congr m e]

namespace SpellDemo

/-- Alice lets alice move everything of alice's. -/
def sSelf : State Nat :=
  run Demo.env Demo.s1 [.call [1] (Demo.ms 200) (.approveCollection [{ spender := Demo.alice, createdAt := Demo.ms 200 }])]

end SpellDemo

/-- **C107** is violated by `icrc37_is_approved`: there is a collection in which an
account that approved itself is answered "yes" about somebody else's token in one
spelling and "no" in the other. -/
theorem C107_violated : ∃ s : State Nat, Reachable Demo.env s ∧
    icrc37IsApproved s (Demo.ms 300) [{ spender := Demo.alice, tid := 3 }] = [true] ∧
    icrc37IsApproved s (Demo.ms 300) [{ spender := Demo.alice0, tid := 3 }] = [false] :=
  ⟨SpellDemo.sSelf, Demo.s1_reach.run _, by decide, by decide⟩

-- the log of the demo collection does not look at spellings
example : SpellingBlind Demo.env.ledger := fun _ _ => rfl

-- two spellings of one account, and another account
example : plain.account Demo.alice = plain.account Demo.alice0 ∧ plain.account Demo.alice ≠ plain.account Demo.alice1 := by
  decide

-- two histories that differ in spelling: carol is approved in one spelling and takes the token in the other
example :
    [Msg.call [1] 5 (.approveTokens [{ tid := 2, info := { spender := Demo.carol, createdAt := 5 } }]),
      .call [3] 6 (.transferFrom [{ spenderSub := some zeroSub, from_ := Demo.alice0, to_ := Demo.bob, tid := 2 }])].map plain.msg
    = [Msg.call [1] 5 (.approveTokens [{ tid := 2, info := { spender := ⟨[3], some zeroSub⟩, fromSub := some zeroSub, createdAt := 5 } }]),
      .call [3] 6 (.transferFrom [{ from_ := Demo.alice, to_ := Demo.bob, tid := 2 }])].map plain.msg := by
  rfl

-- the take goes through: the reply is the number of a transaction
example : (match replies Demo.env Demo.s1 [Demo.approveMsg,
      .call [3] (Demo.ms 300) (.transferFrom [{ spenderSub := some zeroSub, from_ := Demo.alice0, to_ := Demo.bob, tid := 2 }])] with
    | [.batch [.ok _], .batch [.ok _]] => true
    | _ => false) = true := by decide

-- two collections that differ in spelling only
example : plain.state (run Demo.env Demo.s0 [.call Demo.admin 5 (.mint [{ owner := Demo.alice }])])
    = plain.state (run Demo.env Demo.s0 [.call Demo.admin 5 (.mint [{ owner := Demo.alice0 }])]) := by rfl

-- somebody who did not approve themself
example : (Demo.s1.collAppr.get Demo.carol).isNone = true := by decide

end Verif.Spec
