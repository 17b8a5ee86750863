import Verif.Lemmas.Background
import Verif.Model.Queries
import Verif.Props.Demo
/-!
# C113: uploads and permissions do not disturb trading
-/
namespace Verif.Spec

variable {H : Type}

open Background in
/-- **C113**, two collections: if they agree about tokens, approvals, settings, rate limits
and log, then every trade is answered alike in both, whatever the permissions, metadata,
uploads and suspended calls are, and afterwards they still agree. -/
theorem C113_trades (E : Env H) (s s' : State H) (h : SameFloor s s') (msgs : List Msg)
    (ht : ∀ m ∈ msgs, isTrade m = true) :
    replies E s' msgs = replies E s msgs ∧ SameFloor (run E s msgs) (run E s' msgs) := by
  induction msgs generalizing s s' with
  | nil => exact ⟨rfl, h⟩
  | cons m msgs ih =>
    have h1 := trade_floor E s (ht m (by simp))
    have h2 := trade_floor E s' (ht m (by simp))
    rw [floor_iff.1 h, h1] at h2
    have e1 : floor (step E s' m).1 = floor (step E s m).1 := congrArg Prod.fst h2.symm
    have e2 : (step E s' m).2 = (step E s m).2 := (congrArg Prod.snd h2).symm
    obtain ⟨h3, h4⟩ := ih _ _ (floor_iff.2 e1) fun m hm => ht m (by simp [hm])
    refine ⟨?_, h4⟩
    show (step E s' m).2 :: replies E (step E s' m).1 msgs = (step E s m).2 :: replies E (step E s m).1 msgs
    rw [e2, h3]

open Background in
/-- **C113**. Take a history of trades among which there are uploads in any stage, answers
of storage canisters, grants and withdrawals of permissions and upgrades, in any order.
The trades are answered as if all the rest had not happened, and afterwards the
collection is the same as without the rest, as far as tokens, owners, approvals,
settings, rate limits and log go. -/
theorem C113_background (E : Env H) (s : State H) (msgs : List Msg)
    (hm : ∀ m ∈ msgs, isTrade m = true ∨ isBackground m = true) :
    tradeReplies E s msgs = replies E s (msgs.filter isTrade) ∧
      SameFloor (run E s (msgs.filter isTrade)) (run E s msgs) := by
  suffices hx : ∀ s', SameFloor s s' → tradeReplies E s' msgs = replies E s (msgs.filter isTrade) ∧
      SameFloor (run E s (msgs.filter isTrade)) (run E s' msgs) from hx s ⟨rfl, rfl, rfl, rfl, rfl, rfl, rfl, rfl, rfl⟩
  induction msgs generalizing s with
  | nil => exact fun s' h => ⟨rfl, h⟩
  | cons m msgs ih =>
    intro s' h
    have ih' := fun s => ih s fun m hm' => hm m (by simp [hm'])
    by_cases ht : isTrade m = true
    · have hx := C113_trades E s s' h [m] (by simpa using ht)
      obtain ⟨h1, h2⟩ := ih' (step E s m).1 (step E s' m).1 hx.2
      have e : (step E s' m).2 = (step E s m).2 := (List.cons.inj hx.1).1
      rw [List.filter_cons_of_pos ht]
      refine ⟨?_, h2⟩
      show (if _ then _ else _) = (step E s m).2 :: replies E (step E s m).1 (msgs.filter isTrade)
      rw [if_pos ht, h1, e]
    · have hb : isBackground m = true := (hm m (by simp)).resolve_left ht
      have hk := background_kept E s' hb
      rw [List.filter_cons_of_neg ht]
      obtain ⟨h1, h2⟩ := ih' s (step E s' m).1 (floor_iff.2 (hk.trans (floor_iff.1 h)))
      refine ⟨?_, h2⟩
      show (if _ then _ else _) = _
      rw [if_neg ht, h1]

open Background in
/-- **C113**, the queries: collections that agree in this sense answer every question about
owners, balances, tokens, approvals and settings alike. -/
theorem C113_queries (s s' : State H) (h : SameFloor s s') (now : Nat) (qs : List IsApprovedArg) (ids : List Nat)
    (as : List Account) (a : Account) (prev take : Option Nat) (prevA : Option ApprovalInfo) (tid : Nat)
    (walk : List (Account × Approval) → List (Account × Approval)) :
    totalSupply s' = totalSupply s ∧
      icrc7OwnerOf s' ids = icrc7OwnerOf s ids ∧
      icrc7BalanceOf s' as = icrc7BalanceOf s as ∧
      icrc7Tokens s' prev take = icrc7Tokens s prev take ∧
      icrc7TokensOf s' a prev take = icrc7TokensOf s a prev take ∧
      icrc37IsApproved s' now qs = icrc37IsApproved s now qs ∧
      icrc37GetTokenApprovals s' walk tid prevA take = icrc37GetTokenApprovals s walk tid prevA take ∧
      icrc37GetCollectionApprovals s' walk a prevA take = icrc37GetCollectionApprovals s walk a prevA take ∧
      icrc7CollectionMetadata s' = icrc7CollectionMetadata s := by
  have e : ∀ {B : Type} (f : State H → B), (∀ s, f (floor s) = f s) → f s' = f s := fun f hf => by
    rw [← hf s', floor_iff.1 h, hf s]
  exact ⟨e totalSupply fun _ => rfl, e (icrc7OwnerOf · ids) fun _ => rfl, e (icrc7BalanceOf · as) fun _ => rfl,
    e (icrc7Tokens · prev take) fun _ => rfl, e (icrc7TokensOf · a prev take) fun _ => rfl,
    e (icrc37IsApproved · now qs) fun _ => rfl, e (icrc37GetTokenApprovals · walk tid prevA take) fun _ => rfl,
    e (icrc37GetCollectionApprovals · walk a prevA take) fun _ => rfl, e icrc7CollectionMetadata fun _ => rfl⟩

namespace BackgroundDemo

/-- alice approves carol while admin uploads a file; the upload is cut off by an upgrade,
permissions change, and carol takes the token. -/
def story : List Msg :=
  [.call Demo.admin (Demo.ms 150) (.initUpload "a" 1), Demo.approveMsg, .upgrade,
    .call Demo.admin (Demo.ms 250) (.revoke Demo.admin .minting), Demo.takeMsg, .resumeTrap 0,
    .call Demo.admin (Demo.ms 350) (.storeChunk "a")]

end BackgroundDemo

-- trades and background only
example : ∀ m ∈ BackgroundDemo.story, isTrade m = true ∨ isBackground m = true := by decide

-- the two trades are served, as they are alone
example : (match tradeReplies Demo.env Demo.s1 BackgroundDemo.story, replies Demo.env Demo.s1 [Demo.approveMsg, Demo.takeMsg] with
    | [.batch [.ok i], .batch [.ok j]], [.batch [.ok i'], .batch [.ok j']] => i == i' && j == j'
    | _, _ => false) = true := by decide

-- two collections that agree although one of them is busy and has other permissions
example : SameFloor Demo.s1 (run Demo.env Demo.s1 [.call Demo.admin (Demo.ms 150) (.revoke Demo.admin .minting),
    .call Demo.admin (Demo.ms 160) (.initUpload "a" 1)]) ∧
    (run Demo.env Demo.s1 [.call Demo.admin (Demo.ms 150) (.revoke Demo.admin .minting),
      .call Demo.admin (Demo.ms 160) (.initUpload "a" 1)]).guards = [Demo.admin] :=
  ⟨⟨rfl, rfl, rfl, rfl, rfl, rfl, rfl, rfl, rfl⟩, by decide⟩

-- minting is not a trade: a suspended upload holds the lock it needs
example : (match replies Demo.env Demo.s1 [.call Demo.admin (Demo.ms 150) (.initUpload "a" 1),
      .call Demo.admin (Demo.ms 160) (.mint [{ owner := Demo.bob }])] with
    | [.suspended, .mgmt (.error .concurrentManagementCall)] => true
    | _ => false) = true := by decide

end Verif.Spec
