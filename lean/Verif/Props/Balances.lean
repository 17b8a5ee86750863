import Verif.Props.Transfers
import Verif.Lemmas.Batch
/-!
# C02, C11: balances
-/
namespace Verif

open Spec

variable {H : Type}

/-! ## C02 -/

/-- C02 as far as it holds: in every reachable state the answer of
`icrc7_balance_of(a)` is the number of tokens `a` owns *plus the number of burns
recorded out of `a`*. Missing from the full claim: the second summand should not
be there (`C02_violated`). -/
theorem C02_balance_partial {E : Env H} {s : State H} (hr : Reachable E s) {a : Account} {n : Nat}
    (hq : icrc7BalanceOf s [a] = some [n]) :
    ∃ k, OwnsCount s a k ∧ n = k + burnsFrom s.log a := by
  unfold icrc7BalanceOf queryBatch at hq
  split at hq
  · cases hq
  · simp at hq
    refine ⟨(tokenIdsOf s a).length, ⟨tokenIdsOf s a, nodup_tokenIdsOf hr.tokInv a,
      fun tid => mem_tokenIdsOf hr.tokInv, rfl⟩, ?_⟩
    rw [← hq, balance_split hr.tokInv hr.ownInv]

/-- C02 for accounts that never burned a token: the balance is the number of
tokens owned. -/
theorem C02_balance_unburned_partial {E : Env H} {s : State H} (hr : Reachable E s) {a : Account} {n : Nat}
    (hno : ∀ t ∈ s.log, t.op = .burn → ∀ f, t.from_ = some f → ¬ SameAccount f a)
    (hq : icrc7BalanceOf s [a] = some [n]) : OwnsCount s a n := by
  obtain ⟨k, h1, h2⟩ := C02_balance_partial hr hq
  have : burnsFrom s.log a = 0 := by
    unfold burnsFrom
    rw [List.length_eq_zero_iff, List.filter_eq_nil_iff]
    intro t ht h
    simp at h
    cases hf : t.from_ with
    | none => simp [hf] at h
    | some f => simp [hf] at h; exact hno t ht h.1 f hf h.2
  rw [this, Nat.add_zero] at h2
  rw [h2]; exact h1

/-- The crawl of all pages of `icrc7_tokens_of` has `OwnsCount` many ids. -/
example : Reachable Demo.env Demo.s1 ∧ icrc7BalanceOf Demo.s1 [Demo.alice] = some [2] ∧
    (∀ t ∈ Demo.s1.log, t.op = .burn → ∀ f, t.from_ = some f → ¬ SameAccount f Demo.alice) ∧
    icrc7TokensOf Demo.s1 Demo.alice none none = some [1, 2] := by
  refine ⟨Demo.s1_reach, by decide, ?_, by decide⟩
  have : ∀ t ∈ Demo.s1.log, t.op ≠ .burn := by decide
  intro t ht hop
  exact absurd hop (this t ht)

/-- C02 fails as stated: after a burn the balance still counts the burned token. -/
theorem C02_violated : ∃ (E : Env Nat) (s : State Nat) (a : Account), Reachable E s ∧
    icrc7BalanceOf s [a] = some [2] ∧ icrc7TokensOf s a none none = some [2] ∧ OwnsCount s a 1 := by
  refine ⟨Demo.env, run Demo.env Demo.s0 [Demo.mintMsg, Demo.burnMsg], Demo.alice, Demo.reach _,
    by decide, by decide, ?_⟩
  have hr := Demo.reach [Demo.mintMsg, Demo.burnMsg]
  exact ⟨tokenIdsOf (run Demo.env Demo.s0 [Demo.mintMsg, Demo.burnMsg]) Demo.alice,
    nodup_tokenIdsOf hr.tokInv _, fun tid => mem_tokenIdsOf hr.tokInv, by decide⟩

/-! ## C11 -/

/-- What a recorded transfer of `tid` to `to_` does: the previous owner `o` loses
one token, the new one gains one, nothing else moves, one transaction naming all
three is appended. -/
structure MovedTo (s s' : State H) (tid : Nat) (o to_ : Account) : Prop where
  before : Owner s tid = some o
  distinct : ¬ SameAccount o to_
  after : Owner s' tid = some to_
  others : ∀ k, k ≠ tid → Owner s' k = Owner s k
  prevBalance : balanceOf s' o + 1 = balanceOf s o
  newBalance : balanceOf s' to_ = balanceOf s to_ + 1
  otherBalances : ∀ a, ¬ SameAccount a o → ¬ SameAccount a to_ → balanceOf s' a = balanceOf s a
  recorded : ∃ tx f, s'.log = s.log ++ [tx] ∧ tx.tid = some tid ∧ tx.from_ = some f ∧ SameAccount o f ∧
    tx.to_ = some to_
  supply : totalSupply s' = totalSupply s

private theorem filter_ne_length {l : List Nat} (hn : l.Nodup) {a : Nat} (ha : a ∈ l) :
    (l.filter (· ≠ a)).length + 1 = l.length := by
  induction l with
  | nil => cases ha
  | cons b bs ih =>
    rw [List.nodup_cons] at hn
    rw [List.filter_cons]
    by_cases hb : b = a
    · subst hb
      have : bs.filter (fun x => decide (x ≠ b)) = bs := by
        rw [List.filter_eq_self]
        intro x hx
        simp
        intro h; subst h; exact hn.1 hx
      simp only [ne_eq, not_true, decide_false, Bool.false_eq_true, if_false, List.length_cons]
      rw [show (bs.filter fun x => decide ¬ x = b) = bs from this]
    · have : a ∈ bs := by
        rcases List.mem_cons.1 ha with h | h
        · exact absurd h.symm hb
        · exact h
      simp only [ne_eq, hb, not_false_iff, decide_true, if_true, List.length_cons]
      have := ih hn.2 this
      simp only [ne_eq] at this
      omega

private theorem movedTo_of {s s' : State H} (hi : TokInv s) (ho : OwnInv s) {tid : Nat} {t : Token} {to_ : Account}
    {tx : Tx} {f : Account} (tok : s.tokens.get tid = some t) (diff : (t.owner == to_) = false)
    (ht : s'.tokens = s.tokens.set t.id { t with owner := to_ })
    (hb : s'.byOwner = moveOwn s.byOwner t.id t.owner to_) (hlog : s'.log = s.log ++ [tx])
    (h1 : tx.tid = some tid) (h2 : tx.from_ = some f) (h3 : (t.owner == f) = true) (h4 : tx.to_ = some to_) :
    MovedTo s s' tid t.owner to_ := by
  have hid := hi.ids _ _ tok
  have hoid : Owner s tid = some t.owner := owner_of_get tok
  have hmem : tid ∈ listOf s.byOwner t.owner := (ho.mem _ _).2 (.inl ⟨_, hoid, Account.beq_rfl _⟩)
  have hnsame : ¬ SameAccount t.owner to_ := by rw [sameAccount_iff, diff]; simp
  have hbal : ∀ a, balanceOf s' a = ((if (t.owner == a) = true then (listOf s.byOwner a).filter (· ≠ tid)
      else if (to_ == a) = true then listOf s.byOwner a ++ [tid] else listOf s.byOwner a)).length := by
    intro a; rw [balanceOf_eq, hb, hid, listOf_moveOwn diff]
  refine ⟨hoid, hnsame, ?_, ?_, ?_, ?_, ?_, ⟨tx, f, hlog, h1, h2, sameAccount_iff.2 h3, h4⟩, ?_⟩
  · simp [Owner, ht, hid]
  · intro k hk
    unfold Owner
    rw [ht, hid, Map.get_set, if_neg (by simpa using fun h => hk h.symm)]
  · rw [hbal, if_pos (Account.beq_rfl _), balanceOf_eq]
    exact filter_ne_length (ho.nodup _) hmem
  · rw [hbal, if_neg (by rw [diff]; simp), if_pos (Account.beq_rfl _), balanceOf_eq]
    simp
  · intro a ha hb'
    have e1 : ¬ (t.owner == a) = true := fun h => ha (sameAccount_iff.2 (Account.symm_beq h))
    have e2 : ¬ (to_ == a) = true := fun h => hb' (sameAccount_iff.2 (Account.symm_beq h))
    rw [hbal, if_neg e1, if_neg e2, balanceOf_eq]
  · unfold totalSupply
    rw [ht, hid]
    exact Map.size_set_of_some tok

/-- C11: an accepted one-item `icrc7_transfer` whose transaction was recorded. -/
theorem C11_transfer {E : Env H} {s s' : State H} (hr : Reachable E s) {c : Principal} {now i : Nat}
    {arg : TransferArg} (h : step E s (.call c now (.transfer [arg])) = (s', .batch [.ok i]))
    (hrec : s'.log ≠ s.log) : ∃ o, MovedTo s s' arg.tid o arg.to_ := by
  rcases transfer_one h with ⟨e, _, hr⟩ | ⟨_, h⟩
  · cases hr
  · cases transferNft_out h with
    | duplicate w nft h d tok add => exact absurd rfl hrec
    | moved w nft h i tok own toOk diff memo timing add =>
      exact ⟨nft.owner, movedTo_of hr.tokInv hr.ownInv tok diff rfl rfl rfl rfl rfl (Account.beq_rfl _) rfl⟩

/-- C11: an accepted one-item `icrc37_transfer_from`. -/
theorem C11_transfer_from {E : Env H} {s s' : State H} (hr : Reachable E s) {c : Principal} {now i : Nat}
    {arg : TransferFromArg} (h : step E s (.call c now (.transferFrom [arg])) = (s', .batch [.ok i])) :
    ∃ o, SameAccount o arg.from_ ∧ MovedTo s s' arg.tid o arg.to_ := by
  cases transferFrom_out (transferFrom_one h) with
  | moved w nft h i tok own auth diff toOk timing add =>
    refine ⟨nft.owner, sameAccount_iff.2 own, movedTo_of hr.tokInv hr.ownInv tok ?_ rfl rfl rfl rfl rfl own rfl⟩
    rw [← Map.beq_congr_left own] at diff; exact diff

example : (step Demo.env Demo.s1 Demo.sendMsg).2 = .batch [.ok 3] ∧
    (step Demo.env Demo.s1 Demo.sendMsg).1.log ≠ Demo.s1.log ∧
    (step Demo.env (run Demo.env Demo.s1 [Demo.approveMsg]) Demo.takeMsg).2 = .batch [.ok 4] :=
  ⟨rfl, by decide, rfl⟩

end Verif
