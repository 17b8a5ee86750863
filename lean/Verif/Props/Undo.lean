import Verif.Spec.Undo
import Verif.Props.Book
/-!
# C126: what is undone leaves nothing behind

A call and the call that undoes it, with upgrades and answers to calls that wait in
between. Both are accepted. The log keeps both, of course.
-/
namespace Verif

open Spec

variable {H : Type}

private theorem sameRights {s t : State H} (h : bookOf s = bookOf t) : SameRights s t where
  owners tid a := by
    have key : ∀ u : State H, (∃ o, Owner u tid = some o ∧ SameAccount o a) ↔ (bookOf u).owner tid = some (holder a) := by
      intro u
      rw [← (C92_seen u).1 tid (holder a)]
      simp only [sameAccount_iff, holder_eq]
    rw [key, key, h]
  movers now tid o sp := by rw [(C92_seen s).2.1, (C92_seen t).2.1, h]
  permissions p x := by rw [holds_iff, holds_iff, (C92_seen s).2.2, (C92_seen t).2.2, h]
  next := congrArg Book.next h

private theorem quiet {E : Env H} {ms : List Msg} : ∀ {s : State H}, NoCalls ms → bookOf (run E s ms) = bookOf s := by
  induction ms with
  | nil => intro s _; rfl
  | cons m ms ih =>
    intro s h
    exact (ih (s := (step E s m).1) fun c now call hm => h c now call (.tail _ hm)).trans
      (C92_other E s m fun c now call hm => h c now call (hm ▸ .head _))

private theorem one {D : Prop} {c : Principal} {now n : Nat} {call i : Call} {b b' : Book}
    (h : Reaction D c now call (.batch [.ok n]) b b') (hi : items call = [i]) (hd : ¬ D ∨ ∀ arg, i ≠ .transfer [arg]) :
    Does c now i b b' := by
  cases h with
  | batch h =>
    rw [hi] at h
    cases h with
    | cons h1 h2 =>
      cases h2
      generalize hr : (Except.ok n : Except TokErr Nat) = r at h1
      cases h1 with
      | done h => exact h
      | refused => cases hr
      | forgot _ => cases hr
      | repeated hD _ => rcases hd with h | h
                         · exact (h hD).elim
                         · exact (h _ rfl).elim
  | elsewhere _ h => rw [hi] at h; cases h

private theorem upd_upd {α β : Type} [DecidableEq α] (f : α → β) (k : α) (v w : β) (hw : f k = w) : upd (upd f k v) k w = f := by
  funext x
  unfold upd
  split
  · rename_i h; rw [h, hw]
  · rfl

private theorem noEnd {m : Option (Map Account Approval)} {sp : Account}
    (h : ∀ a, ¬ ∃ m', m = some m' ∧ m'.get sp = some a) : ends m (holder sp) = none := by
  cases m with
  | none => rfl
  | some m' =>
    simp only [ends, Option.bind_some]
    rw [Map.get_congr m' (account_holder sp)]
    cases ha : m'.get sp with
    | none => rfl
    | some a => exact (h a ⟨m', rfl, ha⟩).elim

/-- C126, transfers: a token is sent to somebody, who sends it back. The approvals for it
are as before too, which the claim does not ask: they outlive transfers (`C15_violated`). Missing from the full
claim: ledgers that take a transfer for an earlier one (`C126_violated_repeat`). -/
theorem C126_transfer_partial {E : Env H} (hL : ¬ CanRepeat E.ledger) {s t : State H} (hr : Reachable E s) {tid now i now' j : Nat}
    {arg arg' : TransferArg} {o : Account} {c c' : Principal} {ms : List Msg} (ho : Owner s tid = some o)
    (h1 : (step E s (.call c now (.transfer [arg]))).2 = .batch [.ok i]) (ha : arg.tid = tid)
    (hms : NoCalls ms) (ht : t = run E (step E s (.call c now (.transfer [arg]))).1 ms)
    (h2 : (step E t (.call c' now' (.transfer [arg']))).2 = .batch [.ok j]) (ha' : arg'.tid = tid) (hback : SameAccount arg'.to_ o) :
    SameRights s (step E t (.call c' now' (.transfer [arg']))).1 := by
  have r1 := C92_call E s hr c now (.transfer [arg])
  have r2 := C92_call E t (ht ▸ (hr.step _).run _) c' now' (.transfer [arg'])
  rw [h1] at r1
  rw [h2, ht, quiet hms, ← ht] at r2
  have d1 := one r1 rfl (.inl hL)
  have d2 := one r2 rfl (.inl hL)
  refine sameRights ?_
  have hb : (bookOf s).owner tid = some (holder arg'.to_) := by
    show (Owner s tid).map holder = _
    rw [ho, Option.map_some, holder_eq.2 (sameAccount_iff.1 hback)]
  generalize bookOf (step E t (.call c' now' (.transfer [arg']))).1 = b2 at d2
  generalize bookOf (step E s (.call c now (.transfer [arg]))).1 = b1 at d1 d2
  cases d1
  cases d2
  subst ha
  dsimp only
  rw [ha', upd_upd _ _ _ _ hb]

/-- C126, approvals for a token: a spender who had none is given one, which is revoked. -/
theorem C126_approval {E : Env H} {s t : State H} (hr : Reachable E s) {now i now' j : Nat} {arg : ApproveTokenArg}
    {arg' : RevokeTokenArg} {sp : Account} {c c' : Principal} {ms : List Msg}
    (hnone : ∀ a, ¬ TokenApproval s arg.tid arg.info.spender a)
    (h1 : (step E s (.call c now (.approveTokens [arg]))).2 = .batch [.ok i])
    (hms : NoCalls ms) (ht : t = run E (step E s (.call c now (.approveTokens [arg]))).1 ms)
    (h2 : (step E t (.call c' now' (.revokeTokens [arg']))).2 = .batch [.ok j]) (ha' : arg'.tid = arg.tid)
    (hsp : arg'.spender = some sp) (hsame : SameAccount sp arg.info.spender) :
    SameRights s (step E t (.call c' now' (.revokeTokens [arg']))).1 := by
  have r1 := C92_call E s hr c now (.approveTokens [arg])
  have r2 := C92_call E t (ht ▸ (hr.step _).run _) c' now' (.revokeTokens [arg'])
  rw [h1] at r1
  rw [h2, ht, quiet hms, ← ht] at r2
  have d1 := one r1 rfl (.inr fun _ h => nomatch h)
  have d2 := one r2 rfl (.inr fun _ h => nomatch h)
  refine sameRights ?_
  have hb : (bookOf s).token arg.tid (holder arg.info.spender) = none := noEnd hnone
  generalize bookOf (step E t (.call c' now' (.revokeTokens [arg']))).1 = b2 at d2
  generalize bookOf (step E s (.call c now (.approveTokens [arg]))).1 = b1 at d1 d2
  cases d1
  cases d2
  dsimp only
  rw [ha', hsp]
  have he : holder sp = holder arg.info.spender := holder_eq.2 (sameAccount_iff.1 hsame)
  simp only [without, he]
  rw [show upd (bookOf s).token arg.tid _ arg.tid = upd ((bookOf s).token arg.tid) (holder arg.info.spender) (some arg.info.expiresAt) by
    simp [upd], upd_upd _ _ _ _ hb, upd_upd _ _ _ _ rfl]

/-- C126, approvals for the tokens of a default account: a spender who had none is given
one, which is revoked. Missing from the full claim: other accounts, whose approvals cannot be
revoked (`C126_violated_sub`). -/
theorem C126_collection_partial {E : Env H} {s t : State H} (hr : Reachable E s) {now i now' j : Nat} {info : ApprovalInfo}
    {arg' : RevokeCollArg} {sp : Account} {c : Principal} {ms : List Msg} (hdef : SameAccount ⟨c, info.fromSub⟩ ⟨c, none⟩)
    (hnone : ∀ a, ¬ CollApproval s ⟨c, none⟩ info.spender a)
    (h1 : (step E s (.call c now (.approveCollection [info]))).2 = .batch [.ok i])
    (hms : NoCalls ms) (ht : t = run E (step E s (.call c now (.approveCollection [info]))).1 ms)
    (h2 : (step E t (.call c now' (.revokeCollection [arg']))).2 = .batch [.ok j])
    (hsp : arg'.spender = some sp) (hsame : SameAccount sp info.spender) :
    SameRights s (step E t (.call c now' (.revokeCollection [arg']))).1 := by
  have r1 := C92_call E s hr c now (.approveCollection [info])
  have r2 := C92_call E t (ht ▸ (hr.step _).run _) c now' (.revokeCollection [arg'])
  rw [h1] at r1
  rw [h2, ht, quiet hms, ← ht] at r2
  have d1 := one r1 rfl (.inr fun _ h => nomatch h)
  have d2 := one r2 rfl (.inr fun _ h => nomatch h)
  refine sameRights ?_
  have hb : (bookOf s).all (holder ⟨c, none⟩) (holder info.spender) = none := by
    rw [bookOf_all]; exact noEnd hnone
  generalize bookOf (step E t (.call c now' (.revokeCollection [arg']))).1 = b2 at d2
  generalize bookOf (step E s (.call c now (.approveCollection [info]))).1 = b1 at d1 d2
  cases d1
  cases d2
  dsimp only
  have he : holder sp = holder info.spender := holder_eq.2 (sameAccount_iff.1 hsame)
  have hd : holder ⟨c, info.fromSub⟩ = holder ⟨c, none⟩ := holder_eq.2 (sameAccount_iff.1 hdef)
  rw [hsp, hd]
  simp only [without, he]
  rw [show upd (bookOf s).all (holder ⟨c, none⟩) _ (holder ⟨c, none⟩) =
      upd ((bookOf s).all (holder ⟨c, none⟩)) (holder info.spender) (some info.expiresAt) by
    simp [upd], upd_upd _ _ _ _ hb, upd_upd _ _ _ _ rfl]

/-- C126, permissions: somebody who did not hold a permission is given it, and it is revoked. -/
theorem C126_permission {E : Env H} {s t : State H} (hr : Reachable E s) {now now' : Nat} {p c c' : Principal} {x : Permission}
    {ms : List Msg} (hnone : ¬ Holds s p x)
    (h1 : (step E s (.call c now (.grant p x))).2 = .mgmt (.ok .unit))
    (hms : NoCalls ms) (ht : t = run E (step E s (.call c now (.grant p x))).1 ms)
    (h2 : (step E t (.call c' now' (.revoke p x))).2 = .mgmt (.ok .unit)) :
    SameRights s (step E t (.call c' now' (.revoke p x))).1 := by
  have r1 := C92_call E s hr c now (.grant p x)
  have r2 := C92_call E t (ht ▸ (hr.step _).run _) c' now' (.revoke p x)
  rw [h1] at r1
  rw [h2, ht, quiet hms, ← ht] at r2
  have don : ∀ {c now call b b'}, Books call → Reaction (CanRepeat E.ledger) c now call (.mgmt (.ok .unit)) b b' →
      Does c now call b b' := by
    intro c now call b b' hk h
    generalize hrr : Reply.mgmt (.ok .unit) = r at h
    cases h with
    | done h => exact h
    | elsewhere h _ => exact (h hk).elim
    | _ => cases hrr
  have d1 := don (call := .grant p x) trivial r1
  have d2 := don (call := .revoke p x) trivial r2
  refine sameRights ?_
  have hb : ¬ (bookOf s).may p x := hnone
  generalize bookOf (step E t (.call c' now' (.revoke p x))).1 = b2 at d2
  generalize bookOf (step E s (.call c now (.grant p x))).1 = b1 at d1 d2
  cases d1
  cases d2
  dsimp only
  have : (fun q y => ¬ (q = p ∧ y = x) ∧ ((q = p ∧ y = x) ∨ (bookOf s).may q y)) = (bookOf s).may := by
    funext q y
    apply propext
    constructor
    · rintro ⟨h, h' | h'⟩
      · exact (h h').elim
      · exact h'
    · intro h
      exact ⟨fun ⟨h1, h2⟩ => hb (h1 ▸ h2 ▸ h), .inr h⟩
  rw [this]

/-- The full statement for approvals of an account. -/
def CollectionUndone (E : Env H) : Prop :=
  ∀ (s : State H) (now i now' j : Nat) (info : ApprovalInfo) (c : Principal), Reachable E s →
    (∀ a, ¬ CollApproval s ⟨c, info.fromSub⟩ info.spender a) →
    (step E s (.call c now (.approveCollection [info]))).2 = .batch [.ok i] →
    (step E (step E s (.call c now (.approveCollection [info]))).1
      (.call c now' (.revokeCollection [{ spender := some info.spender, fromSub := info.fromSub }]))).2 = .batch [.ok j] →
    SameRights s (step E (step E s (.call c now (.approveCollection [info]))).1
      (.call c now' (.revokeCollection [{ spender := some info.spender, fromSub := info.fromSub }]))).1

/-- The full statement for transfers. -/
def TransferUndone (E : Env H) : Prop :=
  ∀ (s : State H) (tid now i now' j : Nat) (o o' : Account), Reachable E s → Owner s tid = some o →
    (step E s (.call o.owner now (.transfer [{ to_ := o', tid := tid }]))).2 = .batch [.ok i] →
    (step E (step E s (.call o.owner now (.transfer [{ to_ := o', tid := tid }]))).1
      (.call o'.owner now' (.transfer [{ to_ := o, tid := tid }]))).2 = .batch [.ok j] →
    SameRights s (step E (step E s (.call o.owner now (.transfer [{ to_ := o', tid := tid }]))).1
      (.call o'.owner now' (.transfer [{ to_ := o, tid := tid }]))).1

namespace Undo

open Demo

/-- alice keeps token 1 in another account and has approved bob for the default account. -/
def subState : State Nat := run env s1 [
  .call [1] (ms 200) (.transfer [{ to_ := alice1, tid := 1 }]),
  .call [1] (ms 200) (.approveCollection [{ spender := bob, createdAt := ms 200 }])]

/-- A ledger that takes every transaction after the fourth for the fourth. -/
def repeats : Ledger Nat := ⟨fun h _ => if h < 4 then (h + 1, .ok h) else (h, .error (.duplicate 3))⟩

def repeatEnv : Env Nat := ⟨repeats, [9], fun _ => "aaaaa-aa"⟩

end Undo

open Demo Undo in
/-- C126 is false of accounts other than the default one: alice approves carol for the other
account and revokes it, both are answered `Ok`, and carol may move the token. -/
theorem C126_violated_sub : ¬ CollectionUndone env := by
  intro h
  have := (h subState (ms 250) 5 (ms 300) 6 { spender := carol, fromSub := alice1.sub, createdAt := ms 250 } [1] (s1_reach.run _)
    (by rintro a ⟨m, hm, _⟩
        have hn : subState.collAppr.get ⟨[1], alice1.sub⟩ = none := by decide
        rw [hn] at hm; cases hm) rfl rfl).movers (ms 400) 1 alice1 carol
  rw [(C92_seen _).2.1, (C92_seen _).2.1] at this
  rcases this.2 (.inr (.inr trivial)) with h | h | h
  · revert h; decide
  · exact h
  · exact h

open Demo Undo in
/-- C126 is false of ledgers that take a transfer for an earlier one: bob's transfer is
answered `Ok` and bob keeps the token. -/
theorem C126_violated_repeat : ¬ TransferUndone repeatEnv := by
  intro h
  have := (h (run repeatEnv s0 [mintMsg]) 1 (ms 200) 3 (ms 300) 3 alice bob ⟨_, _, _, _, s0, _, s0_init, rfl⟩ (by decide) rfl rfl).owners 1 alice
  obtain ⟨o, ho, hs⟩ := this.1 ⟨alice, by decide, rfl, rfl⟩
  have hb : Owner (step repeatEnv (step repeatEnv (run repeatEnv s0 [mintMsg]) (.call alice.owner (ms 200) (.transfer [{ to_ := bob, tid := 1 }]))).1
      (.call bob.owner (ms 300) (.transfer [{ to_ := alice, tid := 1 }]))).1 1 = some bob := by decide
  rw [hb] at ho
  cases ho
  revert hs
  decide

/-! ### a concrete collection -/

namespace Undo

open Demo

example : NoCalls [.upgrade, .upgrade] := by
  intro c now call h
  simp at h

/-- alice sends token 1 to bob, who sends it back after an upgrade. -/
example : ¬ CanRepeat env.ledger ∧ Owner s1 1 = some alice ∧
    replies env s1 [sendMsg, .upgrade, .call [2] (ms 300) (.transfer [{ to_ := alice0, tid := 1 }])] =
      [.batch [.ok 3], .none, .batch [.ok 4]] ∧ SameAccount alice0 alice := by
  refine ⟨?_, by decide, rfl, rfl, rfl⟩
  rintro ⟨h, t, h', d, he⟩
  simp [env, ledger] at he

/-- alice approves carol for token 2 and revokes it. -/
example : (∀ a, ¬ TokenApproval s1 2 carol a) ∧
    replies env s1 [approveMsg, .upgrade, .call [1] (ms 300) (.revokeTokens [{ tid := 2, spender := some carol }])] =
      [.batch [.ok 3], .none, .batch [.ok 4]] := by
  refine ⟨?_, rfl⟩
  rintro a ⟨m, hm, _⟩
  have hn : s1.tokAppr.get 2 = none := by decide
  rw [hn] at hm; cases hm

/-- alice approves carol for all tokens of the default account and revokes it. -/
example : (∀ a, ¬ CollApproval s1 ⟨[1], none⟩ carol a) ∧
    replies env s1 [.call [1] (ms 200) (.approveCollection [{ spender := carol, createdAt := ms 200 }]), .upgrade,
      .call [1] (ms 300) (.revokeCollection [{ spender := some carol }])] = [.batch [.ok 3], .none, .batch [.ok 4]] := by
  refine ⟨?_, rfl⟩
  rintro a ⟨m, hm, _⟩
  have hn : s1.collAppr.get ⟨[1], none⟩ = none := by decide
  rw [hn] at hm; cases hm

/-- The admin lets carol mint, and takes it back. -/
example : ¬ Holds s1 carol.owner .minting ∧
    replies env s1 [.call admin (ms 200) (.grant carol.owner .minting), .upgrade,
      .call admin (ms 300) (.revoke carol.owner .minting)] = [.mgmt (.ok .unit), .none, .mgmt (.ok .unit)] := by
  refine ⟨?_, rfl⟩
  rw [holds_iff]
  decide

end Undo

end Verif
