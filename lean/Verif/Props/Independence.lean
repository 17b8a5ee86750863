import Verif.Lemmas.Independence
import Verif.Lemmas.Pending
import Verif.Props.Demo
import Verif.Props.Approvals
import Verif.Props.Uploads
/-!
# Traffic about other tokens (C90)
-/
namespace Verif

open Spec

variable {H : Type}

private theorem get_of_owner {s : State H} {tid : Nat} (h : Owner s tid ≠ none) : ∃ x, s.tokens.get tid = some x := by
  cases ho : Owner s tid with
  | none => exact absurd ho h
  | some o =>
    obtain ⟨x, hx, _⟩ := owner_get ho
    exact ⟨x, hx⟩

private theorem agree {s t : State H} {tid : Nat} (h : LocalRel tid s t) :
    Owner t tid = Owner s tid ∧ (∀ sp a, TokenApproval t tid sp a ↔ TokenApproval s tid sp a) ∧
    ∀ now, recentCalls t now tid = recentCalls s now tid := by
  refine ⟨?_, ?_, ?_⟩
  · unfold Owner; rw [h.tok]
  · intro sp a; unfold TokenApproval; rw [h.appr]
  · intro now
    have := h.win
    unfold winOf at this
    unfold recentCalls
    rw [this]

/-! ## C90 -/

/-- C90: whatever happens to other tokens, to permissions and to uploads — any number of
messages of any kind that neither name the token nor change the settings of the
collection — an existing token keeps its owner and its approvals, and no call counts
towards its rate limit. -/
theorem C90_untouched {E : Env H} {s : State H} (hr : Reachable E s) {tid : Nat} (ho : Owner s tid ≠ none)
    {ms : List Msg} (hms : ∀ m ∈ ms, Elsewhere tid m) :
    Owner (run E s ms) tid = Owner s tid ∧
    (∀ sp a, TokenApproval (run E s ms) tid sp a ↔ TokenApproval s tid sp a) ∧
    ∀ now, recentCalls (run E s ms) now tid = recentCalls s now tid := by
  refine agree ?_
  obtain ⟨x, hx⟩ := get_of_owner ho
  clear ho
  induction ms generalizing s with
  | nil => exact .refl _ _
  | cons m ms ih =>
    have h1 := step_elsewhere (E := E) hr.tokInv hx (hms m (.head _))
    exact h1.trans (ih (hr.step m) (fun y hy => hms y (.tail _ hy)) (h1.tok.trans hx))

/-- C90 for the calls of the holder: take a history in which calls about one token are
scattered among messages elsewhere, and leave all the others out. A transfer of the
token, a call that approves spenders for it or one that revokes their approvals is
answered after the one history as after the other, but for the numbers of the records,
and the token has the same owner and the same approvals. The archive takes every
record. Not so for calls by spenders and for burns: see the two violations below. -/
theorem C90_same_answer_partial {E : Env H} (hL : TakesAll E.ledger) {s : State H} (hr : Reachable E s) {tid : Nat}
    (ho : Owner s tid ≠ none) {ms own : List Msg} (h : Amid tid ms own) {call : Call} (hc : OnlyAbout tid call)
    (c : Principal) (now : Nat) :
    SameReply (step E (run E s own) (.call c now call)).2 (step E (run E s ms) (.call c now call)).2 ∧
    Owner (step E (run E s ms) (.call c now call)).1 tid = Owner (step E (run E s own) (.call c now call)).1 tid ∧
    ∀ sp a, TokenApproval (step E (run E s ms) (.call c now call)).1 tid sp a ↔
      TokenApproval (step E (run E s own) (.call c now call)).1 tid sp a := by
  have h1 := (run_amid (E := E) hL h hr (get_of_owner ho) (.refl tid s)).symm
  obtain ⟨h2, h3⟩ := step_local (E := E) hL h1 hc c now
  exact ⟨h2, (agree h3).1, (agree h3).2.1⟩

/-- C90 for spenders: after messages elsewhere none of which grants, revokes or uses a
collection approval, an `icrc37_transfer_from` of the token is answered as it would have
been before them, but for the numbers of the records. -/
theorem C90_spender_partial {E : Env H} (hL : TakesAll E.ledger) {s : State H} (hr : Reachable E s) {tid : Nat}
    (ho : Owner s tid ≠ none) {ms : List Msg} (hms : ∀ m ∈ ms, Elsewhere tid m ∧ NoCollection m)
    {args : List TransferFromArg} (hc : ∀ a ∈ args, a.tid = tid) (c : Principal) (now : Nat) :
    SameReply (step E s (.call c now (.transferFrom args))).2 (step E (run E s ms) (.call c now (.transferFrom args))).2 ∧
    Owner (step E (run E s ms) (.call c now (.transferFrom args))).1 tid =
      Owner (step E s (.call c now (.transferFrom args))).1 tid := by
  have h1 := run_spend (E := E) hr (get_of_owner ho) hms
  obtain ⟨h2, h3⟩ := step_spend (E := E) hL h1 hc c now
  exact ⟨h2, (agree h3.rel).1⟩

/-- C90 for burns: after messages elsewhere, a `burn_nft` of the token is answered as it
would have been before them, provided no management call is under way in either state. -/
theorem C90_burn_partial {E : Env H} (hL : TakesAll E.ledger) {s : State H} (hr : Reachable E s) {tid : Nat}
    (ho : Owner s tid ≠ none) {ms : List Msg} (hms : ∀ m ∈ ms, Elsewhere tid m)
    (hf : s.guards = []) (hf' : (run E s ms).guards = []) (c : Principal) (now : Nat) :
    (step E (run E s ms) (.call c now (.burn tid))).2 = (step E s (.call c now (.burn tid))).2 ∧
    Owner (step E (run E s ms) (.call c now (.burn tid))).1 tid = Owner (step E s (.call c now (.burn tid))).1 tid := by
  have h1 := (C90_untouched hr ho hms).1
  have key : ∀ u : State H, u.guards = [] → ∀ x, u.tokens.get tid = some x →
      (c = x.owner.owner → (step E u (.call c now (.burn tid))).2 = .mgmt (.ok .unit) ∧
        Owner (step E u (.call c now (.burn tid))).1 tid = none) ∧
      (c ≠ x.owner.owner → (step E u (.call c now (.burn tid))).2 = .mgmt (.error .notTokenOwner) ∧
        Owner (step E u (.call c now (.burn tid))).1 tid = some x.owner) := by
    intro u hu x hx
    constructor
    · intro hcx
      subst hcx
      obtain ⟨i, hi⟩ := hL u.hid { op := .burn, ts := now, tid := some tid, from_ := some x.owner, createdAt := some now }
      have ha : ∀ g : List Principal, addTx E.ledger { u with guards := g }
          { op := .burn, ts := now, tid := some tid, from_ := some x.owner, createdAt := some now } = _ :=
        fun g => addTx_of (s := { u with guards := g }) hi
      simp only [step, execCall, Call.needs, exec, burnNft, withGuard, guardEnter_free hu, hx, ne_eq, not_true_eq_false,
        if_false, ha, ofMgmt]
      refine ⟨trivial, ?_⟩
      simp [Owner, guardLeave]
    · intro hcx
      simp only [step, execCall, Call.needs, exec, burnNft, withGuard, guardEnter_free hu, hx, ne_eq, hcx,
        not_false_eq_true, if_true, ofMgmt]
      refine ⟨trivial, ?_⟩
      simp [Owner, guardLeave, hx]
  obtain ⟨x, hx⟩ := get_of_owner ho
  obtain ⟨y, hy⟩ := get_of_owner (h1.symm ▸ ho)
  rw [owner_of_get hx, owner_of_get hy] at h1
  have he : y.owner = x.owner := Option.some.inj h1
  obtain ⟨k1, k2⟩ := key s hf x hx
  obtain ⟨k3, k4⟩ := key (run E s ms) hf' y hy
  rw [he] at k3 k4
  by_cases hcx : c = x.owner.owner
  · obtain ⟨a1, a2⟩ := k1 hcx
    obtain ⟨b1, b2⟩ := k3 hcx
    exact ⟨b1.trans a1.symm, b2.trans a2.symm⟩
  · obtain ⟨a1, a2⟩ := k2 hcx
    obtain ⟨b1, b2⟩ := k4 hcx
    exact ⟨b1.trans a1.symm, b2.trans a2.symm⟩

/-! ## Where other traffic does matter -/

namespace Amidst

/-- alice approves carol for everything and bob for token 2. -/
def sBoth : State Nat := run Demo.env Demo.s1
  [approveAllMsg, .call [1] (Demo.ms 201) (.approveTokens [⟨2, ⟨Demo.bob, none, none, none, Demo.ms 201⟩⟩])]

theorem sBoth_reach : Reachable Demo.env sBoth := Demo.s1_reach.run _

/-- bob takes token 2. -/
def bobTakes : Msg := .call [2] (Demo.ms 300) (.transferFrom [⟨none, Demo.alice, Demo.bob, 2, none, none⟩])

/-- carol takes token 1. -/
def carolTakes : Msg := .call [3] (Demo.ms 400) (.transferFrom [⟨none, Demo.alice, Demo.carol, 1, none, none⟩])

/-- Traffic all around token 1: alice sends token 2 away, bob burns token 3, the
administrator mints a fourth token and begins an upload. -/
def around : List Msg :=
  [.call [1] (Demo.ms 300) (.transfer [{ to_ := Demo.carol, tid := 2 }]),
   .call [2] (Demo.ms 301) (.burn 3),
   .call Demo.admin (Demo.ms 302) (.mint [{ owner := Demo.carol }]),
   .call Demo.admin (Demo.ms 303) (.initUpload "/a.png" 10)]

theorem around_elsewhere : ∀ m ∈ around, Elsewhere 1 m ∧ NoCollection m := by
  simp [around, Elsewhere, Names, Reconfigures, NoCollection]

theorem takesAll : TakesAll Demo.env.ledger := fun _ _ => ⟨_, rfl⟩

end Amidst

open Amidst

/-- The messages of `around` do take effect, and token 1 is not touched. -/
example : Owner Demo.s1 1 = some Demo.alice ∧ (∀ m ∈ around, Elsewhere 1 m) ∧
    Owner (run Demo.env Demo.s1 around) 2 = some Demo.carol ∧ Owner (run Demo.env Demo.s1 around) 3 = none ∧
    Owner (run Demo.env Demo.s1 around) 4 = some Demo.carol ∧ Owner (run Demo.env Demo.s1 around) 1 = some Demo.alice ∧
    (run Demo.env Demo.s1 around).pending.length = 1 :=
  ⟨rfl, fun m hm => (around_elsewhere m hm).1, rfl, rfl, rfl, rfl, rfl⟩

/-- Two transfers of token 1 among that traffic. -/
example : Amid 1 (Demo.sendMsg :: around ++ [.call [2] (Demo.ms 400) (.transfer [{ to_ := Demo.alice, tid := 1 }])])
      [Demo.sendMsg, .call [2] (Demo.ms 400) (.transfer [{ to_ := Demo.alice, tid := 1 }])] ∧
    OnlyAbout 1 (.transfer [{ to_ := Demo.bob, tid := 1 }]) := by
  refine ⟨.own (by simp [OnlyAbout]) ?_, by simp [OnlyAbout]⟩
  have h : ∀ m ∈ around, Elsewhere 1 m := fun m hm => (around_elsewhere m hm).1
  revert h
  generalize around = l
  intro h
  induction l with
  | nil => exact .own (by simp [OnlyAbout]) .nil
  | cons m l ih => exact .other (h m (.head _)) (ih fun x hx => h x (.tail _ hx))

/-- carol's approval lets them take token 1 after that traffic, and nothing lets bob. -/
example : (∀ m ∈ around, Elsewhere 1 m ∧ NoCollection m) ∧
    (step Demo.env (run Demo.env sBoth around) carolTakes).2 = .batch [.ok 8] ∧
    (step Demo.env sBoth carolTakes).2 = .batch [.ok 5] ∧
    (step Demo.env (run Demo.env sBoth around)
      (.call [2] (Demo.ms 400) (.transferFrom [⟨none, Demo.alice, Demo.bob, 1, none, none⟩]))).2 =
      .batch [.error .unauthorized] := ⟨around_elsewhere, rfl, rfl, rfl⟩

/-- Burning token 1 after the part of that traffic that is over. -/
example : Demo.s1.guards = [] ∧ (run Demo.env Demo.s1 (around.take 3)).guards = [] ∧
    (step Demo.env (run Demo.env Demo.s1 (around.take 3)) (.call [1] (Demo.ms 400) (.burn 1))).2 = .mgmt (.ok .unit) ∧
    (step Demo.env (run Demo.env Demo.s1 (around.take 3)) (.call [2] (Demo.ms 400) (.burn 1))).2 =
      .mgmt (.error .notTokenOwner) := ⟨rfl, rfl, rfl, rfl⟩

/-- C90 fails for calls by spenders: carol may move alice's tokens. bob, who may move
token 2, takes it, and carol can no longer take token 1 (see C21). -/
theorem C90_violated_transfer_from : ∃ (s : State Nat) (m call : Msg) (i : Nat), Reachable Demo.env s ∧ TakesAll Demo.env.ledger ∧
    Owner s 1 = some Demo.alice ∧ Elsewhere 1 m ∧
    call = .call [3] (Demo.ms 400) (.transferFrom [⟨none, Demo.alice, Demo.carol, 1, none, none⟩]) ∧
    (step Demo.env s call).2 = .batch [.ok i] ∧
    (step Demo.env (step Demo.env s m).1 call).2 = .batch [.error .unauthorized] :=
  ⟨sBoth, bobTakes, carolTakes, 5, sBoth_reach, takesAll, rfl, by simp [bobTakes, Elsewhere, Names, Reconfigures], rfl,
    rfl, rfl⟩

/-- C90 fails for burns: while the administrator's call that begins an upload waits for
its storage canister, alice cannot burn token 1. -/
theorem C90_violated_burn : ∃ (s : State Nat) (m : Msg), Reachable Demo.env s ∧ Elsewhere 1 m ∧
    (step Demo.env s (.call [1] (Demo.ms 400) (.burn 1))).2 = .mgmt (.ok .unit) ∧
    (step Demo.env (step Demo.env s m).1 (.call [1] (Demo.ms 400) (.burn 1))).2 =
      .mgmt (.error .concurrentManagementCall) :=
  ⟨Demo.s1, .call Demo.admin (Demo.ms 200) (.initUpload "/a.png" 10), Demo.s1_reach,
    by simp [Elsewhere, Names, Reconfigures], rfl, rfl⟩

end Verif
