import Verif.Spec.Schedule
import Verif.Lemmas.Owners
import Verif.Props.Independence
import Verif.Props.Balances
/-!
# The order of calls about different tokens (C97)
-/
namespace Verif

open Spec

variable {H : Type}

/-! ### replies -/

private theorem SameItem.symm {r r' : Except TokErr Nat} (h : SameItem r r') : SameItem r' r := by
  cases r <;> cases r' <;> first | exact h.elim | exact trivial | exact Eq.symm h

private theorem SameItem.trans {r r' r'' : Except TokErr Nat} (h : SameItem r r') (h' : SameItem r' r'') : SameItem r r'' := by
  cases r <;> cases r' <;> cases r'' <;>
    first | exact h.elim | exact h'.elim | exact trivial | exact Eq.trans (show _ = _ from h) h'

private theorem SameItems.symm {r r' : List (Except TokErr Nat)} (h : SameItems r r') : SameItems r' r := by
  induction h with
  | nil => exact .nil
  | cons h _ ih => exact .cons (SameItem.symm h) ih

private theorem SameItems.trans {r r' : List (Except TokErr Nat)} (h : SameItems r r') :
    ∀ {r''}, SameItems r' r'' → SameItems r r'' := by
  induction h with
  | nil => intro r'' h; exact h
  | cons h _ ih =>
    intro r'' h'
    cases h' with
    | cons g gs => exact .cons (SameItem.trans h g) (ih gs)

private theorem SameReply.symm {r r' : Reply} (h : SameReply r r') : SameReply r' r := by
  cases r <;> cases r' <;> first | exact h.elim | exact trivial | exact Eq.symm h | exact SameItems.symm h

private theorem SameReply.trans {r r' r'' : Reply} (h : SameReply r r') (h' : SameReply r' r'') : SameReply r r'' := by
  cases r <;> cases r' <;> first
    | exact h.elim
    | (cases r'' <;> first
        | exact h'.elim | exact trivial | exact Eq.trans (show _ = _ from h) h' | exact SameItems.trans h h')

private theorem SameReplies.symm {r r' : List Reply} (h : SameReplies r r') : SameReplies r' r := by
  induction h with
  | nil => exact .nil
  | cons h _ ih => exact .cons (SameReply.symm h) ih

private theorem SameReplies.trans {r r' : List Reply} (h : SameReplies r r') : ∀ {r''}, SameReplies r' r'' → SameReplies r r'' := by
  induction h with
  | nil => intro r'' h; exact h
  | cons h _ ih =>
    intro r'' h'
    cases h' with
    | cons g gs => exact .cons (SameReply.trans h g) (ih gs)

/-! ### one token in a schedule -/

/-- Two states that agree on a token, on whether management calls are admitted, and on who
burned the token. -/
private structure Agree (tid : Nat) (s t : State H) : Prop where
  loc : LocalRel tid s t
  guards : t.guards = s.guards
  burns : ∀ a, (∃ x ∈ t.log, BurnOf x a tid) ↔ ∃ x ∈ s.log, BurnOf x a tid

private theorem Agree.refl (tid : Nat) (s : State H) : Agree tid s s := ⟨.refl tid s, rfl, fun _ => .rfl⟩

private theorem Agree.trans {tid : Nat} {s t u : State H} (h : Agree tid s t) (h' : Agree tid t u) : Agree tid s u :=
  ⟨h.loc.trans h'.loc, h'.guards.trans h.guards, fun a => (h'.burns a).trans (h.burns a)⟩

private theorem Agree.symm {tid : Nat} {s t : State H} (h : Agree tid s t) : Agree tid t s :=
  ⟨h.loc.symm, h.guards.symm, fun a => (h.burns a).symm⟩

private theorem burns_one {s : State H} {r : Tx} {tid : Nat} (hr : r.op ≠ .burn ∨ r.tid ≠ some tid) (a : Account) :
    (∃ x ∈ s.log ++ [r], BurnOf x a tid) ↔ ∃ x ∈ s.log, BurnOf x a tid := by
  constructor
  · rintro ⟨x, hx, hb⟩
    rcases List.mem_append.1 hx with hx | hx
    · exact ⟨x, hx, hb⟩
    · rw [List.mem_singleton] at hx
      subst hx
      rcases hr with hr | hr
      · exact absurd hb.1 hr
      · exact absurd hb.2.1 hr
  · rintro ⟨x, hx, hb⟩
    exact ⟨x, List.mem_append_left _ hx, hb⟩

/-- A holder's call that does not burn the token leaves the rest of the agreement. -/
private theorem rest {E : Env H} {e : Entry} (hc : OnlyAbout e.tid e.call ∨ e.call = .burn e.tid) {tid : Nat}
    (hne : e.call ≠ .burn tid) (s : State H) : (step E s e.msg).1.guards = s.guards ∧
      ∀ a, (∃ x ∈ (step E s e.msg).1.log, BurnOf x a tid) ↔ ∃ x ∈ s.log, BurnOf x a tid := by
  refine (step_steps E s e.msg).induct (P := fun t => t.guards = s.guards ∧
    ∀ a, (∃ x ∈ t.log, BurnOf x a tid) ↔ ∃ x ∈ s.log, BurnOf x a tid) (hp := ⟨rfl, fun _ => .rfl⟩) (hmicro := ?_)
  rintro t t' ⟨h1, h2⟩ hm
  obtain ⟨i, c, now, call⟩ := e
  rcases hc with hc | hc
  · cases call <;> first | exact hc.elim | skip
    all_goals
      unfold Entry.msg at hm
      dsimp only at hm
      cases hm <;> first
        | exact ⟨h1, h2⟩
        | (rename_i hcall
           rcases hcall with ⟨_, _, h, _⟩ | ⟨_, _, h, _⟩ | ⟨_, _, h, _⟩ | ⟨_, _, h, _⟩ <;> cases h)
        | exact ⟨h1, fun a => (burns_one (.inl (by simp [transferTx, approveTx, revokeTx])) a).trans (h2 a)⟩
  · dsimp only at hc hne
    subst hc
    unfold Entry.msg at hm
    dsimp only at hm
    cases hm with
    | quiet => exact ⟨h1, h2⟩
    | burn =>
      refine ⟨h1, fun a => (burns_one (.inr ?_) a).trans (h2 a)⟩
      intro h
      simp only [burnTx, Option.some.injEq] at h
      exact hne (by rw [h])
    | suspend _ _ _ _ hcall => rcases hcall with ⟨_, _, h, _⟩ | ⟨_, _, h, _⟩ | ⟨_, _, h, _⟩ | ⟨_, _, h, _⟩ <;> cases h
    | dropUpload => exact ⟨h1, h2⟩

private theorem elsewhere_of {e : Entry} {tid : Nat} (h : OnlyAbout e.tid e.call ∨ e.call = .burn e.tid) (hne : e.tid ≠ tid) :
    Elsewhere tid e.msg ∧ NoCollection e.msg ∧ e.call ≠ .burn tid ∧ ∀ c now reqs, e.msg ≠ .call c now (.mint reqs) := by
  obtain ⟨t, c, now, call⟩ := e
  rcases h with h | h
  · cases call <;> first | exact h.elim | skip
    all_goals
      refine ⟨⟨?_, fun h => h⟩, trivial, (fun h => by cases h), fun _ _ _ h => by cases h⟩
      rintro ⟨a, ha, rfl⟩
      exact hne (h a ha).symm
  · dsimp only at h hne
    subst h
    exact ⟨⟨hne, fun h => h⟩, trivial, fun h => hne (Call.burn.inj h), fun _ _ _ h => by cases h⟩

/-- A burn is answered alike in states that agree, and leaves them in agreement. -/
private theorem burn_agree {E : Env H} (hL : TakesAll E.ledger) {tid : Nat} {s t : State H} (h : Agree tid s t)
    (c : Principal) (now : Nat) :
    SameReply (step E s (.call c now (.burn tid))).2 (step E t (.call c now (.burn tid))).2 ∧
    Agree tid (step E s (.call c now (.burn tid))).1 (step E t (.call c now (.burn tid))).1 := by
  simp only [step, execCall, Call.needs, exec, burnNft, withGuard, guardEnter]
  rw [h.guards]
  by_cases hg : maxConcurrent ≤ s.guards.length
  · rw [if_pos hg, if_pos hg]; exact ⟨rfl, h⟩
  rw [if_neg hg, if_neg hg]
  dsimp only
  rw [h.loc.tok]
  cases s.tokens.get tid with
  | none => exact ⟨rfl, ⟨h.loc.cfg, h.loc.tok, h.loc.appr, h.loc.win⟩, rfl, h.burns⟩
  | some token =>
    dsimp only
    by_cases hc : c ≠ token.owner.owner
    · rw [if_pos hc, if_pos hc]
      exact ⟨rfl, ⟨h.loc.cfg, h.loc.tok, h.loc.appr, h.loc.win⟩, rfl, h.burns⟩
    rw [if_neg hc, if_neg hc]
    obtain ⟨i, hi⟩ := hL s.hid { op := .burn, ts := now, tid := some tid, from_ := some token.owner, createdAt := some now }
    obtain ⟨j, hj⟩ := hL t.hid { op := .burn, ts := now, tid := some tid, from_ := some token.owner, createdAt := some now }
    rw [addTx_of (L := E.ledger) (s := { s with guards := if c ∈ s.guards then s.guards else s.guards ++ [c] }) hi,
      addTx_of (L := E.ledger) (s := { t with guards := if c ∈ s.guards then s.guards else s.guards ++ [c] }) hj]
    refine ⟨rfl, ⟨h.loc.cfg, ?_, h.loc.appr, h.loc.win⟩, rfl, fun a => ?_⟩
    · simp only [ofMgmt, guardLeave, Map.get_del]
      simp
    · simp only [ofMgmt, guardLeave, List.mem_append, List.mem_singleton]
      have := h.burns a
      constructor
      · rintro ⟨x, hx | hx, hb⟩
        · obtain ⟨y, hy, hb⟩ := this.1 ⟨x, hx, hb⟩
          exact ⟨y, .inl hy, hb⟩
        · exact ⟨x, .inr hx, hb⟩
      · rintro ⟨x, hx | hx, hb⟩
        · obtain ⟨y, hy, hb⟩ := this.2 ⟨x, hx, hb⟩
          exact ⟨y, .inl hy, hb⟩
        · exact ⟨x, .inr hx, hb⟩

/-- A call about the token is answered alike in states that agree. -/
private theorem own_agree {E : Env H} (hL : TakesAll E.ledger) {e : Entry} (hc : OnlyAbout e.tid e.call ∨ e.call = .burn e.tid)
    {s t : State H} (h : Agree e.tid s t) :
    SameReply (step E s e.msg).2 (step E t e.msg).2 ∧ Agree e.tid (step E s e.msg).1 (step E t e.msg).1 := by
  by_cases hb : e.call = .burn e.tid
  · have := burn_agree hL h e.caller e.now
    rw [← hb] at this
    exact this
  · obtain ⟨h1, h2⟩ := step_local (E := E) hL h.loc (hc.resolve_right hb) e.caller e.now
    obtain ⟨g1, b1⟩ := rest (E := E) hc hb s
    obtain ⟨g2, b2⟩ := rest (E := E) hc hb t
    exact ⟨h1, h2, g2.trans (h.guards.trans g1.symm), fun a => (b2 a).trans ((h.burns a).trans (b1 a).symm)⟩

/-- A schedule, as far as one token is concerned, does what its queue does. -/
private theorem run_queue {E : Env H} (hL : TakesAll E.ledger) {tid : Nat} (w : List Entry) (hw : HolderCalls w) :
    ∀ {s t : State H}, Reachable E s → Agree tid s t →
      Agree tid (run E s (w.map Entry.msg)) (run E t ((queue tid w).map Entry.msg)) ∧
      SameReplies (repliesAbout E tid s w) (replies E t ((queue tid w).map Entry.msg)) := by
  induction w with
  | nil => intro s t _ h; exact ⟨h, .nil⟩
  | cons e w ih =>
    intro s t hr h
    have hc := hw e List.mem_cons_self
    have ih := @ih (fun x hx => hw x (List.mem_cons_of_mem _ hx)) (step E s e.msg).1
    by_cases he : e.tid = tid
    · subst he
      obtain ⟨h1, h2⟩ := own_agree (E := E) hL hc h
      obtain ⟨i1, i2⟩ := ih (hr.step _) h2
      have hq : queue e.tid (e :: w) = e :: queue e.tid w := by simp [queue]
      rw [hq]
      refine ⟨i1, ?_⟩
      unfold repliesAbout
      rw [if_pos rfl]
      exact .cons h1 i2
    · obtain ⟨k1, k2, k3, k4⟩ := elsewhere_of hc he
      have h1 : Agree tid s (step E s e.msg).1 :=
        ⟨step_elsewhere_of (E := E) hr.tokInv (.inr k2) (.inr k4) k1, (rest hc k3 s).1, (rest hc k3 s).2⟩
      obtain ⟨i1, i2⟩ := ih (hr.step _) (h1.symm.trans h)
      have hq : queue tid (e :: w) = queue tid w := by simp [queue, he]
      rw [hq]
      refine ⟨i1, ?_⟩
      unfold repliesAbout
      rw [if_neg he]
      exact i2

private theorem run_agree {E : Env H} (hL : TakesAll E.ledger) {s : State H} (hr : Reachable E s) {w w' : List Entry}
    (hw : HolderCalls w) (hw' : HolderCalls w') (hq : SameQueues w w') (tid : Nat) :
    Agree tid (run E s (w.map Entry.msg)) (run E s (w'.map Entry.msg)) ∧
    SameReplies (repliesAbout E tid s w) (repliesAbout E tid s w') := by
  obtain ⟨h1, h2⟩ := run_queue (tid := tid) hL w hw hr (.refl tid s)
  obtain ⟨h3, h4⟩ := run_queue (tid := tid) hL w' hw' hr (.refl tid s)
  rw [hq tid] at h1 h2
  exact ⟨h1.trans h3.symm, SameReplies.trans h2 (SameReplies.symm h4)⟩

/-! ## C97 -/

/-- C97: take any calls that transfer a token, approve spenders for it, revoke their approvals
or burn it, each about one token, and put them in any other order that keeps the order of the
calls about each token. Every token has the same owner and the same approvals in the end, and
every call about it is answered the same but for the number of the record. The archive takes
every record. -/
theorem C97_order {E : Env H} (hL : TakesAll E.ledger) {s : State H} (hr : Reachable E s) {w w' : List Entry}
    (hw : HolderCalls w) (hw' : HolderCalls w') (hq : SameQueues w w') (tid : Nat) :
    Owner (run E s (w.map Entry.msg)) tid = Owner (run E s (w'.map Entry.msg)) tid ∧
    (∀ sp a, TokenApproval (run E s (w.map Entry.msg)) tid sp a ↔ TokenApproval (run E s (w'.map Entry.msg)) tid sp a) ∧
    SameReplies (repliesAbout E tid s w) (repliesAbout E tid s w') := by
  obtain ⟨h, h'⟩ := run_agree hL hr hw hw' hq tid
  refine ⟨?_, ?_, h'⟩
  · unfold Owner; rw [h.loc.tok]
  · intro sp a; unfold TokenApproval; rw [h.loc.appr]

namespace Orders

/-- alice sends token 1 to bob, who sends it on to carol; alice lets bob take token 2 and
sends it to carol; bob burns token 3. -/
def send : Entry := ⟨1, [1], Demo.ms 200, .transfer [{ to_ := Demo.bob, tid := 1 }]⟩
def pass : Entry := ⟨1, [2], Demo.ms 200, .transfer [{ to_ := Demo.carol, tid := 1 }]⟩
def allow : Entry := ⟨2, [1], Demo.ms 200, .approveTokens [⟨2, ⟨Demo.bob, none, none, none, Demo.ms 200⟩⟩]⟩
def give : Entry := ⟨2, [1], Demo.ms 200, .transfer [{ to_ := Demo.carol, tid := 2 }]⟩
def destroy : Entry := ⟨3, [2], Demo.ms 200, .burn 3⟩

theorem holders : HolderCalls [send, pass, destroy, allow, give] := by
  simp [HolderCalls, send, pass, allow, give, destroy, OnlyAbout]

theorem holders' : HolderCalls [allow, send, give, pass, destroy] := by
  simp [HolderCalls, send, pass, allow, give, destroy, OnlyAbout]

theorem queues : SameQueues [send, pass, destroy, allow, give] [allow, send, give, pass, destroy] := by
  intro tid
  simp only [queue, send, pass, allow, give, destroy, List.filter]
  by_cases h1 : 1 = tid
  · subst h1; rfl
  · by_cases h2 : 2 = tid
    · subst h2; rfl
    · simp [h1, h2]

end Orders

open Orders

/-- Two orders of these calls; the numbers of the records differ. -/
example : HolderCalls [send, pass, destroy, allow, give] ∧ HolderCalls [allow, send, give, pass, destroy] ∧
    SameQueues [send, pass, destroy, allow, give] [allow, send, give, pass, destroy] ∧ TakesAll Demo.env.ledger ∧
    repliesAbout Demo.env 1 Demo.s1 [send, pass, destroy, allow, give] = [.batch [.ok 3], .batch [.ok 4]] ∧
    repliesAbout Demo.env 1 Demo.s1 [allow, send, give, pass, destroy] = [.batch [.ok 4], .batch [.ok 6]] ∧
    repliesAbout Demo.env 3 Demo.s1 [allow, send, give, pass, destroy] = [.mgmt (.ok .unit)] ∧
    Owner (run Demo.env Demo.s1 ([allow, send, give, pass, destroy].map Entry.msg)) 1 = some Demo.carol ∧
    Owner (run Demo.env Demo.s1 ([allow, send, give, pass, destroy].map Entry.msg)) 3 = none :=
  ⟨holders, holders', queues, Amidst.takesAll, rfl, rfl, rfl, rfl, rfl⟩

/-- C97 for accounts: all balances are the same in the end. -/
theorem C97_balances {E : Env H} (hL : TakesAll E.ledger) {s : State H} (hr : Reachable E s) {w w' : List Entry}
    (hw : HolderCalls w) (hw' : HolderCalls w') (hq : SameQueues w w') (a : Account) :
    balanceOf (run E s (w.map Entry.msg)) a = balanceOf (run E s (w'.map Entry.msg)) a := by
  have i1 := (hr.run (w.map Entry.msg)).ownInv
  have i2 := (hr.run (w'.map Entry.msg)).ownInv
  rw [balanceOf_eq, balanceOf_eq]
  refine (List.Perm.length_eq ?_)
  rw [List.perm_ext_iff_of_nodup (i1.nodup a) (i2.nodup a)]
  intro id
  rw [i1.mem, i2.mem, (C97_order hL hr hw hw' hq id).1, (run_agree hL hr hw hw' hq id).1.burns a]

example : balanceOf Demo.s1 Demo.carol = 0 ∧
    balanceOf (run Demo.env Demo.s1 ([send, pass, destroy, allow, give].map Entry.msg)) Demo.carol = 2 ∧
    balanceOf (run Demo.env Demo.s1 ([allow, send, give, pass, destroy].map Entry.msg)) Demo.carol = 2 := ⟨rfl, rfl, rfl⟩

end Verif
