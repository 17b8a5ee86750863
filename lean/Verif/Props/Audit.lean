import Verif.Lemmas.Audit
import Verif.Props.Approvals
/-!
# C88: the approvals in force can be read off the log
-/
namespace Verif

open Spec

variable {H : Type}

/-- C88, nothing unlogged: an approval that the canister holds is the last word of
the log on its subject, with the same granter, expiry, memo and time. -/
theorem C88_logged {E : Env H} {s : State H} (hr : Reachable E s) :
    (∀ tid sp a, TokenApproval s tid sp a → LoggedToken s.log tid sp a) ∧
    (∀ o sp a, CollApproval s o sp a → LoggedColl s.log o sp a) := by
  obtain ⟨v, hid, c, a, s₀, ms, h0, rfl⟩ := hr
  obtain ⟨T, hT⟩ := upTo_exists ms
  have h := run_audit (E := E) ms hT (init_audit h0 T)
  exact ⟨fun tid sp a => (h.1 tid sp a).1, fun o sp a => (h.2 o sp a).1⟩

/-- C88, nothing lost: an approval that is the last word of the log on its subject,
and has not expired after the last call, is held by the canister. -/
theorem C88_held {E : Env H} {v : String → Bool} {hid : H} {c : Principal} {args : InitArgs} {s₀ : State H}
    {ms : List Msg} {T : Nat} (h0 : init v hid c args = some s₀) (hT : UpTo T ms) :
    (∀ tid sp a, LoggedToken (run E s₀ ms).log tid sp a → Live a T → TokenApproval (run E s₀ ms) tid sp a) ∧
    (∀ o sp a, LoggedColl (run E s₀ ms).log o sp a → Live a T → CollApproval (run E s₀ ms) o sp a) := by
  have h := run_audit (E := E) ms hT (init_audit h0 T)
  exact ⟨fun tid sp a => (h.1 tid sp a).2, fun o sp a => (h.2 o sp a).2⟩

/-- C88, one answer: the log names at most one approval for a subject. -/
theorem C88_unique (log : List Tx) :
    (∀ tid sp a b, LoggedToken log tid sp a → LoggedToken log tid sp b → a = b) ∧
    (∀ o sp a b, LoggedColl log o sp a → LoggedColl log o sp b → a = b) :=
  ⟨fun _ _ _ _ => loggedToken_unique, fun _ _ _ _ => loggedColl_unique⟩

/-- C88, who may move a token: at any time `T` after the last call, an account may
move the token of `o` exactly if it is `o`, or the log says that it holds an
unexpired approval for the token or for the collection of `o`. -/
theorem C88_movers {E : Env H} {v : String → Bool} {hid : H} {c : Principal} {args : InitArgs} {s₀ : State H}
    {ms : List Msg} {T : Nat} (h0 : init v hid c args = some s₀) (hT : UpTo T ms) (tid : Nat) (o sp : Account) :
    MayMove (run E s₀ ms) T tid o sp ↔
      SameAccount sp o ∨ (∃ a, LoggedToken (run E s₀ ms).log tid sp a ∧ Live a T) ∨
        (∃ a, LoggedColl (run E s₀ ms).log o sp a ∧ Live a T) := by
  have h := run_audit (E := E) ms hT (init_audit h0 T)
  unfold MayMove
  rw [sameAccount_iff]
  constructor
  · rintro (h1 | ⟨a, h1, hl⟩ | ⟨a, h1, hl⟩)
    · exact .inl h1
    · exact .inr (.inl ⟨a, (h.1 tid sp a).1 h1, hl⟩)
    · exact .inr (.inr ⟨a, (h.2 o sp a).1 h1, hl⟩)
  · rintro (h1 | ⟨a, h1, hl⟩ | ⟨a, h1, hl⟩)
    · exact .inl h1
    · exact .inr (.inl ⟨a, (h.1 tid sp a).2 h1 hl, hl⟩)
    · exact .inr (.inr ⟨a, (h.2 o sp a).2 h1 hl, hl⟩)

/-- Expiry counts from the latest call seen, not from the present: if the clock of a
later call were behind, an approval dropped as expired would be missing although the
log shows it unexpired at that time. alice lets carol move token 2 until 250 ms;
carol tries at 300 ms; the entry is gone. -/
theorem C88_clock : ∃ s, Reachable Demo.env s ∧ ∃ a, LoggedToken s.log 2 Demo.carol a ∧ Live a (Demo.ms 240) ∧
    ¬ TokenApproval s 2 Demo.carol a := by
  refine ⟨run Demo.env Demo.s1 [.call [1] (Demo.ms 200) (.approveTokens [{ tid := 2, info :=
      { spender := Demo.carol, expiresAt := some (Demo.ms 250), createdAt := Demo.ms 200 } }]), Demo.takeMsg],
    Demo.s1_reach.run _, (⟨Demo.carol, Demo.alice, some (Demo.ms 250), Demo.ms 200, none⟩ : Approval), ?_, ?_, ?_⟩
  · exact ⟨Demo.s1.log, _, [], rfl, ⟨rfl, rfl, ⟨rfl, rfl, rfl, rfl, rfl⟩, by decide⟩, by simp⟩
  · intro e he
    cases he
    decide
  · rintro ⟨m, hm, hg⟩
    cases hm
    cases hg

/-- An auditor who reads the log by the rules of ICRC-37 is wrong both ways. After
alice approves carol for token 2 and sells it to bob with `icrc7_transfer`, by those
rules carol holds nothing, but carol may move the token. After alice approves carol
for the collection and bob for token 2, and bob takes token 2, by those rules carol
holds the collection approval, but carol may not move token 1. -/
theorem C88_standard_rules_differ :
    (∃ s, Reachable Demo.env s ∧ Owner s 2 = some Demo.bob ∧ MayMove s (Demo.ms 300) 2 Demo.bob Demo.carol ∧
      (∀ a, ¬ LastWord s.log (GrantsToken 2 Demo.carol a) (StandardTouchesToken 2 Demo.carol)) ∧
      (∀ a, ¬ LastWord s.log (GrantsColl Demo.bob Demo.carol a) (StandardTouchesColl Demo.bob Demo.carol))) ∧
    (∃ s, Reachable Demo.env s ∧ Owner s 1 = some Demo.alice ∧ ¬ MayMove s (Demo.ms 400) 1 Demo.alice Demo.carol ∧
      ∃ a, LastWord s.log (GrantsColl Demo.alice Demo.carol a) (StandardTouchesColl Demo.alice Demo.carol) ∧
        Live a (Demo.ms 400)) := by
  constructor
  · refine ⟨run Demo.env Demo.s1 [Demo.approveMsg, .call [1] (Demo.ms 250) (.transfer [{ to_ := Demo.bob, tid := 2 }])],
      Demo.s1_reach.run _, rfl, ?_, ?_, ?_⟩
    · exact .inr (.inl ⟨(⟨Demo.carol, Demo.alice, none, Demo.ms 200, none⟩ : Approval), ⟨_, rfl, rfl⟩, by intro e he; cases he⟩)
    · intro a h
      rw [show State.log _ = (run Demo.env Demo.s1 [Demo.approveMsg]).log ++ [_] from rfl, lastWord_snoc] at h
      rcases h with h | ⟨h, _⟩
      · exact nomatch h.1
      · exact h (.inr ⟨rfl, .inl rfl⟩)
    · rintro a ⟨b, r, l, he, hg, _⟩
      have hmem : r ∈ (run Demo.env Demo.s1 [Demo.approveMsg, .call [1] (Demo.ms 250)
          (.transfer [{ to_ := Demo.bob, tid := 2 }])]).log := by rw [he]; simp
      have hno : ∀ r ∈ (run Demo.env Demo.s1 [Demo.approveMsg, .call [1] (Demo.ms 250)
          (.transfer [{ to_ := Demo.bob, tid := 2 }])]).log, r.op ≠ .approveColl := by decide
      exact hno r hmem hg.1
  · refine ⟨run Demo.env Demo.s1 [approveAllMsg,
      .call [1] (Demo.ms 200) (.approveTokens [{ tid := 2, info := { spender := Demo.bob, createdAt := Demo.ms 200 } }]),
      .call [2] (Demo.ms 300) (.transferFrom [{ from_ := Demo.alice, to_ := Demo.bob, tid := 2 }])],
      Demo.s1_reach.run _, rfl, ?_, (⟨Demo.carol, Demo.alice, none, Demo.ms 200, none⟩ : Approval), ?_, ?_⟩
    · rintro (h | ⟨a, ⟨m, hm, _⟩, _⟩ | ⟨a, ⟨m, hm, _⟩, _⟩)
      · exact absurd h (by decide)
      · cases hm
      · cases hm
    · refine ⟨Demo.s1.log, _, [_, _], rfl, ⟨rfl, ⟨rfl, rfl, rfl, rfl, rfl⟩, by decide, by decide⟩, ?_⟩
      intro t ht
      rcases List.mem_cons.1 ht with rfl | ht
      · rintro ⟨_, h | h⟩ <;> exact nomatch h.1
      · rcases List.mem_singleton.1 ht with rfl
        rintro ⟨_, h | h⟩ <;> exact nomatch h.1
    · intro e he
      cases he

/-! ## A case -/

namespace Audit

/-- alice approves carol for token 2 twice, the second time with an expiry and naming
them with the zero subaccount written out, and bob once. -/
def msgs : List Msg :=
  [Demo.mintMsg, Demo.approveMsg,
    .call [1] (Demo.ms 300) (.approveTokens
      [⟨2, ⟨⟨[3], some (List.replicate 32 0)⟩, none, some (Demo.ms 900), none, Demo.ms 300⟩⟩,
        ⟨2, ⟨Demo.bob, none, none, none, Demo.ms 300⟩⟩])]

def second : Approval :=
  ⟨⟨[3], some (List.replicate 32 0)⟩, Demo.alice, some (Demo.ms 900), Demo.ms 300, none⟩

end Audit

/-- The second approval is the one in force, under either spelling of the spender,
and carol may move token 2 until it expires. -/
example : UpTo (Demo.ms 400) Audit.msgs ∧
    LoggedToken (run Demo.env Demo.s0 Audit.msgs).log 2 Demo.carol Audit.second ∧
    MayMove (run Demo.env Demo.s0 Audit.msgs) (Demo.ms 400) 2 Demo.alice Demo.carol ∧
    ¬ MayMove (run Demo.env Demo.s0 Audit.msgs) (Demo.ms 900) 2 Demo.alice Demo.carol := by
  have hT : ∀ T, Demo.ms 300 ≤ T → UpTo T Audit.msgs := by
    intro T hle c now call h
    simp only [Audit.msgs, Demo.mintMsg, Demo.approveMsg, List.mem_cons, List.not_mem_nil, or_false] at h
    unfold Demo.ms at *
    rcases h with h | h | h <;> cases h <;> omega
  have hl : LoggedToken (run Demo.env Demo.s0 Audit.msgs).log 2 Demo.carol Audit.second := by
    refine ⟨(run Demo.env Demo.s1 [Demo.approveMsg]).log, _, [_], rfl,
      ⟨rfl, rfl, ⟨rfl, rfl, rfl, rfl, rfl⟩, by decide⟩, ?_⟩
    intro t ht
    rcases List.mem_singleton.1 ht with rfl
    rintro ⟨_, h | h | h⟩
    · exact absurd (h.2 Demo.bob rfl) (by decide)
    · exact nomatch h.1
    · exact nomatch h
  refine ⟨hT _ (by decide), hl, ?_, ?_⟩
  · refine (C88_movers Demo.s0_init (hT _ (by decide)) 2 Demo.alice Demo.carol).2 (.inr (.inl ⟨_, hl, ?_⟩))
    intro e he
    cases he
    decide
  · intro h
    rcases (C88_movers Demo.s0_init (hT _ (by decide)) 2 Demo.alice Demo.carol).1 h with h | ⟨a, h1, h2⟩ | ⟨a, h1, _⟩
    · exact absurd h (by decide)
    · have := loggedToken_unique h1 hl
      subst this
      exact absurd (h2 _ rfl) (by decide)
    · obtain ⟨b, r, l, he, hg, _⟩ := h1
      have hmem : r ∈ (run Demo.env Demo.s0 Audit.msgs).log := by rw [he]; simp
      have hno : ∀ r ∈ (run Demo.env Demo.s0 Audit.msgs).log, r.op ≠ .approveColl := by decide
      exact hno r hmem hg.1

/-- alice's collection approval of carol is in the log and in force. -/
example : LoggedColl (run Demo.env Demo.s0 [Demo.mintMsg, approveAllMsg]).log Demo.alice0 Demo.carol
    (⟨Demo.carol, Demo.alice, none, Demo.ms 200, none⟩ : Approval) :=
  (C88_logged (Demo.reach _)).2 _ _ _ ⟨_, rfl, rfl⟩

end Verif
