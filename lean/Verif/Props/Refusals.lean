import Verif.Lemmas.Refusals
import Verif.Props.Demo
/-!
# C124: a refused call might as well not have been made
-/
namespace Verif

open Spec Spec.Forgets

variable {H : Type}

/-- **C124**, one call: a call that is refused leaves the collection as it was in every
respect except for what the rate limiter remembers, whoever made it and whatever it
asked for. Missing for the full property: calls given up halfway and approvals that
have run out (`PlainlyRefused`; `C124_violated_halfway`, `C124_violated_lapsed`). -/
theorem C124_call_partial {E : Env H} (hL : ForgetsRefused E.ledger) {s : State H} {c : Principal} {now : Nat} {call : Call}
    (h : PlainlyRefused E s c now call) :
    ∃ w, (step E s (.call c now call)).1 = { s with windows := w } := refused_step hL h

/-- **C124**, histories: strike the refused calls from a history. The other messages are
answered as before, and in the end the collection is the same but for what the rate limiter
remembers. Each refused call must be made 60 ms before the next of the others, as until then
it counts for the rate limiter. -/
theorem C124_history_partial {E : Env H} (hL : ForgetsRefused E.ledger) {s : State H} (hist : List (Bool × Msg))
    (ht : (callTimes (marked hist)).Pairwise (· ≤ ·)) (hb : RefusedBetween E s hist) :
    markedAnswers E s hist = replies E s (marked hist) ∧
      ∃ w, run E s (hist.map (·.2)) = { run E s (marked hist) with windows := w } := by
  suffices key : ∀ (hist : List (Bool × Msg)) (s : State H) (q : Map Nat (List Nat)),
      (callTimes (marked hist)).Pairwise (· ≤ ·) → RefusedBetween E (ww q s) hist →
      (∀ t ∈ callTimes (marked hist), Calm t s.windows q) →
      markedAnswers E (ww q s) hist = replies E s (marked hist) ∧
        ∃ w, run E (ww q s) (hist.map (·.2)) = ww w (run E s (marked hist)) from
    key hist s s.windows ht hb fun _ _ => .refl _ _
  clear hb ht s hist
  intro hist
  induction hist with
  | nil => exact fun s q _ _ _ => ⟨rfl, q, rfl⟩
  | cons x l ih =>
    obtain ⟨b, m⟩ := x
    intro s q ht hb hc
    cases b with
    | true =>
      have e : marked ((true, m) :: l) = m :: marked l := rfl
      rw [e] at ht hc ⊢
      have hsub : ∀ x ∈ callTimes (marked l), x ∈ callTimes (m :: marked l) := by
        intro x hx
        cases m <;> simp [callTimes, hx]
      have hstep : ∃ q₁, step E (ww q s) m = res q₁ (step E s m) ∧
          ∀ t ∈ callTimes (marked l), Calm t (step E s m).1.windows q₁ := by
        cases m with
        | call c now call =>
          simp only [callTimes, List.pairwise_cons] at ht
          obtain ⟨q₁, h1, h2⟩ := step_fwd E (hc now (by simp [callTimes])) (.call c now call) (by simp [callTimes])
          exact ⟨q₁, h2, fun t hx => h1.mono (ht.1 t hx)⟩
        | resume now i ans =>
          refine ⟨q, other_ww q E s (by simp), fun t hx => ?_⟩
          rw [step_windows_other (by simp)]
          exact hc t (hsub t hx)
        | resumeTrap i =>
          refine ⟨q, other_ww q E s (by simp), fun t hx => ?_⟩
          rw [step_windows_other (by simp)]
          exact hc t (hsub t hx)
        | upgrade => exact ⟨q, rfl, fun t hx => hc t hx⟩
      obtain ⟨q₁, h1, h2⟩ := hstep
      have hb' : RefusedBetween E (step E (ww q s) m).1 l := hb
      rw [h1] at hb'
      have ht' : (callTimes (marked l)).Pairwise (· ≤ ·) := by
        cases m with
        | call c now call => exact (List.pairwise_cons.1 ht).2
        | _ => exact ht
      obtain ⟨h3, w, h4⟩ := ih (step E s m).1 q₁ ht' hb' h2
      refine ⟨?_, w, ?_⟩
      · simp only [markedAnswers, replies, h1]
        rw [← h3]
        rfl
      · show run E (step E (ww q s) m).1 (l.map (·.2)) = ww w (run E (step E s m).1 (marked l))
        rw [h1]
        exact h4
    | false =>
      have e : marked ((false, m) :: l) = marked l := rfl
      rw [e] at ht hc ⊢
      obtain ⟨⟨c, now, call, rfl, hpr, hnb⟩, hb'⟩ := hb
      obtain ⟨w₁, h2⟩ := C124_call_partial hL hpr
      have hp := fun t (hx : t ∈ callTimes (marked l)) =>
        step_past (E := E) (s := ww q s) (c := c) (call := call) (hnb t hx)
      rw [h2] at hp hb'
      have h := ih s w₁ ht hb' fun t hx => (hc t hx).trans (hp t hx)
      refine ⟨by simp only [markedAnswers, h2]; exact h.1, ?_⟩
      obtain ⟨w, h4⟩ := h.2
      refine ⟨w, ?_⟩
      show run E (step E (ww q s) (.call c now call)).1 (l.map (·.2)) = _
      rw [h2]
      exact h4

namespace RefusalDemo

open Demo

/-- A ledger with room for five transactions, three of them the mints. -/
def full : Env Nat := shortEnv 5

theorem full_forgets : ForgetsRefused full.ledger := by
  intro h tx h' e hh
  simp only [full, shortEnv, shortLedger] at hh
  split at hh
  · cases hh
  · cases hh; rfl

/-- bob tries alice's token, alice sends it to bob, the administrator mints too many,
alice tries again, bob takes the token on, alice's burn meets a full ledger. -/
def hist : List (Bool × Msg) :=
  [(false, .call [2] (ms 200) (.transfer [{ to_ := bob, tid := 1 }])),
   (true, .call [1] (ms 260) (.transfer [{ to_ := bob, tid := 1 }])),
   (false, .call admin (ms 300) (.mint (List.replicate 101 { owner := alice }))),
   (false, .call [1] (ms 301) (.transfer [{ to_ := carol, tid := 1 }])),
   (true, .call [2] (ms 361) (.transfer [{ to_ := carol, tid := 1 }])),
   (false, .call [1] (ms 400) (.burn 2))]

theorem plain {E : Env Nat} {s : State Nat} {c now call} (h : Refused (step E s (.call c now call)).2)
    (h1 : (step E s (.call c now call)).2 = .mgmt (.error .storageCanisterError) → ∃ tid, call = .burn tid)
    (h2 : ∀ args, call ≠ .transferFrom args) : PlainlyRefused E s c now call :=
  ⟨h, h1, fun ⟨args, ha⟩ => (h2 args ha).elim⟩

theorem between : RefusedBetween full s1 hist := by
  refine ⟨⟨_, _, _, rfl, plain ?_ (fun h => by cases h) (fun _ h => by cases h), by unfold NotBefore; decide⟩,
    ⟨_, _, _, rfl, plain ?_ (fun h => by cases h) (fun _ h => by cases h), by unfold NotBefore; decide⟩,
    ⟨_, _, _, rfl, plain ?_ (fun h => by cases h) (fun _ h => by cases h), by unfold NotBefore; decide⟩,
    ⟨_, _, _, rfl, plain ?_ (fun _ => ⟨_, rfl⟩) (fun _ h => by cases h), by unfold NotBefore; decide⟩, trivial⟩
  · intro r hr; rcases List.mem_singleton.1 hr with rfl; exact ⟨_, rfl⟩
  · exact trivial
  · intro r hr; rcases List.mem_singleton.1 hr with rfl; exact ⟨_, rfl⟩
  · exact trivial

end RefusalDemo

set_option maxRecDepth 5000 in
-- four refused calls of holders and the administrator, two accepted ones
example : ForgetsRefused RefusalDemo.full.ledger ∧ (callTimes (marked RefusalDemo.hist)).Pairwise (· ≤ ·) ∧
    RefusedBetween RefusalDemo.full Demo.s1 RefusalDemo.hist ∧ RefusalDemo.hist.length = 6 ∧
    (marked RefusalDemo.hist).length = 2 ∧
    Owner (run RefusalDemo.full Demo.s1 (RefusalDemo.hist.map (·.2))) 1 = some Demo.carol :=
  ⟨RefusalDemo.full_forgets, by decide, RefusalDemo.between, rfl, rfl, rfl⟩

-- a transfer on behalf of the owner that is refused, by a spender with an approval in force
example : let s := run Demo.env Demo.s1 [Demo.approveMsg]
    PlainlyRefused RefusalDemo.full s [3] (Demo.ms 300) (.transferFrom [{ from_ := Demo.alice, to_ := Demo.carol, tid := 1 }]) := by
  refine ⟨fun r hr => ?_, (fun h => by cases h), fun _ => ⟨fun tid sp a ⟨m, hm, ha⟩ _ e he => ?_, fun o sp a ⟨m, hm, _⟩ _ => by cases hm⟩⟩
  · rcases List.mem_singleton.1 hr with rfl
    exact ⟨_, rfl⟩
  · obtain ⟨k, _, hk⟩ := Map.mem_of_get hm
    obtain ⟨k', _, hk'⟩ := Map.mem_of_get ha
    have key : ∀ e ∈ (run Demo.env Demo.s1 [Demo.approveMsg]).tokAppr.entries, ∀ x ∈ e.2.entries, x.2.expiresAt = none := by decide
    rw [key _ hk _ hk'] at he
    cases he

/-- **Violated** by approvals that have run out: the refused attempt of the spender takes the
approval off the list that everybody can read. -/
theorem C124_violated_lapsed :
    let s := run Demo.env Demo.s1 [.call [1] (Demo.ms 200) (.approveTokens
      [{ tid := 2, info := { spender := Demo.carol, createdAt := Demo.ms 200, expiresAt := some (Demo.ms 250) } }])]
    Reachable Demo.env s ∧ Refused (step Demo.env s Demo.takeMsg).2 ∧
      (icrc37GetTokenApprovals s id 2 none none).length = 1 ∧
      (icrc37GetTokenApprovals (step Demo.env s Demo.takeMsg).1 id 2 none none).length = 0 := by
  refine ⟨Demo.s1_reach.run _, ?_, rfl, rfl⟩
  intro r hr
  rcases List.mem_singleton.1 hr with rfl
  exact ⟨_, rfl⟩

/-- **Violated** by calls given up halfway: an update of metadata answered by an error, as the
ledger does not take the record, is done all the same. -/
theorem C124_violated_halfway :
    let s := run (Demo.shortEnv 3) Demo.s0 [Demo.mintMsg]
    let m : Msg := .call Demo.admin (Demo.ms 200) (.updateNftMetadata 1 [("k", .nat 2)])
    ForgetsRefused (Demo.shortEnv 3).ledger ∧ Reachable (Demo.shortEnv 3) s ∧ Refused (step (Demo.shortEnv 3) s m).2 ∧
      getAllData s.mdata 1 = some [("k", .nat 1)] ∧
      getAllData (step (Demo.shortEnv 3) s m).1.mdata 1 = some [("k", .nat 2)] := by
  refine ⟨?_, Demo.reachShort 3 _, trivial, rfl, rfl⟩
  intro h tx h' e hh
  simp only [Demo.shortEnv, Demo.shortLedger] at hh
  split at hh
  · cases hh
  · cases hh; rfl

end Verif
