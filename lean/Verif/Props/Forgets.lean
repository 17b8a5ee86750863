import Verif.Lemmas.Forgets
import Verif.Props.Strangers
/-!
# C118: the rate limiter forgets, and strangers leave no trace
-/
namespace Verif

open Spec Spec.Forgets

variable {H : Type}

/-- C118: if two collections differ only in calls that the rate limiter no longer counts at time
`t`, then to any messages from `t` on they answer alike, and go on differing in nothing else. -/
theorem C118_forgets {E : Env H} {t : Nat} {s s' : State H} (hs : SameSince t s s') (msgs : List Msg)
    (hm : NotBefore t msgs) :
    replies E s' msgs = replies E s msgs ∧ SameSince t (run E s msgs) (run E s' msgs) := by
  obtain ⟨he, hw⟩ := hs
  have h := run_fwd E msgs (s := s) (q := s'.windows) hw hm
  rw [show ww s'.windows s = s' from he.symm] at h
  obtain ⟨h1, q', h2, h3⟩ := h
  refine ⟨h1, ?_⟩
  rw [h3]
  exact ⟨rfl, h2⟩

/-- C118: after a pause of 60 ms a collection with any history, whatever state it came from,
answers as if the rate limiter remembered only what it remembered before that history. -/
theorem C118_pause {E : Env H} (s : State H) {t : Nat} (past msgs : List Msg) (hp : LongBefore t past)
    (hm : NotBefore t msgs) :
    replies E (run E s past) msgs = replies E { run E s past with windows := s.windows } msgs ∧
      SameSince t (run E { run E s past with windows := s.windows } msgs) (run E s (past ++ msgs)) := by
  have hs : SameSince t ({ run E s past with windows := s.windows } : State H) (run E s past) :=
    ⟨rfl, run_past past hp⟩
  have h := C118_forgets (E := E) hs msgs hm
  refine ⟨h.1, ?_⟩
  rw [run_append]
  exact h.2

/-- C118: principals without standing leave no trace. Whatever they call in between, the
others are answered as if those calls had not been made, provided only that each comes at least
60 ms before the next call of the others; in the end the collection is the same but for what
the rate limiter remembers. -/
theorem C118_strangers {E : Env H} {s : State H} (hr : Reachable E s) (hist : List (Bool × Msg))
    (ht : (callTimes (marked hist)).Pairwise (· ≤ ·)) (hb : StrangersBetween E s hist) :
    markedAnswers E s hist = replies E s (marked hist) ∧
      ∃ w, run E s (hist.map (·.2)) = { run E s (marked hist) with windows := w } := by
  suffices key : ∀ (hist : List (Bool × Msg)) (s : State H) (q : Map Nat (List Nat)), Reachable E (ww q s) →
      (callTimes (marked hist)).Pairwise (· ≤ ·) → StrangersBetween E s hist →
      (∀ t ∈ callTimes (marked hist), Calm t s.windows q) →
      markedAnswers E (ww q s) hist = replies E s (marked hist) ∧
        ∃ w, run E (ww q s) (hist.map (·.2)) = ww w (run E s (marked hist)) from
    key hist s s.windows hr ht hb fun _ _ => .refl _ _
  clear hb ht hr s hist
  intro hist
  induction hist with
  | nil => exact fun s q _ _ _ _ => ⟨rfl, q, rfl⟩
  | cons x l ih =>
    obtain ⟨b, m⟩ := x
    intro s q hr ht hb hc
    cases b with
    | true =>
      have e : marked ((true, m) :: l) = m :: marked l := rfl
      rw [e] at ht hc ⊢
      have hsub : ∀ x ∈ callTimes (marked l), x ∈ callTimes (m :: marked l) := by
        intro x hx
        cases m <;> simp [callTimes, hx]
      -- the answer is the same, and the tables still agree on what counts later
      have hstep : ∃ q₁, step E (ww q s) m = res q₁ (step E s m) ∧
          ∀ t ∈ callTimes (marked l), Calm t (step E s m).1.windows q₁ := by
        cases m with
        | call c now call =>
          simp only [callTimes, List.pairwise_cons] at ht
          obtain ⟨q₁, h1, h2⟩ := step_fwd E (hc now (by simp [callTimes])) (.call c now call) (by simp [callTimes])
          exact ⟨q₁, h2, fun t hx => h1.mono (ht.1 t hx)⟩
        | resume now i ans =>
          refine ⟨q, other_ww q E s (by simp), fun t hx => ?_⟩
          rw [step_windows_other (by simp)]
          exact hc t (hsub t hx)
        | resumeTrap i =>
          refine ⟨q, other_ww q E s (by simp), fun t hx => ?_⟩
          rw [step_windows_other (by simp)]
          exact hc t (hsub t hx)
        | upgrade => exact ⟨q, rfl, fun t hx => hc t hx⟩
      obtain ⟨q₁, h1, h2⟩ := hstep
      have hr' := hr.step m
      rw [h1] at hr'
      have ht' : (callTimes (marked l)).Pairwise (· ≤ ·) := by
        cases m with
        | call c now call => exact (List.pairwise_cons.1 ht).2
        | _ => exact ht
      obtain ⟨h3, w, h4⟩ := ih (step E s m).1 q₁ hr' ht' hb h2
      refine ⟨?_, w, ?_⟩
      · simp only [markedAnswers, replies, h1]
        rw [← h3]
        rfl
      · show run E (step E (ww q s) m).1 (l.map (·.2)) = ww w (run E (step E s m).1 (marked l))
        rw [h1]
        exact h4
    | false =>
      have e : marked ((false, m) :: l) = marked l := rfl
      rw [e] at ht hc ⊢
      obtain ⟨⟨c, now, call, rfl, hst, hnb⟩, hb'⟩ := hb
      obtain ⟨_, w₁, h2⟩ := C78_refused hr (hst.win q) now call
      have hp := fun t (hx : t ∈ callTimes (marked l)) =>
        step_past (E := E) (s := ww q s) (c := c) (call := call) (hnb t hx)
      have hr' := hr.step (.call c now call)
      rw [h2] at hp hr'
      exact
        have h := ih s w₁ hr' ht hb' fun t hx => (hc t hx).trans (hp t hx)
        ⟨by simp only [markedAnswers, h2]; exact h.1, by
          obtain ⟨w, h4⟩ := h.2
          refine ⟨w, ?_⟩
          show run E (step E (ww q s) (.call c now call)).1 (l.map (·.2)) = _
          rw [h2]
          exact h4⟩

/-- Six calls of a stranger, a transfer by the holder 60 ms later. -/
def ForgetsDemo.hist : List (Bool × Msg) :=
  Demo.intrusion.map (false, ·) ++ [(true, .call [1] (Demo.ms 265) (.transfer [{ to_ := Demo.bob, tid := 1 }]))]

theorem ForgetsDemo.between : StrangersBetween Demo.env Demo.s1 ForgetsDemo.hist := by
  have hn : ∀ n, n ≤ 205 → NotBefore (Demo.ms n + 60000000) [.call [1] (Demo.ms 265) (.transfer [{ to_ := Demo.bob, tid := 1 }])] := by
    intro n hn x hx
    simp only [callTimes, List.mem_singleton] at hx
    subst hx
    unfold Demo.ms
    omega
  exact ⟨⟨_, _, _, rfl, demo_stranger, hn 200 (by decide)⟩, ⟨_, _, _, rfl, demo_stranger, hn 201 (by decide)⟩,
    ⟨_, _, _, rfl, demo_stranger, hn 202 (by decide)⟩, ⟨_, _, _, rfl, demo_stranger, hn 203 (by decide)⟩,
    ⟨_, _, _, rfl, demo_stranger, hn 204 (by decide)⟩, ⟨_, _, _, rfl, demo_stranger, hn 205 (by decide)⟩, trivial⟩

example : Reachable Demo.env Demo.s1 ∧ (callTimes (marked ForgetsDemo.hist)).Pairwise (· ≤ ·) ∧
    StrangersBetween Demo.env Demo.s1 ForgetsDemo.hist ∧ ForgetsDemo.hist.length = 7 ∧
    Owner (run Demo.env Demo.s1 (ForgetsDemo.hist.map (·.2))) 1 = some Demo.bob :=
  ⟨Demo.s1_reach, by decide, ForgetsDemo.between, rfl, rfl⟩

-- a history, a pause, and another history
example : LongBefore (Demo.ms 265) Demo.intrusion ∧ NotBefore (Demo.ms 265) (marked ForgetsDemo.hist) ∧
    SameSince (Demo.ms 265) Demo.s1 (run Demo.env Demo.s1 Demo.intrusion) ∧
    (run Demo.env Demo.s1 Demo.intrusion).windows.size = 1 ∧ Demo.s1.windows.size = 0 :=
  ⟨by unfold LongBefore; decide, by unfold NotBefore; decide,
    ⟨rfl, Forgets.run_past (E := Demo.env) Demo.intrusion (by unfold LongBefore; decide)⟩, rfl, rfl⟩

-- 60 ms are needed: the same transfer is refused while the calls of the strangers count
example : ∃ e, (step Demo.env (step Demo.env Demo.s1 (.call [5] (Demo.ms 200) (.transfer (List.replicate 5
      { to_ := ⟨[5], none⟩, tid := 1 })))).1
    (.call [1] (Demo.ms 259) (.transfer [{ to_ := Demo.bob, tid := 1 }]))).2 = .batch [.error e] := ⟨_, rfl⟩

end Verif
