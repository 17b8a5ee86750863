import Verif.Spec.Retry
import Verif.Props.Limits
/-!
# C93: when to try again
-/
namespace Verif

open Spec

variable {H : Type}

private theorem win_short {now : Nat} {w w' : List Nat} {k : Nat} (h : Win now w k w') (hw : w.length ≤ 5) : w'.length ≤ 5 := by
  induction h with
  | refl => exact hw
  | step _ ih =>
    unfold windowStep slidingWindowCalls
    dsimp only
    split
    · exact Nat.le_trans (List.length_filter_le _ _) ih
    · rw [List.length_append, List.length_singleton]; omega

private theorem short_run {E : Env H} {tid : Nat} (ms : List Msg) : ∀ {s : State H}, (winOf s tid).length ≤ 5 →
    (winOf (run E s ms) tid).length ≤ 5 := by
  induction ms with
  | nil => intro s h; exact h
  | cons m ms ih =>
    intro s h
    refine ih ?_
    cases m with
    | call c now call =>
      obtain ⟨k, hw, _⟩ := step_win_call (E := E) (s := s) (c := c) (now := now) (call := call) tid rfl
      exact win_short hw h
    | resume => unfold winOf; rw [step_windows_other (by simp)]; exact h
    | resumeTrap => unfold winOf; rw [step_windows_other (by simp)]; exact h
    | upgrade => unfold winOf; rw [step_windows_other (by simp)]; exact h

private theorem asked_sorted {tid : Nat} (ms : List Msg) (h : (callTimes ms).Pairwise (· ≤ ·)) :
    (askedTimes tid ms).Pairwise (· ≤ ·) ∧ ∀ x ∈ askedTimes tid ms, x ∈ callTimes ms := by
  induction ms with
  | nil => exact ⟨.nil, fun x hx => hx⟩
  | cons m ms ih =>
    cases m with
    | call c now call =>
      simp only [callTimes] at h
      obtain ⟨h1, h2⟩ := List.pairwise_cons.1 h
      obtain ⟨ih1, ih2⟩ := ih h2
      simp only [askedTimes, callTimes]
      refine ⟨List.pairwise_append.2 ⟨?_, ih1, ?_⟩, ?_⟩
      · exact List.pairwise_replicate.2 (.inr (Nat.le_refl _))
      · intro x hx y hy
        rw [(List.mem_replicate.1 hx).2]
        exact h1 _ (ih2 y hy)
      · intro x hx
        rcases List.mem_append.1 hx with hx | hx
        · rw [(List.mem_replicate.1 hx).2]; exact .head _
        · exact .tail _ (ih2 x hx)
    | resume => exact ih h
    | resumeTrap => exact ih h
    | upgrade => exact ih h

private theorem full_eq {w : List Nat} {now : Nat} (h5 : w.length ≤ 5)
    (hf : 5 ≤ (w.filter fun x => decide (now - x < 60000000)).length) :
    w.length = 5 ∧ ∀ x ∈ w, now - x < 60000000 := by
  have := List.length_filter_le (fun x => decide (now - x < 60000000)) w
  refine ⟨by omega, ?_⟩
  have h := List.length_filter_eq_length_iff.1 (show (w.filter fun x => decide (now - x < 60000000)).length = w.length by omega)
  intro x hx
  simpa using h x hx

/-- A full history stays as it is while its first call is remembered. -/
private theorem win_stays {o t k : Nat} {l w' : List Nat} (hs : ∀ x ∈ l, o ≤ x) (h5 : (o :: l).length = 5)
    (ht : t < o + 60000000) (h : Win t (o :: l) k w') : w' = o :: l := by
  induction h with
  | refl => rfl
  | step _ ih =>
    rw [ih]
    have : (o :: l).filter (fun ts => decide (t - ts < 60000000)) = o :: l := by
      rw [List.filter_eq_self]
      intro x hx
      rcases List.mem_cons.1 hx with rfl | hx
      · simp; omega
      · have := hs x hx; simp; omega
    unfold windowStep slidingWindowCalls slidingWindowNs
    dsimp only
    rw [this, if_pos (by omega)]

private theorem run_stays {E : Env H} {tid o : Nat} {l : List Nat} (hs : ∀ x ∈ l, o ≤ x) (h5 : (o :: l).length = 5)
    (ms : List Msg) (hms : ∀ x ∈ callTimes ms, x < o + 60000000) : ∀ {s : State H}, winOf s tid = o :: l →
    winOf (run E s ms) tid = o :: l := by
  induction ms with
  | nil => intro s h; exact h
  | cons m ms ih =>
    intro s h
    cases m with
    | call c now call =>
      refine ih (fun x hx => hms x (.tail _ hx)) ?_
      obtain ⟨k, hw, _⟩ := step_win_call (E := E) (s := s) (c := c) (now := now) (call := call) tid rfl
      rw [h] at hw
      exact win_stays hs h5 (hms now (.head _)) hw
    | resume => refine ih hms ?_; unfold winOf; rw [step_windows_other (by simp)]; exact h
    | resumeTrap => refine ih hms ?_; unfold winOf; rw [step_windows_other (by simp)]; exact h
    | upgrade => refine ih hms ?_; unfold winOf; rw [step_windows_other (by simp)]; exact h

/-- C93: The text is given exactly when a call on the token is refused for the rate. -/
theorem C93_when (s : State H) (now tid : Nat) : (∃ text, retryText s now tid = some text) ↔ ¬ Admitted s now tid := by
  unfold retryText Admitted recentCalls slidingWindowCalls slidingWindowNs
  dsimp only
  generalize ((s.windows.get tid).getD []).filter (fun ts => decide (now - ts < 60000000)) = w
  cases w with
  | nil => simp
  | cons o l =>
    simp only
    split
    · rename_i h; simp only [Option.some.injEq, exists_eq', true_iff]; omega
    · rename_i h; simp only [reduceCtorEq, exists_false, false_iff]; omega

/-- C93, with nanoseconds instead of the milliseconds the text speaks of: after any history at
non-decreasing times, if the text asks to wait `n`, then whatever calls anybody makes until
then, a call on the token is refused at every time before `now + n` and admitted from
`now + n` on. -/
theorem C93_wait_partial {E : Env H} {v : String → Bool} {hid : H} {c : Principal} {a : InitArgs} {s₀ : State H}
    (h0 : init v hid c a = some s₀) {ms : List Msg} {now tid : Nat} (hmono : (callTimes ms ++ [now]).Pairwise (· ≤ ·))
    {text : String} (ht : retryText (run E s₀ ms) now tid = some text) :
    ∃ n, AsksToWait text n ∧ 0 < n ∧ n ≤ 60000000 ∧ ∀ ms', Between now (now + n) ms' → ∀ t, now ≤ t →
      (Admitted (run E s₀ (ms ++ ms')) t tid ↔ now + n ≤ t) := by
  have hm := List.pairwise_append.1 hmono
  have hw0 : (winOf s₀ tid).Sublist [] := by rw [init_eq h0]; exact List.Sublist.refl _
  have hsub := winOf_run (E := E) (tid := tid) (s := s₀) (B := []) ms hw0
  rw [List.nil_append] at hsub
  obtain ⟨hsort, hmem⟩ := asked_sorted (tid := tid) ms hm.1
  have hshort := short_run (E := E) (tid := tid) ms (s := s₀) (by rw [List.sublist_nil.1 hw0]; exact Nat.zero_le _)
  have hfull : 5 ≤ recentCalls (run E s₀ ms) now tid := by
    have := (C93_when (run E s₀ ms) now tid).1 ⟨text, ht⟩
    unfold Admitted at this; omega
  obtain ⟨hlen, hrec⟩ := full_eq (w := winOf (run E s₀ ms) tid) (now := now) hshort hfull
  have hle : ∀ x ∈ winOf (run E s₀ ms) tid, x ≤ now := fun x hx => hm.2.2 x (hmem x (hsub.subset hx)) now (by simp)
  have hws := hsort.sublist hsub
  unfold retryText slidingWindowCalls slidingWindowNs at ht
  dsimp only at ht
  have hfil : ((run E s₀ ms).windows.get tid).getD [] = winOf (run E s₀ ms) tid := rfl
  rw [hfil, List.filter_eq_self.2 (by intro x hx; simpa using hrec x hx)] at ht
  cases hw : winOf (run E s₀ ms) tid with
  | nil => rw [hw] at hlen; simp at hlen
  | cons o l =>
    rw [hw] at ht hlen hrec hle hws
    have ho := hrec o (.head _)
    have ho2 := hle o (.head _)
    have hs : ∀ x ∈ l, o ≤ x := (List.pairwise_cons.1 hws).1
    simp only at ht
    rw [if_pos (by omega), Option.some.injEq] at ht
    have hn : untilNext now o = 60000000 - (now - o) := by
      unfold untilNext u64sub slidingWindowNs U64
      omega
    refine ⟨untilNext now o, ht.symm, by omega, by omega, ?_⟩
    rw [hn]
    intro ms' hb t htn
    have hst := run_stays (E := E) (tid := tid) hs hlen ms' (fun x hx => by have := (hb x hx).2; omega) hw
    rw [← run_append] at hst
    unfold Admitted recentCalls
    have he : ((run E s₀ (ms ++ ms')).windows.get tid).getD [] = o :: l := hst
    rw [he]
    constructor
    · intro hlt
      refine Nat.le_of_not_lt fun hc => ?_
      rw [List.filter_eq_self.2] at hlt
      · omega
      · intro x hx
        rcases List.mem_cons.1 hx with rfl | hx
        · simp; omega
        · have := hs x hx; simp; omega
    · intro hge
      rw [List.filter_cons, if_neg (by simp; omega)]
      have := List.length_filter_le (fun x => decide (t - x < 60000000)) l
      simp only [List.length_cons] at hlen
      omega

/-- Five calls on token 1 from 200 ms on; at 210 ms the sixth is asked to wait for 50000000,
and fifty milliseconds, not fifty million, later a call is admitted. -/
example : retryText (run Demo.env Demo.s1 (busy.take 5)) (Demo.ms 210) 1 =
      some "Rate limit exceeded. You can make another call in 50000000 milliseconds" ∧
    (callTimes (Demo.mintMsg :: busy.take 5) ++ [Demo.ms 210]).Pairwise (· ≤ ·) ∧
    Between (Demo.ms 210) (Demo.ms 210 + 50000000) [.call [1] (Demo.ms 259) (.transfer [{ to_ := Demo.bob, tid := 1 }])] ∧
    ¬ Admitted (run Demo.env Demo.s1 (busy.take 5)) (Demo.ms 259) 1 ∧
    Admitted (run Demo.env Demo.s1 (busy.take 5)) (Demo.ms 260) 1 := by
  refine ⟨by decide, by decide, ?_, by unfold Admitted; decide, by unfold Admitted; decide⟩
  intro x hx
  rw [List.mem_singleton.1 hx]
  decide

/-- C93 does not hold as the text puts it: a call is admitted long before the announced number
of milliseconds has passed. -/
theorem C93_violated_unit : ∃ (E : Env Nat) (s : State Nat) (now tid : Nat) (text : String) (n t : Nat), Reachable E s ∧
    retryText s now tid = some text ∧ AsksToWait text n ∧ now ≤ t ∧ t < now + n * 1000000 ∧ Admitted s t tid :=
  ⟨Demo.env, run Demo.env Demo.s1 (busy.take 5), Demo.ms 210, 1,
    "Rate limit exceeded. You can make another call in 50000000 milliseconds", 50000000, Demo.ms 260,
    Demo.s1_reach.run _, by decide, by unfold AsksToWait; decide, by decide, by decide, by unfold Admitted; decide⟩

end Verif
