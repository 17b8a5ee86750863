import Verif.Props.Index
/-!
# C94: cleaning the index's cache
-/
namespace Verif

open Spec

private theorem any_old {c : Cache} {now : Nat} : (c.entries.any fun e => decide (e.2.1 < now)) = true ↔
    ∃ e ∈ c.entries, e.2.1 < now := by
  rw [List.any_eq_true]
  exact ⟨fun ⟨e, h1, h2⟩ => ⟨e, h1, by simpa using h2⟩, fun ⟨e, h1, h2⟩ => ⟨e, h1, by simpa using h2⟩⟩

/-- C94, what is left of it: a clean-up that ends without a trap leaves no block stored before
it; the blocks stored since then stay in any case, and nothing but the cache is touched. -/
theorem C94_clean_partial (parse : ParsePrincipal) (s : Ix) (now : Nat) :
    ((ixStep parse s (.clean now)).2 = .none → ∀ id stored, CachedSince (ixStep parse s (.clean now)).1 id stored → now ≤ stored) ∧
    (∀ id stored, CachedSince s id stored → now ≤ stored → CachedSince (ixStep parse s (.clean now)).1 id stored) ∧
    ∃ c, (ixStep parse s (.clean now)).1 = { s with cache := c } := by
  simp only [ixStep, cacheClean]
  by_cases h : (s.cache.entries.any fun e => decide (e.2.1 < now)) = true
  · rw [if_pos h]
    exact ⟨fun h => (by cases h), fun _ _ h _ => h, s.cache, rfl⟩
  · rw [if_neg h]
    refine ⟨fun _ id stored hc => ?_, fun _ _ h _ => h, s.cache, rfl⟩
    obtain ⟨v, hv⟩ := hc
    obtain ⟨k, _, hm⟩ := Map.mem_of_get hv
    refine Nat.le_of_not_lt fun hlt => h (any_old.2 ⟨_, hm, hlt⟩)

/-- C94 does not hold: whenever there is a block to drop, the clean-up traps and drops none. -/
theorem C94_violated {parse : ParsePrincipal} {s : Ix} {now id stored : Nat} (hc : CachedSince s id stored) (hold : stored < now) :
    ixStep parse s (.clean now) = (s, .trapped) := by
  obtain ⟨v, hv⟩ := hc
  obtain ⟨k, _, hm⟩ := Map.mem_of_get hv
  simp only [ixStep, cacheClean]
  rw [if_pos (any_old.2 ⟨_, hm, hold⟩)]

private theorem cacheAll_keeps {now id : Nat} (bs : List Block) : ∀ {c c' : Cache}, (c.get id).isSome →
    cacheAll now c bs = some c' → (c'.get id).isSome := by
  induction bs with
  | nil => intro c c' h hc; cases hc; exact h
  | cons b bs ih =>
    intro c c' h hc
    unfold cacheAll at hc
    split at hc
    · unfold cacheInsert at hc
      split at hc
      · cases hc
      · rename_i c1 h1
        split at h1
        · cases h1
          refine ih ?_ hc
          rw [Map.get_set]
          split
          · rfl
          · exact h
        · cases h1
    · exact ih h hc

private theorem finishChunk_keeps {now id : Nat} {c c' : Cache} {f : Fetch} {ret blocks : List Block} {o : FetchOut}
    (h : (c.get id).isSome) (hc : finishChunk now c f ret blocks = some (c', o)) : (c'.get id).isSome := by
  unfold finishChunk at hc
  split at hc
  · cases hc
  · rename_i c1 h1
    split at hc
    all_goals
      cases hc
      exact cacheAll_keeps blocks h h1

private theorem fetchResume_keeps {now id : Nat} {c c' : Cache} {f : Fetch} {ans : IxAnswer} {o : FetchOut}
    (h : (c.get id).isSome) (hc : fetchResume now c f ans = some (c', o)) : (c'.get id).isSome := by
  unfold fetchResume at hc
  split at hc
  · exact finishChunk_keeps h hc
  · cases hc; exact h
  · split at hc
    · cases hc
    · rename_i c1 h1
      have := cacheAll_keeps _ h h1
      split at hc
      · exact finishChunk_keeps this hc
      · cases hc; exact this
  · cases hc; exact h

/-- Hence a block, once cached, stays cached, whatever messages come, with whatever answers. -/
theorem C94_violated_forever {parse : ParsePrincipal} {id : Nat} (ms : List IxMsg) : ∀ {s : Ix} {stored : Nat}, CachedSince s id stored →
    ∃ stored', CachedSince (ixRun parse s ms) id stored' := by
  have key : ∀ {s : Ix}, (s.cache.get id).isSome → ((ixRun parse s ms).cache.get id).isSome := by
    induction ms with
    | nil => intro s h; exact h
    | cons m ms ih =>
      intro s h
      refine ih (s := (ixStep parse s m).1) ?_
      have he := ixStep_eff parse s m
      generalize (ixStep parse s m).1 = s' at he
      generalize (ixStep parse s m).2 = o at he
      cases he with
      | resumeWait _ hr => exact fetchResume_keeps h hr
      | resumeUpdate _ hr _ => exact fetchResume_keeps h hr
      | resumeGet _ hr => exact fetchResume_keeps h hr
      | same | drop | upgrade | tickWait | tickDone | getWait | getDone => exact h
  intro s stored ⟨v, hv⟩
  have := key (s := s) (by rw [hv]; rfl)
  obtain ⟨⟨t, w⟩, hw⟩ := Option.isSome_iff_exists.1 this
  exact ⟨t, w, hw⟩

set_option maxRecDepth 20000 in
/-- The index has cached six blocks at time 5; the clean-up a day later traps. -/
example : Run IxDemo.parse IxDemo.chain NoOverlap 0 Ix.fresh 6 IxDemo.s6 ∧ CachedSince IxDemo.s6 3 5 ∧
    (ixStep IxDemo.parse IxDemo.s6 (.clean 86400000000000)).2 = .trapped := ⟨IxDemo.run6, ⟨_, rfl⟩, by decide⟩

set_option maxRecDepth 20000 in
/-- At time 5 itself there is nothing older to drop. -/
example : (ixStep IxDemo.parse IxDemo.s6 (.clean 5)).2 = .none := by decide

end Verif
