import Verif.Lemmas.Moments
import Verif.Props.Demo
/-!
# C116: calls that wait take effect in one moment
-/
namespace Verif.Spec

variable {H : Type}

open Moments in
/-- **C116**, one call. A call has to wait for another canister, and other calls come in.
Whatever happens after them (the answer, a trap, an upgrade, more calls), all is as if the
waiting call had been made, at whatever time, only after those others: the same state, and
the same replies to everything that was dealt with. Only the management calls that came in
meanwhile are left out: they were turned away. -/
theorem C116_moment (E : Env H) {s : State H} (hr : Reachable E s) {c : Principal} {now : Nat} {call : Call}
    (hw : (step E s (.call c now call)).2 = .suspended) (others : List Msg)
    (ho : ∀ m ∈ others, ∃ c' now' call', m = .call c' now' call') (now' : Nat) (rest : List Msg) :
    run E s (.call c now call :: (others ++ rest)) = run E s (others.filter isTrade ++ .call c now' call :: rest) ∧
      outcomes E s (.call c now call :: (others ++ rest)) =
        outcomes E s (others.filter isTrade ++ .call c now' call :: rest) := by
  have h0 : s.pending = [] := by
    rcases hr.pendInv.pend with h | ⟨q, _, hg⟩
    · exact h
    · exfalso
      have hm : managementCall call = true := managementCall_of_wait hw
      have hx := exec_busy (E := E) (s := s) (by rw [hg]; simp) (c := c) (now := now) hm
      simp only [step, execCall, hx] at hw
      split at hw
      · split at hw <;> cases hw
      · cases hw
  obtain ⟨c₁, p, hs, _⟩ := start_back (SameBack.rfl' s) h0 hw
  clear hr
  show run E (step E s _).1 _ = _ ∧ (if settled (step E s _).2 = true then _ else outcomes E (step E s _).1 _) = _
  rw [hs]
  show run E (hold c₁ p s) _ = _ ∧ outcomes E (hold c₁ p s) _ = _
  induction others generalizing s with
  | nil =>
    have hs' : step E s (.call c now' call) = (hold c₁ p s, .suspended) := by rw [start_time hw s now', hs]
    refine ⟨?_, ?_⟩
    · simp only [List.filter_nil, List.nil_append, run, hs']
    · simp only [List.filter_nil, List.nil_append, outcomes, hs']
      rfl
  | cons a others ih =>
    have ih' := fun (t : State H) hw => ih (s := t) hw (fun m hm => ho m (by simp [hm]))
    by_cases ht : isTrade a = true
    · have hb := trade_back E s ht
      obtain ⟨c₂, p₂, hs₁, hs₂⟩ := start_back (E := E) hb h0 (m := .call c now call) hw
      obtain ⟨hc, hp⟩ : c₂ = c₁ ∧ p₂ = p := by
        rw [hs] at hs₁
        have e := congrArg Prod.fst hs₁
        have e1 : [c₁] = [c₂] := congrArg State.guards e
        have e2 : [p] = [p₂] := congrArg State.pending e
        exact ⟨(List.cons.inj e1).1.symm, (List.cons.inj e2).1.symm⟩
      subst hc hp
      obtain ⟨h1, h2⟩ := ih' (step E s a).1 (by rw [hs₂]) (hb.pending.trans h0) hs₂ hs₂
      rw [List.filter_cons_of_pos ht]
      refine ⟨?_, ?_⟩
      · simp only [List.cons_append, run, trade_hold E s ht, h1]
      · simp only [List.cons_append, outcomes, trade_hold E s ht, h2]
    · obtain ⟨c', n', call', rfl⟩ := ho a (by simp)
      obtain ⟨b1, b2⟩ := busy_hold E s (by simpa using ht) (m := .call c' n' call') rfl c₁ p
      obtain ⟨h1, h2⟩ := ih' s hw h0 hs hs
      rw [List.filter_cons_of_neg ht]
      refine ⟨?_, ?_⟩
      · simp only [List.cons_append, run, b1, h1]
      · simp [outcomes, b1, b2, h2]

open Moments in
/-- **C116**, histories. To every history, with any overlap of waiting calls, other calls,
answers and upgrades, there is one without overlap, in which every call that has to wait is
followed at once by the end of its wait. It is made of messages of the first, leads to the
same state, and everything that was dealt with in the first is dealt with in it, in the same
order and with the same replies. -/
theorem C116_histories (E : Env H) {s : State H} (h0 : s.pending = []) (msgs : List Msg) :
    ∃ msgs', OneAtATime E s msgs' ∧ (∃ kept, kept.Sublist msgs ∧ msgs'.Perm kept) ∧
      run E s msgs' = run E s msgs ∧ outcomes E s msgs' = outcomes E s msgs := by
  suffices hx : (∀ s : State H, s.pending = [] → ∃ msgs', OneAtATime E s msgs' ∧
        (∃ kept, kept.Sublist msgs ∧ msgs'.Perm kept) ∧
        run E s msgs' = run E s msgs ∧ outcomes E s msgs' = outcomes E s msgs) ∧
      (∀ (s : State H) (m₀ : Msg) (c : Principal) (p : Pending), s.pending = [] →
        step E s m₀ = (hold c p s, .suspended) → ∃ msgs', OneAtATime E s msgs' ∧
        (∃ kept, kept.Sublist msgs ∧ msgs'.Perm (m₀ :: kept)) ∧
        run E s msgs' = run E (hold c p s) msgs ∧ outcomes E s msgs' = outcomes E (hold c p s) msgs) from hx.1 s h0
  clear h0 s
  induction msgs with
  | nil =>
    refine ⟨fun s h0 => ⟨[], trivial, ⟨[], .slnil, .nil⟩, rfl, rfl⟩, fun s m₀ c p h0 hm => ?_⟩
    refine ⟨[m₀], ⟨fun h => absurd h0 h, trivial⟩, ⟨[], .slnil, .refl _⟩, ?_, ?_⟩
    · simp only [run, hm]
    · simp only [outcomes, hm]
      rfl
  | cons m msgs ih =>
    obtain ⟨ihA, ihB⟩ := ih
    refine ⟨fun s h0 => ?_, fun s m₀ c p h0 hm => ?_⟩
    · by_cases hw : (step E s m).2 = .suspended
      · obtain ⟨c, p, hs, _⟩ := start_back (SameBack.rfl' s) h0 hw
        obtain ⟨msgs', h1, ⟨kept, h2, h3⟩, h4, h5⟩ := ihB s m c p h0 hs
        refine ⟨msgs', h1, ⟨m :: kept, h2.cons_cons m, h3⟩, ?_, ?_⟩
        · simp only [run, hs, h4]
        · simp only [outcomes, hs, h5]
          rfl
      · obtain ⟨msgs', h1, ⟨kept, h2, h3⟩, h4, h5⟩ := ihA (step E s m).1 (pending_of_reply h0 hw)
        refine ⟨m :: msgs', ⟨fun h => absurd h0 h, h1⟩, ⟨m :: kept, h2.cons_cons m, h3.cons m⟩, ?_, ?_⟩
        · simp only [run, h4]
        · simp only [outcomes, h5]
    · by_cases ht : isTrade m = true
      · have hb := trade_back E s ht
        obtain ⟨c', p', hs, hs'⟩ := start_back (E := E) hb h0 (m := m₀) (by rw [hm])
        obtain ⟨hc, hp⟩ : c' = c ∧ p' = p := by
          rw [hm] at hs
          have e := congrArg Prod.fst hs
          have e1 : [c] = [c'] := congrArg State.guards e
          have e2 : [p] = [p'] := congrArg State.pending e
          exact ⟨(List.cons.inj e1).1.symm, (List.cons.inj e2).1.symm⟩
        subst hc hp
        obtain ⟨msgs', h1, ⟨kept, h2, h3⟩, h4, h5⟩ := ihB (step E s m).1 m₀ c' p' (hb.pending.trans h0) hs'
        refine ⟨m :: msgs', ⟨fun h => absurd h0 h, h1⟩,
          ⟨m :: kept, h2.cons_cons m, (h3.cons m).trans (.swap _ _ _)⟩, ?_, ?_⟩
        · simp only [run, h4, trade_hold E s ht]
        · simp only [outcomes, h5, trade_hold E s ht]
      · by_cases he : endsWait m = true
        · obtain ⟨msgs', h1, ⟨kept, h2, h3⟩, h4, h5⟩ := ihA (step E (hold c p s) m).1 (end_hold E s he c p)
          refine ⟨m₀ :: m :: msgs', ⟨fun h => absurd h0 h, ?_⟩, ⟨m :: kept, h2.cons_cons m, (h3.cons m).cons m₀⟩, ?_, ?_⟩
          · rw [hm]
            exact ⟨fun _ => he, h1⟩
          · simp only [run, hm, h4]
          · simp only [outcomes, hm, h5]
            rfl
        · obtain ⟨b1, b2⟩ := busy_hold E s (by simpa using ht) (by simpa using he) c p
          obtain ⟨msgs', h1, ⟨kept, h2, h3⟩, h4, h5⟩ := ihB s m₀ c p h0 hm
          refine ⟨msgs', h1, ⟨kept, h2.cons m, h3⟩, ?_, ?_⟩
          · simp only [run, b1, h4]
          · simp [outcomes, b1, b2, h5]

namespace MomentsDemo

/-- admin starts an upload. -/
def start : Msg := .call Demo.admin (Demo.ms 150) (.initUpload "a" 1)

/-- A new storage canister takes the file. -/
def answer : Msg := .resume (Demo.ms 400) 0 { created := some ⟨[5], true⟩, newInitOk := true }

/-- alice approves carol, a mint is turned away, carol takes the token. -/
def others : List Msg :=
  [Demo.approveMsg, .call Demo.admin (Demo.ms 260) (.mint [{ owner := Demo.bob }]), Demo.takeMsg]

end MomentsDemo

-- the upload waits, and meanwhile there are only calls
example : (match (step Demo.env Demo.s1 MomentsDemo.start).2 with | .suspended => true | _ => false) = true ∧
    Demo.s1.pending.length = 0 ∧ endsWait MomentsDemo.answer = true := by decide

example : ∀ m ∈ MomentsDemo.others, ∃ c now call, m = Msg.call c now call := by
  intro m hm
  simp only [MomentsDemo.others, List.mem_cons, List.not_mem_nil, or_false] at hm
  rcases hm with rfl | rfl | rfl <;> exact ⟨_, _, _, rfl⟩

-- the history overlaps, three of its messages are dealt with, and the upload is there in the end
example : ¬ OneAtATime Demo.env Demo.s1 (MomentsDemo.start :: (MomentsDemo.others ++ [MomentsDemo.answer])) := by
  intro h
  exact absurd (h.2.1 (by decide)) (by decide)

example : (outcomes Demo.env Demo.s1 (MomentsDemo.start :: (MomentsDemo.others ++ [MomentsDemo.answer]))).length = 3 ∧
    ((run Demo.env Demo.s1 (MomentsDemo.start :: (MomentsDemo.others ++ [MomentsDemo.answer]))).uploads.get "a").isSome = true := by
  decide

-- the same without overlap
example : OneAtATime Demo.env Demo.s1 [Demo.approveMsg, Demo.takeMsg, MomentsDemo.start, MomentsDemo.answer] :=
  ⟨fun h => absurd (by decide) h, fun h => absurd (by decide) h, fun h => absurd (by decide) h, fun _ => rfl, trivial⟩

end Verif.Spec
