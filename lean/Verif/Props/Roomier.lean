import Verif.Lemmas.Roomier
import Verif.Props.Demo
/-!
# C119: raising a limit never breaks what worked
-/
namespace Verif.Spec

variable {H : Type}

open Roomy

/-- **C119**, partial. Two collections differ in their settings, and each limit of the second is
as large or larger. A history in which all batches and mints were done in full with the smaller
limits gets exactly the same replies with the larger ones, and leads to the same collection but
for the settings. Missing: limits beyond the numbers the code converts them to, see
`C119_violated_batch` and `C119_violated_window`. -/
theorem C119_roomier_partial (E : Env H) {s s' : State H} (h : Roomier s s') (msgs : List Msg) (hk : KeepsSettings msgs)
    (hn : ∀ now ∈ callTimes msgs, Workable s' now) (hw : AllWentThrough E s msgs) :
    replies E s' msgs = replies E s msgs ∧ run E s' msgs = { run E s msgs with cfg := s'.cfg } := by
  have es : s' = wc s'.cfg s := h.rest
  obtain ⟨h1, h2⟩ := run_room (c' := s'.cfg) E msgs s (fun now hm => roomOf h (hn now hm)) hk hw
  rw [← es] at h1 h2
  exact ⟨h1, h2⟩

namespace Demo
open Verif.Demo

/-- The administrator raises the number of items in a batch to five hundred, the length of memos
to two million bytes, and the time window to two days. -/
def raiseMsg : Msg := .call admin (ms 150) (.updateCollectionMetadata
  { maxUpdateBatch := some 500, maxMemo := some 2000000, txWindow := some (2 * 86400000000000) })

/-- The administrator raises the number of items in a batch to 2^32. -/
def raiseBatch : Msg := .call admin (ms 150) (.updateCollectionMetadata { maxUpdateBatch := some (2 ^ 32) })

/-- The administrator raises the time window to the largest number of nanoseconds in 64 bits. -/
def raiseWindow : Msg := .call admin (ms 150) (.updateCollectionMetadata { txWindow := some (2 ^ 64 - 1) })

end Demo

/-- The administrator may raise the number of items in a batch to 2^32, and the call is accepted.
A transfer that was done before now fails. -/
theorem C119_violated_batch : ∃ (E : Env Nat) (s : State Nat) (raise : Msg) (msgs : List Msg), Reachable E s ∧
    (∃ x, (step E s raise).2 = .mgmt (.ok x)) ∧ Roomier s (step E s raise).1 ∧ KeepsSettings msgs ∧
    AllWentThrough E s msgs ∧ replies E (step E s raise).1 msgs ≠ replies E s msgs := by
  refine ⟨Verif.Demo.env, Verif.Demo.s1, Demo.raiseBatch, [Verif.Demo.sendMsg], Verif.Demo.s1_reach, ⟨_, rfl⟩,
    ⟨by decide, by decide, by decide, by decide, by decide, by decide, by decide, rfl, rfl⟩, ?_, ?_, ?_⟩
  · intro c now a hm
    simp [Verif.Demo.sendMsg] at hm
  · intro p hp
    have e : p = (Verif.Demo.sendMsg, .batch [.ok 3]) := by
      have : p ∈ [(Verif.Demo.sendMsg, Reply.batch [.ok 3])] := hp
      simpa using this
    subst e
    exact ⟨[.ok 3], rfl, rfl, by simp⟩
  · intro h
    exact absurd (show [Reply.trapped] = [Reply.batch [.ok 3]] from h) (by simp)

/-- The administrator may raise the time window to the largest number of nanoseconds in 64 bits,
and the call is accepted. An approval made at the present moment is now too old. -/
theorem C119_violated_window : ∃ (E : Env Nat) (s : State Nat) (raise : Msg) (msgs : List Msg), Reachable E s ∧
    (∃ x, (step E s raise).2 = .mgmt (.ok x)) ∧ Roomier s (step E s raise).1 ∧ KeepsSettings msgs ∧
    AllWentThrough E s msgs ∧ replies E (step E s raise).1 msgs = [.batch [.error .tooOld]] := by
  refine ⟨Verif.Demo.env, Verif.Demo.s1, Demo.raiseWindow, [Verif.Demo.approveMsg], Verif.Demo.s1_reach, ⟨_, rfl⟩,
    ⟨by decide, by decide, by decide, by decide, by decide, by decide, by decide, rfl, rfl⟩, ?_, ?_, rfl⟩
  · intro c now a hm
    simp [Verif.Demo.approveMsg] at hm
  · intro p hp
    have e : p = (Verif.Demo.approveMsg, .batch [.ok 3]) := by
      have : p ∈ [(Verif.Demo.approveMsg, Reply.batch [.ok 3])] := hp
      simpa using this
    subst e
    exact ⟨[.ok 3], rfl, rfl, by simp⟩

namespace Demo
open Verif.Demo

theorem raise_roomier : Roomier s1 (step env s1 raiseMsg).1 :=
  ⟨by decide, by decide, by decide, by decide, by decide, by decide, by decide, rfl, rfl⟩

/-- A transfer, an approval, a transfer by the approved, a minting and a burning. -/
def busyDay : List Msg :=
  [sendMsg, .call [1] (ms 300) (.approveTokens [{ tid := 2, info := { spender := carol, createdAt := ms 300 } }]),
    .call [3] (ms 400) (.transferFrom [{ from_ := alice, to_ := carol, tid := 2 }]),
    .call admin (ms 500) (.mint [{ owner := bob }]), .call [2] (ms 600) (.burn 1)]

/-- With the raised limits the day goes as it went without. -/
example : AllWentThrough env s1 busyDay ∧
    replies env (step env s1 raiseMsg).1 busyDay = replies env s1 busyDay ∧
    replies env s1 busyDay = [.batch [.ok 3], .batch [.ok 4], .batch [.ok 5], .mgmt (.ok (.id 4)), .mgmt (.ok .unit)] := by
  have hr : replies env s1 busyDay = [.batch [.ok 3], .batch [.ok 4], .batch [.ok 5], .mgmt (.ok (.id 4)), .mgmt (.ok .unit)] := rfl
  have hw : AllWentThrough env s1 busyDay := by
    intro p hp
    rw [hr] at hp
    simp only [busyDay, List.zip_cons_cons, List.zip_nil_right, List.mem_cons, List.not_mem_nil, or_false] at hp
    rcases hp with rfl | rfl | rfl | rfl | rfl
    · exact ⟨_, rfl, rfl, by simp⟩
    · exact ⟨_, rfl, rfl, by simp⟩
    · exact ⟨_, rfl, rfl, by simp⟩
    · exact .inl ⟨_, rfl⟩
    · trivial
  refine ⟨hw, (C119_roomier_partial env raise_roomier busyDay ?_ ?_ hw).1, hr⟩
  · intro c now a hm
    simp [busyDay, sendMsg] at hm
  · intro now hm
    have hm : now ∈ [ms 200, ms 300, ms 400, ms 500, ms 600] := hm
    simp only [List.mem_cons, List.not_mem_nil, or_false] at hm
    rcases hm with rfl | rfl | rfl | rfl | rfl <;> exact ⟨by decide, by decide, by decide, by decide, by decide⟩

end Demo

end Verif.Spec
