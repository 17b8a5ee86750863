import Verif.Lemmas.Rearranged
import Verif.Props.Demo
/-!
# C110: the order of the tables is invisible
-/
namespace Verif.Spec

variable {H : Type}

/-- **C110**. Let every table of a collection be rearranged before every message of a
history and at its end, each time in any way. Every request is answered as if nothing
had been rearranged, and the collection afterwards is the same up to the order of its
tables; in particular the transaction log is the same, entry by entry. -/
theorem C110_rearranged (E : Env H) (s t : State H) (msgs : List Msg) (rs : List Reply)
    (h : RearrangedRun E s msgs rs t) :
    rs = replies E s msgs ∧ t.log = (run E s msgs).log ∧ SameTables (run E s msgs) t :=
  ⟨(rearrangedRun_tab h).1, (rearrangedRun_tab h).2.log, (rearrangedRun_tab h).2⟩

/-- **C110**, the queries: after a history with rearrangements every query answers what
it answers after the same history without. The three listings that walk a hash table
give one of the answers they may give without, and the other way round. -/
theorem C110_readings (E : Env H) (s t : State H) (msgs : List Msg) (rs : List Reply)
    (h : RearrangedRun E s msgs rs t) :
    SameReadings (run E s msgs) t ∧ SameReadings t (run E s msgs) :=
  ⟨sameReadings_tab (rearrangedRun_tab h).2, sameReadings_tab (rearrangedRun_tab h).2.symm⟩

/-- **C110**, the daily clean-up: it asks for the same uploads to be cancelled, perhaps in
another order. -/
theorem C110_cleanup (E : Env H) (s t : State H) (msgs : List Msg) (rs : List Reply)
    (h : RearrangedRun E s msgs rs t) (now : Nat) :
    (gcCancels t now).Perm (gcCancels (run E s msgs) now) :=
  gcCancels_tab (rearrangedRun_tab h).2 now

/-- **C110**, what no history does: no table ever has two rows with the same key, so
the histories of the other theorems exist for every installation. `hp`: the table of
permissions in the arguments names nobody twice. -/
theorem C110_distinct (E : Env H) (v : String → Bool) (hid : H) (c : Principal) (a : InitArgs) (s₀ : State H)
    (h0 : init v hid c a = some s₀) (hp : a.perms.NodupKeys) (msgs : List Msg) :
    RearrangedRun E s₀ msgs (replies E s₀ msgs) (run E s₀ msgs) := by
  have hs := init_tab hp h0
  clear h0
  induction msgs generalizing s₀ with
  | nil => exact .nil hs
  | cons m msgs ih => exact .cons hs rfl (ih _ (step_tab E hs m).1)

namespace RearrangedDemo

/-- The demo collection with its tokens and its owners in the opposite order. -/
def turned : State Nat :=
  { Demo.s1 with tokens := ⟨Demo.s1.tokens.entries.reverse⟩, byOwner := ⟨Demo.s1.byOwner.entries.reverse⟩ }

theorem turned_same : SameTables Demo.s1 turned :=
  { (rearrangedRun_tab (C110_distinct Demo.env _ _ _ _ _ Demo.s0_init (by unfold Map.NodupKeys; decide) [Demo.mintMsg])).2 with
    tokens := ⟨by unfold Map.NodupKeys; decide, .of_perm (List.reverse_perm _).symm⟩
    byOwner := ⟨by unfold Map.NodupKeys; decide, .of_perm (List.reverse_perm _).symm⟩ }

end RearrangedDemo

-- the tables really are in another order
example : RearrangedDemo.turned.tokens.keys = [3, 2, 1] ∧ Demo.s1.tokens.keys = [1, 2, 3] := by decide

-- a history in which they are turned between minting and a transfer
example : ∃ rs t, RearrangedRun Demo.env Demo.s0 [Demo.mintMsg, Demo.sendMsg] rs t ∧ t.tokens.keys = [3, 2, 1] :=
  ⟨_, _, .cons (init_tab (by unfold Map.NodupKeys; decide) Demo.s0_init) rfl (.cons RearrangedDemo.turned_same rfl
    (.nil (step_tab Demo.env RearrangedDemo.turned_same Demo.sendMsg).1.self)), by decide⟩

end Verif.Spec
