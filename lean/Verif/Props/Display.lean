import Verif.Lemmas.Display
import Verif.Props.Demo
/-!
# C115: settings that are only shown
-/
namespace Verif.Spec

open Display

variable {H : Type}

/-- Two collections that differ at most in name, symbol, description, logo, the settings of
paging and query batches and the storage threshold answer every history of messages in the
same way and go on differing in these settings at most; the histories may change these
settings differently. -/
theorem C115_updates (E : Env H) (s s' : State H) (h : SameButShown s s') (msgs msgs' : List Msg)
    (hm : msgs'.map rulingMsg = msgs.map rulingMsg) :
    replies E s' msgs' = replies E s msgs ∧ SameButShown (run E s msgs) (run E s' msgs') := by
  obtain ⟨h1, h2⟩ := run_dim E (dim_iff.1 h) msgs msgs' hm
  exact ⟨h1, dim_iff.2 h2⟩

/-- Changing settings that are only shown changes nothing else. -/
theorem C115_change (E : Env H) (s : State H) (h : Reachable E s) (c : Principal) (now : Nat) (a : UpdateCollArg)
    (ha : rulingArg a = {}) : SameButShown s (step E s (.call c now (.updateCollectionMetadata a))).1 := by
  refine dim_iff.2 ?_
  have h1 : dim (step E s (.call c now (.updateCollectionMetadata a))).1 =
      dim (step E s (.call c now (.updateCollectionMetadata {}))).1 := congrArg Prod.fst (update_dim E rfl c now ha)
  rw [h1]
  simp only [step, execCall, Call.needs, exec, updateCollectionMetadata, withGuard, guardEnter]
  split
  · by_cases hg : maxConcurrent ≤ s.guards.length
    · simp only [if_pos hg, ofMgmt]
    · have hz : s.guards = [] := by
        cases hs : s.guards with
        | nil => rfl
        | cons p l => rw [hs] at hg; simp [maxConcurrent] at hg
      obtain ⟨cfg, perms, tokens, byOwner, lastId, subs, redirects, guards, windows, uploads, tokAppr, collAppr, mdata,
        hid, log, router, pending⟩ := s
      dsimp only at hz
      subst hz
      simp [maxConcurrent, ofMgmt, guardLeave, applyUpdate, setIf]
  · rfl

/-- The collection gets a new name and pages of one token, and is otherwise the same. -/
example : Reachable Demo.env Demo.s1 ∧
    (step Demo.env Demo.s1 (.call Demo.admin (Demo.ms 150) (.updateCollectionMetadata { name := some "New", maxTake := some 1 }))).1.cfg.name = "New" ∧
    rulingArg { name := some "New", maxTake := some 1 } = {} :=
  ⟨Demo.s1_reach, by decide, by decide⟩

/-- Two histories that call the collection by different names. -/
example : ([.call Demo.admin (Demo.ms 150) (.updateCollectionMetadata { name := some "A", supplyCap := some 9 }), Demo.sendMsg].map rulingMsg : List Msg)
    = [.call Demo.admin (Demo.ms 150) (.updateCollectionMetadata { name := some "B", supplyCap := some 9 }), Demo.sendMsg].map rulingMsg ∧
    SameButShown Demo.s1 { Demo.s1 with cfg := { Demo.s1.cfg with symbol := "X" } } :=
  ⟨rfl, ⟨rfl, rfl, rfl, rfl, rfl, rfl, rfl, rfl⟩, rfl⟩

end Verif.Spec
