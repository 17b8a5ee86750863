import Verif.Spec.Upgrades
import Verif.Lemmas.Rearranged
import Verif.Props.Demo
import Verif.Props.Admin
/-!
# C112: upgrades are invisible
-/
namespace Verif.Spec

variable {H : Type}

/-- The router is the table of saved redirections. -/
private structure Routed (s : State H) : Prop where
  nodup : s.redirects.NodupKeys
  same : s.router = s.redirects

private theorem rebuilt {m : Map String String} (h : m.NodupKeys) :
    m.entries.foldl (fun r e => r.set e.1 e.2) (∅ : Map String String) = m := by
  have := foldl_set (l := m.entries) (m := ∅) Map.nodup_empty (by
    rw [show (∅ : Map String String).entries = [] from rfl, List.nil_append]; exact h)
  have ext : ∀ {x y : Map String String}, x.entries = y.entries → x = y := by
    rintro ⟨_⟩ ⟨_⟩ h
    cases h
    rfl
  exact ext (by simpa using this)

private theorem routed_micro {E : Env H} {m : Msg} {s s' : State H} (h : Routed s) (hm : Micro E m s s') : Routed s' := by
  cases hm with
  | mint reqs md h' perm free batch cap memos hmd => rw [mintInsert_eq]; exact ⟨h.nodup, h.same⟩
  | @resume _ now i ans p hp =>
    refine ⟨?_, ?_⟩ <;> simp only [resumeBody, guardLeave] <;> repeat' split
    all_goals try exact h.nodup
    all_goals try exact h.same
    · exact Map.nodup_set h.nodup _ _
    · simp only [h.same]
  | upgrade => exact ⟨h.nodup, rebuilt h.nodup⟩
  | _ => exact ⟨h.nodup, h.same⟩

private theorem routed {E : Env H} {s : State H} (h : Reachable E s) : Routed s :=
  h.induct (fun _ _ _ _ _ h0 => by rw [init_eq h0]; exact ⟨Map.nodup_empty, rfl⟩)
    (fun _ _ _ hp hm => routed_micro hp hm)

/-- **C112**, one upgrade: the only thing an upgrade takes away are the calls that wait for
an answer. Every table, setting, permission, rate limit and the log stay. -/
theorem C112_upgrade (E : Env H) (s : State H) (hr : Reachable E s) :
    step E s .upgrade = ({ s with pending := [] }, .none) := by
  show (upgrade s, Reply.none) = _
  unfold upgrade
  rw [rebuilt (routed hr).nodup, ← (routed hr).same]

private theorem upgradedRun_same {E : Env H} {s t : State H} {msgs : List Msg} {rs : List Reply}
    (h : UpgradedRun E s msgs rs t) : ∀ a, Reachable E a → SameTables a s →
      rs = replies E a msgs ∧ SameTables (run E a msgs) t := by
  induction h with
  | nil => exact fun a _ ha => ⟨rfl, ha⟩
  | @message s s₁ t m r msgs rs hm _ ih =>
    intro a hr ha
    have h1 := step_tab E ha m
    rw [hm] at h1
    obtain ⟨h2, h3⟩ := ih _ (hr.step m) h1.1
    refine ⟨?_, h3⟩
    show _ = (step E a m).2 :: replies E (step E a m).1 msgs
    rw [← h2, ← h1.2]
  | @upgraded s s₁ t msgs rs hp ht _ ih =>
    intro a hr ha
    have h1 := (step_tab E ha .upgrade).1
    rw [C112_upgrade E a hr] at h1
    refine ih a hr ?_
    have e : ({ a with pending := [] } : State H) = a := by rw [← hp, ha.pending]
    rw [← e]
    exact h1.trans ht

/-- **C112**. Install a collection and let a history happen to it, with any number of
upgrades at moments when no call waits for an answer. Every request, before and after the
upgrades, is answered as if there had been none; the log is the same entry by entry, and
the collection afterwards is the same up to the order of its hash tables. `hp`: the
table of permissions in the arguments names nobody twice. -/
theorem C112_invisible (E : Env H) (v : String → Bool) (hid : H) (c : Principal) (a : InitArgs) (s₀ t : State H)
    (h0 : init v hid c a = some s₀) (hp : a.perms.NodupKeys) (msgs : List Msg) (rs : List Reply)
    (h : UpgradedRun E s₀ msgs rs t) :
    rs = replies E s₀ msgs ∧ t.log = (run E s₀ msgs).log ∧ SameTables (run E s₀ msgs) t ∧
      SameReadings (run E s₀ msgs) t := by
  have hx := upgradedRun_same h s₀ ⟨_, _, _, _, _, [], h0, rfl⟩ (init_tab hp h0)
  exact ⟨hx.1, hx.2.log, hx.2, sameReadings_tab hx.2⟩

namespace UpgradesDemo

/-- alice approves carol, and carol takes the token. -/
def story : List Msg := [Demo.mintMsg, Demo.approveMsg, Demo.takeMsg]

/-- The demo collection after the mint, with its tokens in the opposite order. -/
def turned : State Nat := { Demo.s1 with tokens := ⟨Demo.s1.tokens.entries.reverse⟩ }

end UpgradesDemo

-- an upgrade after the mint (with the tokens in another order after it), two after the approval
example : ∃ rs t, UpgradedRun Demo.env Demo.s0 UpgradesDemo.story rs t ∧ t.tokens.keys = [3, 2, 1] := by
  have h0 := init_tab (s := Demo.s0) (by unfold Map.NodupKeys; decide) Demo.s0_init
  have h1 : SameTables Demo.s1 Demo.s1 := (step_tab Demo.env h0 Demo.mintMsg).1
  have h2 : SameTables (step Demo.env Demo.s1 .upgrade).1 UpgradesDemo.turned :=
    { (step_tab Demo.env h1 .upgrade).1 with
      tokens := ⟨by unfold Map.NodupKeys; decide, .of_perm (List.reverse_perm _).symm⟩ }
  have h3 := (step_tab Demo.env h2.self Demo.approveMsg).1
  have h4 := (step_tab Demo.env h3 .upgrade).1
  have h5 := (step_tab Demo.env h4 .upgrade).1
  exact ⟨_, _, .message rfl (.upgraded (by decide) h2 (.message rfl (.upgraded (by decide) h4 (.upgraded (by decide) h5
    (.message rfl .nil))))), by decide⟩

-- carol is served
example : (match replies Demo.env Demo.s0 UpgradesDemo.story with
    | [_, .batch [.ok _], .batch [.ok _]] => true
    | _ => false) = true := by decide

-- with a call waiting for an answer it is different: its answer finds nobody
example : (match replies Demo.env Demo.s0 [.call Demo.admin 5 (.initUpload "a" 1), .upgrade, .resumeTrap 0],
      replies Demo.env Demo.s0 [.call Demo.admin 5 (.initUpload "a" 1), .resumeTrap 0] with
    | [.suspended, .none, .none], [.suspended, .trapped] => true
    | _, _ => false) = true := by decide

end Verif.Spec
