import Verif.Lemmas.Doors
import Verif.Props.Demo
/-!
# C120: an approval only opens doors
-/
namespace Verif.Spec

variable {H : Type}

open Doors

/-- **C120**, first part. The second collection differs from the first only in that it has more
approvals, or longer ones. A history that gives no approvals, and in which all uses and
revocations of approvals were done in full, gets exactly the same replies in the second, and the
two collections differ at the end as they did at the start: at most in approvals, of which the
second has more. -/
theorem C120_opens (E : Env H) (msgs : List Msg) {s s' : State H} (h : MoreApproved s s')
    (hg : ∀ m ∈ msgs, givesApproval m = false)
    (hu : ∀ p ∈ msgs.zip (replies E s msgs), ApprovalsUsed p.1 p.2) :
    replies E s' msgs = replies E s msgs ∧ MoreApproved (run E s msgs) (run E s' msgs) := by
  induction msgs generalizing s s' with
  | nil => exact ⟨rfl, h⟩
  | cons m msgs ih =>
    have es : s' = wa (tabs s') s := h.rest
    obtain ⟨q, e, hq⟩ := step_more (q := tabs s') E s m ⟨h.tokens, h.collections, h.ids⟩ (hg m (by simp))
      (hu (m, (step E s m).2) (by simp [replies]))
    rw [← es] at e
    have hn : MoreApproved (step E s m).1 (step E s' m).1 := by
      rw [e]
      exact ⟨hq.1, hq.2.1, hq.2.2, rfl⟩
    obtain ⟨h1, h2⟩ := ih hn (fun m hm => hg m (by simp [hm])) fun p hp => hu p (by
      simp only [replies, List.zip_cons_cons, List.mem_cons]
      exact .inr hp)
    refine ⟨?_, h2⟩
    simp only [replies]
    rw [h1, e]
    rfl

/-- **C120**, second part. The two collections differ only in approvals given to `p`. In a history
that gives and takes back no approvals and in which `p` moves nobody's tokens with approvals, every
reply is the same in both, successes and failures alike, and the two collections differ at the end
as they did at the start: at most in approvals given to `p`. -/
theorem C120_others (E : Env H) (p : Principal) (msgs : List Msg) {s s' : State H} (h : SameButApprovalsOf p s s')
    (hg : ∀ m ∈ msgs, givesApproval m = false ∧ takesApproval m = false ∧ movesFor p m = false) :
    replies E s' msgs = replies E s msgs ∧ SameButApprovalsOf p (run E s msgs) (run E s' msgs) := by
  induction msgs generalizing s s' with
  | nil => exact ⟨rfl, h⟩
  | cons m msgs ih =>
    have es : s' = wa (tabs s') s := h.rest
    obtain ⟨g1, g2, g3⟩ := hg m (by simp)
    obtain ⟨q, e, hq⟩ := step_same (p := p) (q := tabs s') E s m ⟨h.tokens, h.collections⟩ g1 g2 g3
    rw [← es] at e
    have hn : SameButApprovalsOf p (step E s m).1 (step E s' m).1 := by
      rw [e]
      exact ⟨hq.1, hq.2, rfl⟩
    obtain ⟨h1, h2⟩ := ih hn (fun m hm => hg m (by simp [hm]))
    refine ⟨?_, h2⟩
    simp only [replies]
    rw [h1, e]
    rfl

namespace Demo
open Verif.Demo

/-- An approval by alice. -/
def approval (x : Account) (e : Option Nat) : Approval :=
  { spender := x, from_ := alice, createdAt := ms 200, expiresAt := e, memo := none }

/-- alice has approved carol for token 2, until the year 2100. -/
def approvedOnce : State Nat :=
  { s1 with tokAppr := Map.set ∅ 2 (Map.set ∅ carol (approval carol (some (ms 4000000000000)))) }

/-- alice has approved carol for token 2 without end, bob for token 1 and carol for all tokens. -/
def approvedMore : State Nat :=
  { s1 with
    tokAppr := Map.set (Map.set ∅ 2 (Map.set ∅ carol (approval carol none))) 1 (Map.set ∅ bob (approval bob none))
    collAppr := Map.set ∅ alice (Map.set ∅ carol (approval carol none)) }

theorem approved_more : MoreApproved approvedOnce approvedMore := by
  refine ⟨fun tid m hm => ?_, fun a m hm => ?_, fun tid m hm => ?_, rfl⟩
  · have hm : (Map.set ∅ 2 (Map.set ∅ carol (approval carol (some (ms 4000000000000)))) :
        Map Nat (Map Account Approval)).get tid = some m := hm
    rw [Map.get_set] at hm
    split at hm
    · rename_i e
      obtain rfl := eq_of_beq e
      cases hm
      refine ⟨Map.set ∅ carol (approval carol none), rfl, fun x a hx => ?_⟩
      rw [Map.get_set] at hx ⊢
      split at hx
      · rename_i e
        rw [if_pos e]
        exact ⟨_, rfl, fun e' he => by cases he⟩
      · cases hx
    · cases hm
  · cases hm
  · have hm : (Map.set (Map.set ∅ 2 (Map.set ∅ carol (approval carol none))) 1 (Map.set ∅ bob (approval bob none)) :
        Map Nat (Map Account Approval)).get tid = some m := hm
    rw [Map.get_set, Map.get_set] at hm
    split at hm
    · rename_i e
      rw [← eq_of_beq e]
      decide
    · split at hm
      · rename_i e
        rw [← eq_of_beq e]
        decide
      · cases hm

/-- carol moves token 2, which alice then cannot; alice sends token 1, and bob burns token 3. -/
def openDay : List Msg :=
  [takeMsg, .call [1] (ms 400) (.transfer [{ to_ := bob, tid := 2 }]), .call [1] (ms 500) (.transfer [{ to_ := bob, tid := 1 }]),
    .call [2] (ms 600) (.burn 3)]

example : replies env approvedMore openDay = replies env approvedOnce openDay ∧
    replies env approvedOnce openDay =
      [.batch [.ok 3], .batch [.error .invalidRecipient], .batch [.ok 4], .mgmt (.ok .unit)] := by
  have hr : replies env approvedOnce openDay =
      [.batch [.ok 3], .batch [.error .invalidRecipient], .batch [.ok 4], .mgmt (.ok .unit)] := rfl
  refine ⟨(C120_opens env openDay approved_more (by decide) fun p hp => ?_).1, hr⟩
  rw [hr] at hp
  simp only [openDay, List.zip_cons_cons, List.zip_nil_right, List.mem_cons, List.not_mem_nil, or_false] at hp
  rcases hp with rfl | rfl | rfl | rfl
  · exact ⟨_, rfl, rfl, by simp⟩
  · trivial
  · trivial
  · trivial

/-- What carol has been approved for makes no difference to bob, who is refused, and to the
others. -/
example : replies env approvedOnce [.call [2] (ms 300) (.transferFrom [{ from_ := alice, to_ := bob, tid := 2 }]), sendMsg] =
      replies env s1 [.call [2] (ms 300) (.transferFrom [{ from_ := alice, to_ := bob, tid := 2 }]), sendMsg] ∧
    replies env s1 [.call [2] (ms 300) (.transferFrom [{ from_ := alice, to_ := bob, tid := 2 }]), sendMsg] =
      [.batch [.error .unauthorized], .batch [.ok 3]] := by
  refine ⟨(C120_others (s := s1) (s' := approvedOnce) env [3] _ ⟨fun tid x hx => ?_, fun a x hx => rfl, rfl⟩ (by decide)).1, rfl⟩
  show tokenApproval approvedOnce tid x = none
  simp only [tokenApproval, approvedOnce, Map.get_set]
  split
  · show (Map.set ∅ carol (approval carol (some (ms 4000000000000)))).get x = none
    rw [Map.get_set]
    split
    · rename_i e
      exact absurd (Account.beq_iff.mp e).1.symm hx
    · rfl
  · rfl

end Demo

end Verif.Spec
