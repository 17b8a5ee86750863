import Verif.Lemmas.Permitted
import Verif.Props.Demo
/-!
# C117: a permission only opens doors
-/
namespace Verif.Spec

variable {H : Type}

open Permitted

/-- **C117**, one message. Somebody holds more permissions than before. Every message that
was not rejected for want of a permission gets the same reply and has the same effect. -/
theorem C117_message (E : Env H) {s s' : State H} (h : MorePermitted s s') (m : Msg)
    (hr : (step E s m).2 ≠ .rejected) :
    (step E s' m).2 = (step E s m).2 ∧ MorePermitted (step E s m).1 (step E s' m).1 := by
  have es : s' = wp s'.perms s := by rw [← h.rest]; rfl
  obtain ⟨q', h1, h2⟩ := step_along s'.perms E s m (by
    intro c now call p hm hn
    subst hm
    cases hx : hasPermission s.perms c p with
    | true => exact h.more c p hx
    | false =>
      simp only [step, execCall, hn, hx] at hr
      exact absurd rfl hr)
  rw [← es] at h1
  rw [h1]
  exact ⟨rfl, rfl, more_along h2 h.more⟩

/-- **C117**, histories. As long as nobody is rejected for want of a permission, additional
permissions make no difference at all: neither to a reply nor to the collection. -/
theorem C117_history (E : Env H) {s s' : State H} (h : MorePermitted s s') (msgs : List Msg)
    (hr : ∀ r ∈ replies E s msgs, r ≠ .rejected) :
    replies E s' msgs = replies E s msgs ∧ MorePermitted (run E s msgs) (run E s' msgs) := by
  induction msgs generalizing s s' with
  | nil => exact ⟨rfl, h⟩
  | cons m msgs ih =>
    obtain ⟨h1, h2⟩ := C117_message E h m (hr _ (by simp [replies]))
    obtain ⟨h3, h4⟩ := ih h2 fun r hm => hr r (by simp [replies, hm])
    refine ⟨?_, h4⟩
    show (step E s' m).2 :: replies E (step E s' m).1 msgs = (step E s m).2 :: replies E (step E s m).1 msgs
    rw [h1, h3]

/-- **C117**, everybody else. Two collections differ in what `x` is permitted. As long as `x`
calls no method that needs a permission, all replies are the same, and the collections go on
differing in nothing but what `x` is permitted. -/
theorem C117_others (E : Env H) {x : Principal} {s s' : State H} (h : SameButFor x s s') (msgs : List Msg)
    (hx : ∀ m ∈ msgs, needsOf x m = false) :
    replies E s' msgs = replies E s msgs ∧ SameButFor x (run E s msgs) (run E s' msgs) := by
  induction msgs generalizing s s' with
  | nil => exact ⟨rfl, h⟩
  | cons m msgs ih =>
    have es : s' = wp s'.perms s := by rw [← h.rest]; rfl
    obtain ⟨q', h1, h2⟩ := step_along s'.perms E s m (by
      intro c now call p hm hn
      have hc : c ≠ x := by
        intro e
        have := hx m (by simp)
        subst hm e
        simp [needsOf, hn] at this
      unfold hasPermission
      rw [h.others c hc])
    rw [← es] at h1
    have hs : SameButFor x (step E s m).1 (step E s' m).1 := by
      rw [h1]; exact ⟨rfl, others_along h2 h.others⟩
    obtain ⟨h3, h4⟩ := ih hs fun m hm => hx m (by simp [hm])
    refine ⟨?_, h4⟩
    show (step E s' m).2 :: replies E (step E s' m).1 msgs = (step E s m).2 :: replies E (step E s m).1 msgs
    rw [h3, h1]
    rfl

namespace PermittedDemo

/-- The principal behind bob's account. -/
def bob : Principal := Demo.bob.owner

/-- The same collection; bob may mint. -/
def more : State Nat := { Demo.s1 with perms := grantPermission Demo.s1.perms PermittedDemo.bob .minting }

/-- alice approves, admin mints and grants a permission to bob, carol takes the token. -/
def story : List Msg :=
  [Demo.approveMsg, .call Demo.admin (Demo.ms 210) (.mint [{ owner := Demo.bob }]),
    .call Demo.admin (Demo.ms 220) (.grant PermittedDemo.bob .updateUploads), Demo.takeMsg]

end PermittedDemo

-- bob may mint in one of the collections only
example : MorePermitted Demo.s1 PermittedDemo.more ∧ hasPermission Demo.s1.perms PermittedDemo.bob .minting = false ∧
    hasPermission PermittedDemo.more.perms PermittedDemo.bob .minting = true :=
  ⟨⟨rfl, fun p x h => by
    show hasPermission (grantPermission Demo.s1.perms PermittedDemo.bob .minting) p x = true
    rw [hasPermission_grant, h]; rfl⟩, by decide, by decide⟩

-- nobody is rejected, and all four messages succeed
example : (replies Demo.env Demo.s1 PermittedDemo.story).all (fun r => match r with
    | .batch [.ok _] => true | .mgmt (.ok _) => true | _ => false) = true := by decide

-- the collections differ in bob, who makes no management call
example : SameButFor PermittedDemo.bob Demo.s1 PermittedDemo.more :=
  ⟨rfl, fun p hp => by
    show (grantPermission Demo.s1.perms PermittedDemo.bob .minting).get p = _
    exact Map.get_set_ne _ _ (by simpa using hp.symm)⟩

example : ∀ m ∈ PermittedDemo.story, needsOf PermittedDemo.bob m = false := by decide

-- the door that is opened: bob's mint
example : (match (step Demo.env Demo.s1 (.call PermittedDemo.bob (Demo.ms 230) (.mint [{ owner := Demo.bob }]))).2,
      (step Demo.env PermittedDemo.more (.call PermittedDemo.bob (Demo.ms 230) (.mint [{ owner := Demo.bob }]))).2 with
    | .rejected, .mgmt (.ok _) => true
    | _, _ => false) = true := by decide

end Verif.Spec
