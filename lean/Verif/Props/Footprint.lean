import Verif.Lemmas.Footprint
import Verif.Props.Demo
/-!
# C114: what the collection stores is in proportion to its log
-/
namespace Verif.Spec

variable {H : Type}

/-- There are at most as many tokens as the log has mints, and at most as many rows in the
index of owners as it has mints and transfers. -/
theorem C114_tokens {E : Env H} {s : State H} (h : Reachable E s) :
    s.tokens.entries.length ≤ logCount .mint s.log ∧
    s.byOwner.entries.length ≤ logCount .mint s.log + logCount .xfer s.log + logCount .xferFrom s.log :=
  ⟨h.housed.tok, h.housed.rows⟩

/-- The rows of the tables of approvals are at most twice the approvals in the log: one row
for the approval, and one for the token or account it is the first of. -/
theorem C114_approvals {E : Env H} {s : State H} (h : Reachable E s) :
    approvalRows s.tokAppr ≤ 2 * logCount .approve s.log ∧
    approvalRows s.collAppr ≤ 2 * logCount .approveColl s.log :=
  ⟨h.paid.tok, h.paid.coll⟩

/-- Whoever makes the collection store something leaves an entry in the log: everything it
knows about tokens, owners and approvals is at most twice as long as the log. -/
theorem C114_total {E : Env H} {s : State H} (h : Reachable E s) :
    s.tokens.entries.length + s.byOwner.entries.length + approvalRows s.tokAppr + approvalRows s.collAppr ≤
      2 * s.log.length := by
  obtain ⟨h1, h2⟩ := C114_tokens h
  obtain ⟨h3, h4⟩ := C114_approvals h
  have h5 := logCount_total s.log
  omega

/-- The rate limiter remembers at most five calls of a token. -/
theorem C114_limiter {E : Env H} {s : State H} (h : Reachable E s) (tid : Nat) {calls : List Nat}
    (hw : s.windows.get tid = some calls) : calls.length ≤ 5 := by
  have := h.windows tid
  simpa [winOf, hw] using this

/-- Three mints and an approval: the bound on approvals is met. -/
example : Reachable Demo.env (run Demo.env Demo.s0 [Demo.mintMsg, Demo.approveMsg]) ∧
    (run Demo.env Demo.s0 [Demo.mintMsg, Demo.approveMsg]).tokens.entries.length = 3 ∧
    approvalRows (run Demo.env Demo.s0 [Demo.mintMsg, Demo.approveMsg]).tokAppr = 2 ∧
    (run Demo.env Demo.s0 [Demo.mintMsg, Demo.approveMsg]).log.length = 4 :=
  ⟨Demo.reach _, by decide, by decide, by decide⟩

/-- A token that has changed hands leaves a row behind, in proportion to the transfers. -/
example : (run Demo.env Demo.s0 [Demo.mintMsg, .call [1] (Demo.ms 200) (.transfer [{ to_ := Demo.carol, tid := 1 }])]).byOwner.entries.length = 3 ∧
    logCount .xfer (run Demo.env Demo.s0 [Demo.mintMsg, .call [1] (Demo.ms 200) (.transfer [{ to_ := Demo.carol, tid := 1 }])]).log = 1 :=
  ⟨by decide, by decide⟩

/-- A call the limiter remembers. -/
example : (run Demo.env Demo.s0 [Demo.mintMsg, Demo.sendMsg]).windows.get 1 = some [Demo.ms 200] := by decide

end Verif.Spec
