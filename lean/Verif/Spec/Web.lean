import Verif.Model.Web
import Verif.Spec.Basic
/-!
# Vocabulary of the web pages
-/
namespace Verif.Spec

variable {H : Type}

/-- Two certification trees with the same entries, that is, with the same root hash. -/
def SameTree (a b : CertTree) : Prop :=
  (∀ p, p ∈ a.skips ↔ p ∈ b.skips) ∧ ∀ p, a.redirects.get p = b.redirects.get p

/-- An HTTP gateway that verifies certificates accepts the answer to a request for
`path`: the tree the answer comes with is the certified one, the witness in the
answer is for the requested path, and the tree has an entry for that path that
covers the answer. -/
def Accepts (s : State H) (w : Web) (path : String) : Prop :=
  SameTree (w.tree s) w.certified ∧
  witnessedPath path (httpRequest s path) = some path ∧
  match httpRequest s path with
  | .redirect u => (w.tree s).redirects.get path = some u
  | .trapped => False
  | .logs | .traces | .metrics => path ∈ (w.tree s).skips

/-- The canister and its web state after some history. -/
def WebReachable (E : Env H) (s : State H) (w : Web) : Prop :=
  ∃ validUrl hid caller a s₀ msgs, init validUrl hid caller a = some s₀ ∧
    run E s₀ msgs = s ∧ webRun E s₀ webInit msgs = w

end Verif.Spec
