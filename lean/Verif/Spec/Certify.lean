import Verif.Model.Certify
import Verif.Spec.Web
/-!
# Vocabulary of certified data
-/
namespace Verif.Spec

variable {H : Type}

/-- The tip certificate verifies: the certified datum is the root of the tree with the
last block of the log. -/
def TipVerifies (s : State H) (c : Cert) : Prop := c.data = .tip s.log

/-- The answer to a request for a page verifies: the certified datum is the root of a page
tree with which a verifying gateway accepts the answer. -/
def PageVerifies (s : State H) (c : Cert) (path : String) : Prop :=
  ∃ t, c.data = .pages t ∧ Accepts s ⟨c.skips, t⟩ path

/-- The event stores the root of the page tree: an upload is finalized, or an upgrade with
at least one redirection. -/
def CertifiesPages (s : State H) : CertEvent → Prop
  | .certifyTip => False
  | .msg .upgrade => s.redirects.entries ≠ []
  | .msg m => addsRedirection s m = true

/-- None of the events, one after the other, stores the root of the page tree. -/
def NoPages (E : Env H) (s : State H) : List CertEvent → Prop
  | [] => True
  | e :: es => ¬ CertifiesPages s e ∧ NoPages E (eventStep E s e) es

/-- None of the events adds a block to the log. -/
def NoBlocks (E : Env H) (s : State H) : List CertEvent → Prop
  | [] => True
  | e :: es => (eventStep E s e).log = s.log ∧ NoBlocks E (eventStep E s e) es

/-- The messages among the events. -/
def messages : List CertEvent → List Msg
  | [] => []
  | .certifyTip :: es => messages es
  | .msg m :: es => m :: messages es

end Verif.Spec
