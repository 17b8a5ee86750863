import Verif.Lemmas.Change
import Verif.Spec.Spelling
/-!
# Spelling accounts: helper lemmas
-/
namespace Verif.Spec

variable {H : Type}

theorem plain_worlds {E : Env H} (h : SpellingBlind E.ledger) : plain.Worlds E E := ⟨h, rfl, fun _ => rfl⟩

end Verif.Spec
