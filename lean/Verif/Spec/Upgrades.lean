import Verif.Spec.Rearranged
/-!
# Histories with upgrades in between
-/
namespace Verif.Spec

variable {H : Type}

/-- A history during which the canister is upgraded any number of times at moments when no
call waits for an answer: `UpgradedRun E s msgs answers t` leads from `s` to `t`. The
upgrades are not listed among the messages. Every upgrade builds the hash tables anew, in
any order. -/
inductive UpgradedRun (E : Env H) : State H → List Msg → List Reply → State H → Prop where
  | nil {s} : UpgradedRun E s [] [] s
  | message {s s₁ t msg r msgs rs} : step E s msg = (s₁, r) → UpgradedRun E s₁ msgs rs t →
      UpgradedRun E s (msg :: msgs) (r :: rs) t
  | upgraded {s s₁ t msgs rs} : s.pending = [] → SameTables (step E s .upgrade).1 s₁ → UpgradedRun E s₁ msgs rs t →
      UpgradedRun E s msgs rs t

end Verif.Spec
