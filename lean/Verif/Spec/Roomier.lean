import Verif.Spec.Limits
/-!
# Larger limits
-/
namespace Verif.Spec

variable {H : Type}

/-- The second collection differs from the first at most in its settings, and each of its limits
is as large or larger. -/
structure Roomier (s s' : State H) : Prop where
  cap : Cap s ≤ Cap s'
  batch : BatchLimit s ≤ BatchLimit s'
  memo : MemoLimit s ≤ MemoLimit s'
  window : Window s ≤ Window s'
  drift : Drift s ≤ Drift s'
  approvals : s.cfg.maxApprovals.getD 10 ≤ s'.cfg.maxApprovals.getD 10
  revocations : s.cfg.maxRevoke.getD 10 ≤ s'.cfg.maxRevoke.getD 10
  atomic : s'.cfg.atomicBatch = s.cfg.atomicBatch
  rest : s' = { s with cfg := s'.cfg }

/-- The limits are not beyond the numbers the code converts them to, and sums of times do not
wrap around at 64 bits. -/
structure Workable (s : State H) (now : Nat) : Prop where
  batch : BatchLimit s < 2 ^ 32
  memo : MemoLimit s < 2 ^ 32
  approvals : s.cfg.maxApprovals.getD 10 < 2 ^ 32
  revocations : s.cfg.maxRevoke.getD 10 < 2 ^ 32
  times : now + (Window s + Drift s) < 2 ^ 64

/-- The reply lists a success for each of `n` items. -/
def AllDone (n : Nat) (r : Reply) : Prop := ∃ rs, r = .batch rs ∧ rs.length = n ∧ ∀ x ∈ rs, ∃ i, x = .ok i

/-- A call on which limits are set was done in full. (Other messages may get any answer.) -/
def WentThrough (m : Msg) (r : Reply) : Prop :=
  match m with
  | .call _ _ (.transfer args) => AllDone args.length r
  | .call _ _ (.approveTokens args) => AllDone args.length r
  | .call _ _ (.approveCollection args) => AllDone args.length r
  | .call _ _ (.revokeTokens args) => AllDone args.length r
  | .call _ _ (.revokeCollection args) => AllDone args.length r
  | .call _ _ (.transferFrom args) => AllDone args.length r
  | .call _ _ (.mint _) => (∃ x, r = .mgmt (.ok x)) ∨ r = .rejected
  | _ => True

/-- Every call of the history on which limits are set was done in full. -/
def AllWentThrough (E : Env H) (s : State H) (msgs : List Msg) : Prop :=
  ∀ p ∈ msgs.zip (replies E s msgs), WentThrough p.1 p.2

/-- The history changes no settings. -/
def KeepsSettings (msgs : List Msg) : Prop := ∀ c now a, .call c now (.updateCollectionMetadata a) ∉ msgs

end Verif.Spec
