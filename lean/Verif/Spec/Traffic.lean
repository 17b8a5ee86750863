import Verif.Model.Traffic
import Verif.Spec.Commands
/-!
# Requests to storage canisters: what the properties say
-/
namespace Verif.Spec

open Verif

/-- A request is made again until it is answered, at most `tries` times: `n` attempts. -/
def Attempts {α : Type} (tries : Nat) (out : Nat → Option α) (n : Nat) : Prop :=
  n ≤ tries ∧ (∀ j, j + 1 < n → out j = none) ∧ (n < tries → ∃ k, n = k + 1 ∧ out k ≠ none)

/-- The first of the attempts that is answered is answered with yes. -/
def Consented (tries : Nat) (out : Nat → Option (Except StorageErr Unit)) : Prop :=
  ∃ k, k < tries ∧ (∀ j, j < k → out j = none) ∧ out k = some (.ok ())

/-- The path an upload call is about. -/
def pathOf : UploadArgs → String
  | .init path _ _ _ | .store path _ _ | .finalize path | .cancel path => path

/-- The suspended call was made with these arguments. -/
def MadeWith : UploadArgs → Pending → Prop
  | .init path size _ _, .init _ path' size' _ => path' = path ∧ size' = size
  | .store path _ _, .store _ path' _ => path' = path
  | .finalize path, .finalize _ path' _ => path' = path
  | .cancel path, .cancel _ path' _ => path' = path
  | _, _ => False

/-- Every element of the first list, in order, once or several times in a row. -/
inductive Repeats {α : Type} : List α → List α → Prop
  | nil : Repeats [] []
  | more (n : Nat) (x : α) {l r : List α} (h : Repeats l r) : Repeats (x :: l) (List.replicate (n + 1) x ++ r)

end Verif.Spec
