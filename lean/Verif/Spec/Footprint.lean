import Verif.Spec.Basic
/-!
# How much the collection stores
-/
namespace Verif.Spec

variable {H : Type}

/-- How many entries of a kind the transaction log has. -/
def logCount (op : Op) (log : List Tx) : Nat := (log.filter fun t => t.op = op).length

/-- The rows of a table of approvals: one for every token (or account) with a table of its
own, and one for every approval in these. -/
def approvalRows {K : Type} (t : Map K (Map Account Approval)) : Nat :=
  (t.entries.map fun e => 1 + e.2.entries.length).sum

end Verif.Spec
