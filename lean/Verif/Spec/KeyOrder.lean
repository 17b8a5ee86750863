import Verif.Spec.History
/-!
# Specification: the order of a metadata listing (C95)
-/
namespace Verif.Spec

variable {H : Type}

/-- The keys strictly ascend: in order, and none twice. -/
def Ascending (l : List (String × Value)) : Prop := l.Pairwise fun a b => a.1 < b.1

/-- Two lists of pairs write the same thing: each key gets the same last value, if any. -/
def SameContent (a b : List (String × Value)) : Prop := ∀ k, lastValue a k = lastValue b k

end Verif.Spec
