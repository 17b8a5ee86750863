import Verif.Spec.Change
/-!
# Spelling accounts

An account with the default subaccount can be written in two ways: without a
subaccount, or with 32 zero bytes. Here everything is rewritten in the first way.
-/
namespace Verif.Spec

/-- A subaccount in its plain spelling: 32 zero bytes are left out. -/
def plainSub (b : Option Subaccount) : Option Subaccount := if b = some zeroSub then none else b

/-- Everything in its plain spelling, principals as they are. -/
def plain : Change where
  to := fun p => p
  back := fun p => p
  back_to := fun _ => rfl
  to_back := fun _ => rfl
  anon := rfl
  respell := plainSub
  respell_none := rfl
  respell_eff := fun b => by
    unfold plainSub
    split
    · next h => rw [h]; rfl
    · rfl

/-- The transaction log does not look at the spelling of accounts. -/
def SpellingBlind {H : Type} (L : Ledger H) : Prop := ∀ h t, L.add h (plain.tx t) = L.add h t

end Verif.Spec
