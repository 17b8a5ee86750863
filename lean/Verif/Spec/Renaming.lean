import Verif.Spec.Change
/-!
# Renaming principals

Core of "the collection plays no favourites": nothing in the code may depend on
*which* principal it is dealing with.
-/
namespace Verif.Spec

variable {H : Type}

/-- A permutation of the principals that keeps the anonymous principal;
subaccounts stay as they are spelled. -/
structure Renaming extends Change where
  kept : ∀ b, respell b = b

namespace Renaming

/-- The renaming undone. -/
def symm (r : Renaming) : Renaming where
  to := r.back
  back := r.to
  back_to := r.to_back
  to_back := r.back_to
  anon := by rw [← r.anon, r.back_to, r.anon]
  respell := r.respell
  respell_none := r.respell_none
  respell_eff := r.respell_eff
  kept := r.kept

/-- The same ledger for renamed people: it answers a transaction as the old one
answers the transaction with the names undone. -/
def ledger (r : Renaming) (L : Ledger H) : Ledger H := ⟨fun h t => L.add h (r.symm.tx t)⟩

/-- The same world for renamed people. -/
def env (r : Renaming) (E : Env H) : Env H :=
  { ledger := r.ledger E.ledger, self := r.to E.self, text := fun p => E.text (r.back p) }

/-- Two people change places. -/
def swapped (a b p : Principal) : Principal := if p = a then b else if p = b then a else p

theorem swapped_swapped (a b p : Principal) : swapped a b (swapped a b p) = p := by
  unfold swapped
  by_cases ha : p = a <;> by_cases hb : p = b
  · simp_all
  · subst ha; by_cases hab : b = p <;> simp_all
  · subst hb; simp_all
  · simp_all

/-- Two people change places; neither is anonymous. -/
def swap (a b : Principal) (ha : a ≠ anonymous) (hb : b ≠ anonymous) : Renaming where
  to := swapped a b
  back := swapped a b
  back_to := swapped_swapped a b
  to_back := swapped_swapped a b
  anon := by simp [swapped, ha.symm, hb.symm]
  respell := fun b => b
  respell_none := rfl
  respell_eff := fun _ => rfl
  kept := fun _ => rfl

end Renaming

/-- Nobody in the table of approvals is `p`. -/
def AbsentIn (m : Map Account Approval) (p : Principal) : Prop :=
  ∀ e ∈ m.entries, e.1.owner ≠ p ∧ e.2.spender.owner ≠ p ∧ e.2.from_.owner ≠ p

/-- The suspended call has nothing to do with `p`. -/
def AbsentFrom (p : Principal) : Pending → Prop
  | .init c _ _ subs => c ≠ p ∧ ∀ x ∈ subs, x.id ≠ p
  | .store c _ u | .finalize c _ u | .cancel c _ u => c ≠ p ∧ u.canister ≠ p

/-- `p` is unknown to the collection: it occurs nowhere in the state. -/
structure Absent (s : State H) (p : Principal) : Prop where
  perms : ∀ e ∈ s.perms.entries, e.1 ≠ p
  tokens : ∀ e ∈ s.tokens.entries, e.2.owner.owner ≠ p
  byOwner : ∀ e ∈ s.byOwner.entries, e.1.owner ≠ p
  subs : ∀ c ∈ s.subs, c.id ≠ p
  guards : ∀ q ∈ s.guards, q ≠ p
  uploads : ∀ e ∈ s.uploads.entries, e.2.canister ≠ p
  tokAppr : ∀ e ∈ s.tokAppr.entries, AbsentIn e.2 p
  collAppr : ∀ e ∈ s.collAppr.entries, e.1.owner ≠ p ∧ AbsentIn e.2 p
  log : ∀ t ∈ s.log, ∀ a, t.from_ = some a ∨ t.to_ = some a ∨ t.spender = some a → a.owner ≠ p
  pending : ∀ x ∈ s.pending, AbsentFrom p x

end Verif.Spec
