import Verif.Model.Web
import Verif.Spec.Index
/-!
# From the records of the collection to the blocks of the index

The collection hands each record to the ICRC-3 library, which keeps it as a block;
the index reads the blocks. The library (external crate) is not modelled. What the
properties need of its block format is stated here as a condition on the chain.
-/
namespace Verif.Spec

variable {H : Type}

/-- How an account appears in a block that the index can read: the text of its
principal if it is a default account; the text of any other account is not the text
of a principal. -/
def shownAccount (a : Account) : Option Account :=
  if a.sub.getD (List.replicate 32 0) = List.replicate 32 0 then some ⟨a.owner, none⟩ else none

/-- Block `i` of the chain `L` shows record `i` of the collection, for all of them:
its type, its token, its sender, recipient and spender. -/
structure Publishes (parse : ParsePrincipal) (log : List Tx) (L : Chain) : Prop where
  type_ : ∀ i r, log[i]? = some r → typeText ⟨i, L i⟩ = some r.op.name
  token : ∀ i r, log[i]? = some r → tokenIn ⟨i, L i⟩ = r.tid
  from_ : ∀ i r, log[i]? = some r → partyIn parse ⟨i, L i⟩ "from" = r.from_.bind shownAccount
  to_ : ∀ i r, log[i]? = some r → partyIn parse ⟨i, L i⟩ "to" = r.to_.bind shownAccount
  spender : ∀ i r, log[i]? = some r → partyIn parse ⟨i, L i⟩ "spender" = r.spender.bind shownAccount

/-- Record `r` names account `a` as sender, recipient or spender. -/
def namesAccount (r : Tx) (a : Account) : Prop :=
  ∃ p, (r.from_ = some p ∨ r.to_ = some p ∨ r.spender = some p) ∧ SameAccount p a

/-- The records that say who owns a token. -/
def changesOwner (r : Tx) : Prop := r.op = .mint ∨ r.op = .xfer ∨ r.op = .xferFrom ∨ r.op = .burn

/-- A default account: no subaccount, or the one of 32 zero bytes. -/
def DefaultAccount (a : Account) : Prop := a.sub.getD (List.replicate 32 0) = List.replicate 32 0

instance (a : Account) : Decidable (DefaultAccount a) := inferInstanceAs (Decidable (_ = _))

end Verif.Spec
