import Verif.Spec.Basic
/-!
# C125: what two collections with one log have in common

Two collections are compared by what they answer. Their settings may differ, and with
them the limits on the size of an answer: nothing is asked of a query that one of the two
refuses.
-/
namespace Verif.Spec

variable {H H' : Type}

/-- Two answers agree if they are equal, where both are given. -/
def Agree {A : Type} (x y : Option A) : Prop := ∀ a b, x = some a → y = some b → a = b

/-- The two collections give the same answers to everyone who asks about holdings. The
page size of a listing is named in the request; unnamed it is a setting. -/
structure SameHoldings (s : State H) (s' : State H') : Prop where
  owner_of : ∀ ids, Agree (icrc7OwnerOf s ids) (icrc7OwnerOf s' ids)
  supply : totalSupply s = totalSupply s'
  balance_of : ∀ accounts, Agree (icrc7BalanceOf s accounts) (icrc7BalanceOf s' accounts)
  tokens : ∀ prev n, Agree (icrc7Tokens s prev (some n)) (icrc7Tokens s' prev (some n))
  tokens_of : ∀ a prev n, Agree (icrc7TokensOf s a prev (some n)) (icrc7TokensOf s' a prev (some n))

end Verif.Spec
