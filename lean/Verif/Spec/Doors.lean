import Verif.Spec.Roomier
/-!
# Additional approvals
-/
namespace Verif.Spec

variable {H : Type}

/-- The second approval lasts at least as long as the first: whenever it has expired, so has the
first. -/
def Outlasts (a a' : Approval) : Prop := ∀ e', a'.expiresAt = some e' → ∃ e, a.expiresAt = some e ∧ e ≤ e'

/-- Everybody approved in the first table is approved in the second, for at least as long. -/
def Covers (m m' : Map Account Approval) : Prop := ∀ x a, m.get x = some a → ∃ a', m'.get x = some a' ∧ Outlasts a a'

/-- The second collection differs from the first at most in approvals: it has more of them, or
longer ones. -/
structure MoreApproved (s s' : State H) : Prop where
  tokens : ∀ tid m, s.tokAppr.get tid = some m → ∃ m', s'.tokAppr.get tid = some m' ∧ Covers m m'
  collections : ∀ a m, s.collAppr.get a = some m → ∃ m', s'.collAppr.get a = some m' ∧ Covers m m'
  ids : ∀ tid m, s'.tokAppr.get tid = some m → tid < 2 ^ 64
  rest : s' = { s with tokAppr := s'.tokAppr, collAppr := s'.collAppr }

/-- The approval of `x` for the token, if there is one. -/
def tokenApproval (s : State H) (tid : Nat) (x : Account) : Option Approval := (s.tokAppr.get tid).bind (·.get x)

/-- The approval of `x` for the tokens of `a`, if there is one. -/
def collectionApproval (s : State H) (a x : Account) : Option Approval := (s.collAppr.get a).bind (·.get x)

/-- The two collections differ at most in approvals given to `p`. -/
structure SameButApprovalsOf (p : Principal) (s s' : State H) : Prop where
  tokens : ∀ tid x, x.owner ≠ p → tokenApproval s' tid x = tokenApproval s tid x
  collections : ∀ a x, x.owner ≠ p → collectionApproval s' a x = collectionApproval s a x
  rest : s' = { s with tokAppr := s'.tokAppr, collAppr := s'.collAppr }

/-- The message gives an approval. -/
def givesApproval : Msg → Bool
  | .call _ _ (.approveTokens _) => true
  | .call _ _ (.approveCollection _) => true
  | _ => false

/-- The message takes an approval back. -/
def takesApproval : Msg → Bool
  | .call _ _ (.revokeTokens _) => true
  | .call _ _ (.revokeCollection _) => true
  | _ => false

/-- The message moves tokens of others, and `p` sends it. -/
def movesFor (p : Principal) : Msg → Bool
  | .call c _ (.transferFrom _) => c == p
  | _ => false

/-- If the message uses or takes back approvals, it was done in full. -/
def ApprovalsUsed (m : Msg) (r : Reply) : Prop :=
  match m with
  | .call _ _ (.transferFrom args) => AllDone args.length r
  | .call _ _ (.revokeTokens args) => AllDone args.length r
  | .call _ _ (.revokeCollection args) => AllDone args.length r
  | _ => True

end Verif.Spec
