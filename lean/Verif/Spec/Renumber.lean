import Verif.Spec.Change
/-!
# Renumbering tokens

A renumbering permutes the numbers of the tokens that exist. It keeps 0, which is
no token's number, and every number that has not been given out yet. What contains
token numbers is renumbered piece by piece; accounts, texts, memos and times stay.
-/
namespace Verif.Spec

variable {H : Type}

/-- A permutation of the token numbers below `next`; 0 stays, and so do the numbers from `next` on. -/
structure Renumbering where
  next : Nat
  to : Nat → Nat
  back : Nat → Nat
  back_to : ∀ n, back (to n) = n
  to_back : ∀ n, to (back n) = n
  zero : to 0 = 0
  above : ∀ n, next ≤ n → to n = n
  word : next ≤ 2 ^ 64

namespace Renumbering

/-- A row of the token table. -/
def token (r : Renumbering) (t : Token) : Token := { t with id := r.to t.id }

/-- A recorded transaction. -/
def tx (r : Renumbering) (t : Tx) : Tx := { t with tid := t.tid.map r.to }

/-- The whole state. -/
def state (r : Renumbering) (s : State H) : State H :=
  { s with tokens := Change.map r.to r.token s.tokens
           byOwner := Change.map id (fun l => l.map r.to) s.byOwner
           windows := Change.map r.to id s.windows
           tokAppr := Change.map r.to id s.tokAppr
           mdata := Change.map r.to id s.mdata
           log := s.log.map r.tx }

/-- The renumbering undone. -/
def symm (r : Renumbering) : Renumbering where
  next := r.next
  to := r.back
  back := r.to
  back_to := r.to_back
  to_back := r.back_to
  zero := by have := r.back_to 0; rwa [r.zero] at this
  above := fun n h => by have := r.back_to n; rwa [r.above n h] at this
  word := r.word

/-- The same ledger for renumbered tokens: it answers a transaction as the old one answers the
transaction with the old number. -/
def ledger (r : Renumbering) (L : Ledger H) : Ledger H := ⟨fun h t => L.add h (r.symm.tx t)⟩

/-- The same world for renumbered tokens. -/
def env (r : Renumbering) (E : Env H) : Env H := { E with ledger := r.ledger E.ledger }

/-- A call. -/
def call (r : Renumbering) : Call → Call
  | .transfer args => .transfer (args.map fun a => { a with tid := r.to a.tid })
  | .approveTokens args => .approveTokens (args.map fun a => { a with tid := r.to a.tid })
  | .revokeTokens args => .revokeTokens (args.map fun a => { a with tid := r.to a.tid })
  | .transferFrom args => .transferFrom (args.map fun a => { a with tid := r.to a.tid })
  | .updateNftMetadata tid kvs => .updateNftMetadata (r.to tid) kvs
  | .burn tid => .burn (r.to tid)
  | c => c

/-- A message. -/
def msg (r : Renumbering) : Msg → Msg
  | .call caller now c => .call caller now (r.call c)
  | m => m

/-- A reply: the number of the token that was minted or updated is the only token number in it. -/
def reply (r : Renumbering) : Reply → Reply
  | .mgmt (.ok (.id n)) => .mgmt (.ok (.id (r.to n)))
  | x => x

/-- Two tokens change numbers. -/
def swapped (a b n : Nat) : Nat := if n = a then b else if n = b then a else n

theorem swapped_swapped (a b n : Nat) : swapped a b (swapped a b n) = n := by
  unfold swapped
  by_cases ha : n = a <;> by_cases hb : n = b
  · simp_all
  · subst ha; by_cases hab : b = n <;> simp_all
  · subst hb; simp_all
  · simp_all

/-- Two existing tokens change numbers. -/
def swap (next a b : Nat) (ha : 0 < a ∧ a < next) (hb : 0 < b ∧ b < next) (hw : next ≤ 2 ^ 64) : Renumbering where
  next := next
  to := swapped a b
  back := swapped a b
  back_to := swapped_swapped a b
  to_back := swapped_swapped a b
  zero := by
    have h1 : (0 : Nat) ≠ a := by omega
    have h2 : (0 : Nat) ≠ b := by omega
    simp [swapped, h1, h2]
  above := fun n h => by
    have h1 : n ≠ a := by omega
    have h2 : n ≠ b := by omega
    simp [swapped, h1, h2]
  word := hw

end Renumbering

end Verif.Spec
