import Verif.Spec.Errors
/-!
# Calls on a token, as the caller sees them (C24)
-/
namespace Verif.Spec

variable {H : Type}

/-- Was the item accepted? -/
def okB (r : Except TokErr Nat) : Bool := match r with | .ok _ => true | .error _ => false

/-- The number of items of a batch on `tid` answered `Ok`. -/
def okCount {A : Type} (key : A → Nat) (tid : Nat) (args : List A) (rs : List (Except TokErr Nat)) : Nat :=
  ((args.zip rs).filter fun p => decide (key p.1 = tid) && okB p.2).length

/-- The number of calls on `tid` a message got accepted: items answered `Ok`; a
revocation of token approvals counts as one call on its first token; collection
approvals and their revocations count as calls on token 0. -/
def acceptedCount (tid : Nat) : Msg → Reply → Nat
  | .call _ _ (.transfer args), .batch rs => okCount TransferArg.tid tid args rs
  | .call _ _ (.approveTokens args), .batch rs => okCount ApproveTokenArg.tid tid args rs
  | .call _ _ (.transferFrom args), .batch rs => okCount TransferFromArg.tid tid args rs
  | .call _ _ (.revokeTokens (a :: _)), .batch _ => if a.tid = tid then 1 else 0
  | .call _ _ (.approveCollection args), .batch rs => okCount (fun _ => 0) tid args rs
  | .call _ _ (.revokeCollection args), .batch rs => okCount (fun _ => 0) tid args rs
  | _, _ => 0

/-- The number of calls on `tid` a message makes, accepted or not. -/
def askedCount (tid : Nat) : Call → Nat
  | .transfer args => args.countP fun a => decide (a.tid = tid)
  | .approveTokens args => args.countP fun a => decide (a.tid = tid)
  | .transferFrom args => args.countP fun a => decide (a.tid = tid)
  | .revokeTokens (a :: _) => if a.tid = tid then 1 else 0
  | .approveCollection args => if tid = 0 then args.length else 0
  | .revokeCollection args => if tid = 0 then args.length else 0
  | _ => 0

/-- The times of the accepted calls on `tid` in a history. -/
def acceptedTimes (E : Env H) (tid : Nat) : State H → List Msg → List Nat
  | _, [] => []
  | s, m :: ms =>
    (match m with
      | .call _ now _ => List.replicate (acceptedCount tid m (step E s m).2) now
      | _ => []) ++ acceptedTimes E tid (step E s m).1 ms

/-- The times of the calls on `tid` in a history, accepted or not. -/
def askedTimes (tid : Nat) : List Msg → List Nat
  | [] => []
  | .call _ now call :: ms => List.replicate (askedCount tid call) now ++ askedTimes tid ms
  | _ :: ms => askedTimes tid ms

/-- The times of the calls of a history. -/
def callTimes : List Msg → List Nat
  | [] => []
  | .call _ now _ :: ms => now :: callTimes ms
  | _ :: ms => callTimes ms

/-- The number of elements of `l` in `[t, t + 60 ms)`. -/
def inInterval (l : List Nat) (t : Nat) : Nat := l.countP fun x => decide (t ≤ x) && decide (x < t + 60000000)

end Verif.Spec
