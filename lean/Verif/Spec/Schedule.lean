import Verif.Spec.Independence
/-!
# The order of calls about different tokens (C97)
-/
namespace Verif.Spec

variable {H : Type}

/-- A call about one token. -/
structure Entry where
  tid : Nat
  caller : Principal
  now : Nat
  call : Call

def Entry.msg (e : Entry) : Msg := .call e.caller e.now e.call

/-- Every call transfers its token, approves spenders for it, revokes their approvals or burns
it, and does nothing else. -/
def HolderCalls (w : List Entry) : Prop := ∀ e ∈ w, OnlyAbout e.tid e.call ∨ e.call = .burn e.tid

/-- The calls about one token, in their order. -/
def queue (tid : Nat) (w : List Entry) : List Entry := w.filter fun e => e.tid = tid

/-- Two schedules of the same calls that keep the order of the calls about each token. -/
def SameQueues (w w' : List Entry) : Prop := ∀ tid, queue tid w = queue tid w'

/-- The replies to the calls about one token, in their order. -/
def repliesAbout (E : Env H) (tid : Nat) (s : State H) : List Entry → List Reply
  | [] => []
  | e :: w =>
    if e.tid = tid then (step E s e.msg).2 :: repliesAbout E tid (step E s e.msg).1 w
    else repliesAbout E tid (step E s e.msg).1 w

/-- The same replies in the same order, up to the numbers of the records. -/
inductive SameReplies : List Reply → List Reply → Prop
  | nil : SameReplies [] []
  | cons {r r' rs rs'} : SameReply r r' → SameReplies rs rs' → SameReplies (r :: rs) (r' :: rs')

end Verif.Spec
