import Verif.Model.System
/-!
# Uploads of other files
-/
namespace Verif.Spec

variable {H : Type}

/-- How a call that had to wait comes to its end: the answer arrives, or the method traps on it. -/
inductive Ending where
  | answered (now : Nat) (ans : Answer)
  | trapped

/-- One thing done to the collection: a call, together with what ends it if it has to wait for
another canister; or an upgrade. -/
inductive Deed where
  | call (caller : Principal) (now : Nat) (c : Call) (ending : Ending)
  | upgrade

/-- The message that ends the only waiting call; there is nothing to end if no call waits. -/
def Ending.msg : Ending → Msg
  | .answered now ans => .resume now 0 ans
  | .trapped => .resumeTrap 0

/-- The messages of a deed. -/
def Deed.msgs : Deed → List Msg
  | .call caller now c ending => [.call caller now c, ending.msg]
  | .upgrade => [.upgrade]

/-- The collection after the deeds, one after the other. -/
def afterDeeds (E : Env H) (s : State H) (l : List Deed) : State H := run E s (l.flatMap Deed.msgs)

/-- What is answered to each of the deeds. -/
def deedReplies (E : Env H) : State H → List Deed → List (Deed × List Reply)
  | _, [] => []
  | s, d :: l => (d, replies E s d.msgs) :: deedReplies E (run E s d.msgs) l

/-- The file an upload call is about. -/
def fileOf : Call → Option String
  | .initUpload path _ => some path
  | .storeChunk path => some path
  | .finalizeUpload path => some path
  | .cancelUpload path => some path
  | _ => none

/-- The deed is an upload call about another file. -/
def aboutOther (path : String) : Deed → Bool
  | .call _ _ c _ => match fileOf c with
    | some p => p != path
    | none => false
  | .upgrade => false

/-- The two collections differ at most in the uploads of files other than `path`: in the other
entries of the upload table, the storage canisters, and the redirections. -/
structure SameButOtherFiles (path : String) (s s' : State H) : Prop where
  file : s'.uploads.get path = s.uploads.get path
  rest : s' = { s with uploads := s'.uploads, subs := s'.subs, redirects := s'.redirects, router := s'.router }

end Verif.Spec
