import Verif.Model.System
import Verif.Model.Queries
/-!
# The repository's integration tests, run on the model

These files say nothing about all executions: each theorem runs one of the
repository's own tests on the model and checks what the test asserts. They are
evidence that the model behaves like the program, and no part of the proofs of
the properties.

This file: the set-up of integrations_tests/src/core_suite/setup/mod.rs and
helpers. What the tests assert of certificates, archives and cycles is outside
the model.
-/
namespace Verif.Conformance

/-- A ledger that accepts everything and numbers transactions from 1, as
test_icrc7.rs 3293-3299 observes (a transfer after one mint gets index 2). -/
def ledger : Ledger Nat := ⟨fun h _ => (h + 1, .ok (h + 1))⟩

def env : Env Nat := ⟨ledger, [9], fun _ => "aaaaa-aa"⟩

def controller : Principal := [7]
def p1 : Principal := [1]
def p2 : Principal := [2]
def p3 : Principal := [3]
def p4 : Principal := [14]
def stranger : Principal := [5]
def owner1 : Account := ⟨p1, none⟩
def owner2 : Account := ⟨p2, none⟩
def owner3 : Account := ⟨p3, none⟩
def owner4 : Account := ⟨p4, none⟩

/-- core_suite/setup/mod.rs 11-52 `default_test_setup`. -/
def defaultArgs : InitArgs :=
  { testMode := true
    perms := ⟨[(controller, [.minting, .manageAuthorities, .updateMetadata, .updateCollectionMetadata,
      .readUploads, .updateUploads])]⟩
    symbol := "MC", name := "MyCollection", supplyCap := some 10, maxApprovals := some 10, maxRevoke := some 10 }

/-- core_suite/setup/mod.rs 55-96 `test_setup_atomic_batch_transfers`. -/
def atomicArgs : InitArgs := { defaultArgs with supplyCap := none, atomicBatch := some true }

/-- core_suite/setup/mod.rs 98-140 `test_setup_no_limit`. -/
def noLimitArgs : InitArgs := { defaultArgs with supplyCap := none }

/-- The installation by the controller. -/
def install (a : InitArgs) : Option (State Nat) := init (fun _ => true) 0 controller a

def start : State Nat := (install defaultArgs).get rfl
def startNoLimit : State Nat := (install noLimitArgs).get rfl
def startAtomic : State Nat := (install atomicArgs).get rfl

/-- PocketIC's clock, `n` milliseconds after the set-up. -/
def at_ (n : Nat) : Nat := 1620328630000000000 + n * 1000000

/-- Minutes, in milliseconds. -/
def minute (n : Nat) : Nat := n * 60000

/-- client/core_nft.rs `mint_nft`: one request with the memo "memo". -/
def mintNft (n : Nat) (who : Account) (md : List (String × Value) := [("name", .text "test")]) : Msg :=
  .call controller (at_ n) (.mint [{ owner := who, memo := some [109, 101, 109, 111], metadata := md }])

/-- `icrc7_transfer` of one token. -/
def send (n : Nat) (who : Principal) (arg : TransferArg) : Msg := .call who (at_ n) (.transfer [arg])

/-- `icrc37_transfer_from` of one token. -/
def sendFrom (n : Nat) (who : Principal) (arg : TransferFromArg) : Msg := .call who (at_ n) (.transferFrom [arg])

/-- `icrc37_approve_tokens` of one token, created at the time of the call. -/
def approve (n : Nat) (who : Principal) (tid : Nat) (spender : Account) : Msg :=
  .call who (at_ n) (.approveTokens [{ tid := tid, info := { spender := spender, createdAt := at_ n } }])

/-- `icrc37_approve_collection` of one spender, created at the time of the call. -/
def approveAll (n : Nat) (who : Principal) (spender : Account) : Msg :=
  .call who (at_ n) (.approveCollection [{ spender := spender, createdAt := at_ n }])

/-- The messages one after the other: the final state and the answers. -/
def play (s : State Nat) : List Msg → State Nat × List Reply
  | [] => (s, [])
  | m :: ms => ((play (step env s m).1 ms).1, (step env s m).2 :: (play (step env s m).1 ms).2)

/-- The items of a batch answer. -/
def items : Reply → List (Except TokErr Nat)
  | .batch rs => rs
  | _ => []

/-- The error of the first item. -/
def firstErr (r : Reply) : Option TokErr :=
  match items r with
  | .error e :: _ => some e
  | _ => none

/-- The call succeeded, with all its items. -/
def ok : Reply → Bool
  | .batch rs => !rs.isEmpty && rs.all fun r => match r with | .ok _ => true | .error _ => false
  | .mgmt (.ok _) => true
  | _ => false

/-- The token id a mint answers. -/
def tokenOf : Reply → Option Nat
  | .mgmt (.ok (.id n)) => some n
  | _ => none

/-- The guard of the method refused the call, which the test client reports as a
panic. -/
def refused : Reply → Bool
  | .rejected => true
  | _ => false

/-- The management error of an answer. -/
def mgmtErr : Reply → Option MgmtErr
  | .mgmt (.error e) => some e
  | _ => none

/-- The tests' scripts: which calls succeeded. -/
def oks (s : State Nat) (ms : List Msg) : List Bool := (play s ms).2.map ok

/-- The tests' scripts: the state they end in. -/
def after (s : State Nat) (ms : List Msg) : State Nat := (play s ms).1

end Verif.Conformance
