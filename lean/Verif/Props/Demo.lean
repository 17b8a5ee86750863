import Verif.Spec.Basic
import Verif.Lemmas.Step
/-!
# A concrete collection

Concrete states used by the non-vacuity examples and by the witnesses of
violations. Times are in nanoseconds and far enough apart for the rate limiter.
-/
namespace Verif.Demo

/-- A ledger that accepts everything and numbers transactions from 0. -/
def ledger : Ledger Nat := ⟨fun h _ => (h + 1, .ok h)⟩

/-- A ledger that accepts the first `n` transactions and refuses all others. -/
def shortLedger (n : Nat) : Ledger Nat := ⟨fun h _ => if h < n then (h + 1, .ok h) else (h, .error .other)⟩

def env : Env Nat := ⟨ledger, [9], fun _ => "aaaaa-aa"⟩
def shortEnv (n : Nat) : Env Nat := ⟨shortLedger n, [9], fun _ => "aaaaa-aa"⟩

def admin : Principal := [7]
def alice : Account := ⟨[1], none⟩
/-- The same account as `alice`, written with an explicit zero subaccount. -/
def alice0 : Account := ⟨[1], some (List.replicate 32 0)⟩
/-- A different account of the same principal. -/
def alice1 : Account := ⟨[1], some (List.replicate 32 1)⟩
def bob : Account := ⟨[2], none⟩
def carol : Account := ⟨[3], none⟩

/-- Installation: `admin` holds every permission. -/
def args : InitArgs :=
  { perms := ⟨[(admin, [.minting, .manageAuthorities, .updateMetadata, .updateCollectionMetadata,
      .readUploads, .updateUploads])]⟩ }

/-- The state after installation. -/
def s0 : State Nat := (init (fun _ => true) 0 admin args).get rfl

theorem s0_init : init (fun _ => true) 0 admin args = some s0 := rfl

def ms (n : Nat) : Nat := n * 1000000

/-- Mint tokens 1, 2 for alice and 3 for bob. -/
def mintMsg : Msg :=
  .call admin (ms 100) (.mint [{ owner := alice, metadata := [("k", .nat 1)] }, { owner := alice }, { owner := bob }])

/-- Tokens 1, 2 belong to alice, 3 to bob. -/
def s1 : State Nat := run env s0 [mintMsg]

theorem reach (msgs : List Msg) : Reachable env (run env s0 msgs) :=
  ⟨_, _, _, _, s0, msgs, s0_init, rfl⟩

theorem reachShort (n : Nat) (msgs : List Msg) : Reachable (shortEnv n) (run (shortEnv n) s0 msgs) :=
  ⟨_, _, _, _, s0, msgs, s0_init, rfl⟩

theorem s1_reach : Reachable env s1 := reach _

/-- A collection that announces atomic batches. -/
def atomicArgs : InitArgs := { args with atomicBatch := some true }

def sAtomic : State Nat := run env ((init (fun _ => true) 0 admin atomicArgs).get rfl) [mintMsg]

theorem sAtomic_reach : Reachable env sAtomic :=
  ⟨fun _ => true, 0, admin, atomicArgs, (init (fun _ => true) 0 admin atomicArgs).get rfl, [mintMsg], rfl, rfl⟩

/-- alice sends token 1 to bob. -/
def sendMsg : Msg := .call [1] (ms 200) (.transfer [{ to_ := bob, tid := 1 }])

/-- alice lets carol move token 2. -/
def approveMsg : Msg :=
  .call [1] (ms 200) (.approveTokens [{ tid := 2, info := { spender := carol, createdAt := ms 200 } }])

/-- carol moves token 2 to itself. -/
def takeMsg : Msg :=
  .call [3] (ms 300) (.transferFrom [{ from_ := alice, to_ := carol, tid := 2 }])

/-- alice burns token 1. -/
def burnMsg : Msg := .call [1] (ms 200) (.burn 1)

end Verif.Demo
