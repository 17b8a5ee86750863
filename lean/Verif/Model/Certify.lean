import Verif.Model.Web
/-!
# Certified data, shared by the web pages and the transaction log

A canister has one certified datum of 32 bytes. types/http.rs 54, 74, 107 store the root
of the page tree there. The tip certificate of ICRC-3 (queries/icrc3.rs 37-40) is a
certificate for the root of a tree with the last block, which the library
`bity_ic_icrc3` has to store in the same place; when it does so is left open.
-/
namespace Verif

variable {H : Type}

/-- What the certified datum is the root of. The log stands for the tree the library
builds of its last block. The two writers: types/http.rs 54, 73, 105 (`certified_data_set`) and
the external crate `bity_ic_icrc3`. -/
inductive Certified where
  | pages (t : CertTree)
  | tip (log : List Tx)

/-- The skip entries of the page tree in memory, as in `Web`, and the certified datum. The
router of types/http.rs 47-107; the datum is a platform register. -/
structure Cert where
  skips : List String
  data : Certified

/-- What happens: a message to the canister, or the library stores the root of its tree. No repo
code of its own: the messages of `Msg`, and the library behind `icrc3_add_transaction`
(updates/icrc7.rs 84, external). -/
inductive CertEvent where
  | msg (m : Msg)
  | certifyTip

/-- lifecycle/init.rs 176-178: `init_icrc3`, then `certify_all_assets`. -/
def certInit : Cert := ⟨skipPaths, .pages ⟨skipPaths, ∅⟩⟩

/-- The effect of an event on the certified datum, for messages as in `webStep`:
`add_redirection` (types/http.rs 47-57) stores the root of the page tree, also for every
saved redirection of an upgrade (lifecycle/post_upgrade.rs 57-60). -/
def certStep (E : Env H) (s : State H) (c : Cert) : CertEvent → Cert
  | .certifyTip => { c with data := .tip s.log }
  | .msg .upgrade =>
    if s.redirects.entries.isEmpty then ⟨[], c.data⟩ else ⟨[], .pages ⟨[], (step E s .upgrade).1.router⟩⟩
  | .msg m => if addsRedirection s m then ⟨c.skips, .pages ⟨c.skips, (step E s m).1.router⟩⟩ else c

/-- The effect of an event on the canister. No repo code of its own: scaffolding around
`step` (updates/management.rs 28-657 and the other methods of `Call`). -/
def eventStep (E : Env H) (s : State H) : CertEvent → State H
  | .certifyTip => s
  | .msg m => (step E s m).1

/-- Run a list of events on both. No repo code of its own: scaffolding, the messages of lib.rs
in the order they are executed. -/
def certRun (E : Env H) (s : State H) (c : Cert) : List CertEvent → State H × Cert
  | [] => (s, c)
  | e :: es => certRun E (eventStep E s e) (certStep E s c e) es

end Verif
