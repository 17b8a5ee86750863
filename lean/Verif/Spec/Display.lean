import Verif.Spec.Basic
/-!
# Settings that rule, and settings that are only shown
-/
namespace Verif.Spec

variable {H : Type}

/-- Two configurations agree on the settings that rule updates. Left free are description,
symbol, name and logo, the three settings of paging and query batches, and the storage
threshold. -/
structure SameRules (c c' : Config) : Prop where
  supplyCap : c'.supplyCap = c.supplyCap
  maxUpdateBatch : c'.maxUpdateBatch = c.maxUpdateBatch
  maxMemo : c'.maxMemo = c.maxMemo
  atomicBatch : c'.atomicBatch = c.atomicBatch
  txWindow : c'.txWindow = c.txWindow
  permittedDrift : c'.permittedDrift = c.permittedDrift
  maxApprovals : c'.maxApprovals = c.maxApprovals
  maxRevoke : c'.maxRevoke = c.maxRevoke

/-- Two collections that differ at most in settings that are only shown. -/
def SameButShown (s s' : State H) : Prop := SameRules s.cfg s'.cfg ∧ s' = { s with cfg := s'.cfg }

/-- A change of settings, without what is only shown. -/
def rulingArg (a : UpdateCollArg) : UpdateCollArg :=
  { supplyCap := a.supplyCap, maxUpdateBatch := a.maxUpdateBatch, maxMemo := a.maxMemo,
    atomicBatch := a.atomicBatch, txWindow := a.txWindow, permittedDrift := a.permittedDrift }

/-- A message, without the changes of settings that are only shown. -/
def rulingMsg : Msg → Msg
  | .call c now (.updateCollectionMetadata a) => .call c now (.updateCollectionMetadata (rulingArg a))
  | m => m

end Verif.Spec
