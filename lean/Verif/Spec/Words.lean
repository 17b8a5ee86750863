import Verif.Spec.Change
/-!
# The same history in other words

What people write into a collection: the memos of their requests, the values of the
metadata, and the name, symbol, description and logo of the collection. A rewording
replaces them piece by piece; who asks for what and when stays.
-/
namespace Verif.Spec

variable {H : Type}

/-- A rewording. A memo keeps its length; a value that fits the 64-bit encoding of
metadata keeps fitting, one that does not keeps not fitting. -/
structure Words where
  memo : Blob → Blob
  memo_length : ∀ m, (memo m).length = m.length
  value : Value → Value
  value_fits : ∀ v, (value v).inRange = v.inRange
  text : String → String

namespace Words

/-- The settings: the four that are texts. -/
def config (w : Words) (c : Config) : Config :=
  { c with description := c.description.map w.text, symbol := w.text c.symbol, name := w.text c.name,
           logo := c.logo.map w.text }

/-- A stored approval. -/
def approval (w : Words) (a : Approval) : Approval := { a with memo := a.memo.map w.memo }

/-- The approvals of one token or one account. -/
def approvals (w : Words) (m : Map Account Approval) : Map Account Approval := Change.map id w.approval m

/-- An entry of a table of approvals. -/
def entry (w : Words) (e : Account × Approval) : Account × Approval := (e.1, w.approval e.2)

/-- Metadata: the keys stay. -/
def row (w : Words) (kv : String × Value) : String × Value := (kv.1, w.value kv.2)

/-- The stored metadata of one token. -/
def doc (w : Words) (m : Map String Value) : Map String Value := Change.map id w.value m

/-- A recorded transaction. -/
def tx (w : Words) (t : Tx) : Tx :=
  { t with memo := t.memo.map w.memo, meta_ := t.meta_.map fun p => (p.1.map w.row, p.2.map w.row) }

/-- The collection. -/
def state (w : Words) (s : State H) : State H :=
  { s with cfg := w.config s.cfg,
           tokAppr := Change.map id w.approvals s.tokAppr,
           collAppr := Change.map id w.approvals s.collAppr,
           mdata := Change.map id w.doc s.mdata,
           log := s.log.map w.tx }

/-- The transaction log `L'` answers a reworded transaction as `L` answers the transaction. -/
def Ledgers (w : Words) (L L' : Ledger H) : Prop := ∀ h t, L'.add h (w.tx t) = L.add h t

/-- The world `E'` takes the other words as `E` takes the words. -/
structure Worlds (w : Words) (E E' : Env H) : Prop where
  ledger : w.Ledgers E.ledger E'.ledger
  self : E'.self = E.self
  text : E'.text = E.text

/-! Requests. -/

def transferArg (w : Words) (a : TransferArg) : TransferArg := { a with memo := a.memo.map w.memo }
def info (w : Words) (a : ApprovalInfo) : ApprovalInfo := { a with memo := a.memo.map w.memo }
def approveArg (w : Words) (a : ApproveTokenArg) : ApproveTokenArg := { a with info := w.info a.info }
def revokeArg (w : Words) (a : RevokeTokenArg) : RevokeTokenArg := { a with memo := a.memo.map w.memo }
def revokeCollArg (w : Words) (a : RevokeCollArg) : RevokeCollArg := { a with memo := a.memo.map w.memo }
def fromArg (w : Words) (a : TransferFromArg) : TransferFromArg := { a with memo := a.memo.map w.memo }
def mintReq (w : Words) (a : MintReq) : MintReq :=
  { a with memo := a.memo.map w.memo, metadata := a.metadata.map w.row }
def updateArg (w : Words) (a : UpdateCollArg) : UpdateCollArg :=
  { a with description := a.description.map w.text, symbol := a.symbol.map w.text, name := a.name.map w.text,
           logo := a.logo.map w.text, collectionMetadata := a.collectionMetadata.map (·.map w.row) }

/-- A request. -/
def call (w : Words) : Call → Call
  | .transfer args => .transfer (args.map w.transferArg)
  | .approveTokens args => .approveTokens (args.map w.approveArg)
  | .approveCollection args => .approveCollection (args.map w.info)
  | .revokeTokens args => .revokeTokens (args.map w.revokeArg)
  | .revokeCollection args => .revokeCollection (args.map w.revokeCollArg)
  | .transferFrom args => .transferFrom (args.map w.fromArg)
  | .updateCollectionMetadata a => .updateCollectionMetadata (w.updateArg a)
  | .mint reqs => .mint (reqs.map w.mintReq)
  | .updateNftMetadata tid kvs => .updateNftMetadata tid (kvs.map w.row)
  | c => c

/-- A message. -/
def msg (w : Words) : Msg → Msg
  | .call c now x => .call c now (w.call x)
  | m => m

/-- The arguments of an installation. -/
def initArgs (w : Words) (a : InitArgs) : InitArgs :=
  { a with description := a.description.map w.text, symbol := w.text a.symbol, name := w.text a.name,
           logo := a.logo.map w.text }

/-- A row of the announcement of a collection: symbol, name, description and logo are texts
chosen by people, the rest is not. -/
def announced (w : Words) (kv : String × Value) : String × Value :=
  match kv.2 with
  | .text t => (kv.1, .text (if kv.1 ∈ ["icrc7:symbol", "icrc7:name", "icrc7:description", "icrc7:logo"] then w.text t else t))
  | v => (kv.1, v)

/-- Everything written is wiped out: memos become zeros, values and texts become empty. What is
left of a history is who asked for what, when, about which token, and how long the memos were. -/
def blank : Words where
  memo m := List.replicate m.length 0
  memo_length m := by simp
  value v := if v.inRange then .text "" else .nat U64
  value_fits v := by
    by_cases h : v.inRange = true
    · rw [if_pos h, h]; rfl
    · rw [if_neg h, Bool.not_eq_true _ |>.mp h]; rfl
  text _ := ""

end Words

end Verif.Spec
