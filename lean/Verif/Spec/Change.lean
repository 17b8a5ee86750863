import Verif.Model.Queries
/-!
# Changing names and spellings

A change of names permutes the principals and leaves the anonymous one alone; it
may also spell subaccounts differently, as long as the account meant stays the
same and an absent subaccount stays absent. What contains principals or
subaccounts is changed piece by piece; numbers, texts, memos and times stay.
-/
namespace Verif.Spec

variable {H : Type}

/-- A permutation of the principals that keeps the anonymous principal, and a
spelling of subaccounts that keeps what is meant. -/
structure Change where
  to : Principal → Principal
  back : Principal → Principal
  back_to : ∀ p, back (to p) = p
  to_back : ∀ p, to (back p) = p
  anon : to anonymous = anonymous
  respell : Option Subaccount → Option Subaccount
  respell_none : respell none = none
  respell_eff : ∀ b, (respell b).getD zeroSub = b.getD zeroSub

namespace Change

/-- An account. -/
def account (r : Change) (a : Account) : Account := ⟨r.to a.owner, r.respell a.sub⟩

/-- A finite map, keys and values. -/
def map {K V K' V' : Type} (f : K → K') (g : V → V') (m : Map K V) : Map K' V' :=
  ⟨m.entries.map fun e => (f e.1, g e.2)⟩

/-- A stored approval. -/
def approval (r : Change) (a : Approval) : Approval :=
  { a with spender := r.account a.spender, from_ := r.account a.from_ }

/-- The approvals of one token or one account. -/
def approvals (r : Change) (m : Map Account Approval) : Map Account Approval :=
  map r.account r.approval m

/-- A row of the token table. -/
def token (r : Change) (t : Token) : Token := { t with owner := r.account t.owner }

/-- An upload: the storage canister is renamed. -/
def upload (r : Change) (u : Upload) : Upload := { u with canister := r.to u.canister }

/-- A recorded transaction. -/
def tx (r : Change) (t : Tx) : Tx :=
  { t with from_ := t.from_.map r.account, to_ := t.to_.map r.account,
           spender := t.spender.map r.account }

/-- A storage canister. -/
def sub (r : Change) (c : SubCanister) : SubCanister := { c with id := r.to c.id }

/-- The storage canister that is renamed to the given one. -/
def unsub (r : Change) (c : SubCanister) : SubCanister := { c with id := r.back c.id }

/-- A suspended call. -/
def pending (r : Change) : Pending → Pending
  | .init c path size subs => .init (r.to c) path size (subs.map r.sub)
  | .store c key u => .store (r.to c) key (r.upload u)
  | .finalize c key u => .finalize (r.to c) key (r.upload u)
  | .cancel c key u => .cancel (r.to c) key (r.upload u)

/-- The whole state. -/
def state (r : Change) (s : State H) : State H :=
  { s with perms := map r.to id s.perms
           tokens := map id r.token s.tokens
           byOwner := map r.account id s.byOwner
           subs := s.subs.map r.sub
           guards := s.guards.map r.to
           uploads := map id r.upload s.uploads
           tokAppr := map id r.approvals s.tokAppr
           collAppr := map r.account r.approvals s.collAppr
           log := s.log.map r.tx
           pending := s.pending.map r.pending }

/-- The ledger `L'` answers a changed transaction as `L` answers the transaction. -/
def Ledgers (r : Change) (L L' : Ledger H) : Prop := ∀ h t, L'.add h (r.tx t) = L.add h t

/-- The world `E'` is to changed people what `E` is to the people. -/
structure Worlds (r : Change) (E E' : Env H) : Prop where
  ledger : r.Ledgers E.ledger E'.ledger
  self : E'.self = r.to E.self
  text : ∀ p, E'.text (r.to p) = E.text p

/-- One item of `icrc7_transfer`. -/
def transferArg (r : Change) (a : TransferArg) : TransferArg := { a with to_ := r.account a.to_ }
/-- The approval of a request or an answer. -/
def info (r : Change) (a : ApprovalInfo) : ApprovalInfo :=
  { a with spender := r.account a.spender, fromSub := r.respell a.fromSub }
/-- One item of `icrc37_approve_tokens`. -/
def approveArg (r : Change) (a : ApproveTokenArg) : ApproveTokenArg := { a with info := r.info a.info }
/-- One item of `icrc37_revoke_token_approvals`. -/
def revokeArg (r : Change) (a : RevokeTokenArg) : RevokeTokenArg :=
  { a with spender := a.spender.map r.account, fromSub := r.respell a.fromSub }
/-- One item of `icrc37_revoke_collection_approvals`. -/
def revokeCollArg (r : Change) (a : RevokeCollArg) : RevokeCollArg :=
  { a with spender := a.spender.map r.account, fromSub := r.respell a.fromSub }
/-- One item of `icrc37_transfer_from`. -/
def fromArg (r : Change) (a : TransferFromArg) : TransferFromArg :=
  { a with spenderSub := r.respell a.spenderSub, from_ := r.account a.from_, to_ := r.account a.to_ }
/-- One mint request. -/
def mintReq (r : Change) (a : MintReq) : MintReq := { a with owner := r.account a.owner }

/-- A call. -/
def call (r : Change) : Call → Call
  | .transfer args => .transfer (args.map r.transferArg)
  | .approveTokens args => .approveTokens (args.map r.approveArg)
  | .approveCollection args => .approveCollection (args.map r.info)
  | .revokeTokens args => .revokeTokens (args.map r.revokeArg)
  | .revokeCollection args => .revokeCollection (args.map r.revokeCollArg)
  | .transferFrom args => .transferFrom (args.map r.fromArg)
  | .updateCollectionMetadata a => .updateCollectionMetadata a
  | .mint reqs => .mint (reqs.map r.mintReq)
  | .updateNftMetadata tid kvs => .updateNftMetadata tid kvs
  | .burn tid => .burn tid
  | .initUpload path size => .initUpload path size
  | .storeChunk path => .storeChunk path
  | .finalizeUpload path => .finalizeUpload path
  | .cancelUpload path => .cancelUpload path
  | .grant p x => .grant (r.to p) x
  | .revoke p x => .revoke (r.to p) x

/-- What the renamed other canisters answer. -/
def answer (r : Change) (a : Answer) : Answer where
  walk := fun l => (a.walk (l.map r.unsub)).map r.sub
  walk_perm := fun l => by
    have h := (a.walk_perm (l.map r.unsub)).map r.sub
    have e : (l.map r.unsub).map r.sub = l := by
      rw [List.map_map]
      conv => rhs; rw [← List.map_id l]
      exact List.map_congr_left fun c _ => by simp [sub, unsub, r.to_back]
    rwa [e] at h
  sizeOf := fun p => a.sizeOf (r.back p)
  initOk := fun p => a.initOk (r.back p)
  created := a.created.map r.sub
  newInitOk := a.newInitOk
  resp := a.resp

/-- A message. -/
def msg (r : Change) : Msg → Msg
  | .call caller now c => .call (r.to caller) now (r.call c)
  | .resume now i ans => .resume now i (r.answer ans)
  | .resumeTrap i => .resumeTrap i
  | .upgrade => .upgrade

/-- The arguments of an installation. -/
def initArgs (r : Change) (a : InitArgs) : InitArgs := { a with perms := map r.to id a.perms }

/-- One item of `icrc37_is_approved`. -/
def isApprovedArg (r : Change) (a : IsApprovedArg) : IsApprovedArg :=
  { a with spender := r.account a.spender, fromSub := r.respell a.fromSub }

end Change

end Verif.Spec
