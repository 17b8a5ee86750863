import Verif.Model.System
/-!
# The trading floor and what happens behind it
-/
namespace Verif.Spec

variable {H : Type}

/-- A call of one of the six methods that move tokens or change approvals
(ICRC-7 and ICRC-37). -/
def isTrade : Msg → Bool
  | .call _ _ (.transfer _) => true
  | .call _ _ (.approveTokens _) => true
  | .call _ _ (.approveCollection _) => true
  | .call _ _ (.revokeTokens _) => true
  | .call _ _ (.revokeCollection _) => true
  | .call _ _ (.transferFrom _) => true
  | _ => false

/-- Everything about uploads and permissions, the answers of other canisters, and upgrades. -/
def isBackground : Msg → Bool
  | .call _ _ (.initUpload _ _) => true
  | .call _ _ (.storeChunk _) => true
  | .call _ _ (.finalizeUpload _) => true
  | .call _ _ (.cancelUpload _) => true
  | .call _ _ (.grant _ _) => true
  | .call _ _ (.revoke _ _) => true
  | .resume _ _ _ => true
  | .resumeTrap _ => true
  | .upgrade => true
  | _ => false

/-- Two collections agree about tokens, owners, approvals, settings, rate limits and the
transaction log. Permissions, metadata, uploads, storage canisters, redirections, suspended
calls and the lock of the management methods may differ. -/
structure SameFloor (s s' : State H) : Prop where
  cfg : s'.cfg = s.cfg
  tokens : s'.tokens = s.tokens
  byOwner : s'.byOwner = s.byOwner
  lastId : s'.lastId = s.lastId
  windows : s'.windows = s.windows
  tokAppr : s'.tokAppr = s.tokAppr
  collAppr : s'.collAppr = s.collAppr
  hid : s'.hid = s.hid
  log : s'.log = s.log

/-- The replies to the trades of a history. -/
def tradeReplies (E : Env H) : State H → List Msg → List Reply
  | _, [] => []
  | s, m :: ms =>
    if isTrade m then (step E s m).2 :: tradeReplies E (step E s m).1 ms
    else tradeReplies E (step E s m).1 ms

end Verif.Spec
