import Verif.Spec.Authority
import Verif.Model.Queries
/-!
# Specification vocabulary

Small definitions used only to state properties.
-/
namespace Verif.Spec

variable {H : Type}

/-- Two ICRC-1 accounts are the same: same principal, and same subaccount where
an absent subaccount means 32 zero bytes. -/
def SameAccount (a b : Account) : Prop :=
  a.owner = b.owner ∧ a.sub.getD (List.replicate 32 0) = b.sub.getD (List.replicate 32 0)

theorem sameAccount_iff {a b : Account} : SameAccount a b ↔ (a == b) = true := by
  rw [Account.beq_iff]; rfl

instance (a b : Account) : Decidable (SameAccount a b) := decidable_of_iff _ sameAccount_iff.symm

/-- `tid` exists. -/
def TokenExists (s : State H) (tid : Nat) : Prop := ∃ o, Owner s tid = some o

/-- The number of tokens that exist: the length of a duplicate-free list of
exactly the existing ids. -/
def SupplyIs (s : State H) (n : Nat) : Prop :=
  ∃ ids : List Nat, ids.Nodup ∧ (∀ tid, tid ∈ ids ↔ TokenExists s tid) ∧ ids.length = n

/-- The number of tokens `a` owns. -/
def OwnsCount (s : State H) (a : Account) (n : Nat) : Prop :=
  ∃ ids : List Nat, ids.Nodup ∧ (∀ tid, tid ∈ ids ↔ ∃ o, Owner s tid = some o ∧ SameAccount o a) ∧
    ids.length = n

/-- The supply cap in force; 10 000 if none is configured. -/
def Cap (s : State H) : Nat := s.cfg.supplyCap.getD 10000

/-- What one recorded transaction says about owners. -/
def applyTx (f : Nat → Option Account) (t : Tx) : Nat → Option Account :=
  match t.op, t.tid with
  | .mint, some i | .xfer, some i | .xferFrom, some i => fun k => if k = i then t.to_ else f k
  | .burn, some i => fun k => if k = i then none else f k
  | _, _ => f

/-- Owners obtained by replaying a log of transactions from nothing. -/
def replay (log : List Tx) : Nat → Option Account := log.foldl applyTx (fun _ => none)

/-- Principal `p` holds permission `x`. -/
def Holds (s : State H) (p : Principal) (x : Permission) : Prop :=
  ∃ l, s.perms.get p = some l ∧ x ∈ l

theorem holds_iff {s : State H} {p : Principal} {x : Permission} :
    Holds s p x ↔ hasPermission s.perms p x = true := by
  unfold Holds hasPermission
  cases s.perms.get p with
  | none => simp
  | some l => simp

/-- The number of recorded burns out of account `a`. -/
def burnsFrom (log : List Tx) (a : Account) : Nat :=
  (log.filter fun t => decide (t.op = .burn) && t.from_.any (fun f => decide (SameAccount f a))).length

/-- No owner, no balance, no metadata and no recorded transaction differs. -/
structure Untouched (s s' : State H) : Prop where
  owners : ∀ tid, Owner s' tid = Owner s tid
  balances : ∀ a, balanceOf s' a = balanceOf s a
  metadata : ∀ ids, icrc7TokenMetadata s' ids = icrc7TokenMetadata s ids
  log : s'.log = s.log

/-- The same approvals are recorded. -/
structure SameApprovals (s s' : State H) : Prop where
  token : ∀ tid sp a, TokenApproval s' tid sp a ↔ TokenApproval s tid sp a
  coll : ∀ o sp a, CollApproval s' o sp a ↔ CollApproval s o sp a

/-- No approval was added, and none that was live at `now` was dropped. -/
structure OnlyExpiredDropped (now : Nat) (s s' : State H) : Prop where
  tokenNew : ∀ tid sp a, TokenApproval s' tid sp a → TokenApproval s tid sp a
  tokenLive : ∀ tid sp a, TokenApproval s tid sp a → Live a now → TokenApproval s' tid sp a
  collNew : ∀ o sp a, CollApproval s' o sp a → CollApproval s o sp a
  collLive : ∀ o sp a, CollApproval s o sp a → Live a now → CollApproval s' o sp a

/-- The settings that bound transaction times, with their defaults (10 s and
50 ms in nanoseconds). -/
def Drift (s : State H) : Nat := s.cfg.permittedDrift.getD 50000000
def Window (s : State H) : Nat := s.cfg.txWindow.getD 10000000000

/-- The memo limit; 1 000 000 bytes if none is configured. -/
def MemoLimit (s : State H) : Nat := s.cfg.maxMemo.getD 1000000

/-- The limit on items per update call; 100 if none is configured. -/
def BatchLimit (s : State H) : Nat := s.cfg.maxUpdateBatch.getD 100

/-- The calls on token `tid` the rate limiter remembers that are less than 60 ms
old. -/
def recentCalls (s : State H) (now tid : Nat) : Nat :=
  (((s.windows.get tid).getD []).filter fun t => decide (now - t < 60000000)).length

/-- The limits of the configuration are numbers of the width the code converts
them to, and the sums of times do not wrap around at 64 bits. -/
structure SaneLimits (s : State H) (now : Nat) : Prop where
  batch : BatchLimit s < 2 ^ 32
  memo : MemoLimit s < 2 ^ 32
  future : now + Drift s < 2 ^ 64
  past : Window s + Drift s < 2 ^ 64

/-- `created` is in the window of `icrc7_transfer`: not after `now + drift`, not
before `now - (window + drift)`. -/
def InWindow (s : State H) (now created : Nat) : Prop :=
  created ≤ now + Drift s ∧ now ≤ created + (Window s + Drift s)

/-- The no-wrap conditions of the ICRC-37 checks. -/
structure SaneTimes (s : State H) (now created : Nat) : Prop where
  future : now + Drift s < 2 ^ 64
  past : created + Window s < 2 ^ 64

/-- `created` is in the window of the ICRC-37 methods. -/
def InWindow37 (s : State H) (now created : Nat) : Prop :=
  created ≤ now + Drift s ∧ now ≤ created + Window s

/-- The limit on approvals per token and per account; 10 if none is configured. -/
def ApprovalLimit (s : State H) : Nat := s.cfg.maxApprovals.getD 10

/-- The transaction an `icrc7_transfer` item submits, `o` being the owner. -/
def xferTx (now : Nat) (arg : TransferArg) (o : Account) : Tx :=
  { op := .xfer, ts := now, tid := some arg.tid, from_ := some o, to_ := some arg.to_,
    memo := arg.memo, createdAt := some (arg.createdAt.getD now) }

/-- Keep asking for the next page after the last id seen, until an empty page.
`none`: a page was refused, or more than `fuel` pages were needed. -/
def crawl (fetch : Option Nat → Option (List Nat)) : Nat → Option Nat → Option (List Nat)
  | 0, _ => none
  | fuel + 1, prev =>
    match fetch prev with
    | none => none
    | some [] => some []
    | some (x :: xs) =>
      (crawl fetch fuel (some ((x :: xs).getLast (by simp)))).map ((x :: xs) ++ ·)

end Verif.Spec
