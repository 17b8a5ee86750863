import Verif.Model.Guards
/-!
# updates/icrc7.rs
-/
namespace Verif

variable {H : Type}

/-- types/icrc7.rs 8. -/
def defaultTxWindow : Nat := 10000000000
/-- types/icrc7.rs 9. -/
def defaultDrift : Nat := 50000000
/-- types/icrc7.rs 11. -/
def defaultMaxUpdateBatch : Nat := 100

/-- types/icrc7.rs 17-24; `from_subaccount` is not read by the code. -/
structure TransferArg where
  to_ : Account
  tid : Nat
  memo : Option Blob := none
  fromSub : Option Blob := none
  createdAt : Option Nat := none
  deriving DecidableEq, Repr

/-- `u64::try_from(nat).unwrap()`: `none` is a panic. updates/icrc7.rs 50 and 60. -/
def toU64? (n : Nat) : Option Nat := if n < U64 then some n else none

/-- `usize::try_from(nat).unwrap()`: `none` is a panic. updates/icrc7.rs 133. -/
def toUsize? (n : Nat) : Option Nat := if n < USIZE then some n else none

/-- Time checks of `transfer_nft`, updates/icrc7.rs 49-65. Outer `none`: one of
the conversions panics. `some none`: accepted. -/
def transferTiming (cfg : Config) (now time : Nat) : Option (Option TokErr) :=
  match (cfg.permittedDrift.elim (some defaultDrift) toU64?) with
  | none => none
  | some drift =>
    if time > u64add now drift then some (some (.createdInFuture now))
    else
      match (cfg.txWindow.elim (some defaultTxWindow) toU64?) with
      | none => none
      | some window =>
        if time < now - u64add window drift then some (some .tooOld) else some none

/-- The ownership update shared by `transfer_nft` (updates/icrc7.rs 86-101) and
`transfer_from` (updates/icrc37.rs 814-832): write the token row under the row's
own id, push the id on the new owner's list, then drop it from the previous
owner's list. -/
def moveToken (s : State H) (nft : Token) (to_ : Account) : State H :=
  let prev := nft.owner
  let tokens := s.tokens.set nft.id { nft with owner := to_ }
  let b1 := s.byOwner.set to_ ((s.byOwner.get to_).getD [] ++ [nft.id])
  let b2 := b1.set prev (((b1.get prev).getD []).filter (· ≠ nft.id))
  { s with tokens := tokens, byOwner := b2 }

/-- updates/icrc7.rs 67-79. -/
def transferTx (now time : Nat) (arg : TransferArg) (nft : Token) : Tx :=
  { op := .xfer, ts := now, tid := some arg.tid, from_ := some nft.owner, to_ := some arg.to_,
    memo := arg.memo, createdAt := some time }

/-- updates/icrc7.rs 13-114 `transfer_nft`. `none`: panic. -/
def transferNft (L : Ledger H) (s : State H) (caller : Principal) (now : Nat) (arg : TransferArg) :
    Option (State H × Except TokErr Nat) :=
  let (s, ok) := guardWindow s now arg.tid
  if !ok then some (s, .error (.generic 0))
  else match s.tokens.get arg.tid with
  | none => some (s, .error .nonExistingTokenId)
  | some nft =>
    match checkMemo s.cfg arg.memo with
    | none => none
    | some false => some (s, .error (.generic 0))
    | some true =>
      if nft.owner.owner ≠ caller ∨ arg.to_.owner = anonymous ∨ (nft.owner == arg.to_) = true then
        some (s, .error .invalidRecipient)
      else
        let time := arg.createdAt.getD now
        match transferTiming s.cfg now time with
        | none => none
        | some (some e) => some (s, .error e)
        | some none =>
          match addTx L s (transferTx now time arg nft) with
          | (s, .ok i) => some (moveToken s nft arg.to_, .ok i)
          | (s, .error (.duplicate d)) => some (s, .ok d)
          | (s, .error _) => some (s, .error (.generic 2))

/-- `args.iter().map(f).collect()` with state threading; a panic in any item is
a panic of the whole call. updates/icrc7.rs 154; also updates/icrc37.rs 413 and 539. -/
def runBatch {A R S : Type} (f : S → A → Option (S × R)) : S → List A → Option (S × List R)
  | s, [] => some (s, [])
  | s, a :: as =>
    match f s a with
    | none => none
    | some (s, r) =>
      match runBatch f s as with
      | none => none
      | some (s, rs) => some (s, r :: rs)

/-- updates/icrc7.rs 117-159 `icrc7_transfer`. -/
def icrc7Transfer (L : Ledger H) (s : State H) (caller : Principal) (now : Nat)
    (args : List TransferArg) : Option (State H × List (Except TokErr Nat)) :=
  if args.isEmpty then some (s, [])
  else match toUsize? (s.cfg.maxUpdateBatch.getD defaultMaxUpdateBatch) with
  | none => none
  | some mx =>
    if s.cfg.atomicBatch.getD false && decide (args.length > mx) then some (s, [.error (.generic 0)])
    else if caller = anonymous then some (s, [.error (.generic 0)])
    else runBatch (fun s a => transferNft L s caller now a) s (args.take mx)

end Verif
