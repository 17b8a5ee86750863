import Verif.Spec.Basic
/-!
# Specification: a small ledger of tokens (C92)

What a collection is, without tables, limits, records, uploads or asynchrony: who owns
what, who was approved for what until when, and who holds which permission; and the
elementary operations each call may perform on that, under which conditions.
-/
namespace Verif.Spec

variable {H : Type}

/-- An account in its only form: a principal and a subaccount. -/
abbrev Holder := Principal × Subaccount

/-- The account of the anonymous principal. -/
def nobody : Holder := ([4], List.replicate 32 0)

/-- Owners, the next free id, approvals for single tokens and for all tokens of an account
with the time they end at, if they end, and permissions. -/
structure Book where
  owner : Nat → Option Holder
  next : Nat
  token : Nat → Holder → Option (Option Nat)
  all : Holder → Holder → Option (Option Nat)
  may : Principal → Permission → Prop

/-- An approval that exists and has not ended. -/
def InForce (now : Nat) : Option (Option Nat) → Prop
  | none => False
  | some none => True
  | some (some e) => now < e

/-- An approval that has ended. -/
def Ended (now : Nat) (x : Option (Option Nat)) : Prop := ∃ e, x = some (some e) ∧ e ≤ now

/-- `f` with another value at `k`. -/
def upd {α β : Type} [DecidableEq α] (f : α → β) (k : α) (v : β) : α → β := fun x => if x = k then v else f x

/-- An account as written in a call. -/
def holder (a : Account) : Holder := (a.owner, a.sub.getD (List.replicate 32 0))

/-- Approvals left after revoking that of `sp`, or all of them. -/
def without (f : Holder → Option (Option Nat)) : Option Account → Holder → Option (Option Nat)
  | none => fun _ => none
  | some sp => upd f (holder sp) none

/-- The operation of a call by `c` at time `now` that names one thing. -/
inductive Does (c : Principal) (now : Nat) : Call → Book → Book → Prop
  /-- The owner sends a token to another account. Approvals for it stay. -/
  | transfer {arg b o} : b.owner arg.tid = some o → o.1 = c → c ≠ [4] →
      holder arg.to_ ≠ o → arg.to_.owner ≠ [4] →
      Does c now (.transfer [arg]) b { b with owner := upd b.owner arg.tid (some (holder arg.to_)) }
  /-- An account of the caller that owns the token or was approved moves it. All approvals
  for the token end, and all approvals of the owner for their account. -/
  | transferFrom {arg b o} : b.owner arg.tid = some o → holder arg.from_ = o →
      (holder ⟨c, arg.spenderSub⟩ = o ∨ InForce now (b.token arg.tid (holder ⟨c, arg.spenderSub⟩)) ∨
        InForce now (b.all o (holder ⟨c, arg.spenderSub⟩))) →
      holder arg.to_ ≠ o → holder arg.to_ ≠ nobody →
      Does c now (.transferFrom [arg]) b { b with
        owner := upd b.owner arg.tid (some (holder arg.to_))
        token := upd b.token arg.tid (fun _ => none)
        all := upd b.all o (fun _ => none) }
  /-- The owner approves a spender for a token. -/
  | approve {arg b} : b.owner arg.tid = some (holder ⟨c, arg.info.fromSub⟩) →
      holder arg.info.spender ≠ nobody →
      Does c now (.approveTokens [arg]) b { b with
        token := upd b.token arg.tid (upd (b.token arg.tid) (holder arg.info.spender) (some arg.info.expiresAt)) }
  /-- Somebody who owns a token approves a spender for one of their accounts. -/
  | approveAll {info b tid o} : b.owner tid = some o → o.1 = c → holder info.spender ≠ nobody →
      Does c now (.approveCollection [info]) b { b with
        all := upd b.all (holder ⟨c, info.fromSub⟩)
          (upd (b.all (holder ⟨c, info.fromSub⟩)) (holder info.spender) (some info.expiresAt)) }
  /-- The owner revokes approvals for a token. -/
  | revoke {arg b} : b.owner arg.tid = some (holder ⟨c, arg.fromSub⟩) →
      Does c now (.revokeTokens [arg]) b { b with
        token := upd b.token arg.tid (without (b.token arg.tid) arg.spender) }
  /-- The caller revokes approvals for their default account. -/
  | revokeAll {arg b} :
      Does c now (.revokeCollection [arg]) b { b with
        all := upd b.all (holder ⟨c, none⟩) (without (b.all (holder ⟨c, none⟩)) arg.spender) }
  /-- Tokens with new consecutive ids come into being. -/
  | mint {reqs b} : b.may c .minting →
      Does c now (.mint reqs) b { b with
        owner := fun k => if b.next ≤ k then (reqs[k - b.next]?).map fun r => holder r.owner else b.owner k
        next := b.next + reqs.length }
  /-- The owner destroys a token. -/
  | burn {tid b o} : b.owner tid = some o → o.1 = c →
      Does c now (.burn tid) b { b with owner := upd b.owner tid none }
  | grant {p x b} : b.may c .manageAuthorities →
      Does c now (.grant p x) b { b with may := fun q y => (q = p ∧ y = x) ∨ b.may q y }
  | revokePermission {p x b} : b.may c .manageAuthorities →
      Does c now (.revoke p x) b { b with may := fun q y => ¬ (q = p ∧ y = x) ∧ b.may q y }

/-- Approvals of the would-be spender that have ended are forgotten. -/
inductive Forgets (c : Principal) (now : Nat) (arg : TransferFromArg) : Book → Book → Prop
  | nothing {b} : Forgets c now arg b b
  | token {b} : Ended now (b.token arg.tid (holder ⟨c, arg.spenderSub⟩)) →
      Forgets c now arg b { b with
        token := upd b.token arg.tid (upd (b.token arg.tid) (holder ⟨c, arg.spenderSub⟩) none) }
  | all {b o} : b.owner arg.tid = some o → Ended now (b.all o (holder ⟨c, arg.spenderSub⟩)) →
      Forgets c now arg b { b with
        all := upd b.all o (upd (b.all o) (holder ⟨c, arg.spenderSub⟩) none) }
  | both {b b' b''} : Forgets c now arg b b' → Forgets c now arg b' b'' → Forgets c now arg b b''

/-- The one-item calls a batch call amounts to. -/
def items : Call → List Call
  | .transfer args => args.map fun a => .transfer [a]
  | .transferFrom args => args.map fun a => .transferFrom [a]
  | .approveTokens args => args.map fun a => .approveTokens [a]
  | .approveCollection args => args.map fun a => .approveCollection [a]
  | .revokeTokens args => args.map fun a => .revokeTokens [a]
  | .revokeCollection args => args.map fun a => .revokeCollection [a]
  | _ => []

/-- What an item does, by its answer: accepted, its operation; refused, nothing, except that a
refused `transfer_from` may forget approvals that have ended. `dup`: the archive can recognise
a repeated transfer, which is then answered with the number of the first and does nothing. -/
inductive Item (dup : Prop) (c : Principal) (now : Nat) : Call → Except TokErr Nat → Book → Book → Prop
  | done {i n b b'} : Does c now i b b' → Item dup c now i (.ok n) b b'
  | refused {i e b} : Item dup c now i (.error e) b b
  | forgot {arg e b b'} : Forgets c now arg b b' → Item dup c now (.transferFrom [arg]) (.error e) b b'
  | repeated {arg n b o} : dup → b.owner arg.tid = some o → Item dup c now (.transfer [arg]) (.ok n) b b

/-- Items in order, as far as they are answered. -/
inductive Items (dup : Prop) (c : Principal) (now : Nat) : List Call → List (Except TokErr Nat) → Book → Book → Prop
  | nil {is b} : Items dup c now is [] b b
  | cons {i is r rs b b' b''} : Item dup c now i r b b' → Items dup c now is rs b' b'' →
      Items dup c now (i :: is) (r :: rs) b b''

/-- Calls that change the book at once, if accepted. -/
def Books : Call → Prop
  | .mint _ | .burn _ | .grant _ _ | .revoke _ _ => True
  | _ => False

/-- What a call does, by its reply. -/
inductive Reaction (dup : Prop) (c : Principal) (now : Nat) : Call → Reply → Book → Book → Prop
  | batch {call rs b b'} : Items dup c now (items call) rs b b' → Reaction dup c now call (.batch rs) b b'
  | minted {reqs b b'} : Does c now (.mint reqs) b b' → Reaction dup c now (.mint reqs) (.mgmt (.ok (.id b.next))) b b'
  | done {call b b'} : Does c now call b b' → Reaction dup c now call (.mgmt (.ok .unit)) b b'
  | elsewhere {call r b} : ¬ Books call → items call = [] → Reaction dup c now call r b b
  | error {call e b} : Reaction dup c now call (.mgmt (.error e)) b b
  | batchError {call e b} : Reaction dup c now call (.batchErr e) b b
  | rejected {call b} : Reaction dup c now call .rejected b b
  | trapped {call b} : Reaction dup c now call .trapped b b

/-- Histories of the book, by the replies: calls do what they are answered, everything else —
upgrades and the later parts of calls that waited for another canister — leaves it alone. -/
inductive Course (dup : Prop) : List Msg → List Reply → Book → Book → Prop
  | nil {b} : Course dup [] [] b b
  | call {c now call r ms rs b b' b''} : Reaction dup c now call r b b' → Course dup ms rs b' b'' →
      Course dup (.call c now call :: ms) (r :: rs) b b''
  | other {m r ms rs b b'} : (∀ c now call, m ≠ .call c now call) → Course dup ms rs b b' →
      Course dup (m :: ms) (r :: rs) b b'

/-- The book before any call: nothing is owned and nothing approved; permissions are given. -/
def Book.opened (may : Principal → Permission → Prop) : Book :=
  ⟨fun _ => none, 1, fun _ _ => none, fun _ _ => none, may⟩

/-- The account of a holder. -/
def Holder.account (h : Holder) : Account := ⟨h.1, some h.2⟩

/-- The ledger may answer that it has a record already. -/
def CanRepeat (L : Ledger H) : Prop := ∃ h t h' d, L.add h t = (h', .error (.duplicate d))

/-- Books nobody can tell apart at time `now` or later: approvals that have ended may differ. -/
structure Same (now : Nat) (b b' : Book) : Prop where
  owner : b.owner = b'.owner
  next : b.next = b'.next
  may : b.may = b'.may
  token : ∀ tid sp, InForce now (b.token tid sp) ↔ InForce now (b'.token tid sp)
  all : ∀ o sp, InForce now (b.all o sp) ↔ InForce now (b'.all o sp)

/-- No call in `ms` is later than `now`. -/
def Before (now : Nat) (ms : List Msg) : Prop := ∀ c t call, Msg.call c t call ∈ ms → t ≤ now

/-- The book a collection keeps. -/
def bookOf (s : State H) : Book where
  owner tid := (Owner s tid).map holder
  next := s.lastId
  token tid sp := ((s.tokAppr.get tid).bind fun m => m.get (Holder.account sp)).map Approval.expiresAt
  all o sp := ((s.collAppr.get (Holder.account o)).bind fun m => m.get (Holder.account sp)).map Approval.expiresAt
  may p x := Holds s p x

end Verif.Spec
