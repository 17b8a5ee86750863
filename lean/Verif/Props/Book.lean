import Verif.Lemmas.Book
import Verif.Props.Demo
/-!
# The collection as a small ledger of tokens (C92)
-/
namespace Verif

open Spec

variable {H : Type}

/-- C92: What a call does to the book is what its reply says. -/
theorem C92_call (E : Env H) (s : State H) (h : Reachable E s) (c : Principal) (now : Nat) (call : Call) :
    Reaction (CanRepeat E.ledger) c now call (step E s (.call c now call)).2
      (bookOf s) (bookOf (step E s (.call c now call)).1) := step_answers h.tokInv

/-- C92: Nothing but a call changes the book: not an upgrade and not the later part of a call. -/
theorem C92_other (E : Env H) (s : State H) (m : Msg) (hm : ∀ c now call, m ≠ .call c now call) :
    bookOf (step E s m).1 = bookOf s := step_other hm

private theorem course {E : Env H} (ms : List Msg) :
    ∀ {s : State H}, TokInv s → Course (CanRepeat E.ledger) ms (replies E s ms) (bookOf s) (bookOf (run E s ms)) := by
  induction ms with
  | nil => intro s _; exact .nil
  | cons m ms ih =>
    intro s hi
    have hi' : TokInv (step E s m).1 := Steps.induct (P := TokInv) (fun _ _ h hm => tokInv_micro h hm) (step_steps E s m) hi
    cases m with
    | call c now call => exact .call (step_answers hi) (ih hi')
    | resume now i ans =>
      have h := ih hi'
      rw [step_other (by intro c now call h; cases h)] at h
      exact .other (by intro c now call h; cases h) h
    | resumeTrap i =>
      have h := ih hi'
      rw [step_other (by intro c now call h; cases h)] at h
      exact .other (by intro c now call h; cases h) h
    | upgrade =>
      have h := ih hi'
      rw [step_other (by intro c now call h; cases h)] at h
      exact .other (by intro c now call h; cases h) h

private theorem opened {v : String → Bool} {hid : H} {c : Principal} {a : InitArgs} {s : State H}
    (h : init v hid c a = some s) : bookOf s = Book.opened (fun p x => Holds s p x) := by
  rw [init_eq h]; rfl

/-- C92: The whole history of a collection is a history of the book, which begins empty. -/
theorem C92_history (E : Env H) {v : String → Bool} {hid : H} {c : Principal} {a : InitArgs} {s : State H}
    (h : init v hid c a = some s) (ms : List Msg) :
    Course (CanRepeat E.ledger) ms (replies E s ms) (Book.opened fun p x => Holds s p x) (bookOf (run E s ms)) := by
  rw [← opened h]
  exact course ms (tokInv_init h)

/-- C92: The book tells who owns what, who may move what, and who may call what. -/
theorem C92_seen (s : State H) :
    (∀ tid o, (∃ a, Owner s tid = some a ∧ holder a = o) ↔ (bookOf s).owner tid = some o) ∧
    (∀ now tid o sp, MayMove s now tid o sp ↔
      holder sp = holder o ∨ InForce now ((bookOf s).token tid (holder sp)) ∨
        InForce now ((bookOf s).all (holder o) (holder sp))) ∧
    (∀ p x, hasPermission s.perms p x = true ↔ (bookOf s).may p x) := by
  have live : ∀ {m : Option (Map Account Approval)} {sp : Account} {now : Nat}, InForce now (ends m (holder sp)) ↔
      ∃ a, (∃ m', m = some m' ∧ m'.get sp = some a) ∧ Live a now := by
    intro m sp now
    constructor
    · intro h
      cases m with
      | none => exact h.elim
      | some m' =>
        have hg : m'.get (Holder.account (holder sp)) = m'.get sp := Map.get_congr m' (account_holder sp)
        simp only [ends, Option.bind_some] at h
        rw [hg] at h
        cases ha : m'.get sp with
        | none => rw [ha] at h; exact h.elim
        | some a =>
          rw [ha] at h
          refine ⟨a, ⟨m', rfl, ha⟩, ?_⟩
          intro e he
          simp only [Option.map_some, he] at h
          exact h
    · rintro ⟨a, ⟨m', rfl, ha⟩, hl⟩
      exact inForce_ends ha hl
  refine ⟨fun tid o => ?_, fun now tid o sp => ?_, fun p x => holds_iff.symm⟩
  · show _ ↔ (Owner s tid).map holder = some o
    rw [Option.map_eq_some_iff]
  · unfold MayMove TokenApproval CollApproval
    rw [bookOf_token, bookOf_all, live, live, holder_eq]

/-! ### what an observer knows -/

private theorem same_refl (now : Nat) (b : Book) : Same now b b :=
  ⟨rfl, rfl, rfl, fun _ _ => Iff.rfl, fun _ _ => Iff.rfl⟩

private theorem same_symm {now : Nat} {b b' : Book} (h : Same now b b') : Same now b' b :=
  ⟨h.owner.symm, h.next.symm, h.may.symm, fun i j => (h.token i j).symm, fun i j => (h.all i j).symm⟩

private theorem same_trans {now : Nat} {b b' b'' : Book} (h : Same now b b') (h' : Same now b' b'') : Same now b b'' :=
  ⟨h.owner.trans h'.owner, h.next.trans h'.next, h.may.trans h'.may, fun i j => (h.token i j).trans (h'.token i j),
    fun i j => (h.all i j).trans (h'.all i j)⟩

private theorem ended_not {now t : Nat} {x : Option (Option Nat)} (h : Ended t x) (ht : t ≤ now) : ¬ InForce now x := by
  obtain ⟨e, rfl, he⟩ := h
  intro hf
  have : now < e := hf
  omega

private theorem upd_upd_iff {α β : Type} [DecidableEq α] [DecidableEq β] {now : Nat} {f g : α → β → Option (Option Nat)} {a : α} {b : β}
    {v : Option (Option Nat)} (h : ∀ x y, InForce now (f x y) ↔ InForce now (g x y)) (x : α) (y : β) :
    InForce now (upd f a (upd (f a) b v) x y) ↔ InForce now (upd g a (upd (g a) b v) x y) := by
  unfold upd
  split
  · dsimp only
    split
    · rfl
    · exact h _ _
  · exact h _ _

private theorem upd_none_iff {α β : Type} [DecidableEq α] {now : Nat} {f g : α → β → Option (Option Nat)} {a : α}
    (h : ∀ x y, InForce now (f x y) ↔ InForce now (g x y)) (x : α) (y : β) :
    InForce now (upd f a (fun _ => none) x y) ↔ InForce now (upd g a (fun _ => none) x y) := by
  unfold upd
  split
  · rfl
  · exact h _ _

private theorem without_iff {α : Type} [DecidableEq α] {now : Nat} {f g : α → Holder → Option (Option Nat)} {a : α} {sp : Option Account}
    (h : ∀ x y, InForce now (f x y) ↔ InForce now (g x y)) (x : α) (y : Holder) :
    InForce now (upd f a (without (f a) sp) x y) ↔ InForce now (upd g a (without (g a) sp) x y) := by
  cases sp with
  | none => exact upd_none_iff h x y
  | some sp => exact upd_upd_iff h x y

private theorem forget_iff {α β : Type} [DecidableEq α] [DecidableEq β] {now : Nat} {f : α → β → Option (Option Nat)} {a : α} {b : β}
    (h : ¬ InForce now (f a b)) (x : α) (y : β) :
    InForce now (f x y) ↔ InForce now (upd f a (upd (f a) b none) x y) := by
  unfold upd
  split
  · rename_i hx
    subst hx
    dsimp only
    split
    · rename_i hy
      subst hy
      exact ⟨fun h' => (h h').elim, fun h' => h'.elim⟩
    · rfl
  · rfl

private theorem forgets_same {c : Principal} {t now : Nat} {arg : TransferFromArg} {b b' : Book} (ht : t ≤ now)
    (h : Forgets c t arg b b') : Same now b b' := by
  induction h with
  | nothing => exact same_refl _ _
  | token he => exact ⟨rfl, rfl, rfl, fun x y => forget_iff (ended_not he ht) x y, fun _ _ => Iff.rfl⟩
  | all ho he => exact ⟨rfl, rfl, rfl, fun _ _ => Iff.rfl, fun x y => forget_iff (ended_not he ht) x y⟩
  | both _ _ ih ih' => exact same_trans ih ih'

private theorem does_same {c : Principal} {t now : Nat} {call : Call} {b b' d d' : Book} (hb : Does c t call b b')
    (hd : Does c t call d d') (h : Same now b d) : Same now b' d' := by
  cases hb with
  | transfer _ _ _ _ _ =>
    cases hd with
    | transfer _ _ _ _ _ => exact ⟨by simp only [h.owner], h.next, h.may, h.token, h.all⟩
  | transferFrom ho hf _ _ _ =>
    cases hd with
    | transferFrom ho' hf' _ _ _ =>
      subst hf hf'
      exact ⟨by simp only [h.owner], h.next, h.may, upd_none_iff h.token, upd_none_iff h.all⟩
  | approve _ _ => cases hd with | approve _ _ => exact ⟨h.owner, h.next, h.may, upd_upd_iff h.token, h.all⟩
  | approveAll _ _ _ => cases hd with | approveAll _ _ _ => exact ⟨h.owner, h.next, h.may, h.token, upd_upd_iff h.all⟩
  | revoke _ => cases hd with | revoke _ => exact ⟨h.owner, h.next, h.may, without_iff h.token, h.all⟩
  | revokeAll => cases hd with | revokeAll => exact ⟨h.owner, h.next, h.may, h.token, without_iff h.all⟩
  | mint _ => cases hd with | mint _ => exact ⟨by simp only [h.owner, h.next], by simp only [h.next], h.may, h.token, h.all⟩
  | burn _ _ => cases hd with | burn _ _ => exact ⟨by simp only [h.owner], h.next, h.may, h.token, h.all⟩
  | grant _ => cases hd with | grant _ => exact ⟨h.owner, h.next, by simp only [h.may], h.token, h.all⟩
  | revokePermission _ =>
    cases hd with | revokePermission _ => exact ⟨h.owner, h.next, by simp only [h.may], h.token, h.all⟩

private theorem item_error {D : Prop} {c : Principal} {t now : Nat} {i : Call} {e : TokErr} {b b' : Book} (ht : t ≤ now)
    (h : Item D c t i (.error e) b b') : Same now b b' := by
  cases h with
  | refused => exact same_refl _ _
  | forgot hf => exact forgets_same ht hf

private theorem item_same {c : Principal} {t now : Nat} {i : Call} {r} {b b' d d' : Book} (ht : t ≤ now)
    (hb : Item False c t i r b b') (hd : Item False c t i r d d') (h : Same now b d) : Same now b' d' := by
  cases r with
  | error e => exact same_trans (same_symm (item_error ht hb)) (same_trans h (item_error ht hd))
  | ok n =>
    cases hb with
    | repeated hf _ => exact hf.elim
    | done hb =>
      cases hd with
      | repeated hf _ => exact hf.elim
      | done hd => exact does_same hb hd h

private theorem items_same {c : Principal} {t now : Nat} {is : List Call} {rs} {b b' d d' : Book} (ht : t ≤ now)
    (hb : Items False c t is rs b b') (hd : Items False c t is rs d d') (h : Same now b d) : Same now b' d' := by
  induction hb generalizing d with
  | nil => cases hd; exact h
  | cons h1 _ ih =>
    cases hd with
    | cons h2 h3 => exact ih h3 (item_same ht h1 h2 h)

private theorem not_books {c : Principal} {t : Nat} {call : Call} {b b' : Book} (h : Does c t call b b') :
    Books call ∨ items call ≠ [] := by
  cases h <;> first | exact .inl trivial | exact .inr (by simp [items])

private theorem answers_same {c : Principal} {t now : Nat} {call : Call} {r : Reply} {b b' d d' : Book} (ht : t ≤ now)
    (hb : Reaction False c t call r b b') (hd : Reaction False c t call r d d') (h : Same now b d) : Same now b' d' := by
  have none : ∀ {rs} {b b' : Book}, Items False c t [] rs b b' → b = b' := by
    intro rs b b' h; cases h; rfl
  cases hb with
  | batch h1 =>
    cases hd with
    | batch h2 => exact items_same ht h1 h2 h
    | elsewhere _ h2 => rw [h2] at h1; rw [← none h1]; exact h
  | minted h1 =>
    generalize hr : Reply.mgmt (.ok (.id b.next)) = r at hd
    cases hd with
    | minted h2 => exact does_same h1 h2 h
    | elsewhere h2 _ => exact (h2 trivial).elim
    | done _ => cases hr
    | _ => cases hr
  | done h1 =>
    cases hd with
    | done h2 => exact does_same h1 h2 h
    | elsewhere h2 h3 => rcases not_books h1 with h4 | h4
                         · exact (h2 h4).elim
                         · exact (h4 h3).elim
  | elsewhere h1 h2 =>
    cases hd with
    | batch h3 => rw [h2] at h3; rw [← none h3]; exact h
    | minted h3 => exact (h1 trivial).elim
    | done h3 => rcases not_books h3 with h4 | h4
                 · exact (h1 h4).elim
                 · exact (h4 h2).elim
    | _ => exact h
  | error => cases hd with
    | _ => exact h
  | batchError => cases hd with
    | _ => exact h
  | rejected => cases hd with
    | _ => exact h
  | trapped => cases hd with
    | _ => exact h

private theorem course_same {now : Nat} {ms : List Msg} {rs : List Reply} {b b' d d' : Book} (ht : Before now ms)
    (hb : Course False ms rs b b') (hd : Course False ms rs d d') (h : Same now b d) : Same now b' d' := by
  induction hb generalizing d with
  | nil => cases hd; exact h
  | call h1 _ ih =>
    cases hd with
    | call h2 h3 =>
      exact ih (fun c t call hm => ht c t call (.tail _ hm)) h3 (answers_same (ht _ _ _ (.head _)) h1 h2 h)
    | other h2 _ => exact (h2 _ _ _ rfl).elim
  | other h1 _ ih =>
    cases hd with
    | call _ _ => exact (h1 _ _ _ rfl).elim
    | other _ h3 => exact ih (fun c t call hm => ht c t call (.tail _ hm)) h3 h

private theorem course_false {D : Prop} (hD : ¬ D) {ms : List Msg} {rs : List Reply} {b b' : Book}
    (h : Course D ms rs b b') : Course False ms rs b b' := by
  rw [eq_false hD] at h; exact h

/-- C92: Whoever saw all calls and replies knows the book: collections that started with the
same permissions and answered the same calls alike agree on owners, permissions and who may
move what, whatever their settings, uploads, metadata and archives, if the archives repeat
nothing. -/
theorem C92_observer {H' : Type} (E : Env H) (E' : Env H') {v v' : String → Bool} {hid : H} {hid' : H'} {c c' : Principal}
    {a a' : InitArgs} {s : State H} {s' : State H'} (h : init v hid c a = some s) (h' : init v' hid' c' a' = some s')
    (hp : ∀ p x, Holds s p x ↔ Holds s' p x) (hL : ¬ CanRepeat E.ledger) (hL' : ¬ CanRepeat E'.ledger)
    (ms : List Msg) (hr : replies E s ms = replies E' s' ms) (now : Nat) (hnow : Before now ms) :
    (∀ tid, (Owner (run E s ms) tid).map holder = (Owner (run E' s' ms) tid).map holder) ∧
    (∀ p x, Holds (run E s ms) p x ↔ Holds (run E' s' ms) p x) ∧
    (∀ tid o sp, MayMove (run E s ms) now tid o sp ↔ MayMove (run E' s' ms) now tid o sp) := by
  have h1 := course_false hL (C92_history E h ms)
  have h2 := course_false hL' (C92_history E' h' ms)
  rw [← hr] at h2
  have hb : (Book.opened fun p x => Holds s p x) = Book.opened fun p x => Holds s' p x := by
    congr 1; funext p x; exact propext (hp p x)
  rw [← hb] at h2
  have hs := course_same hnow h1 h2 (same_refl _ _)
  refine ⟨fun tid => congrFun hs.owner tid, fun p x => iff_of_eq (congrFun (congrFun hs.may p) x), fun tid o sp => ?_⟩
  rw [(C92_seen _).2.1, (C92_seen _).2.1, hs.token, hs.all]

/-! ### a concrete collection -/

namespace Book.Example

open Demo

/-- Mint, approve carol for token 2, carol takes it, alice sends token 1 to bob, bob burns it;
a stranger's transfer is refused. -/
def msgs : List Msg :=
  [mintMsg, approveMsg, takeMsg, .call alice.owner (ms 400) (.transfer [{ to_ := bob, tid := 1 }]),
   .call carol.owner (ms 500) (.transfer [{ to_ := carol, tid := 3 }]), .upgrade,
   .call bob.owner (ms 700) (.burn 1)]

/-- The same collection with other settings and another archive, which numbers from 40. -/
def other : State Nat := (init (fun _ => true) 40 admin { args with supplyCap := some 1000, atomicBatch := some true }).get rfl

example : ∃ s : State Nat, Reachable env s ∧ (bookOf s).owner 2 = some ([1], List.replicate 32 0) ∧
    (bookOf (step env s (.call carol.owner (ms 300) (.transferFrom
      [{ from_ := alice, to_ := carol, tid := 2 }]))).1).owner 2 = some ([3], List.replicate 32 0) :=
  ⟨run env s0 [mintMsg, approveMsg], reach _, by decide, by decide⟩

example : replies env s0 msgs = [.mgmt (.ok (.id 1)), .batch [.ok 3], .batch [.ok 4], .batch [.ok 5],
    .batch [.error .invalidRecipient], .none, .mgmt (.ok .unit)] := by rfl

example : (bookOf (run env s0 msgs)).owner 1 = none ∧ (bookOf (run env s0 msgs)).owner 3 = some ([2], List.replicate 32 0) ∧
    (bookOf (run env s0 msgs)).next = 4 := by decide

/-- An upgrade is not a call. -/
example : ∀ c now call, Msg.upgrade ≠ .call c now call := by intro c now call h; cases h

/-- Both collections answer alike, if numbers are given by the same archive. -/
example : ¬ CanRepeat env.ledger ∧ Before (ms 700) msgs ∧ (∀ p x, Holds s0 p x ↔ Holds other p x) ∧
    replies env s0 msgs = replies ⟨⟨fun h _ => (h + 1, .ok (h - 40))⟩, [9], fun _ => "aaaaa-aa"⟩ other msgs := by
  refine ⟨?_, ?_, fun p x => Iff.rfl, rfl⟩
  · rintro ⟨h, t, h', d, he⟩
    simp [env, ledger] at he
  · intro c t call h
    simp only [msgs, mintMsg, approveMsg, takeMsg, List.mem_cons, List.not_mem_nil, Msg.call.injEq, reduceCtorEq, or_false, false_or] at h
    have : ms 100 ≤ ms 700 ∧ ms 200 ≤ ms 700 ∧ ms 300 ≤ ms 700 ∧ ms 400 ≤ ms 700 ∧ ms 500 ≤ ms 700 := by decide
    rcases h with h | h | h | h | h | h <;> omega

end Book.Example

end Verif
