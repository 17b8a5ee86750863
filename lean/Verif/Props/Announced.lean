import Verif.Spec.Announced
import Verif.Lemmas.Batch
import Verif.Lemmas.Metadata
import Verif.Props.Demo
/-!
# Announced limits and the methods they bind (C103)
-/
namespace Verif

open Spec

variable {H : Type}

namespace Announced

private theorem added_eq {E : Env H} {s : State H} {m : Msg} {new : List Tx} (h : (step E s m).1.log = s.log ++ new) :
    addedBy E s m = new := by
  unfold addedBy
  rw [h, List.drop_left]

private theorem memo_le {s : State H} {memo : Option Blob} (h : checkMemo s.cfg memo = some true) :
    ∀ b, memo = some b → b.length ≤ MemoLimit s := by
  intro b hb
  subst hb
  unfold checkMemo at h
  dsimp only at h
  split at h
  · cases h
  · simp at h; exact h

private theorem memos_le {s : State H} (reqs : List MintReq) (h : checkMemos s.cfg reqs = some true) :
    ∀ r ∈ reqs, ∀ b, r.memo = some b → b.length ≤ MemoLimit s := by
  induction reqs with
  | nil => intro r hr; cases hr
  | cons r rs ih =>
    unfold checkMemos at h
    split at h
    · cases h
    · cases h
    · rename_i hm
      intro x hx
      rcases List.mem_cons.1 hx with rfl | hx
      · exact memo_le hm
      · exact ih h x hx

private theorem transfer_added {L : Ledger H} {c : Principal} {now : Nat} (args : List TransferArg) :
    ∀ {s s' : State H} {rs}, runBatch (fun s a => transferNft L s c now a) s args = some (s', rs) →
      s'.cfg = s.cfg ∧ ∃ new, s'.log = s.log ++ new ∧ new.length ≤ args.length ∧
        ∀ x ∈ new, x.op = .xfer ∧ ∀ b, x.memo = some b → b.length ≤ MemoLimit s := by
  induction args with
  | nil => intro s s' rs h; simp [runBatch] at h; rw [← h.1]; exact ⟨rfl, [], by simp⟩
  | cons a as ih =>
    intro s s' rs h
    obtain ⟨t, r, rs', h1, h2, rfl⟩ := runBatch_cons h
    obtain ⟨hc, new, hl, hn, hx⟩ := ih h2
    cases transferNft_out h1 with
    | refused => exact ⟨hc, new, hl, Nat.le_succ_of_le hn, hx⟩
    | duplicate => exact ⟨hc, new, hl, Nat.le_succ_of_le hn, hx⟩
    | moved w nft h i tok own toOk diff memo =>
      refine ⟨hc, transferTx now (a.createdAt.getD now) a nft :: new, ?_, Nat.succ_le_succ hn, ?_⟩
      · rw [hl]; simp [moveToken]
      · intro x hm
        rcases List.mem_cons.1 hm with rfl | hm
        · exact ⟨rfl, memo_le memo⟩
        · exact hx x hm

private theorem other_added {E : Env H} {s : State H} {m : Msg} (h1 : ∀ c now args, m ≠ .call c now (.transfer args))
    (h2 : ∀ c now reqs, m ≠ .call c now (.mint reqs)) :
    ∃ new, (step E s m).1.log = s.log ++ new ∧ ∀ x ∈ new, Delegated x ∨ ((x.op = .burn ∨ x.op = .updateToken) ∧ x.memo = none) := by
  refine (step_steps E s m).induct (P := fun t => ∃ new, t.log = s.log ++ new ∧
    ∀ x ∈ new, Delegated x ∨ ((x.op = .burn ∨ x.op = .updateToken) ∧ x.memo = none)) ?_ ⟨[], by simp⟩
  rintro t t' ⟨new, hl, hx⟩ hm
  have key : ∀ (r : Tx) (_ : t'.log = t.log ++ [r])
      (_ : Delegated r ∨ ((r.op = .burn ∨ r.op = .updateToken) ∧ r.memo = none)), ∃ new, t'.log = s.log ++ new ∧
        ∀ x ∈ new, Delegated x ∨ ((x.op = .burn ∨ x.op = .updateToken) ∧ x.memo = none) := by
    intro r hr hd
    refine ⟨new ++ [r], by rw [hr, hl, List.append_assoc], ?_⟩
    intro x hm
    rcases List.mem_append.1 hm with hm | hm
    · exact hx x hm
    · rw [List.mem_singleton.1 hm]; exact hd
  cases hm with
  | xfer => exact absurd rfl (h1 _ _ _)
  | mint => exact absurd rfl (h2 _ _ _)
  | mintCut => exact absurd rfl (h2 _ _ _)
  | xferFrom => exact key _ rfl (.inl (by simp [Delegated, transferFromTx]))
  | approve => exact key _ rfl (.inl (by simp [Delegated, approveTx]))
  | approveColl => exact key _ rfl (.inl (by simp [Delegated, approveCollTx]))
  | revokeTok => exact key _ rfl (.inl (by simp [Delegated, revokeTx]))
  | revokeColl => exact key _ rfl (.inl (by simp [Delegated, revokeCollTx]))
  | updateMeta => exact key _ rfl (.inr (by simp [updateTx]))
  | burn => exact key _ rfl (.inr (by simp [burnTx]))
  | @resume _ now i ans p hp =>
    obtain ⟨_, _, _, _, he⟩ := resumeBody_eq E { t with pending := t.pending.eraseIdx i } now p ans
    rw [he]; exact ⟨new, hl, hx⟩
  | _ => exact ⟨new, hl, hx⟩

private theorem filter_len_zero {l : List Tx} {p : Tx → Bool} (h : ∀ x ∈ l, p x = false) : (l.filter p).length = 0 := by
  rw [List.filter_eq_nil_iff.2 (by simpa using h)]; rfl

/-- What a message adds to the log, as far as the limits are concerned. -/
private theorem added_all (E : Env H) (s : State H) (m : Msg) :
    (∀ x ∈ addedBy E s m, ¬ Delegated x → ∀ b, x.memo = some b → b.length ≤ MemoLimit s) ∧
    ((addedBy E s m).filter fun x => decide (x.op = .mint ∨ x.op = .xfer)).length ≤ BatchLimit s := by
  by_cases h1 : ∃ c now args, m = .call c now (.transfer args)
  · obtain ⟨c, now, args, rfl⟩ := h1
    have same : (step E s (.call c now (.transfer args))).1 = s → addedBy E s (.call c now (.transfer args)) = [] := by
      intro h; exact added_eq (by rw [h, List.append_nil])
    have he : step E s (.call c now (.transfer args)) = ofBatch s (icrc7Transfer E.ledger s c now args) := rfl
    cases hb : icrc7Transfer E.ledger s c now args with
    | none => rw [same (by rw [he, hb]; rfl)]; simp
    | some p =>
      obtain ⟨s', rs⟩ := p
      rcases icrc7Transfer_out hb with ⟨_, rfl, _⟩ | ⟨_, _, ⟨_, rfl, _⟩ | ⟨_, _, hrun⟩⟩
      · rw [same (by rw [he, hb]; rfl)]; simp
      · rw [same (by rw [he, hb]; rfl)]; simp
      · obtain ⟨_, new, hl, hn, hx⟩ := transfer_added _ hrun
        rw [added_eq (new := new) (by rw [he, hb]; exact hl)]
        refine ⟨fun x hm _ => (hx x hm).2, Nat.le_trans (List.length_filter_le _ _) (Nat.le_trans hn ?_)⟩
        rw [List.length_take]
        exact Nat.min_le_left _ _
  by_cases h2 : ∃ c now reqs, m = .call c now (.mint reqs)
  · obtain ⟨c, now, reqs, rfl⟩ := h2
    have same : (step E s (.call c now (.mint reqs))).1 = s → addedBy E s (.call c now (.mint reqs)) = [] := by
      intro h; exact added_eq (by rw [h, List.append_nil])
    rcases mint_step E s c now reqs with h | h | ⟨s', r, h, ho⟩
    · rw [same (by rw [h])]; simp
    · rw [same (by rw [h])]; simp
    · have fin : ∀ k (l : List MintReq), (∀ x ∈ l, x ∈ reqs) → l.length ≤ BatchLimit s →
          checkMemos s.cfg reqs = some true → s'.log = s.log ++ l.mapIdx (fun j r => mintTx now (k + j) r) →
          (∀ x ∈ addedBy E s (.call c now (.mint reqs)), ¬ Delegated x → ∀ b, x.memo = some b → b.length ≤ MemoLimit s) ∧
          ((addedBy E s (.call c now (.mint reqs))).filter fun x => decide (x.op = .mint ∨ x.op = .xfer)).length ≤
            BatchLimit s := by
        intro k l hsub hlen hmem hl
        rw [added_eq (by rw [h]; exact hl)]
        refine ⟨?_, Nat.le_trans (List.length_filter_le _ _) (by rw [List.length_mapIdx]; exact hlen)⟩
        intro x hx _ b hb
        rw [List.mem_mapIdx] at hx
        obtain ⟨j, hj, rfl⟩ := hx
        exact memos_le reqs hmem _ (hsub _ (List.getElem_mem hj)) b hb
      cases ho with
      | refused => rw [same (by rw [h])]; simp
      | cut md h' n free hn hmd memos batch =>
        exact fin _ _ (fun x hx => List.mem_of_mem_take hx)
          (by rw [List.length_take]; exact Nat.le_trans (Nat.min_le_right _ _) batch) memos rfl
      | minted md h' free batch cap memos hmd =>
        exact fin _ _ (fun x hx => hx) batch memos (by rw [mintInsert_eq])
  · obtain ⟨new, hl, hx⟩ := other_added (E := E) (s := s) (m := m) (fun c now args h => h1 ⟨c, now, args, h⟩)
      (fun c now reqs h => h2 ⟨c, now, reqs, h⟩)
    rw [added_eq hl]
    constructor
    · intro x hm hd b hb
      rcases hx x hm with h | ⟨_, h⟩
      · exact absurd h hd
      · rw [h] at hb; cases hb
    · rw [filter_len_zero]
      · exact Nat.zero_le _
      · intro x hm
        rcases hx x hm with h | ⟨h | h, _⟩
        · simp only [Delegated, List.mem_cons, List.not_mem_nil, or_false] at h
          rcases h with h | h | h | h | h <;> simp [h]
        · simp [h]
        · simp [h]

end Announced

open Announced

/-- C103 for memos, as far as it holds: whatever a message puts on the record, apart from
the records of ICRC-37, has a memo within the announced size. Missing: the methods of
ICRC-37 do not look at the size (`C103_violated_memo`). -/
theorem C103_memo_partial (E : Env H) (s : State H) (m : Msg) {x : Tx} (hx : x ∈ addedBy E s m) (hd : ¬ Delegated x)
    {b : Blob} (hb : x.memo = some b) : b.length ≤ MemoLimit s :=
  (added_all E s m).1 x hx hd b hb

/-- C103 for batches, as far as it holds: no message mints or transfers more tokens with
`icrc7_transfer` than announced for one call. Missing: the methods of ICRC-37 take
batches of any size (`C103_violated_batch`). -/
theorem C103_batch_partial (E : Env H) (s : State H) (m : Msg) :
    ((addedBy E s m).filter fun x => decide (x.op = .mint ∨ x.op = .xfer)).length ≤ BatchLimit s :=
  (added_all E s m).2

namespace Announced

/-- A collection that announces memos of at most three bytes and one item per call. -/
def tight : InitArgs := { Demo.args with maxMemo := some 3, maxUpdateBatch := some 1, maxQueryBatch := some 1 }

def t0 : State Nat := (init (fun _ => true) 0 Demo.admin tight).get rfl

def mintOne (n : Nat) : Msg := .call Demo.admin (Demo.ms n) (.mint [{ owner := Demo.alice, memo := some [1, 2, 3] }])

/-- alice holds tokens 1 and 2. -/
def t1 : State Nat := run Demo.env t0 [mintOne 100, mintOne 200]

theorem t1_reach : Reachable Demo.env t1 := ⟨fun _ => true, 0, Demo.admin, tight, t0, _, rfl, rfl⟩

/-- An approval of both tokens with memos of four bytes. -/
def approveBoth : Msg :=
  .call [1] (Demo.ms 300) (.approveTokens
    [{ tid := 1, info := { spender := Demo.carol, memo := some [1, 2, 3, 4], createdAt := Demo.ms 300 } },
     { tid := 2, info := { spender := Demo.carol, memo := some [1, 2, 3, 4], createdAt := Demo.ms 300 } }])

/-- A delegated transfer of both. -/
def takeBoth : Msg :=
  .call [3] (Demo.ms 400) (.transferFrom
    [{ from_ := Demo.alice, to_ := Demo.carol, tid := 1, memo := some [1, 2, 3, 4] },
     { from_ := Demo.alice, to_ := Demo.carol, tid := 2, memo := some [1, 2, 3, 4] }])

/-- The mint of a token is on the record with its memo, as long as the limit allows; a
memo or a batch longer than that puts nothing on the record, with `mint` and with
`icrc7_transfer` (which takes the first item). -/
example : (MemoLimit t0 = 3 ∧ BatchLimit t0 = 1) ∧
    (addedBy Demo.env t0 (mintOne 100)).map (fun x => (x.op, x.memo)) = [(.mint, some [1, 2, 3])] ∧
    addedBy Demo.env t0 (.call Demo.admin (Demo.ms 100) (.mint [{ owner := Demo.alice, memo := some [1, 2, 3, 4] }])) = [] ∧
    addedBy Demo.env t0 (.call Demo.admin (Demo.ms 100) (.mint [{ owner := Demo.alice }, { owner := Demo.alice }])) = [] ∧
    addedBy Demo.env t1 (.call [1] (Demo.ms 300) (.transfer [{ to_ := Demo.bob, tid := 1, memo := some [1, 2, 3, 4] }])) = [] ∧
    (addedBy Demo.env t1 (.call [1] (Demo.ms 300) (.transfer [{ to_ := Demo.bob, tid := 1, memo := some [1] },
      { to_ := Demo.bob, tid := 2 }]))).map (fun x => (x.op, x.tid, x.memo)) = [(.xfer, some 1, some [1])] := by
  decide

end Announced

/-- C103 is false of memos: approvals and delegated transfers are accepted with memos
longer than announced. -/
theorem C103_violated_memo : ∃ s : State Nat, Reachable Demo.env s ∧ icrc7MaxMemoSize s = some 3 ∧
    ¬ MemosBound Demo.env s ∧
    (addedBy Demo.env s approveBoth).map (fun x => (x.op, x.memo)) =
      [(.approve, some [1, 2, 3, 4]), (.approve, some [1, 2, 3, 4])] ∧
    (addedBy Demo.env (step Demo.env s approveBoth).1 takeBoth).map (fun x => (x.op, x.memo)) =
      [(.xferFrom, some [1, 2, 3, 4]), (.xferFrom, some [1, 2, 3, 4])] := by
  refine ⟨t1, t1_reach, by decide, fun h => ?_, by decide, by decide⟩
  have h1 := h approveBoth ((addedBy Demo.env t1 approveBoth).head (by decide)) (List.head_mem _) [1, 2, 3, 4] (by decide)
  exact absurd h1 (by decide)

/-- C103 is false of batches: with one item per call announced, two approvals and two
delegated transfers are made in one call. -/
theorem C103_violated_batch : ∃ s : State Nat, Reachable Demo.env s ∧ icrc7MaxUpdateBatchSize s = some 1 ∧
    ¬ BatchesBound Demo.env s ∧
    (addedBy Demo.env s approveBoth).length = 2 ∧
    (addedBy Demo.env (step Demo.env s approveBoth).1 takeBoth).length = 2 :=
  ⟨t1, t1_reach, by decide, fun h => absurd (h approveBoth) (by decide), by decide, by decide⟩

/-- C103 is false of queries: with one item per query announced, `icrc7_owner_of` refuses
two, and `icrc37_is_approved` answers lists of any length. -/
theorem C103_violated_query : ∃ s : State Nat, Reachable Demo.env s ∧ icrc7MaxQueryBatchSize s = some 1 ∧
    icrc7OwnerOf s [1, 2] = none ∧ ∀ now args, (icrc37IsApproved s now args).length = args.length :=
  ⟨t1, t1_reach, by decide, by decide, fun now args => by simp [icrc37IsApproved]⟩

end Verif
