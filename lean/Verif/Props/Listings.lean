import Verif.Lemmas.ApprovalTables
import Verif.Lemmas.Pages
import Verif.Props.Demo
/-!
# C27, C28, C48: queries
-/
namespace Verif

open Spec

variable {H : Type}

/-! ## C27 -/

private theorem page_facts {ids : List Nat} (hn : ids.Nodup) (prev n : Nat) :
    (page ids prev n).Pairwise (· < ·) ∧ (page ids prev n).length ≤ n ∧ ∀ x ∈ page ids prev n, x ∈ ids ∧ prev < x := by
  refine ⟨?_, ?_, fun x hx => mem_page hx⟩
  · rw [page_eq]
    exact ((sortNat_strict hn).filter _).sublist (List.take_sublist _ _)
  · unfold page
    exact List.length_take_le _ _

/-- The number of rows a page may have: as requested, or the configured or built-in
default. -/
def PageSize (s : State H) (take : Option Nat) : Nat := take.getD (s.cfg.defaultTake.getD 100)

private theorem toUsizeOr_le (n : Nat) : toUsizeOr n defaultTake ≤ n := by
  unfold toUsizeOr defaultTake
  split
  · exact Nat.le_refl _
  · rename_i h
    simp only [USIZE] at h
    omega

private theorem paged_facts {s : State H} {ids : List Nat} (hn : ids.Nodup) {prev take : Option Nat} {l : List Nat}
    (h : paged s ids prev take = some l) : l.Pairwise (· < ·) ∧ l.length ≤ PageSize s take ∧
      ∀ x ∈ l, x ∈ ids ∧ ∀ p, prev = some p → p < x := by
  unfold paged at h
  split at h
  · cases h
  · simp at h
    subst h
    obtain ⟨h1, h2, h3⟩ := page_facts hn (prev.getD 0) (toUsizeOr (take.getD (s.cfg.defaultTake.getD defaultTake)) defaultTake)
    refine ⟨h1, Nat.le_trans h2 (toUsizeOr_le _), fun x hx => ⟨(h3 x hx).1, ?_⟩⟩
    rintro p rfl
    exact (h3 x hx).2

/-- C27: a page of `icrc7_tokens` is strictly increasing, has at most the requested
(or default) number of ids, all of existing tokens and above `prev`. -/
theorem C27_tokens_page {E : Env H} {s : State H} (hr : Reachable E s) {prev take : Option Nat} {l : List Nat}
    (h : icrc7Tokens s prev take = some l) : l.Pairwise (· < ·) ∧ l.length ≤ PageSize s take ∧
      ∀ x ∈ l, TokenExists s x ∧ ∀ p, prev = some p → p < x := by
  obtain ⟨h1, h2, h3⟩ := paged_facts (Map.nodup_keys_lawful hr.tokInv.nodup) h
  exact ⟨h1, h2, fun x hx => ⟨mem_keys.1 (h3 x hx).1, (h3 x hx).2⟩⟩

/-- C27: the same for `icrc7_tokens_of`, whose ids all belong to the account. -/
theorem C27_tokens_of_page {E : Env H} {s : State H} (hr : Reachable E s) {a : Account} {prev take : Option Nat} {l : List Nat}
    (h : icrc7TokensOf s a prev take = some l) : l.Pairwise (· < ·) ∧ l.length ≤ PageSize s take ∧
      ∀ x ∈ l, (∃ o, Owner s x = some o ∧ SameAccount o a) ∧ ∀ p, prev = some p → p < x := by
  obtain ⟨h1, h2, h3⟩ := paged_facts (nodup_tokenIdsOf hr.tokInv a) h
  exact ⟨h1, h2, fun x hx => ⟨(mem_tokenIdsOf hr.tokInv).1 (h3 x hx).1, (h3 x hx).2⟩⟩

private theorem take_complete {l : List Nat} (hl : l.Pairwise (· < ·)) {x : Nat} (hx : x ∈ l) (n : Nat) :
    x ∈ l.take n ∨ ((l.take n).length = n ∧ ∀ y ∈ l.take n, y < x) := by
  rw [← List.take_append_drop n l] at hx hl
  rcases List.mem_append.1 hx with hx | hx
  · exact .inl hx
  · right
    refine ⟨?_, fun y hy => (List.pairwise_append.1 hl).2.2 y hy x hx⟩
    have := List.length_pos_of_mem hx
    rw [List.length_drop] at this
    rw [List.length_take]
    omega

private theorem paged_complete {s : State H} {ids : List Nat} (hn : ids.Nodup) {prev take : Option Nat} {l : List Nat}
    (hw : PageSize s take < 2 ^ 32) (h : paged s ids prev take = some l) {x : Nat} (hx : x ∈ ids) (h0 : 0 < x)
    (hp : ∀ p, prev = some p → p < x) :
    x ∈ l ∨ (l.length = PageSize s take ∧ ∀ y ∈ l, y < x) := by
  unfold paged at h
  split at h
  · cases h
  · simp at h
    subst h
    rw [page_eq]
    have he : toUsizeOr (take.getD (s.cfg.defaultTake.getD defaultTake)) defaultTake = PageSize s take :=
      if_pos (by simpa [PageSize, USIZE, defaultTake] using hw)
    rw [he]
    refine take_complete ((sortNat_strict hn).filter _) ?_ _
    rw [List.mem_filter, mem_sortNat]
    refine ⟨hx, ?_⟩
    cases prev with
    | none => simpa using h0
    | some p => simpa using hp p rfl

/-- C27: a page of `icrc7_tokens` leaves nothing out: an existing id above `prev` is on
it, or it is full and all its ids are smaller. -/
theorem C27_tokens_complete {E : Env H} {s : State H} (hr : Reachable E s) {prev take : Option Nat} {l : List Nat}
    (hw : PageSize s take < 2 ^ 32) (h : icrc7Tokens s prev take = some l) {tid : Nat} (ht : TokenExists s tid)
    (hp : ∀ p, prev = some p → p < tid) :
    tid ∈ l ∨ (l.length = PageSize s take ∧ ∀ x ∈ l, x < tid) := by
  refine paged_complete (Map.nodup_keys_lawful hr.tokInv.nodup) hw h (mem_keys.2 ht) ?_ hp
  obtain ⟨o, ho⟩ := ht
  obtain ⟨t, ht, _⟩ := owner_get ho
  exact hr.tokInv.pos _ _ ht

/-- C27: the same for `icrc7_tokens_of`. -/
theorem C27_tokens_of_complete {E : Env H} {s : State H} (hr : Reachable E s) {a o : Account} {prev take : Option Nat} {l : List Nat}
    (hw : PageSize s take < 2 ^ 32) (h : icrc7TokensOf s a prev take = some l) {tid : Nat} (ho : Owner s tid = some o)
    (hoa : SameAccount o a) (hp : ∀ p, prev = some p → p < tid) :
    tid ∈ l ∨ (l.length = PageSize s take ∧ ∀ x ∈ l, x < tid) := by
  refine paged_complete (nodup_tokenIdsOf hr.tokInv a) hw h ((mem_tokenIdsOf hr.tokInv).2 ⟨o, ho, hoa⟩) ?_ hp
  obtain ⟨t, ht, _⟩ := owner_get ho
  exact hr.tokInv.pos _ _ ht

example : PageSize Demo.s1 (some 2) < 2 ^ 32 ∧ icrc7Tokens Demo.s1 (some 1) (some 1) = some [2] ∧
    TokenExists Demo.s1 2 ∧ TokenExists Demo.s1 3 ∧ icrc7TokensOf Demo.s1 Demo.alice none none = some [1, 2] :=
  ⟨by decide, rfl, ⟨_, rfl⟩, ⟨_, rfl⟩, rfl⟩

private theorem crawl_paged {s : State H} {ids : List Nat} (hn : ids.Nodup) {n : Nat} (hn1 : 1 ≤ n)
    (hmax : n ≤ s.cfg.maxTake.getD 100) (prev : Option Nat) {fuel : Nat} (hf : ids.length < fuel) :
    crawl (fun p => paged s ids p (some n)) fuel prev =
      some ((sortNat ids).filter fun id => decide (prev.getD 0 < id)) := by
  refine crawl_page ids hn (toUsizeOr n defaultTake) ?_ _ ?_ _ prev ?_
  · unfold toUsizeOr defaultTake
    split <;> omega
  · intro p
    unfold paged
    rw [if_neg]
    · simp
    · simp only [Option.any_some, decide_eq_true_eq]
      show ¬ n > s.cfg.maxTake.getD 100
      omega
  · have := List.length_filter_le (fun id => decide (prev.getD 0 < id)) (sortNat ids)
    rw [length_sortNat] at this
    omega

/-- C27: fetching page after page of `icrc7_tokens` (any permitted page size `n ≥ 1`,
from any starting point) until an empty page yields exactly the existing ids above
the starting point, each once, in increasing order, after at most one page per
token and one. -/
theorem C27_tokens_crawl {E : Env H} {s : State H} (hr : Reachable E s) {n : Nat} (hn : 1 ≤ n)
    (hmax : n ≤ s.cfg.maxTake.getD 100) (prev : Option Nat) :
    ∃ l, crawl (fun p => icrc7Tokens s p (some n)) (totalSupply s + 1) prev = some l ∧ l.Pairwise (· < ·) ∧
      ∀ tid, tid ∈ l ↔ TokenExists s tid ∧ ∀ p, prev = some p → p < tid := by
  have hk := Map.nodup_keys_lawful hr.tokInv.nodup
  have hlen : s.tokens.keys.length = totalSupply s := by simp [Map.keys, totalSupply, Map.size]
  refine ⟨_, crawl_paged hk hn hmax prev (by omega), (sortNat_strict hk).filter _, fun tid => ?_⟩
  rw [List.mem_filter, mem_sortNat, mem_keys]
  constructor
  · rintro ⟨h1, h2⟩
    refine ⟨h1, ?_⟩
    rintro p rfl
    simpa using h2
  · rintro ⟨h1, h2⟩
    refine ⟨h1, ?_⟩
    cases prev with
    | none =>
      obtain ⟨o, ho⟩ := h1
      obtain ⟨t, ht, _⟩ := owner_get ho
      simpa using Nat.lt_of_lt_of_le Nat.zero_lt_one (hr.tokInv.pos _ _ ht)
    | some p => simpa using h2 p rfl

/-- C27: the same for `icrc7_tokens_of`. -/
theorem C27_tokens_of_crawl {E : Env H} {s : State H} (hr : Reachable E s) (a : Account) {n : Nat} (hn : 1 ≤ n)
    (hmax : n ≤ s.cfg.maxTake.getD 100) (prev : Option Nat) :
    ∃ l, crawl (fun p => icrc7TokensOf s a p (some n)) (totalSupply s + 1) prev = some l ∧ l.Pairwise (· < ·) ∧
      ∀ tid, tid ∈ l ↔ (∃ o, Owner s tid = some o ∧ SameAccount o a) ∧ ∀ p, prev = some p → p < tid := by
  have hk := nodup_tokenIdsOf hr.tokInv a
  have hlen : (tokenIdsOf s a).length ≤ totalSupply s := by
    unfold tokenIdsOf totalSupply Map.size
    rw [List.length_map]
    exact List.length_filter_le _ _
  refine ⟨_, crawl_paged hk hn hmax prev (by omega), (sortNat_strict hk).filter _, fun tid => ?_⟩
  rw [List.mem_filter, mem_sortNat, mem_tokenIdsOf hr.tokInv]
  constructor
  · rintro ⟨h1, h2⟩
    refine ⟨h1, ?_⟩
    rintro p rfl
    simpa using h2
  · rintro ⟨h1, h2⟩
    refine ⟨h1, ?_⟩
    cases prev with
    | none =>
      obtain ⟨o, ho, _⟩ := h1
      obtain ⟨t, ht, _⟩ := owner_get ho
      simpa using Nat.lt_of_lt_of_le Nat.zero_lt_one (hr.tokInv.pos _ _ ht)
    | some p => simpa using h2 p rfl

example : crawl (fun p => icrc7Tokens Demo.s1 p (some 2)) 4 none = some [1, 2, 3] ∧
    crawl (fun p => icrc7TokensOf Demo.s1 Demo.alice0 p (some 1)) 4 (some 1) = some [2] ∧
    icrc7Tokens Demo.s1 (some 1) none = some [2, 3] := ⟨rfl, rfl, rfl⟩

/-! ## C28 -/

/-- The number of items a query may ask for. -/
def QueryLimit (s : State H) : Nat := s.cfg.maxQueryBatch.getD 100

private theorem queryLimit_eq {s : State H} (h : QueryLimit s < 2 ^ 32) :
    toUsizeOr (s.cfg.maxQueryBatch.getD defaultMaxQueryBatch) defaultMaxQueryBatch = QueryLimit s := by
  unfold toUsizeOr
  rw [show s.cfg.maxQueryBatch.getD defaultMaxQueryBatch = QueryLimit s from rfl, if_pos (pow32 ▸ h)]

/-- A batch query `q` answers requests within the limit, the `i`-th answer being
the one a request for the `i`-th item alone gets, and rejects longer ones. -/
def AnswersUpTo {A B : Type} (n : Nat) (q : List A → Option (List B)) : Prop :=
  (∀ l, l.length ≤ n → ∃ r, q l = some r ∧ r.length = l.length ∧
    ∀ i (h : i < l.length) (h' : i < r.length), q [l[i]] = some [r[i]]) ∧
  ∀ l, n < l.length → q l = none

private theorem queryBatch_answers {A B : Type} {s : State H} (h : QueryLimit s < 2 ^ 32) (f : A → B) :
    AnswersUpTo (QueryLimit s) (queryBatch s f) := by
  unfold queryBatch
  rw [queryLimit_eq h]
  constructor
  · intro l hl
    refine ⟨l.map f, if_neg (by omega), by simp, ?_⟩
    intro i hi hi'
    show (if [l[i]].length > QueryLimit s then none else _) = _
    rw [if_neg (by simp; omega)]
    simp
  · intro l hl
    exact if_pos (by omega)

/-- C28 for `icrc7_owner_of`, with the answers spelled out. Missing: limits of 2^32
and more, for which the default is used (`C28_violated_wide`). -/
theorem C28_owner_of_partial {s : State H} (h : QueryLimit s < 2 ^ 32) :
    AnswersUpTo (QueryLimit s) (icrc7OwnerOf s) ∧
    ∀ ids, ids.length ≤ QueryLimit s → icrc7OwnerOf s ids = some (ids.map (Owner s)) := by
  refine ⟨queryBatch_answers h _, fun ids hl => ?_⟩
  unfold icrc7OwnerOf queryBatch
  rw [queryLimit_eq h, if_neg (by omega)]
  rfl

/-- C28 for `icrc7_balance_of`. -/
theorem C28_balance_of_partial {s : State H} (h : QueryLimit s < 2 ^ 32) : AnswersUpTo (QueryLimit s) (icrc7BalanceOf s) :=
  queryBatch_answers h _

/-- C28 for `icrc7_token_metadata`. -/
theorem C28_token_metadata_partial {s : State H} (h : QueryLimit s < 2 ^ 32) :
    AnswersUpTo (QueryLimit s) (icrc7TokenMetadata s) := queryBatch_answers h _

/-- C28 is false for a configured limit of 2^32: a request of 101 items is
rejected. -/
theorem C28_violated_wide : ∃ s₀ : State Nat,
    init (fun _ => true) 0 Demo.admin { Demo.args with maxQueryBatch := some (2 ^ 32) } = some s₀ ∧
      101 ≤ QueryLimit s₀ ∧ icrc7OwnerOf s₀ (List.replicate 101 1) = none := ⟨_, rfl, by decide, by decide⟩

/-- C28: a page request above the configured maximum is rejected, any other is
answered. -/
theorem C28_take (s : State H) (a : Account) (prev take : Option Nat) :
    ((icrc7Tokens s prev take = none ↔ ∃ n, take = some n ∧ s.cfg.maxTake.getD 100 < n) ∧
     (icrc7TokensOf s a prev take = none ↔ ∃ n, take = some n ∧ s.cfg.maxTake.getD 100 < n)) := by
  have key : ∀ ids, (paged s ids prev take = none ↔ ∃ n, take = some n ∧ s.cfg.maxTake.getD 100 < n) := by
    intro ids
    unfold paged
    cases take with
    | none => simp
    | some n =>
      simp only [Option.any_some]
      split
      · rename_i hb
        simp [defaultMaxTake] at hb
        simp [hb]
      · rename_i hb
        simp [defaultMaxTake] at hb
        simp
        omega
  exact ⟨key _, key _⟩

example : QueryLimit Demo.s1 = 100 ∧ icrc7OwnerOf Demo.s1 [3, 9, 1] = some [some Demo.bob, none, some Demo.alice] ∧
    icrc7BalanceOf Demo.s1 [Demo.bob, Demo.alice] = some [1, 2] ∧
    icrc7OwnerOf Demo.s1 (List.replicate 101 1) = none ∧
    icrc7Tokens Demo.s1 none (some 101) = none := ⟨rfl, rfl, rfl, rfl, rfl⟩

/-! ## C48 -/

/-- Any iteration order of a hash map: each entry once. -/
def IsWalk (walk : List (Account × Approval) → List (Account × Approval)) : Prop := ∀ l, (walk l).Perm l

/-- Row `r` of a listing shows approval `a`. -/
def Shows (r : ApprovalInfo) (a : Approval) : Prop :=
  r.spender = a.spender ∧ r.expiresAt = a.expiresAt ∧ r.memo = a.memo ∧ r.createdAt = a.createdAt

private def listing (order : List (Account × Approval)) : List ApprovalInfo :=
  sortBy (fun a b => decide (b.createdAt ≤ a.createdAt)) (order.map approvalRow)

private theorem listing_perm (order : List (Account × Approval)) : (listing order).Perm (order.map approvalRow) :=
  sortBy_perm _ _

private theorem listing_sorted (order : List (Account × Approval)) :
    (listing order).Pairwise fun a b => b.createdAt ≤ a.createdAt := by
  have := sortBy_sorted (le := fun a b : ApprovalInfo => decide (b.createdAt ≤ a.createdAt)) (by intro a b; simp; omega)
    (by intro a b c; simp; omega) (order.map approvalRow)
  simpa [listing] using this

private theorem listing_distinct {m : Map Account Approval} (hn : m.NodupKeys)
    (hk : ∀ e ∈ m.entries, (e.1 == e.2.spender) = true) {order} (hp : order.Perm m.entries) :
    (listing order).Pairwise fun a b => (a.spender == b.spender) = false := by
  have hsym : ∀ {a b : Account}, (a == b) = false → (b == a) = false := by
    intro a b h
    cases hb : (b == a)
    · rfl
    · rw [Account.symm_beq hb] at h; cases h
  have h1 : m.entries.Pairwise fun x y => (x.2.spender == y.2.spender) = false := by
    refine List.Pairwise.imp_of_mem ?_ hn
    intro x y hx hy h
    cases hb : (x.2.spender == y.2.spender)
    · rfl
    · have := Account.trans_beq (hk x hx) (Account.trans_beq hb (Account.symm_beq (hk y hy)))
      rw [this] at h; cases h
  have h2 : order.Pairwise fun x y => (x.2.spender == y.2.spender) = false :=
    (hp.pairwise_iff (fun h => hsym h)).2 h1
  have h3 : (order.map approvalRow).Pairwise fun a b => (a.spender == b.spender) = false :=
    List.pairwise_map.2 h2
  exact ((listing_perm order).pairwise_iff (fun h => hsym h)).2 h3

private theorem page_none (order) (n : Nat) (hn : n < 2 ^ 32) :
    approvalPage order none (some n) = (listing order).take n := by
  unfold approvalPage toUsizeOr
  simp only [Option.elim, List.drop_zero]
  rw [if_pos (pow32 ▸ hn)]
  rfl

private theorem page_after {order} (hd : (listing order).Pairwise fun a b => (a.spender == b.spender) = false)
    (i : Nat) (hi : i < (listing order).length) (p : ApprovalInfo) (hp : (p.spender == (listing order)[i].spender) = true)
    (n : Nat) (hn : n < 2 ^ 32) :
    approvalPage order (some p) (some n) = ((listing order).drop (i + 1)).take n := by
  have hf : (listing order).findIdx? (fun a => a.spender == p.spender) = some i := by
    rw [List.findIdx?_eq_some_iff_getElem]
    refine ⟨hi, Account.symm_beq hp, ?_⟩
    intro j hj
    have := List.pairwise_iff_getElem.1 hd j i (by omega) hi hj
    rw [Bool.not_eq_true]
    cases hb : ((listing order)[j].spender == p.spender)
    · rfl
    · rw [Account.trans_beq hb hp] at this; cases this
  unfold approvalPage toUsizeOr
  simp only [Option.elim]
  rw [show sortBy _ (order.map approvalRow) = listing order from rfl, hf, if_pos (pow32 ▸ hn)]
  rfl

/-- A page is never longer than asked for, every row shows a recorded approval, and
rows come newest first, whatever `prev` is. -/
def PagesAreSound (recorded : Account → Approval → Prop)
    (get : Option ApprovalInfo → Option Nat → List ApprovalInfo) : Prop :=
  ∀ prev take, (get prev take).length ≤ take.getD 10 ∧
    (∀ r ∈ get prev take, ∃ a, recorded r.spender a ∧ Shows r a) ∧
    (get prev take).Pairwise fun r r' => r'.createdAt ≤ r.createdAt

/-- There is one listing `L` of all recorded approvals, newest first, each spender
once, such that a first page is a prefix of `L` and the page after a row of `L` is
what follows that row. -/
def PagesContinue (recorded : Account → Approval → Prop)
    (get : Option ApprovalInfo → Option Nat → List ApprovalInfo) : Prop :=
  ∃ L : List ApprovalInfo,
    (L.Pairwise fun r r' => r'.createdAt ≤ r.createdAt) ∧
    (L.Pairwise fun r r' => ¬ SameAccount r.spender r'.spender) ∧
    (∀ r ∈ L, ∃ a, recorded r.spender a ∧ Shows r a) ∧
    (∀ sp a, recorded sp a → ∃ r ∈ L, SameAccount r.spender sp ∧ Shows r a) ∧
    (∀ n, n < 2 ^ 32 → get none (some n) = L.take n) ∧
    (∀ i (h : i < L.length) n, n < 2 ^ 32 → get (some L[i]) (some n) = (L.drop (i + 1)).take n) ∧
    (∀ prev, get prev none = get prev (some 10))

private theorem row_recorded {m : Map Account Approval} (hn : m.NodupKeys)
    (hk : ∀ e ∈ m.entries, (e.1 == e.2.spender) = true) {order} (hp : order.Perm m.entries) {r}
    (h : r ∈ listing order) : ∃ a, m.get r.spender = some a ∧ Shows r a := by
  rw [(listing_perm order).mem_iff, List.mem_map] at h
  obtain ⟨e, he, rfl⟩ := h
  have hm := hp.mem_iff.1 he
  refine ⟨e.2, ?_, rfl, rfl, rfl, rfl⟩
  show m.get e.2.spender = _
  rw [← Map.get_congr _ (hk e hm)]
  exact Map.get_of_mem hn hm

private theorem recorded_row {m : Map Account Approval}
    (hk : ∀ e ∈ m.entries, (e.1 == e.2.spender) = true) {order} (hp : order.Perm m.entries) {sp a}
    (h : m.get sp = some a) : ∃ r ∈ listing order, SameAccount r.spender sp ∧ Shows r a := by
  obtain ⟨k, hk', hm⟩ := Map.mem_of_get h
  refine ⟨approvalRow (k, a), ?_, ?_, rfl, rfl, rfl, rfl⟩
  · rw [(listing_perm order).mem_iff]
    exact List.mem_map_of_mem (hp.mem_iff.2 hm)
  · rw [sameAccount_iff]
    exact Account.trans_beq (Account.symm_beq (hk _ hm)) hk'

private theorem sound_of {m : Map Account Approval} (hn : m.NodupKeys)
    (hk : ∀ e ∈ m.entries, (e.1 == e.2.spender) = true) {order} (hp : order.Perm m.entries) :
    PagesAreSound (fun sp a => m.get sp = some a) (approvalPage order) := by
  intro prev take
  have hsub : (approvalPage order prev take).Sublist (listing order) :=
    (List.take_sublist _ _).trans (List.drop_sublist _ _)
  refine ⟨?_, fun r hr => row_recorded hn hk hp (hsub.subset hr), (listing_sorted order).sublist hsub⟩
  unfold approvalPage
  dsimp only
  refine Nat.le_trans (List.length_take_le _ _) ?_
  cases take with
  | none => exact Nat.le_refl _
  | some n =>
    simp only [Option.elim, Option.getD_some]
    unfold toUsizeOr
    split
    · exact Nat.le_refl _
    · rename_i h
      simp only [USIZE] at h
      omega

private theorem continue_of {m : Map Account Approval} (hn : m.NodupKeys)
    (hk : ∀ e ∈ m.entries, (e.1 == e.2.spender) = true) {order} (hp : order.Perm m.entries) :
    PagesContinue (fun sp a => m.get sp = some a) (approvalPage order) := by
  refine ⟨listing order, listing_sorted order, (listing_distinct hn hk hp).imp ?_,
    fun r hr => row_recorded hn hk hp hr, fun sp a h => recorded_row hk hp h, page_none order,
    fun i hi n hn' => page_after (listing_distinct hn hk hp) i hi _ (by simp) n hn', fun prev => ?_⟩
  · intro a b h
    rw [sameAccount_iff, h]
    simp
  · rfl

private theorem sound_congr {R R' : Account → Approval → Prop} (h : ∀ sp a, R sp a ↔ R' sp a) {get}
    (hs : PagesAreSound R get) : PagesAreSound R' get := by
  have : R = R' := funext fun sp => funext fun a => propext (h sp a)
  exact this ▸ hs

private theorem continue_congr {R R' : Account → Approval → Prop} (h : ∀ sp a, R sp a ↔ R' sp a) {get}
    (hs : PagesContinue R get) : PagesContinue R' get := by
  have : R = R' := funext fun sp => funext fun a => propext (h sp a)
  exact this ▸ hs

private theorem tok_cases {E : Env H} {s : State H} (hr : Reachable E s) (tid : Nat) :
    ∃ m : Map Account Approval, m.NodupKeys ∧ (∀ e ∈ m.entries, (e.1 == e.2.spender) = true) ∧
      (∀ sp a, m.get sp = some a ↔ TokenApproval s tid sp a) ∧
      ∀ walk, IsWalk walk → icrc37GetTokenApprovals s walk tid = approvalPage (walk m.entries) := by
  cases hm : s.tokAppr.get tid with
  | none =>
    refine ⟨∅, Map.nodup_empty, (by intro e he; cases he), ?_, ?_⟩
    · intro sp a
      refine ⟨fun h => by simp at h, ?_⟩
      rintro ⟨m, h, _⟩
      rw [hm] at h; cases h
    · intro walk hw
      have : walk (∅ : Map Account Approval).entries = [] := (hw _).eq_nil
      rw [this]
      funext prev take
      unfold icrc37GetTokenApprovals approvalPage
      rw [hm]
      simp [sortBy]
  | some m =>
    refine ⟨m, (hr.apprInv.tok _ _ hm).1, (hr.apprInv.tok _ _ hm).2, ?_, ?_⟩
    · intro sp a
      constructor
      · intro h; exact ⟨m, hm, h⟩
      · rintro ⟨m', h, h'⟩
        rw [hm] at h; cases h; exact h'
    · intro walk hw
      funext prev take
      unfold icrc37GetTokenApprovals
      rw [hm]

private theorem coll_cases {E : Env H} {s : State H} (hr : Reachable E s) (o : Account) :
    ∃ m : Map Account Approval, m.NodupKeys ∧ (∀ e ∈ m.entries, (e.1 == e.2.spender) = true) ∧
      (∀ sp a, m.get sp = some a ↔ CollApproval s o sp a) ∧
      ∀ walk, IsWalk walk → icrc37GetCollectionApprovals s walk o = approvalPage (walk m.entries) := by
  cases hm : s.collAppr.get o with
  | none =>
    refine ⟨∅, Map.nodup_empty, (by intro e he; cases he), ?_, ?_⟩
    · intro sp a
      refine ⟨fun h => by simp at h, ?_⟩
      rintro ⟨m, h, _⟩
      rw [hm] at h; cases h
    · intro walk hw
      funext prev take
      unfold icrc37GetCollectionApprovals
      rw [hm]
      rfl
  | some m =>
    refine ⟨m, (hr.apprInv.coll _ _ hm).1, (hr.apprInv.coll _ _ hm).2, ?_, ?_⟩
    · intro sp a
      constructor
      · intro h; exact ⟨m, hm, h⟩
      · rintro ⟨m', h, h'⟩
        rw [hm] at h; cases h; exact h'
    · intro walk hw
      funext prev take
      unfold icrc37GetCollectionApprovals
      rw [hm]
      rfl

/-- C48: pages of `icrc37_get_token_approvals`, for any walk of the table. -/
theorem C48_token_pages {E : Env H} {s : State H} (hr : Reachable E s) {walk} (hw : IsWalk walk) (tid : Nat) :
    PagesAreSound (TokenApproval s tid) (icrc37GetTokenApprovals s walk tid) := by
  obtain ⟨m, hn, hk, hR, hg⟩ := tok_cases hr tid
  rw [hg walk hw]
  exact sound_congr hR (sound_of hn hk (hw _))

/-- C48: pages of `icrc37_get_collection_approvals`. -/
theorem C48_collection_pages {E : Env H} {s : State H} (hr : Reachable E s) {walk} (hw : IsWalk walk) (o : Account) :
    PagesAreSound (CollApproval s o) (icrc37GetCollectionApprovals s walk o) := by
  obtain ⟨m, hn, hk, hR, hg⟩ := coll_cases hr o
  rw [hg walk hw]
  exact sound_congr hR (sound_of hn hk (hw _))

/-- C48: while the table is walked in one order, resuming after a row continues
the listing. -/
theorem C48_token_resume_partial {E : Env H} {s : State H} (hr : Reachable E s) {walk} (hw : IsWalk walk) (tid : Nat) :
    PagesContinue (TokenApproval s tid) (icrc37GetTokenApprovals s walk tid) := by
  obtain ⟨m, hn, hk, hR, hg⟩ := tok_cases hr tid
  rw [hg walk hw]
  exact continue_congr hR (continue_of hn hk (hw _))

/-- C48: the same for collection approvals. -/
theorem C48_collection_resume_partial {E : Env H} {s : State H} (hr : Reachable E s) {walk} (hw : IsWalk walk) (o : Account) :
    PagesContinue (CollApproval s o) (icrc37GetCollectionApprovals s walk o) := by
  obtain ⟨m, hn, hk, hR, hg⟩ := coll_cases hr o
  rw [hg walk hw]
  exact continue_congr hR (continue_of hn hk (hw _))

/-- No two spenders were approved at the same time. -/
def DistinctTimes (recorded : Account → Approval → Prop) : Prop :=
  ∀ sp sp' a a', recorded sp a → recorded sp' a' → a.createdAt = a'.createdAt → SameAccount sp sp'

private theorem listing_unique {m : Map Account Approval} (hn : m.NodupKeys)
    (_ : ∀ e ∈ m.entries, (e.1 == e.2.spender) = true) (hd : DistinctTimes fun sp a => m.get sp = some a)
    {o₁ o₂} (h₁ : o₁.Perm m.entries) (h₂ : o₂.Perm m.entries) : listing o₁ = listing o₂ := by
  refine List.Perm.eq_of_pairwise ?_ (listing_sorted o₁) (listing_sorted o₂)
    (((listing_perm o₁).trans ((h₁.trans h₂.symm).map _)).trans (listing_perm o₂).symm)
  intro a b ha hb hab hba
  rw [(listing_perm o₁).mem_iff, List.mem_map] at ha
  rw [(listing_perm o₂).mem_iff, List.mem_map] at hb
  obtain ⟨x, hx, rfl⟩ := ha
  obtain ⟨y, hy, rfl⟩ := hb
  have hx' := h₁.mem_iff.1 hx
  have hy' := h₂.mem_iff.1 hy
  have gx := Map.get_of_mem hn (k := x.1) (v := x.2) hx'
  have gy := Map.get_of_mem hn (k := y.1) (v := y.2) hy'
  have hs := sameAccount_iff.1 (hd _ _ _ _ gx gy (Nat.le_antisymm hba hab))
  obtain ⟨i, hi, rfl⟩ := List.getElem_of_mem hx'
  obtain ⟨j, hj, rfl⟩ := List.getElem_of_mem hy'
  have hp := List.pairwise_iff_getElem.1 hn
  rcases Nat.lt_trichotomy i j with h | h | h
  · have := hp i j hi hj h
    rw [hs] at this; cases this
  · subst h; rfl
  · have := hp j i hj hi h
    rw [Account.symm_beq hs] at this; cases this

/-- C48: if no two recorded approvals have the same time, the answers do not depend
on the walk, so resuming continues the listing whatever the walks are. -/
theorem C48_token_any_walk_partial {E : Env H} {s : State H} (hr : Reachable E s) {walk walk'} (hw : IsWalk walk)
    (hw' : IsWalk walk') {tid : Nat} (hd : DistinctTimes (TokenApproval s tid)) :
    icrc37GetTokenApprovals s walk tid = icrc37GetTokenApprovals s walk' tid := by
  obtain ⟨m, hn, hk, hR, hg⟩ := tok_cases hr tid
  rw [hg walk hw, hg walk' hw']
  have := listing_unique hn hk (fun sp sp' a a' h h' => hd sp sp' a a' ((hR _ _).1 h) ((hR _ _).1 h')) (hw _) (hw' _)
  funext prev take
  unfold approvalPage
  rw [show sortBy _ ((walk m.entries).map approvalRow) = listing (walk m.entries) from rfl, this]
  rfl

/-- C48: the same for collection approvals. -/
theorem C48_collection_any_walk_partial {E : Env H} {s : State H} (hr : Reachable E s) {walk walk'} (hw : IsWalk walk)
    (hw' : IsWalk walk') {o : Account} (hd : DistinctTimes (CollApproval s o)) :
    icrc37GetCollectionApprovals s walk o = icrc37GetCollectionApprovals s walk' o := by
  obtain ⟨m, hn, hk, hR, hg⟩ := coll_cases hr o
  rw [hg walk hw, hg walk' hw']
  have := listing_unique hn hk (fun sp sp' a a' h h' => hd sp sp' a a' ((hR _ _).1 h) ((hR _ _).1 h')) (hw _) (hw' _)
  funext prev take
  unfold approvalPage
  rw [show sortBy _ ((walk m.entries).map approvalRow) = listing (walk m.entries) from rfl, this]
  rfl

/-- alice approves carol and bob in one call. -/
def twoApprovals : Msg := .call [1] (Demo.ms 200) (.approveTokens
  [{ tid := 2, info := { spender := Demo.carol, createdAt := Demo.ms 200 } },
   { tid := 2, info := { spender := Demo.bob, createdAt := Demo.ms 200 } }])

/-- The full C48: resuming continues the listing even if two queries walk the table
in different orders (each decodes its own hash map). -/
def ListingsPaginate (E : Env H) : Prop :=
  ∀ (s : State H) (tid : Nat) walk walk', Reachable E s → IsWalk walk → IsWalk walk' →
    ∀ r, icrc37GetTokenApprovals s walk tid none (some 1) = [r] →
      r ∉ icrc37GetTokenApprovals s walk' tid (some r) (some 1)
      ∧ (icrc37GetTokenApprovals s walk' tid (some r) (some 1) = [] → ∀ sp a, TokenApproval s tid sp a → SameAccount sp r.spender)

/-- C48 is false: with two approvals of the same time, the first page of one walk
shows carol, and the page after carol in the reverse walk is empty: bob is never
shown. -/
theorem C48_violated : ¬ ListingsPaginate Demo.env := by
  intro h
  have hb := (h (run Demo.env Demo.s1 [twoApprovals]) 2 id List.reverse (Demo.s1_reach.run _) (fun l => .refl l)
    (fun l => l.reverse_perm) { spender := Demo.carol, createdAt := Demo.ms 200 } rfl).2 rfl Demo.bob
    { spender := Demo.bob, from_ := Demo.alice, expiresAt := none, createdAt := Demo.ms 200, memo := none } ⟨_, rfl, rfl⟩
  revert hb
  decide

/-- The listing of two approvals of different times, and its two pages. -/
def laterApproval : Msg := .call [1] (Demo.ms 201) (.approveTokens
  [{ tid := 2, info := { spender := Demo.bob, createdAt := Demo.ms 201 } }])
example :
    let s := run Demo.env Demo.s1 [Demo.approveMsg, laterApproval]
    icrc37GetTokenApprovals s id 2 none (some 1) = [{ spender := Demo.bob, createdAt := Demo.ms 201 }] ∧
    icrc37GetTokenApprovals s List.reverse 2 (some { spender := Demo.bob, createdAt := Demo.ms 201 }) (some 1) =
      [{ spender := Demo.carol, createdAt := Demo.ms 200 }] := ⟨rfl, rfl⟩

/-! ## C58 -/

/-- C58, what holds instead: the `from_subaccount` of a row is always the
*spender's* subaccount. -/
theorem C58_rows_show_spender_subaccount {E : Env H} {s : State H} (hr : Reachable E s) {walk} (hw : IsWalk walk) {o : Account}
    {prev take} {r : ApprovalInfo} (h : r ∈ icrc37GetCollectionApprovals s walk o prev take) :
    SameAccount ⟨r.spender.owner, r.fromSub⟩ r.spender := by
  obtain ⟨m, hn, hk, hR, hg⟩ := coll_cases hr o
  rw [hg walk hw] at h
  have hsub : (approvalPage (walk m.entries) prev take).Sublist (listing (walk m.entries)) :=
    (List.take_sublist _ _).trans (List.drop_sublist _ _)
  have hr' := hsub.subset h
  rw [(listing_perm _).mem_iff, List.mem_map] at hr'
  obtain ⟨e, he, rfl⟩ := hr'
  have := Account.beq_iff.1 (hk e ((hw _).mem_iff.1 he))
  rw [sameAccount_iff, Account.beq_iff]
  exact ⟨rfl, this.2⟩

/-- C58 where it holds: if granter and spender use the same subaccount, the row
shows the granter's. -/
theorem C58_same_subaccount_partial {E : Env H} {s : State H} (hr : Reachable E s) {walk} (hw : IsWalk walk) {o : Account}
    {prev take} {r : ApprovalInfo} (h : r ∈ icrc37GetCollectionApprovals s walk o prev take)
    (hs : SameAccount ⟨o.owner, r.spender.sub⟩ o) : SameAccount ⟨o.owner, r.fromSub⟩ o := by
  have h1 := C58_rows_show_spender_subaccount hr hw h
  rw [sameAccount_iff, Account.beq_iff] at *
  exact ⟨rfl, h1.2.trans hs.2⟩

/-- The full C58. -/
def ListingsShowGranter (E : Env H) : Prop :=
  ∀ (s : State H) (o : Account) walk prev take, Reachable E s → IsWalk walk →
    ∀ r ∈ icrc37GetCollectionApprovals s walk o prev take, SameAccount ⟨o.owner, r.fromSub⟩ o

/-- A subaccount of alice receives token 1 and approves carol for all its tokens. -/
def subGrant : List Msg := [
  .call [1] (Demo.ms 200) (.transfer [{ to_ := Demo.alice1, tid := 1 }]),
  .call [1] (Demo.ms 200) (.approveCollection [{ spender := Demo.carol, fromSub := Demo.alice1.sub, createdAt := Demo.ms 200 }])]

/-- C58 is false: the row of alice's subaccount names no subaccount (carol's). -/
theorem C58_violated : ¬ ListingsShowGranter Demo.env := by
  intro h
  have := h (run Demo.env Demo.s1 subGrant) Demo.alice1 id none none (Demo.s1_reach.run _) (fun l => .refl l)
    { spender := Demo.carol, createdAt := Demo.ms 200 } (by decide)
  revert this
  decide

end Verif
