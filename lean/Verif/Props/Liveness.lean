import Verif.Lemmas.Liveness
import Verif.Lemmas.Stored
import Verif.Props.Chain
/-!
# C96: the index catches up
-/
namespace Verif

open Spec

variable {parse : ParsePrincipal} {L : Chain} {tip : Nat → Nat} {m : Nat → IxMsg} {s : Nat → Ix}

namespace IxDemo

/-- An index installed on a ledger, whose job runs for ever. Every other run is lost, in turn to a
failure and to an upgrade. `base` is its state after the first run that goes well. -/
def rest (base : Ix) (j : Nat) : Ix := { base with nextTask := j }
def further (n : Nat) : Fetch := ⟨[], [List.range' n 100], .ledger, none⟩
def asks (base : Ix) (j : Nat) : Ix :=
  { base with tasks := (∅ : Map Nat (Task × Fetch)).set j (.update base.last, further base.last), nextTask := j + 1 }

def stage (base : Ix) (k : Nat) : Ix := if k < 4 then Ix.fresh else base

def states (base : Ix) (k : Nat) : Ix :=
  if k % 2 = 0 then rest (stage base k) (k / 2) else asks (stage base k) (k / 2)

def msgs (bs : List Block) (k : Nat) : IxMsg :=
  if k % 2 = 0 then .tick
  else if k % 8 = 1 then .resume 5 (k / 2) .failed
  else if k % 8 = 5 then .upgrade
  else .resume 5 (k / 2) (.ledger (if k = 3 then bs else []) [])

theorem tick_rest {base : Ix} (h6 : fetchStart base.cache (rangeU64 base.last (u64add base.last batchSize)) none =
    .wait (further base.last)) (h8 : base.tasks = ∅) (parse : ParsePrincipal) (j : Nat) :
    (ixStep parse (rest base j) .tick).1 = asks base j := by
  unfold ixStep rest asks
  dsimp only
  rw [h6, h8]
  rfl

theorem asks_self (base : Ix) (j : Nat) : (asks base j).tasks.get j = some (.update base.last, further base.last) := by
  unfold asks; dsimp only; rw [Map.get_set_self]

theorem asks_del (base : Ix) (j : Nat) : (asks base j).tasks.del j = ∅ := by
  unfold asks; dsimp only
  simp [Map.set, Map.del, Map.setL]
  rfl

theorem answer_asks {base : Ix} (h8 : base.tasks = ∅) (parse : ParsePrincipal) (j : Nat) :
    (ixStep parse (asks base j) (.resume 5 j (.ledger [] []))).1 = rest base (j + 1) := by
  have hc : fetchResume 5 (asks base j).cache (further base.last) (.ledger [] []) = some ((asks base j).cache, .done []) := rfl
  simp only [ixStep, asks_self, hc, finishTask, indexBlocks, orTrap, asks_del]
  unfold asks rest
  rw [← h8]

theorem lost_asks {base : Ix} (h8 : base.tasks = ∅) (parse : ParsePrincipal) (j : Nat) :
    (ixStep parse (asks base j) (.resume 5 j .failed)).1 = rest base (j + 1) ∧
    (ixStep parse (asks base j) .upgrade).1 = rest base (j + 1) := by
  have hc : fetchResume 5 (asks base j).cache (further base.last) .failed = some ((asks base j).cache, .failed) := rfl
  constructor
  · simp only [ixStep, asks_self, hc, finishTask, orTrap, asks_del]
    unfold asks rest
    rw [← h8]
  · unfold ixStep asks rest
    simp only [h8]

theorem asks_get {base : Ix} {j i : Nat} {x : Task × Fetch} (h : (asks base j).tasks.get i = some x) :
    i = j ∧ x = (.update base.last, further base.last) := by
  unfold asks at h; dsimp only at h
  rw [Map.get_set] at h
  split at h
  · rename_i he
    exact ⟨(by simpa using he : j = i).symm, (Option.some.inj h).symm⟩
  · cases h

theorem stage_tasks {base : Ix} (h8 : base.tasks = ∅) (k : Nat) : (stage base k).tasks = ∅ := by
  unfold stage; split
  · rfl
  · exact h8

/-- In even states nothing waits; in odd ones the job does, for the ledger. -/
theorem states_even {base : Ix} (h8 : base.tasks = ∅) {k i : Nat} (hk : k % 2 = 0) : (states base k).tasks.get i = none := by
  unfold states
  rw [if_pos hk]
  unfold rest; dsimp only; rw [stage_tasks h8]; rfl

theorem states_odd {base : Ix} (h8 : base.tasks = ∅) {k i : Nat} {x : Task × Fetch} (h : (states base k).tasks.get i = some x) :
    k % 2 = 1 ∧ i = k / 2 ∧ x = (.update (stage base k).last, further (stage base k).last) := by
  by_cases hk : k % 2 = 0
  · rw [states_even h8 hk] at h; cases h
  refine ⟨by omega, ?_⟩
  unfold states at h
  rw [if_neg hk] at h
  exact asks_get h

theorem stage_next (base : Ix) {k : Nat} (h : k ≠ 3) : stage base (k + 1) = stage base k := by
  unfold stage
  by_cases hk : k < 3
  · rw [if_pos (by omega), if_pos (by omega)]
  · rw [if_neg (by omega), if_neg (by omega)]

set_option maxRecDepth 20000 in
theorem stage_wait {base : Ix}
    (h6 : fetchStart base.cache (rangeU64 base.last (u64add base.last batchSize)) none = .wait (further base.last)) (k : Nat) :
    fetchStart (stage base k).cache (rangeU64 (stage base k).last (u64add (stage base k).last batchSize)) none =
      .wait (further (stage base k).last) := by
  unfold stage; split
  · decide
  · exact h6

theorem life {parse : ParsePrincipal} {L : Chain} {bs : List Block} {base : Ix}
    (h6 : fetchStart base.cache (rangeU64 base.last (u64add base.last batchSize)) none = .wait (further base.last))
    (h8 : base.tasks = ∅) (h1 : (ixStep parse (asks Ix.fresh 1) (.resume 5 1 (.ledger bs []))).1 = rest base 2)
    (hs : base.last + 100 < 2 ^ 64) (hg : ∀ b ∈ bs, b.data = L b.id)
    (hp : (bs.map Block.id).Perm ((idsIn [chunkRequest (List.range 100)]).filter fun i => decide (i < base.last))) :
    Life parse L (fun _ => base.last) (msgs bs) (states base) where
  start := ⟨0, by omega, .refl⟩
  steps := by
    intro k
    by_cases hk : k % 2 = 0
    · have e1 : states base (k + 1) = asks (stage base k) (k / 2) := by
        unfold states
        rw [if_neg (by omega), stage_next _ (by omega)]
        congr 1; omega
      have e2 : states base k = rest (stage base k) (k / 2) := by unfold states; rw [if_pos hk]
      have e3 : msgs bs k = .tick := by unfold msgs; rw [if_pos hk]
      rw [e1, e2, e3, tick_rest (stage_wait h6 k) (stage_tasks h8 k)]
    · have e2 : states base k = asks (stage base k) (k / 2) := by unfold states; rw [if_neg hk]
      by_cases hk3 : k = 3
      · subst hk3
        exact h1.symm
      have e1 : states base (k + 1) = rest (stage base k) (k / 2 + 1) := by
        unfold states
        rw [if_pos (by omega), stage_next _ hk3]
        congr 1; omega
      rw [e1, e2]
      unfold msgs
      rw [if_neg hk]
      split
      · rw [(lost_asks (stage_tasks h8 k) parse _).1]
      · split
        · rw [(lost_asks (stage_tasks h8 k) parse _).2]
        · rw [answer_asks (stage_tasks h8 k)]
  grows := fun _ => Nat.le_refl _
  small := fun _ => hs
  honest := by
    intro k
    unfold msgs
    split
    · exact trivial
    split
    · exact fun _ _ _ => trivial
    split
    · exact trivial
    · rename_i hk h8a h8b
      intro task f hgt
      obtain ⟨_, _, hx⟩ := states_odd h8 hgt
      split
      · rename_i hk3
        subst hk3
        cases hx
        exact ledgerHonest (chunk := List.range 100) (rest := []) rfl hg (by simpa using hp)
      · rename_i hk3
        have hst : stage base k = base := by unfold stage; rw [if_neg (by omega)]
        rw [hst] at hx
        cases hx
        refine ledgerHonest (chunk := List.range' base.last 100) (rest := []) rfl (by simp) ?_
        have : ((idsIn [chunkRequest (List.range' base.last 100)]).filter fun i => decide (i < base.last)) = [] := by
          rw [idsIn_request (isRun_range' (by decide)), List.filter_eq_nil_iff]
          intro x hx
          have := (List.mem_range'_1.1 hx).1
          simp; omega
        rw [this]
        exact .refl _
  alone := by
    intro k hm i last f hgt
    have hk : k % 2 = 0 := by
      by_cases hk : k % 2 = 0
      · exact hk
      · unfold msgs at hm
        rw [if_neg hk] at hm
        split at hm
        · cases hm
        · split at hm <;> cases hm
    rw [states_even h8 hk] at hgt
    cases hgt
  goes_well := by
    intro k
    have hn : (states base (4 * k + 2)).nextTask = 2 * k + 1 := by
      unfold states
      rw [if_pos (by omega)]
      show (4 * k + 2) / 2 = _
      omega
    refine ⟨4 * k + 2, by omega, by unfold msgs; rw [if_pos (by omega)], ?_⟩
    intro k' last f _ hgt
    rw [hn] at hgt ⊢
    obtain ⟨h1, h2, hx⟩ := states_odd h8 hgt
    have hm : msgs bs k' = .resume 5 (2 * k + 1) (.ledger (if k' = 3 then bs else []) []) := by
      unfold msgs
      rw [if_neg (by omega), if_neg (by omega), if_neg (by omega), h2]
    rw [hm]
    refine ⟨(fun h => by cases h), ⟨k', Nat.le_refl _, _, _, hm⟩, ?_⟩
    intro now ans h
    cases h
    cases hx
    rfl

set_option maxRecDepth 20000

/-- The index of six blocks. -/
theorem life6 : Life IxDemo.parse chain (fun _ => 6) (msgs (blocks 6)) (states s6) :=
  life (base := s6) (by decide) (by decide) (by decide) (by decide) (by decide) (by decide)

theorem readable6 (k j : Nat) (hj : j < (fun _ : Nat => 6) k) : Readable ⟨j, chain j⟩ := by
  have : ∀ j, j < 6 → (∃ ty ∈ knownTypes, typeText ⟨j, chain j⟩ = some ty) ∧ (chain j).inRange = true := by decide
  exact this j hj

end IxDemo

namespace ChainDemo

set_option maxRecDepth 20000

/-- The index of the five records of a collection. -/
theorem life5 : Life texts.parse chain (fun _ => 5) (IxDemo.msgs ((List.range 5).map fun i => ⟨i, chain i⟩)) (IxDemo.states ix5) :=
  IxDemo.life (base := ix5) (by decide) (by decide) (by decide) (by decide) (by decide) (by decide)

theorem source5 : Source Demo.env texts.parse chain (fun _ => 5) (fun _ => coll) where
  start := coll_reach
  goes_on := fun _ => ⟨[], rfl⟩
  height := fun _ => facts.1
  published := fun _ => published
  numbers := by
    intro _ i r hr _
    have : ∀ j, j < 5 → (chain j).inRange = true := by decide
    have hlt : i < coll.log.length := by
      by_cases h : i < coll.log.length
      · exact h
      · rw [List.getElem?_eq_none (by omega)] at hr; cases hr
    rw [facts.1] at hlt
    exact this i hlt

end ChainDemo

/-! ## C96 The index catches up -/

/-- However long the chain already is and however far behind the index, some time every block
then on the chain is counted by `status`, and stays so. -/
theorem C96_eventually (h : Life parse L tip m s) (hb : ∀ k j, j < tip k → Readable ⟨j, L j⟩) (k : Nat) :
    ∃ k', ∀ k'', k' ≤ k'' → tip k ≤ ixStatus (s k'') := by
  have key : ∀ d k0, k ≤ k0 → tip k ≤ (s k0).last + d → ∃ k', tip k ≤ (s k').last := by
    intro d
    induction d with
    | zero => intro k0 _ h0; exact ⟨k0, h0⟩
    | succ d ih =>
      intro k0 hk0 h0
      obtain ⟨k1, hk1, hr⟩ := (GoodLife.mk h hb).round k0
      have := h.tip_le hk0
      by_cases hd : tip k ≤ (s k0).last
      · exact ⟨k0, hd⟩
      · exact ih k1 (by omega) (by omega)
  obtain ⟨k', hk'⟩ := key (tip k) k (Nat.le_refl _) (by omega)
  exact ⟨k', fun k'' hk => Nat.le_trans hk' (h.last_le hk)⟩

/-- A fresh index on a ledger of six blocks: it has them all after its second run, the first being
lost. -/
example : ∃ k', ∀ k'', k' ≤ k'' → 6 ≤ ixStatus (IxDemo.states IxDemo.s6 k'') := C96_eventually IxDemo.life6 IxDemo.readable6 0

set_option maxRecDepth 20000 in
example : ixStatus (IxDemo.states IxDemo.s6 3) = 0 ∧ ixStatus (IxDemo.states IxDemo.s6 4) = 6 := by decide

/-- Some time every block then on the chain is listed under its type, and stays so. -/
theorem C96_listed (h : Life parse L tip m s) (hb : ∀ k j, j < tip k → Readable ⟨j, L j⟩) (k j : Nat) (hj : j < tip k)
    (ty : String) (hty : typeText ⟨j, L j⟩ = some ty) :
    ∃ k', ∀ k'', k' ≤ k'' → j ∈ entry (s k'').index (.blockType ty) := by
  obtain ⟨k', hk'⟩ := C96_eventually h hb k
  refine ⟨k', fun k'' hk => ?_⟩
  have hi := h.seq k''
  have hm : (⟨j, L j⟩ : Block) ∈ (s k'').added := by
    rw [hi.order.2]
    exact List.mem_map.2 ⟨j, List.mem_range.2 (Nat.lt_of_lt_of_le hj (hk' k'' hk)), rfl⟩
  rw [entry_eq_entryOf hi.index fun b hb => by
    obtain ⟨⟨u, hu⟩, _⟩ := hi.index.2 b hb
    exact hits_type hu ty]
  unfold entryOf
  rw [List.mem_reverse, List.mem_map]
  exact ⟨_, List.mem_filter.2 ⟨hm, by simp [involves, hty]⟩, rfl⟩

example : ∃ k', ∀ k'', k' ≤ k'' → 2 ∈ entry (IxDemo.states IxDemo.s6 k'').index (.blockType "7xfer") :=
  C96_listed IxDemo.life6 IxDemo.readable6 0 2 (by decide) "7xfer" (by decide)

/-- The metadata a collection records, and what it shows of its tokens, has all numbers within
64 bits. -/
theorem C96_numbers {H : Type} {E : Env H} {c : State H} (hr : Reachable E c) :
    (∀ r ∈ c.log, ∀ before after, r.meta_ = some (before, after) → ∀ e ∈ before ++ after, Storable e.2) ∧
    ∀ tid l, Shown c tid l → ∀ e ∈ l, Storable e.2 :=
  ⟨hr.stored.2, fun _ _ hl => hr.shownStored hl⟩

example : Reachable Demo.env Demo.s1 ∧ Shown Demo.s1 1 [("k", .nat 1)] := ⟨Demo.s1_reach, by rfl⟩

theorem Spec.Source.reach {H : Type} {E : Env H} {S : Nat → State H} (h : Source E parse L tip S) (k : Nat) :
    Reachable E (S k) := by
  induction k with
  | zero => exact h.start
  | succ k ih =>
    obtain ⟨ms, hms⟩ := h.goes_on k
    rw [hms]
    exact ih.run ms

theorem Spec.Source.keeps {H : Type} {E : Env H} {S : Nat → State H} (h : Source E parse L tip S) {k k' : Nat} (hk : k ≤ k') :
    (S k).log <+: (S k').log := by
  induction hk with
  | refl => exact List.prefix_rfl
  | @step k' _ ih =>
    obtain ⟨ms, hms⟩ := h.goes_on k'
    rw [hms]
    exact ih.trans (C12_append_only (h.reach k') ms)

theorem Spec.Source.readable {H : Type} {E : Env H} {S : Nat → State H} (h : Source E parse L tip S)
    (hid : ∀ k, ∀ r ∈ (S k).log, ∀ n, r.tid = some n → n < 2 ^ 64) (k j : Nat) (hj : j < tip k) : Readable ⟨j, L j⟩ := by
  rw [← h.height k] at hj
  have hr : (S k).log[j]? = some (S k).log[j] := List.getElem?_eq_getElem hj
  have hm := List.mem_of_getElem? hr
  exact ⟨⟨_, (C72_announced _).2, (h.published k).type_ j _ hr⟩,
    h.numbers k j _ hr ⟨hid k _ hm, (C96_numbers (h.reach k)).1 _ hm⟩⟩

/-- An index over the records of a collection catches up with them, whatever the collection
does in the meantime: some time every record is found under its kind, under its token (except
transfers by spenders, see `C73_violated`), and under a default account that is its recipient. -/
theorem C96_collection {H : Type} {E : Env H} {S : Nat → State H} (hsrc : Source E parse L tip S) (h : Life parse L tip m s)
    (hid : ∀ k, ∀ r ∈ (S k).log, ∀ n, r.tid = some n → n < 2 ^ 64) (k i : Nat) (r : Tx) (hr : (S k).log[i]? = some r) :
    ∃ k', ∀ k'', k' ≤ k'' → i ∈ entry (s k'').index (.blockType r.op.name) ∧
      (∀ n, r.tid = some n → r.op ≠ .xferFrom → i ∈ entry (s k'').index (.tokenId n)) ∧
      ∀ a, r.to_ = some a → DefaultAccount a → i ∈ entry (s k'').index (.account a) := by
  obtain ⟨k1, hk1⟩ := C96_eventually h (hsrc.readable hid) k
  refine ⟨max (k1 + 1) (k + 1), fun k'' hk => ?_⟩
  obtain ⟨k2, rfl⟩ : ∃ k2, k'' = k2 + 1 := ⟨k'' - 1, by omega⟩
  have hrun := h.run0 k2
  have hreach := hsrc.reach k2
  have hlen : (s (k2 + 1)).last ≤ tip k2 := (C43_once_partial hrun).2.2
  have hilt : i < (S k).log.length := by
    by_cases hlt : i < (S k).log.length
    · exact hlt
    · rw [List.getElem?_eq_none (by omega)] at hr; cases hr
  have hi : i < (s (k2 + 1)).last := by
    have := hk1 (k2 + 1) (by omega)
    rw [hsrc.height k] at hilt
    exact Nat.lt_of_lt_of_le hilt this
  have hr2 : (S k2).log[i]? = some r := by
    obtain ⟨l, hl⟩ := hsrc.keeps (k := k) (k' := k2) (by omega)
    rw [← hl, List.getElem?_append_left hilt]
    exact hr
  have ht : tip k2 ≤ (S k2).log.length := Nat.le_of_eq (hsrc.height k2).symm
  refine ⟨?_, ?_, ?_⟩
  · rw [C73_type hreach (hsrc.published k2) hrun ht, List.mem_reverse, List.mem_filter, List.mem_range]
    exact ⟨hi, by simp [hr2]⟩
  · intro n hn ho
    rw [C73_token_partial hreach (hsrc.published k2) hrun ht, List.mem_reverse, List.mem_filter, List.mem_range]
    exact ⟨hi, by simp [hr2, hn, ho]⟩
  · intro a ha hd
    refine (C73_account_partial hreach (hsrc.published k2) hrun ht hd i).2 ⟨hi, r, hr2, .inl ⟨?_, a, .inr (.inl ha), rfl, rfl⟩⟩
    intro ho
    rw [(hreach.shaped r (List.mem_of_getElem? hr2)).noTo (.inr (.inr (.inl ho)))] at ha
    cases ha

set_option maxRecDepth 20000 in
/-- Carol finds in the index the record that gave them token 2. -/
example : ∃ k', ∀ k'', k' ≤ k'' → 4 ∈ entry (IxDemo.states ChainDemo.ix5 k'').index (.account Demo.carol) := by
  obtain ⟨r, hr, ha⟩ : ∃ r, ChainDemo.coll.log[4]? = some r ∧ r.to_ = some Demo.carol := ⟨_, rfl, rfl⟩
  have hid : ∀ r ∈ ChainDemo.coll.log, ∀ n, r.tid = some n → n < 2 ^ 64 := by
    have : ∀ r ∈ ChainDemo.coll.log, r.tid.all (fun n => decide (n < 2 ^ 64)) = true := by decide
    intro r hr n hn
    have := this r hr
    simpa [hn] using this
  obtain ⟨k', hk'⟩ := C96_collection ChainDemo.source5 ChainDemo.life5 (fun _ => hid) 0 4 r hr
  exact ⟨k', fun k'' hk => (hk' k'' hk).2.2 _ ha (by decide)⟩

end Verif
