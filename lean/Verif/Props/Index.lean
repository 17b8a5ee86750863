import Verif.Lemmas.Indexer
/-!
# The index canister

C42 the index, C43 the update job, C44 filtered queries, C45 fetching.
-/
namespace Verif

open Spec

/-! ## Demo chain -/

namespace IxDemo

def parse : ParsePrincipal := fun s => if s = "a" then some [1] else if s = "b" then some [2] else none
def a : Account := ⟨[1], none⟩
def b : Account := ⟨[2], none⟩

def tx (btype : String) (fields : List (String × Value)) : Value := .map [("btype", .text btype), ("tx", .map fields)]

/-- Two mints, a transfer, then one block of each awkward kind. -/
def chain : Chain
  | 0 => tx "7mint" [("tid", .nat 0), ("to", .text "a")]
  | 1 => tx "7mint" [("tid", .nat 1), ("to", .text "a")]
  | 2 => tx "7xfer" [("from", .text "a"), ("tid", .nat 0), ("to", .text "b")]
  | 3 => tx "37xfer" [("from", .text "a"), ("spender", .text "b"), ("tid", .nat 1), ("to", .text "b")]
  | 4 => tx "7xfer" [("from", .text "b"), ("tid", .nat 0), ("to", .text "b")]
  | 5 => tx "37approve_coll" [("from", .text "a"), ("spender", .text "b")]
  | _ => tx "99new" []

def block (i : Nat) : Block := ⟨i, chain i⟩

def blocks (n : Nat) : List Block := (List.range n).map block

/-- The update job starts, the ledger answers for a chain of three blocks, the two
older ones from an archive. -/
def s1 : Ix := (ixStep parse Ix.fresh .tick).1
def ans1 : IxAnswer := .ledger [block 2] [⟨[9], [(0, 2)]⟩]
def s2 : Ix := (ixStep parse s1 (.resume 5 0 ans1)).1
def ans2 : IxAnswer := .archive [block 0, block 1]
def s3 : Ix := (ixStep parse s2 (.resume 6 0 ans2)).1

/-- All of the first six blocks. -/
def s6 : Ix := (ixStep parse s1 (.resume 5 0 (.ledger (blocks 6) []))).1

theorem honest {L : Chain} {tip now i : Nat} {s : Ix} {ans : IxAnswer} {task : Task} {f : Fetch}
    (hg : s.tasks.get i = some (task, f)) (ha : HonestAnswer L tip f ans) : HonestMsg L tip s (.resume now i ans) := by
  intro task' f' h
  rw [hg] at h
  cases h
  exact ha

def f1 : Fetch := ⟨[], [List.range 100], .ledger, none⟩
def f2 : Fetch := ⟨[], [List.range 100], .archive [⟨[9], [(0, 2)]⟩] [block 2], none⟩

set_option maxRecDepth 20000

theorem get1 : s1.tasks.get 0 = some (.update 0, f1) := by decide
theorem get2 : s2.tasks.get 0 = some (.update 0, f2) := by decide

theorem ledgerHonest {L : Chain} {tip : Nat} {f : Fetch} {bs : List Block} {calls : List ArchiveCall} {chunk : List Nat}
    {rest : List (List Nat)} (hc : f.chunks = chunk :: rest) (hb : ∀ b ∈ bs, b.data = L b.id)
    (hp : (bs.map Block.id ++ calls.flatMap fun c => idsIn c.args).Perm
      ((idsIn [chunkRequest chunk]).filter fun i => decide (i < tip))) : HonestAnswer L tip f (.ledger bs calls) := by
  intro _ chunk' rest' h
  rw [hc] at h
  cases h
  exact ⟨hb, hp⟩

theorem archiveHonest {L : Chain} {tip : Nat} {f : Fetch} {bs blocks : List Block} {call : ArchiveCall}
    {calls : List ArchiveCall} (hc : f.wait = .archive (call :: calls) blocks) (hb : ∀ b ∈ bs, b.data = L b.id)
    (hp : (bs.map Block.id).Perm (idsIn call.args)) : HonestAnswer L tip f (.archive bs) := by
  intro call' calls' blocks' h
  rw [hc] at h
  cases h
  exact ⟨hb, hp⟩

theorem noOverlap {s : Ix} {m : IxMsg} (h : m ≠ .tick) : NoOverlap s m := fun he => absurd he h

theorem run1 : Run parse chain NoOverlap 0 Ix.fresh 0 s1 :=
  .step .refl (Nat.le_refl _) trivial (fun _ i last f h => by cases h)

theorem run3 : Run parse chain NoOverlap 0 Ix.fresh 3 s3 := by
  refine .step (.step run1 (t₂ := 3) (by decide) (honest (ans := ans1) get1 ?_) (noOverlap (by decide))) (Nat.le_refl _)
    (honest (ans := ans2) get2 ?_) (noOverlap (by decide))
  · exact ledgerHonest (chunk := List.range 100) (rest := []) rfl (by decide) (by decide)
  · exact archiveHonest (call := ⟨[9], [(0, 2)]⟩) (calls := []) (blocks := [block 2]) rfl (by decide) (by decide)

theorem run6 : Run parse chain NoOverlap 0 Ix.fresh 6 s6 := by
  refine .step run1 (t₂ := 6) (by decide) (honest get1 ?_) (noOverlap (by decide))
  exact ledgerHonest (chunk := List.range 100) (rest := []) rfl (by decide) (by decide)

theorem ixRun6 : s6 = ixRun parse Ix.fresh [.tick, .resume 5 0 (.ledger (blocks 6) [])] := rfl
theorem last3 : s3.last = 3 := by decide
theorem last6 : s6.last = 6 := by decide
theorem added6 : s6.added = blocks 6 := by decide

end IxDemo

open IxDemo

/-! ## C42 Index is sound and complete -/

/-- Whatever happens, the index lists only blocks that were added and that involve
the key. -/
theorem C42_sound (parse : ParsePrincipal) (ms : List IxMsg) (k : IndexKey) (i : Nat)
    (h : i ∈ entry (ixRun parse Ix.fresh ms).index k) :
    ∃ b ∈ (ixRun parse Ix.fresh ms).added, b.id = i ∧ involves parse b k = true := by
  have hi := IndexIs.run ms (indexIs_fresh parse)
  rw [hi.1, List.mem_reverse, List.mem_flatMap] at h
  obtain ⟨b, hb, hr⟩ := h
  obtain ⟨hne, rfl⟩ := List.mem_replicate.1 hr
  exact ⟨b, hb, rfl, hits_sound hne⟩

set_option maxRecDepth 20000 in
example : entry (ixRun parse Ix.fresh [.tick, .resume 5 0 (.ledger (blocks 6) [])]).index (.account IxDemo.b) = [4, 4, 3, 3, 2] := by
  decide

/-- Whatever happens, only blocks whose number fits 64 bits are listed, and only
under token ids that do: a block about another token is never taken for one of a
token with a small id. -/
theorem C42_range (parse : ParsePrincipal) (ms : List IxMsg) :
    (∀ k, ∀ i ∈ entry (ixRun parse Ix.fresh ms).index k, i < 2 ^ 64) ∧
    (∀ n, 2 ^ 64 ≤ n → entry (ixRun parse Ix.fresh ms).index (.tokenId n) = []) := by
  have hi := IndexIs.run ms (indexIs_fresh parse)
  constructor
  · intro k i h
    rw [hi.1, List.mem_reverse, List.mem_flatMap] at h
    obtain ⟨b, hb, hr⟩ := h
    rw [(List.mem_replicate.1 hr).2]
    exact (hi.2 b hb).2.1
  · intro n hn
    refine List.eq_nil_iff_forall_not_mem.2 fun i h => ?_
    rw [hi.1, List.mem_reverse, List.mem_flatMap] at h
    obtain ⟨b, hb, hr⟩ := h
    have : n < U64 := (hi.2 b hb).2.2 n (List.mem_replicate.1 hr).1
    exact absurd this (Nat.not_lt.2 hn)

set_option maxRecDepth 20000 in
example : entry s6.index (.tokenId 1) ≠ [] ∧ (entry s6.index (.tokenId 1)).all (· < 2 ^ 64) := by decide

/-- The entry of a block type lists exactly the blocks of that type, each once,
newest first. -/
theorem C42_type (parse : ParsePrincipal) (ms : List IxMsg) (t : String) :
    entry (ixRun parse Ix.fresh ms).index (.blockType t) = entryOf parse (ixRun parse Ix.fresh ms).added (.blockType t) := by
  have hi := IndexIs.run ms (indexIs_fresh parse)
  refine entry_eq_entryOf hi fun b hb => ?_
  obtain ⟨⟨u, hu⟩, _⟩ := hi.2 b hb
  exact hits_type hu t

set_option maxRecDepth 20000 in
example : entry s6.index (.blockType "7xfer") = [4, 2] ∧ entry s6.index (.blockType "7mint") = [1, 0] := by decide

/-- The entry of a token lists exactly the blocks about it, each once, newest first,
if no added block of the types 37xfer, 37approve_coll and 37revoke_coll names it.
Missing for the full property: those blocks (`C42_violated_token`). -/
theorem C42_token_partial (parse : ParsePrincipal) (ms : List IxMsg) (n : Nat)
    (hp : ∀ b ∈ (ixRun parse Ix.fresh ms).added, involves parse b (.tokenId n) = true → PlainToken b) :
    entry (ixRun parse Ix.fresh ms).index (.tokenId n) = entryOf parse (ixRun parse Ix.fresh ms).added (.tokenId n) := by
  have hi := IndexIs.run ms (indexIs_fresh parse)
  refine entry_eq_entryOf hi fun b hb => ?_
  obtain ⟨⟨u, hu⟩, _⟩ := hi.2 b hb
  exact hits_eq fun hv => hits_token hu (hp b hb hv) n

/-- The entry of an account lists exactly the blocks naming it, each once, newest
first, if every added block naming it names its accounts once each and in the fields
read for its type. Missing for the full property: repeated accounts
(`C42_violated_repeat`) and fields not read (`C42_violated_spender`). -/
theorem C42_account_partial (parse : ParsePrincipal) (ms : List IxMsg) (a : Account)
    (hp : ∀ b ∈ (ixRun parse Ix.fresh ms).added, involves parse b (.account a) = true → PlainParties parse b) :
    entry (ixRun parse Ix.fresh ms).index (.account a) = entryOf parse (ixRun parse Ix.fresh ms).added (.account a) := by
  have hi := IndexIs.run ms (indexIs_fresh parse)
  refine entry_eq_entryOf hi fun b hb => ?_
  obtain ⟨⟨u, hu⟩, _⟩ := hi.2 b hb
  exact hits_eq fun hv => hits_account hu (hp b hb hv) a

namespace IxDemo

/-- The first three blocks meet both conditions. -/
def s3' : Ix := ixRun parse Ix.fresh [.tick, .resume 5 0 (.ledger (blocks 3) [])]

set_option maxRecDepth 20000

theorem added3 : s3'.added = blocks 3 := by decide

theorem plain3 (bl : Block) (h : bl ∈ s3'.added) : PlainToken bl ∧ PlainParties parse bl := by
  rw [added3] at h
  have : bl = block 0 ∨ bl = block 1 ∨ bl = block 2 := by
    have : bl ∈ [block 0, block 1, block 2] := h
    simpa using this
  have key : ∀ c : Block, (typeText c = some "7mint" ∧ partyIn parse c "from" = none ∨ typeText c = some "7xfer") →
      partyIn parse c "spender" = none → ((parties parse c).Pairwise fun x y => (x == y) = false) →
      PlainToken c ∧ PlainParties parse c := by
    intro c ht hs hd
    refine ⟨fun t h1 h2 => ?_, hd, fun h1 => ?_, fun t h1 h2 => ?_, fun _ _ _ => hs⟩
    · rcases ht with ⟨ht, _⟩ | ht <;> rw [ht] at h1 <;> cases h1 <;> simp at h2
    · rcases ht with ⟨_, hf⟩ | ht
      · exact hf
      · rw [ht] at h1; simp at h1
    · rcases ht with ⟨ht, _⟩ | ht <;> rw [ht] at h1 <;> cases h1 <;> simp at h2
  rcases this with rfl | rfl | rfl
  · exact key _ (.inl ⟨by decide, by decide⟩) (by decide) (by decide)
  · exact key _ (.inl ⟨by decide, by decide⟩) (by decide) (by decide)
  · exact key _ (.inr (by decide)) (by decide) (by decide)

end IxDemo

set_option maxRecDepth 20000 in
example : (∀ b ∈ s3'.added, PlainToken b) ∧ (∀ b ∈ s3'.added, PlainParties parse b) ∧
    entry s3'.index (.tokenId 0) = [2, 0] ∧ entry s3'.index (.account IxDemo.a) = [2, 1, 0] :=
  ⟨fun b hb => (plain3 b hb).1, fun b hb => (plain3 b hb).2, by decide, by decide⟩

set_option maxRecDepth 20000 in
/-- Blocks that do not name the key may be of any kind: one names an account
twice, one a token that is not read. -/
example : ¬ (∀ b ∈ s6.added, PlainParties parse b) ∧ ¬ (∀ b ∈ s6.added, PlainToken b) ∧
    (∀ b ∈ s6.added, involves parse b (.tokenId 0) = true → PlainToken b) ∧ entry s6.index (.tokenId 0) = [4, 2, 0] := by
  have key : ∀ b ∈ s6.added, involves parse b (.tokenId 0) = true →
      ∀ t ∈ ["37xfer", "37approve_coll", "37revoke_coll"], typeText b ≠ some t := by decide
  refine ⟨fun h => ?_, fun h => ?_, fun b hb hv t ht hm => absurd ht (key b hb hv t hm), by decide⟩
  · have := (h (block 4) (by decide)).distinct
    revert this; decide
  · have := h (block 3) (by decide) "37xfer" (by decide) (by decide)
    revert this; decide

/-- Without any condition, what the index has under a key: each added block as many
times as it names the key in the fields read for its type, newest first. -/
theorem C42_exact (parse : ParsePrincipal) (ms : List IxMsg) (k : IndexKey) :
    entry (ixRun parse Ix.fresh ms).index k =
      ((ixRun parse Ix.fresh ms).added.flatMap fun b => List.replicate (timesRead parse b k) b.id).reverse := by
  have hi := IndexIs.run ms (indexIs_fresh parse)
  rw [hi.1]
  congr 1
  refine flatMap_congr_mem fun b hb => ?_
  obtain ⟨⟨u, hu⟩, _⟩ := hi.2 b hb
  rw [hits_times hu]

set_option maxRecDepth 20000 in
example : timesRead parse (block 4) (.account IxDemo.b) = 2 ∧
    entry s6.index (.account IxDemo.b) = [4, 4, 3, 3, 2] := by decide

/-- In terms of the ledger: while the update job does not overlap with itself, the
entry of a key is exactly the list of the chain's blocks below `last_block_id` that
involve it, newest first; under the conditions of the theorems above for accounts
and tokens, without condition for block types. -/
theorem C42_chain_partial {parse : ParsePrincipal} {L : Chain} {t : Nat} {s : Ix}
    (h : Run parse L NoOverlap 0 Ix.fresh t s) (k : IndexKey)
    (hk : match k with
      | .account a => ∀ i, i < s.last → involves parse ⟨i, L i⟩ (.account a) = true → PlainParties parse ⟨i, L i⟩
      | .tokenId n => ∀ i, i < s.last → involves parse ⟨i, L i⟩ (.tokenId n) = true → PlainToken ⟨i, L i⟩
      | .blockType _ => True) :
    entry s.index k = ((List.range s.last).filter fun i => involves parse ⟨i, L i⟩ k).reverse := by
  have hs := Run.seq h (seqInv_fresh parse L 0)
  have hadd := hs.order.2
  have hmem : ∀ b ∈ s.added, ∃ i, i < s.last ∧ b = ⟨i, L i⟩ := by
    intro b hb
    rw [hadd] at hb
    obtain ⟨i, hi, rfl⟩ := List.mem_map.1 hb
    exact ⟨i, List.mem_range.1 hi, rfl⟩
  have : entry s.index k = entryOf parse s.added k := by
    refine entry_eq_entryOf hs.index fun b hb => ?_
    obtain ⟨⟨u, hu⟩, _⟩ := hs.index.2 b hb
    obtain ⟨i, hi, rfl⟩ := hmem b hb
    cases k with
    | account a => exact hits_eq fun hv => hits_account hu (hk i hi hv) a
    | blockType t => exact hits_type hu t
    | tokenId n => exact hits_eq fun hv => hits_token hu (hk i hi hv) n
  rw [this, entryOf, hadd]
  congr 1
  rw [List.filter_map, List.map_map]
  exact List.map_id _

example : Run parse chain NoOverlap 0 Ix.fresh 3 s3 ∧ s3.last = 3 := ⟨run3, last3⟩

/-- Accounts with a subaccount other than the default one never have an entry. -/
theorem C42_subaccount (parse : ParsePrincipal) (ms : List IxMsg) (a : Account)
    (ha : a.eff ≠ zeroSub) : entry (ixRun parse Ix.fresh ms).index (.account a) = [] := by
  refine List.eq_nil_iff_forall_not_mem.2 fun i hi => ?_
  obtain ⟨b, _, _, hinv⟩ := C42_sound parse ms _ i hi
  have : ((parties parse b).any fun p => p == a) = true := hinv
  obtain ⟨p, hp, hpa⟩ := List.any_eq_true.1 this
  obtain ⟨f, _, hf⟩ := List.mem_filterMap.1 hp
  unfold partyIn at hf
  split at hf
  · obtain ⟨q, _, rfl⟩ := Option.map_eq_some_iff.1 hf
    rw [Account.beq_iff] at hpa
    exact ha hpa.2.symm
  · cases hf

/-- **Violated**: a transfer by a spender (37xfer) moves token 1, but is missing
from the entry of token 1. -/
theorem C42_violated_token : Run parse chain NoOverlap 0 Ix.fresh 6 s6 ∧ block 3 ∈ s6.added ∧
    involves parse (block 3) (.tokenId 1) = true ∧ 3 ∉ entry s6.index (.tokenId 1) :=
  ⟨run6, by rw [added6]; decide, by decide, by set_option maxRecDepth 20000 in decide⟩

/-- **Violated**: a transfer of an account to itself is listed twice. -/
theorem C42_violated_repeat : Run parse chain NoOverlap 0 Ix.fresh 6 s6 ∧
    (entry s6.index (.account IxDemo.b)).count 4 = 2 :=
  ⟨run6, by set_option maxRecDepth 20000 in decide⟩

/-- **Violated**: the spender of a collection approval is named by the block, but
has no entry for it. -/
theorem C42_violated_spender : Run parse chain NoOverlap 0 Ix.fresh 6 s6 ∧ block 5 ∈ s6.added ∧
    involves parse (block 5) (.account IxDemo.b) = true ∧ 5 ∉ entry s6.index (.account IxDemo.b) :=
  ⟨run6, by rw [added6]; decide, by decide, by set_option maxRecDepth 20000 in decide⟩

/-! ## C43 Indexer processes each block once, in order -/

/-- While the job does not overlap with itself, whatever else happens (failures,
other calls, upgrades, cache clean-ups, a growing chain): the blocks added are
exactly blocks 0 to `last_block_id - 1`, each once and in order. Missing for the full
property: overlapping runs (`C43_violated_overlap`). -/
theorem C43_once_partial {parse : ParsePrincipal} {L : Chain} {t : Nat} {s : Ix}
    (h : Run parse L NoOverlap 0 Ix.fresh t s) :
    s.added = (List.range s.last).map (fun i => ⟨i, L i⟩) ∧ s.added.length = s.last ∧ s.last ≤ t := by
  have hs := Run.seq h (seqInv_fresh parse L 0)
  have h1 := hs.order.2
  refine ⟨h1, by rw [h1]; simp, ?_⟩
  cases hl : s.last with
  | zero => omega
  | succ n =>
    have : (⟨n, L n⟩ : Block) ∈ s.added := by
      rw [h1, hl]; exact List.mem_map_of_mem (List.mem_range.2 (Nat.lt_succ_self n))
    exact (hs.added _ this).2

example : Run parse chain NoOverlap 0 Ix.fresh 3 s3 ∧ s3.last = 3 := ⟨run3, last3⟩

/-- `status` answers the number of blocks added. -/
theorem C43_status {parse : ParsePrincipal} {L : Chain} {t : Nat} {s : Ix}
    (h : Run parse L NoOverlap 0 Ix.fresh t s) : ixStatus s = s.added.length ∧ ixStatus s ≤ t := by
  obtain ⟨_, h2, h3⟩ := C43_once_partial h
  exact ⟨h2.symm, h3⟩

example : ixStatus s3 = 3 := last3

/-- Every block added, in any honest history, is a block of the chain. -/
theorem C43_genuine {parse : ParsePrincipal} {L : Chain} {t : Nat} {s : Ix}
    (h : Run parse L AnySchedule 0 Ix.fresh t s) : ∀ b ∈ s.added, b.data = L b.id ∧ b.id < t :=
  (Run.inv h (ixInv_fresh parse L 0)).added

theorem Run.any {parse : ParsePrincipal} {L : Chain} {ok : Ix → IxMsg → Prop} {t t' : Nat} {s s' : Ix}
    (h : Run parse L ok t s t' s') : Run parse L AnySchedule t s t' s' := by
  induction h with
  | refl => exact .refl
  | step _ ht hm _ ih => exact .step ih ht hm trivial

example : Run parse chain AnySchedule 0 Ix.fresh 6 s6 ∧ s6.added ≠ [] :=
  ⟨Run.any run6, by rw [added6]; decide⟩

/-- A completed run makes progress: it adds the blocks that were on the chain when
it began, up to 100, unless it meets one of an unknown type. -/
theorem C43_progress {parse : ParsePrincipal} {L : Chain} {t t₁ t₂ i now : Nat} {s s₁ : Ix} {ans : IxAnswer}
    (h : Run parse L NoOverlap 0 Ix.fresh t s) (hok : NoOverlap s .tick) (hlast : s.last + 100 < 2 ^ 64)
    (hw : (ixStep parse s .tick).2 = .waiting i)
    (h1 : Run parse L NoOverlap t (ixStep parse s .tick).1 t₁ s₁) (ht : t₁ ≤ t₂)
    (hm : HonestMsg L t₂ s₁ (.resume now i ans)) (hlive : (s₁.tasks.get i).isSome)
    (hdone : (ixStep parse s₁ (.resume now i ans)).2 = .none)
    (htypes : ∀ j, s.last ≤ j → j < s.last + 100 → j < t₂ → ∃ ty ∈ knownTypes, typeText ⟨j, L j⟩ = some ty) :
    min (s.last + 100) t ≤ (ixStep parse s₁ (.resume now i ans)).1.last := by
  have hs := Run.seq h (seqInv_fresh parse L 0)
  have hs1 := hs.step (m := .tick) trivial hok
  have he := ixStep_eff parse s .tick
  rw [hw] at he
  generalize (ixStep parse s .tick).1 = s0 at he h1 hs1
  cases he with
  | same h => rcases h with h | h <;> cases h
  | @tickWait f hf =>
    have h0 := (fetchStart_inv (g := True) (d := none) hs.cache (ids := rangeU64 s.last (u64add s.last batchSize))
      (fun i hi => rangeU64_lt (u64add_bound _ _) hi) (fun _ => ⟨_, _, rfl⟩)).2
    rw [hf] at h0
    obtain ⟨ht0, _, htr⟩ := Run.track h1 hs1.toIxInv (i := s.nextTask) (t0 := t) (Nat.le_refl _)
      (P := fun task => task = .update s.last) (ids := rangeU64 s.last (u64add s.last batchSize)) (g := True) (d := none)
      (Nat.lt_succ_self _) (by
        intro task f' hg
        have hg' : (s.tasks.set s.nextTask (Task.update s.last, f)).get s.nextTask = some (task, f') := hg
        rw [Map.get_set_self] at hg'
        cases hg'
        exact ⟨rfl, h0⟩)
    have hinv := (Run.seq h1 hs1).toIxInv.mono ht
    have he2 := ixStep_eff parse s₁ (.resume now s.nextTask ans)
    have hsame : (ixStep parse s₁ (.resume now s.nextTask ans)).1 ≠ s₁ := by
      intro heq
      have : (ixStep parse s₁ (.resume now s.nextTask ans)).1.tasks.get s.nextTask = s₁.tasks.get s.nextTask := by rw [heq]
      revert this hdone
      cases hg : s₁.tasks.get s.nextTask with
      | none => rw [hg] at hlive; cases hlive
      | some x =>
        obtain ⟨task, f0⟩ := x
        obtain ⟨rfl, _, _⟩ := htr _ _ hg
        simp only [ixStep, hg]
        cases fetchResume now s₁.cache f0 ans with
        | none => intro h; cases h
        | some r =>
          obtain ⟨c, out⟩ := r
          cases out with
          | failed => intro h; cases h
          | wait f' => intro h; cases h
          | done blocks =>
            simp only [finishTask]
            cases indexBlocks parse s.last s₁.index s₁.added blocks with
            | none => intro h; cases h
            | some r =>
              intro _ h
              simp only [orTrap] at h
              rw [Map.get_del] at h
              simp at h
    generalize (ixStep parse s₁ (.resume now s.nextTask ans)).1 = s3 at he2 hsame ⊢
    rw [hdone] at he2
    cases he2 with
    | same => exact absurd rfl hsame
    | @resumeUpdate _ _ _ last f0 c blocks r hg hr hi =>
      obtain ⟨a1, a2, a3⟩ := htr _ _ hg
      cases a1
      obtain ⟨_, h3⟩ := fetchResume_inv a2 ht0 ht (hm _ _ hg) hinv.cache hinv.nodup hr
      rw [a3] at h3
      have hrange : rangeU64 s.last (u64add s.last batchSize) = List.range' s.last 100 := by
        unfold rangeU64 u64add batchSize
        rw [Nat.mod_eq_of_lt (b := U64) hlast]
        congr 1
        omega
      rw [hrange] at h3
      obtain ⟨b1, b2, b3⟩ := delivered_prefix h3
      obtain ⟨_, n, hn, _, _, hl, hstop⟩ := indexBlocks_spec _ hi (Run.seq h1 hs1).index
      have hl := hl (by show _ < 2 ^ 64; omega)
      show _ ≤ r.1
      rw [hl]
      by_cases hlt : n < blocks.length
      · exfalso
        obtain ⟨b, hb, hnone⟩ := hstop hlt
        have hb' : b = ⟨s.last + n, L (s.last + n)⟩ := by
          rw [b2, List.getElem?_map, List.getElem?_range' hlt] at hb
          simp at hb
          exact hb.symm
        have hbm : b ∈ blocks := List.mem_of_getElem? hb
        have hbt := (h3.2.1 b hbm).2
        subst hb'
        obtain ⟨ty, hty, htt⟩ := htypes (s.last + n) (by omega) (by omega) hbt
        have : ∃ u : BlockType, u.name = ty := by
          simp only [knownTypes, List.mem_cons, List.not_mem_nil, or_false] at hty
          rcases hty with rfl | rfl | rfl | rfl | rfl | rfl | rfl | rfl | rfl
          · exact ⟨.transfer, rfl⟩
          · exact ⟨.mint, rfl⟩
          · exact ⟨.burn, rfl⟩
          · exact ⟨.updateMeta, rfl⟩
          · exact ⟨.approve, rfl⟩
          · exact ⟨.transferFrom, rfl⟩
          · exact ⟨.approveColl, rfl⟩
          · exact ⟨.revoke, rfl⟩
          · exact ⟨.revokeColl, rfl⟩
        obtain ⟨u, rfl⟩ := this
        rw [blockType_text.2 htt] at hnone
        cases hnone
      · omega

set_option maxRecDepth 20000 in
/-- A run begun on an empty installation when the chain had three blocks. -/
example : Run parse chain NoOverlap 0 Ix.fresh 3 Ix.fresh ∧ NoOverlap Ix.fresh .tick ∧
    (ixStep parse Ix.fresh .tick).2 = .waiting 0 ∧
    Run parse chain NoOverlap 3 (ixStep parse Ix.fresh .tick).1 3 s2 ∧
    HonestMsg chain 3 s2 (.resume 6 0 ans2) ∧ (s2.tasks.get 0).isSome ∧ (ixStep parse s2 (.resume 6 0 ans2)).2 = .none ∧
    (∀ j, j < 3 → ∃ ty ∈ knownTypes, typeText ⟨j, chain j⟩ = some ty) ∧ (ixStep parse s2 (.resume 6 0 ans2)).1.last = 3 := by
  refine ⟨.step (m := .upgrade) .refl (by decide) trivial (noOverlap (by decide)), fun _ i last f h => (by cases h),
    by decide, ?_, ?_, by decide, by decide, ?_, by decide⟩
  · refine .step .refl (Nat.le_refl _) (honest (ans := ans1) get1 ?_) (noOverlap (by decide))
    exact ledgerHonest (chunk := List.range 100) (rest := []) rfl (by decide) (by decide)
  · refine honest (ans := ans2) get2 ?_
    exact archiveHonest (call := ⟨[9], [(0, 2)]⟩) (calls := []) (blocks := [block 2]) rfl (by decide) (by decide)
  · intro j hj
    match j, hj with
    | 0, _ => exact ⟨"7mint", by decide, by decide⟩
    | 1, _ => exact ⟨"7mint", by decide, by decide⟩
    | 2, _ => exact ⟨"7xfer", by decide, by decide⟩

/-- A block of a type the index does not know stops it for good: `last_block_id`
never passes it. -/
theorem C43_stuck {parse : ParsePrincipal} {L : Chain} {t j : Nat} {s : Ix}
    (h : Run parse L NoOverlap 0 Ix.fresh t s) (hj : ∀ ty, typeText ⟨j, L j⟩ = some ty → ty ∉ knownTypes) : s.last ≤ j := by
  have hs := Run.seq h (seqInv_fresh parse L 0)
  refine Nat.le_of_not_lt fun hlt => ?_
  have hm : (⟨j, L j⟩ : Block) ∈ s.added := by
    rw [hs.order.2]; exact List.mem_map_of_mem (List.mem_range.2 hlt)
  obtain ⟨⟨u, hu⟩, _⟩ := hs.index.2 _ hm
  refine hj u.name (blockType_text.1 hu) ?_
  cases u <;> decide

example : ∀ ty, typeText ⟨7, chain 7⟩ = some ty → ty ∉ knownTypes := by
  intro ty h
  have : typeText ⟨7, chain 7⟩ = some "99new" := by decide
  rw [this] at h
  cases h
  decide

namespace IxDemo

/-- Two runs of the job overlap: the second starts while the first waits. -/
def o2 : Ix := (ixStep parse s1 .tick).1
def o3 : Ix := (ixStep parse o2 (.resume 5 0 (.ledger (blocks 1) []))).1
def o4 : Ix := (ixStep parse o3 (.resume 6 1 (.ledger (blocks 1) []))).1

set_option maxRecDepth 20000

theorem geto2 : o2.tasks.get 0 = some (.update 0, f1) := by decide
theorem geto3 : o3.tasks.get 1 = some (.update 0, f1) := by decide

theorem runOverlap : Run parse chain AnySchedule 0 Ix.fresh 1 o4 := by
  refine .step (.step (.step (Run.any run1) (t₂ := 1) (by decide) trivial trivial) (Nat.le_refl _) (honest geto2 ?_) trivial)
    (Nat.le_refl _) (honest geto3 ?_) trivial
  all_goals exact ledgerHonest (chunk := List.range 100) (rest := []) rfl (by decide) (by decide)

end IxDemo

set_option maxRecDepth 20000 in
/-- **Violated**: two overlapping runs of the job add block 0 twice;
`last_block_id` is 1, and the entries list the block twice. -/
theorem C43_violated_overlap : Run parse chain AnySchedule 0 Ix.fresh 1 o4 ∧
    o4.added = [block 0, block 0] ∧ o4.last = 1 ∧ entry o4.index (.tokenId 0) = [0, 0] :=
  ⟨runOverlap, by decide, by decide, by decide⟩

/-! ## C44 Filtered block queries -/

theorem sorted_direction {d : SortDir} {bs : List Block} {l : List Nat} (hs : SortedAs d bs) (hl : l.Pairwise (· ≤ ·))
    (hp : (bs.map Block.id).Perm l) : bs.map Block.id = inDirection d l := by
  cases d with
  | asc =>
    exact List.Perm.eq_of_pairwise (le := (· ≤ ·)) (fun x y _ _ => Nat.le_antisymm) (List.pairwise_map.2 hs) hl hp
  | desc =>
    refine List.Perm.eq_of_pairwise (le := fun x y => y ≤ x) (fun x y _ _ h1 h2 => Nat.le_antisymm h2 h1)
      (List.pairwise_map.2 hs) (List.pairwise_reverse.2 hl) (hp.trans (List.reverse_perm _).symm)

/-- In every honest history: for every set of filters there is one ascending list,
of exactly the blocks present in the entries of all filters, such that the answer to
every call with these filters, start and length (sum below 2^32) is the genuine
blocks of the page of this list, in the requested direction. If no entry repeats a
block, neither does the list. Missing for the full property: larger lengths
(`C44_violated_trap`, `C44_violated_truncated`), the order across pages
(`C44_violated_order`) and repeated entries (`C44_violated_repeat`). -/
theorem C44_filtered_partial {parse : ParsePrincipal} {L : Chain} {t : Nat} {s : Ix}
    (h : Run parse L AnySchedule 0 Ix.fresh t s) {filters : List IndexKey} (hf : filters ≠ []) :
    ∃ l, Selects s.index filters l ∧ ((∀ k ∈ filters, (entry s.index k).Nodup) → l.Nodup) ∧
      ∀ start length sort, start + length < 2 ^ 32 →
        (ixStep parse s (.get ⟨start, length, filters, sort⟩)).2 ≠ .trapped ∧
        ∀ t' bs total, Answered parse L t s ⟨start, length, filters, sort⟩ t' bs total →
          bs.map Block.id = inDirection (sort.getD .asc) (idPage l start length) ∧ ∀ b ∈ bs, b.data = L b.id := by
  have hi := Run.inv h (ixInv_fresh parse L 0)
  obtain ⟨l, hsel, hnd, hids⟩ := getIds_filtered (s := s) hf
  refine ⟨l, hsel, fun hn => hnd ?_, fun start length sort hlt => ⟨?_, fun t' bs total ha => ?_⟩⟩
  · obtain ⟨k, ks, rfl⟩ := List.exists_cons_of_ne_nil hf
    exact hn k List.mem_cons_self
  · have h0 := hids start length sort hlt
    have hne := (fetchStart_inv (g := False) (d := some (sort.getD .asc)) hi.cache (getIds_lt hi.index h0)
      (fun hf => hf.elim)).1
    simp only [ixStep, h0]
    cases hst : fetchStart s.cache (idPage l start length) (some (sort.getD .asc)) with
    | failed => exact absurd hst hne
    | wait f => intro h; cases h
    | done bs => intro h; cases h
  · obtain ⟨ids, h1, hs, hg, lost, hp, hlost, _⟩ := Answered.delivered ha hi
    rw [hids start length sort hlt] at h1
    cases h1
    have hsub : ∀ i ∈ idPage l start length, i < t := by
      intro i him
      have := (hsel.2 i).1 (List.mem_of_mem_drop (List.mem_of_mem_take him))
      obtain ⟨k, ks, rfl⟩ := List.exists_cons_of_ne_nil hf
      have hm := this k List.mem_cons_self
      rw [hi.index.1, List.mem_reverse, List.mem_flatMap] at hm
      obtain ⟨b, hb, hr⟩ := hm
      rw [(List.mem_replicate.1 hr).2]
      exact (hi.added b hb).2
    have hnil : lost = [] := by
      cases lost with
      | nil => rfl
      | cons x xs =>
        exfalso
        have h1 := hlost x List.mem_cons_self
        have h2 := hsub x (hp.mem_iff.1 (List.mem_append_right _ List.mem_cons_self))
        omega
    rw [hnil, List.append_nil] at hp
    refine ⟨sorted_direction hs ?_ hp, fun b hb => (hg b hb).1⟩
    exact (hsel.1.sublist (List.drop_sublist _ _)).sublist (List.take_sublist _ _)

/-- Consecutive pages of a list partition it. -/
theorem C44_pages (l : List Nat) (lengths : List Nat) :
    ∀ start, (lengths.foldl (fun acc n => (acc.1 + n, acc.2 ++ idPage l acc.1 n)) (start, [])).2 = idPage l start lengths.sum := by
  have : ∀ (lengths : List Nat) (start : Nat) (pre : List Nat),
      (lengths.foldl (fun acc n => (acc.1 + n, acc.2 ++ idPage l acc.1 n)) (start, pre)).2 = pre ++ idPage l start lengths.sum := by
    intro lengths
    induction lengths with
    | nil => intro start pre; simp [idPage]
    | cons n ns ih =>
      intro start pre
      rw [List.foldl_cons, ih, List.sum_cons, List.append_assoc]
      congr 1
      unfold idPage
      rw [List.take_add, List.drop_drop]
  intro start
  simpa using this lengths start []

example : idPage [1, 4, 6, 9] 0 2 ++ idPage [1, 4, 6, 9] 2 2 = [1, 4, 6, 9] := by decide

namespace IxDemo

set_option maxRecDepth 20000

def getMints (start length : Nat) (sort : Option SortDir) : IxMsg := .get ⟨start, length, [.blockType "7mint"], sort⟩

theorem mints (start length : Nat) (sort : Option SortDir) (bs : List Block) (total : Nat)
    (h : (ixStep parse s6 (getMints start length sort)).2 = .response bs total) :
    Answered parse chain 6 s6 ⟨start, length, [.blockType "7mint"], sort⟩ 6 bs total := .now h

end IxDemo

set_option maxRecDepth 20000 in
example : Run parse chain AnySchedule 0 Ix.fresh 6 s6 ∧
    Answered parse chain 6 s6 ⟨0, 10, [.blockType "7xfer", .account IxDemo.a], some .desc⟩ 6 [block 2] 6 :=
  ⟨Run.any run6, .now (by decide)⟩

/-- The total in an answer is the number of blocks in the index at that moment (as long
as the job does not overlap with itself), and no more than the chain holds. -/
theorem C44_total {parse : ParsePrincipal} {L : Chain} {t : Nat} {s : Ix} {m : IxMsg} {bs : List Block} {total : Nat}
    (h : Run parse L NoOverlap 0 Ix.fresh t s) (hr : (ixStep parse s m).2 = .response bs total) :
    total = s.added.length ∧ s.added = (List.range total).map (fun i => ⟨i, L i⟩) ∧ total ≤ t := by
  obtain ⟨h1, h2, h3⟩ := C43_once_partial h
  have : total = s.last := by
    have he := ixStep_eff parse s m
    rw [hr] at he
    generalize (ixStep parse s m).1 = s' at he
    cases he with
    | same h => rcases h with h | h <;> cases h
    | getDone => rfl
    | resumeGet => rfl
  subst this
  exact ⟨h2.symm, h1, h3⟩

set_option maxRecDepth 20000 in
example : Run parse chain NoOverlap 0 Ix.fresh 6 s6 ∧
    (ixStep parse s6 (getMints 0 1 none)).2 = .response [block 0] 6 := ⟨run6, by decide⟩

/-- Without filters, descending order ignores `start`: every page is the newest
blocks. (**Violated**: consecutive pages do not partition the result.) -/
theorem C44_violated_start (parse : ParsePrincipal) (s : Ix) (start start' length : Nat) :
    ixStep parse s (.get ⟨start, length, [], some .desc⟩) = ixStep parse s (.get ⟨start', length, [], some .desc⟩) := rfl

set_option maxRecDepth 20000 in
example : (ixStep parse s6 (.get ⟨0, 2, [], some .desc⟩)).2 = .response [block 5, block 4] 6 ∧
    (ixStep parse s6 (.get ⟨2, 2, [], some .desc⟩)).2 = .response [block 5, block 4] 6 := by decide

set_option maxRecDepth 20000 in
/-- **Violated**: with filters and descending order, the first page holds the oldest
block, so the pages put together are not in descending order. -/
theorem C44_violated_order : Run parse chain NoOverlap 0 Ix.fresh 6 s6 ∧
    (ixStep parse s6 (getMints 0 1 (some .desc))).2 = .response [block 0] 6 ∧
    (ixStep parse s6 (getMints 1 1 (some .desc))).2 = .response [block 1] 6 :=
  ⟨run6, by decide, by decide⟩

set_option maxRecDepth 20000 in
/-- **Violated**: a length that makes the end of the page wrap around traps, though
there is a block on the page. -/
theorem C44_violated_trap : Run parse chain NoOverlap 0 Ix.fresh 6 s6 ∧
    (ixStep parse s6 (getMints 1 (2 ^ 64 - 1) none)).2 = .trapped ∧
    (ixStep parse s6 (getMints 1 1 none)).2 = .response [block 1] 6 :=
  ⟨run6, by decide, by decide⟩

set_option maxRecDepth 20000 in
/-- **Violated**: a length of 2^32 is cut to zero, and the answer is empty. -/
theorem C44_violated_truncated : Run parse chain NoOverlap 0 Ix.fresh 6 s6 ∧
    (ixStep parse s6 (getMints 0 (2 ^ 32) none)).2 = .response [] 6 ∧
    (ixStep parse s6 (getMints 0 2 none)).2 = .response [block 0, block 1] 6 :=
  ⟨run6, by decide, by decide⟩

set_option maxRecDepth 20000 in
/-- **Violated**: a block that is twice in an entry is returned twice. -/
theorem C44_violated_repeat : Run parse chain NoOverlap 0 Ix.fresh 6 s6 ∧
    (ixStep parse s6 (.get ⟨3, 2, [.account IxDemo.b], none⟩)).2 = .response [block 4, block 4] 6 :=
  ⟨run6, by decide⟩

/-! ## C45 Cache and chunking are transparent -/

/-- A range of ids: whatever the cache holds and however the ledger splits its blocks
between itself and archives, the answer is sorted as requested, holds only genuine
blocks of the range, none twice, and all of those that were on the chain when the
call was made. Missing for the full property: ranges that run to 2^64 or beyond
(`C45_violated_wrap`). -/
theorem C45_range_partial {parse : ParsePrincipal} {L : Chain} {t t' start length total : Nat} {s : Ix} {sort : Option SortDir}
    {bs : List Block} (h : Run parse L AnySchedule 0 Ix.fresh t s) (hsort : sort ≠ some .desc)
    (hlt : start + length < 2 ^ 64) (ha : Answered parse L t s ⟨start, length, [], sort⟩ t' bs total) :
    bs.Pairwise (fun x y => x.id < y.id) ∧
    (∀ b ∈ bs, b.data = L b.id ∧ start ≤ b.id ∧ b.id < start + length ∧ b.id < t') ∧
    ∀ i, start ≤ i → i < start + length → i < t → ⟨i, L i⟩ ∈ bs := by
  have hi := Run.inv h (ixInv_fresh parse L 0)
  obtain ⟨ids, h1, hs, hg, lost, hp, hlost, _⟩ := Answered.delivered ha hi
  have h1 : some (rangeU64 start (u64add start length)) = some ids := by
    rw [← h1]
    unfold getIds
    simp only [List.isEmpty_nil, if_true]
  have hids : ids = List.range' start length := by
    cases h1
    unfold rangeU64 u64add
    rw [Nat.mod_eq_of_lt (b := U64) hlt]
    congr 1
    omega
  subst hids
  have hasc : sort.getD .asc = .asc := by
    cases sort with
    | none => rfl
    | some d => cases d with
      | asc => rfl
      | desc => exact absurd rfl hsort
  simp only [Option.getD_some] at hs
  rw [hasc] at hs
  have hnd : (bs.map Block.id).Nodup := by
    have : (bs.map Block.id ++ lost).Nodup := hp.nodup_iff.2 List.nodup_range'
    exact (List.nodup_append.1 this).1
  refine ⟨?_, fun b hb => ?_, fun i h1 h2 h3 => ?_⟩
  · have hne : bs.Pairwise fun x y => x.id ≠ y.id := List.pairwise_map.1 hnd
    have hboth := List.Pairwise.and hs hne
    exact hboth.imp fun ⟨x, y⟩ => Nat.lt_of_le_of_ne x y
  · have hm : b.id ∈ List.range' start length := hp.mem_iff.1 (List.mem_append_left _ (List.mem_map_of_mem hb))
    rw [List.mem_range'_1] at hm
    exact ⟨(hg b hb).1, hm.1, hm.2, (hg b hb).2⟩
  · have hm : i ∈ bs.map Block.id ++ lost := hp.mem_iff.2 (List.mem_range'_1.2 ⟨h1, h2⟩)
    rcases List.mem_append.1 hm with hm | hm
    · obtain ⟨b, hb, rfl⟩ := List.mem_map.1 hm
      have := (hg b hb).1
      cases b
      rw [← show _ = L _ from this]
      exact hb
    · have := hlost i hm
      omega

/-- The newest blocks, in descending order: the same for the last `length` ids below
`last_block_id`, or, if there are not that many, for the first `length` ids. -/
theorem C45_latest {parse : ParsePrincipal} {L : Chain} {t t' start length total : Nat} {s : Ix}
    {bs : List Block} (h : Run parse L AnySchedule 0 Ix.fresh t s) (hlen : length < 2 ^ 64) (hlast : s.last < 2 ^ 64)
    (ha : Answered parse L t s ⟨start, length, [], some .desc⟩ t' bs total) :
    bs.Pairwise (fun x y => y.id < x.id) ∧
    (∀ b ∈ bs, b.data = L b.id ∧ s.last - length ≤ b.id ∧ b.id < max s.last length ∧ b.id < t') ∧
    ∀ i, s.last - length ≤ i → i < max s.last length → i < t → ⟨i, L i⟩ ∈ bs := by
  have hi := Run.inv h (ixInv_fresh parse L 0)
  obtain ⟨ids, h1, hs, hg, lost, hp, hlost, _⟩ := Answered.delivered ha hi
  have hids : ids = List.range' (s.last - length) length := by
    have h1 : some (rangeU64 (s.last - length) (u64add (s.last - length) length)) = some ids := h1
    cases h1
    unfold rangeU64 u64add
    rw [Nat.mod_eq_of_lt (by show _ < 2 ^ 64; omega)]
    congr 1
    omega
  subst hids
  have hnd : (bs.map Block.id).Nodup := by
    have : (bs.map Block.id ++ lost).Nodup := hp.nodup_iff.2 List.nodup_range'
    exact (List.nodup_append.1 this).1
  refine ⟨?_, fun b hb => ?_, fun i h1 h2 h3 => ?_⟩
  · have hne : bs.Pairwise fun x y => x.id ≠ y.id := List.pairwise_map.1 hnd
    have hboth := List.Pairwise.and hs hne
    exact hboth.imp fun ⟨x, y⟩ => Nat.lt_of_le_of_ne x (Ne.symm y)
  · have hm : b.id ∈ List.range' (s.last - length) length := hp.mem_iff.1 (List.mem_append_left _ (List.mem_map_of_mem hb))
    rw [List.mem_range'_1] at hm
    exact ⟨(hg b hb).1, hm.1, by omega, (hg b hb).2⟩
  · have hm : i ∈ bs.map Block.id ++ lost := hp.mem_iff.2 (List.mem_range'_1.2 ⟨h1, by omega⟩)
    rcases List.mem_append.1 hm with hm | hm
    · obtain ⟨b, hb, rfl⟩ := List.mem_map.1 hm
      have := (hg b hb).1
      cases b
      rw [← show _ = L _ from this]
      exact hb
    · have := hlost i hm
      omega

/-- **Violated**: a range that runs to 2^64 or beyond is answered with no block at all,
whatever the chain holds. -/
theorem C45_violated_wrap (parse : ParsePrincipal) (s : Ix) {start length : Nat} {sort : Option SortDir}
    (hsort : sort ≠ some .desc) (hs : start < 2 ^ 64) (hl : length < 2 ^ 64) (h : 2 ^ 64 ≤ start + length) :
    ixStep parse s (.get ⟨start, length, [], sort⟩) = (s, .response [] s.last) := by
  have : getIds s ⟨start, length, [], sort⟩ = some [] := by
    have hw : rangeU64 start (u64add start length) = [] := by
      unfold rangeU64 u64add
      rw [show (start + length) % U64 - start = 0 from by unfold U64; omega]
      rfl
    unfold getIds
    simp only [List.isEmpty_nil, if_true]
    cases sort with
    | none => rw [hw]
    | some d => cases d with
      | asc => rw [hw]
      | desc => exact absurd rfl hsort
  simp only [ixStep, this]
  rfl

set_option maxRecDepth 20000 in
example : Run parse chain NoOverlap 0 Ix.fresh 6 s6 ∧
    (ixStep parse s6 (.get ⟨1, 2 ^ 64 - 1, [], none⟩)).2 = .response [] 6 ∧
    (ixStep parse s6 (.get ⟨1, 5, [], none⟩)).2 = .response [block 1, block 2, block 3, block 4, block 5] 6 :=
  ⟨run6, by decide, by decide⟩

/-- Grouping a sorted list of ids into ranges loses and invents nothing: the ranges
asked from the ledger, put together, are the list without repetitions lost, in the
same order; every range is gap-free and not empty. -/
theorem C45_grouping {ids : List Nat} (hs : ids.Pairwise (· ≤ ·)) (hu : ∀ i ∈ ids, i < 2 ^ 64) :
    idsIn ((groupConsecutive ids).map chunkRequest) = ids ∧ ∀ c ∈ groupConsecutive ids, c ≠ [] := by
  obtain ⟨h1, h2⟩ := groupConsecutive_spec hs hu
  have key : ∀ (cs : List (List Nat)), (∀ c ∈ cs, IsRun c) → idsIn (cs.map chunkRequest) = cs.flatten := by
    intro cs
    induction cs with
    | nil => intro _; rfl
    | cons c cs ih =>
      intro h
      have h1 := idsIn_request (h c List.mem_cons_self)
      have h2 := ih fun c hc => h c (List.mem_cons_of_mem _ hc)
      simp only [idsIn, List.map_cons, List.flatMap_cons, List.flatMap_nil, List.append_nil,
        List.flatten_cons] at h1 h2 ⊢
      rw [h1, h2]
  refine ⟨(key _ h2).trans h1, fun c hc hn => ?_⟩
  have loop : ∀ (xs cur : List Nat) (prev : Nat), cur ≠ [] → [] ∉ groupLoop cur prev xs := by
    intro xs
    induction xs with
    | nil => intro cur prev hc h; simp [groupLoop] at h; exact hc h
    | cons x xs ih =>
      intro cur prev hc h
      unfold groupLoop at h
      split at h
      · rcases List.mem_cons.1 h with h | h
        · simp at h; exact hc h
        · exact ih _ _ (by simp) h
      · exact ih _ _ (by simp) h
  subst hn
  cases ids with
  | nil => cases hc
  | cons x xs => exact loop xs [x] x (by simp) hc

example : (groupConsecutive [1, 2, 3, 7, 8, 10]).map chunkRequest = [(1, 3), (7, 2), (10, 1)] := by decide

namespace IxDemo

set_option maxRecDepth 20000

/-- A call for blocks 1 to 3 in a state that caches blocks 0 to 2, while the chain
has grown to six blocks. -/
def g1 : Ix := (ixStep parse s3 (.get ⟨1, 3, [], none⟩)).1

theorem getg1 : g1.tasks.get 1 = some (.get, ⟨[block 1, block 2], [[3]], .ledger, some .asc⟩) := by decide

theorem answered : Answered parse chain 3 s3 ⟨1, 3, [], none⟩ 6 [block 1, block 2, block 3] 3 := by
  refine .later (i := 1) (t₁ := 3) (s₁ := g1) (time := 9) (ans := .ledger [block 3] []) (by decide) .refl (by decide)
    (honest getg1 ?_) (by decide)
  exact ledgerHonest (chunk := [3]) (rest := []) rfl (by decide) (by decide)

end IxDemo

example : Run parse chain AnySchedule 0 Ix.fresh 3 s3 ∧
    Answered parse chain 3 s3 ⟨1, 3, [], none⟩ 6 [block 1, block 2, block 3] 3 := ⟨Run.any run3, answered⟩

set_option maxRecDepth 20000 in
example : Run parse chain AnySchedule 0 Ix.fresh 6 s6 ∧ 2 ≤ s6.last ∧
    Answered parse chain 6 s6 ⟨0, 2, [], some .desc⟩ 6 [block 5, block 4] 6 :=
  ⟨Run.any run6, by decide, .now (by decide)⟩

end Verif
