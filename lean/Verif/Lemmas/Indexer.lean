import Verif.Lemmas.Fetch
/-! # Messages of the index canister -/
namespace Verif

open Spec

/-- What a message does. -/
inductive IxEff (parse : ParsePrincipal) (s : Ix) : IxMsg → Ix → IxOut → Prop
  | same {m out} (h : out = .none ∨ out = .trapped) : IxEff parse s m s out
  | drop {now i ans x} (h : s.tasks.get i = some x) :
      IxEff parse s (.resume now i ans) { s with tasks := s.tasks.del i } .trapped
  | upgrade : IxEff parse s .upgrade { s with tasks := ∅ } .none
  | tickWait {f} (h : fetchStart s.cache (rangeU64 s.last (u64add s.last batchSize)) none = .wait f) :
      IxEff parse s .tick
        { s with tasks := s.tasks.set s.nextTask (.update s.last, f), nextTask := s.nextTask + 1 } (.waiting s.nextTask)
  | tickDone {blocks r} (h : fetchStart s.cache (rangeU64 s.last (u64add s.last batchSize)) none = .done blocks)
      (hi : indexBlocks parse s.last s.index s.added blocks = some r) :
      IxEff parse s .tick { s with last := r.1, index := r.2.1, added := r.2.2 } .none
  | getWait {a ids f} (hids : getIds s a = some ids)
      (h : fetchStart s.cache ids (some (a.sort.getD .asc)) = .wait f) :
      IxEff parse s (.get a)
        { s with tasks := s.tasks.set s.nextTask (.get, f), nextTask := s.nextTask + 1 } (.waiting s.nextTask)
  | getDone {a ids blocks} (hids : getIds s a = some ids)
      (h : fetchStart s.cache ids (some (a.sort.getD .asc)) = .done blocks) :
      IxEff parse s (.get a) s (.response blocks s.last)
  | resumeWait {now i ans task f c f'} (ht : s.tasks.get i = some (task, f))
      (h : fetchResume now s.cache f ans = some (c, .wait f')) :
      IxEff parse s (.resume now i ans) { s with cache := c, tasks := (s.tasks.del i).set i (task, f') } (.waiting i)
  | resumeUpdate {now i ans last f c blocks r} (ht : s.tasks.get i = some (.update last, f))
      (h : fetchResume now s.cache f ans = some (c, .done blocks))
      (hi : indexBlocks parse last s.index s.added blocks = some r) :
      IxEff parse s (.resume now i ans)
        { s with cache := c, tasks := s.tasks.del i, last := r.1, index := r.2.1, added := r.2.2 } .none
  | resumeGet {now i ans f c blocks} (ht : s.tasks.get i = some (.get, f))
      (h : fetchResume now s.cache f ans = some (c, .done blocks)) :
      IxEff parse s (.resume now i ans) { s with cache := c, tasks := s.tasks.del i } (.response blocks s.last)

theorem ixStep_eff (parse : ParsePrincipal) (s : Ix) (m : IxMsg) :
    IxEff parse s m (ixStep parse s m).1 (ixStep parse s m).2 := by
  cases m with
  | tick =>
    simp only [ixStep]
    cases h : fetchStart s.cache (rangeU64 s.last (u64add s.last batchSize)) none with
    | failed => exact .same (.inr rfl)
    | wait f => exact .tickWait h
    | done blocks =>
      simp only [finishTask]
      cases hi : indexBlocks parse s.last s.index s.added blocks with
      | none => exact .same (.inr rfl)
      | some r => exact .tickDone h hi
  | clean now =>
    simp only [ixStep, cacheClean]
    by_cases h : s.cache.entries.any (fun e => decide (e.2.1 < now))
    · rw [if_pos h]; exact .same (.inr rfl)
    · rw [if_neg h]; exact .same (.inl rfl)
  | upgrade => exact .upgrade
  | get a =>
    simp only [ixStep]
    cases hids : getIds s a with
    | none => exact .same (.inr rfl)
    | some ids =>
      dsimp only
      cases h : fetchStart s.cache ids (some (a.sort.getD .asc)) with
      | failed => exact .same (.inr rfl)
      | wait f => exact .getWait hids h
      | done blocks => exact .getDone hids h
  | resume now i ans =>
    simp only [ixStep]
    cases ht : s.tasks.get i with
    | none => exact .same (.inl rfl)
    | some x =>
      obtain ⟨task, f⟩ := x
      dsimp only
      cases h : fetchResume now s.cache f ans with
      | none => exact .drop ht
      | some r =>
        obtain ⟨c, out⟩ := r
        cases out with
        | failed => cases task <;> exact .drop ht
        | wait f' => exact .resumeWait ht h
        | done blocks =>
          cases task with
          | get => exact .resumeGet ht h
          | update last =>
            simp only [finishTask]
            cases hi : indexBlocks parse last s.index s.added blocks with
            | none => exact .drop ht
            | some r => exact .resumeUpdate ht h hi

theorem IndexIs.run {parse : ParsePrincipal} (ms : List IxMsg) : ∀ {s : Ix}, IndexIs parse s.index s.added →
    IndexIs parse (ixRun parse s ms).index (ixRun parse s ms).added := by
  induction ms with
  | nil => intro s h; exact h
  | cons m ms ih =>
    intro s h
    refine ih (s := (ixStep parse s m).1) ?_
    have he := ixStep_eff parse s m
    generalize (ixStep parse s m).1 = s' at he ⊢
    generalize (ixStep parse s m).2 = o at he
    cases he with
    | tickDone _ hi => exact (indexBlocks_spec _ hi h).1
    | resumeUpdate _ _ hi => exact (indexBlocks_spec _ hi h).1
    | _ => exact h

theorem indexIs_fresh (parse : ParsePrincipal) : IndexIs parse Ix.fresh.index Ix.fresh.added :=
  ⟨fun k => rfl, fun b hb => by cases hb⟩

theorem Run.indexIs {parse : ParsePrincipal} {L : Chain} {ok : Ix → IxMsg → Prop} {t t' : Nat} {s s' : Ix}
    (h : Run parse L ok t s t' s') (hi : IndexIs parse s.index s.added) : IndexIs parse s'.index s'.added := by
  induction h with
  | refl => exact hi
  | step _ _ _ _ ih => exact IndexIs.run [_] ih

/-! ## Honest histories -/

theorem rangeU64_lt {a b i : Nat} (hb : b < U64) (h : i ∈ rangeU64 a b) : i < U64 := by
  unfold rangeU64 at h
  rw [List.mem_range'_1] at h
  omega

theorem u64add_bound (a b : Nat) : u64add a b < U64 := Nat.mod_lt _ (by decide)

theorem mem_foldl_filter {f : List (List Nat)} : ∀ {r : List Nat} {i : Nat},
    i ∈ f.foldl (fun acc f => acc.filter fun id => f.contains id) r ↔ i ∈ r ∧ ∀ l ∈ f, i ∈ l := by
  induction f with
  | nil => intro r i; simp
  | cons l f ih =>
    intro r i
    rw [List.foldl_cons, ih, List.mem_filter]
    simp [and_assoc]

theorem getIds_lt {parse : ParsePrincipal} {s : Ix} (hi : IndexIs parse s.index s.added) {a : GetArgs} {ids : List Nat}
    (h : getIds s a = some ids) : ∀ i ∈ ids, i < U64 := by
  intro i him
  unfold getIds at h
  split at h
  · cases h
    exact rangeU64_lt (u64add_bound _ _) him
  · unfold filterIds at h
    dsimp only at h
    have key : ∀ k, ∀ i ∈ (s.index.get k).getD [], i < U64 := by
      intro k i hk
      have : i ∈ entry s.index k := hk
      rw [hi.1, List.mem_reverse, List.mem_flatMap] at this
      obtain ⟨b, hb, hr⟩ := this
      rw [(List.mem_replicate.1 hr).2]
      exact (hi.2 b hb).2.1
    cases hf : a.filters with
    | nil =>
      rw [hf] at h
      simp only [List.map_nil] at h
      cases h
      cases him
    | cons k ks =>
      rw [hf] at h
      simp only [List.map_cons] at h
      split at h
      · cases h; cases him
      · split at h
        · cases h
        · cases h
          have him := mem_sortNat.1 (List.mem_of_mem_drop (List.mem_of_mem_take him))
          exact key k i (mem_foldl_filter.1 him).1

/-- A suspended call of an honest history. -/
def TaskOk (L : Chain) (tip : Nat) (task : Task) (f : Fetch) : Prop :=
  ∃ t0 ids, ∃ g : Prop, t0 ≤ tip ∧ FetchInv L t0 tip ids g f ∧
    ∀ last, task = .update last → g ∧ ids = rangeU64 last (u64add last batchSize) ∧ f.sort = none

structure IxInv (parse : ParsePrincipal) (L : Chain) (tip : Nat) (s : Ix) : Prop where
  cache : CacheOk L tip s.cache
  nodup : s.cache.NodupKeys
  index : IndexIs parse s.index s.added
  added : ∀ b ∈ s.added, Genuine L b ∧ b.id < tip
  tasks : ∀ i task f, s.tasks.get i = some (task, f) → i < s.nextTask ∧ TaskOk L tip task f

theorem TaskOk.mono {L : Chain} {t t' : Nat} {task : Task} {f : Fetch} (h : TaskOk L t task f) (ht : t ≤ t') :
    TaskOk L t' task f := by
  obtain ⟨t0, ids, g, h0, hf, hu⟩ := h
  exact ⟨t0, ids, g, Nat.le_trans h0 ht, hf.mono ht, hu⟩

theorem IxInv.mono {parse : ParsePrincipal} {L : Chain} {t t' : Nat} {s : Ix} (h : IxInv parse L t s) (ht : t ≤ t') :
    IxInv parse L t' s :=
  ⟨h.cache.mono ht, h.nodup, h.index,
    fun b hb => ⟨(h.added b hb).1, Nat.lt_of_lt_of_le (h.added b hb).2 ht⟩, fun i task f hg => ⟨(h.tasks i task f hg).1, (h.tasks i task f hg).2.mono ht⟩⟩

theorem ixInv_fresh (parse : ParsePrincipal) (L : Chain) (t : Nat) : IxInv parse L t Ix.fresh :=
  ⟨fun i e h => (by cases h), Map.nodup_empty, indexIs_fresh parse, fun b hb => (by cases hb), fun i task f h => (by cases h)⟩

/-- An answer to one of the suspended calls. -/
theorem IxInv.resume {parse : ParsePrincipal} {L : Chain} {t : Nat} {s : Ix} (h : IxInv parse L t s) {i : Nat}
    {task : Task} {f : Fetch} (hg : s.tasks.get i = some (task, f)) {ans : IxAnswer} (ha : HonestAnswer L t f ans)
    {now : Nat} {c : Cache} {out : FetchOut} (hr : fetchResume now s.cache f ans = some (c, out)) :
    CacheOk L t c ∧ c.NodupKeys ∧ (∀ f', out = .wait f' → TaskOk L t task f') ∧
    ∀ last blocks, task = .update last → out = .done blocks →
      ∃ t0, t0 ≤ t ∧ Delivered L t0 t (rangeU64 last (u64add last batchSize)) True none blocks := by
  obtain ⟨t0, ids, g, h0, hf, hu⟩ := (h.tasks i task f hg).2
  obtain ⟨⟨h1, h2⟩, h3⟩ := fetchResume_inv hf h0 (Nat.le_refl _) ha h.cache h.nodup hr
  refine ⟨h1, h2, ?_, ?_⟩
  · intro f' hout
    subst hout
    exact ⟨t0, ids, g, h0, h3.1, fun last hl => ⟨(hu last hl).1, (hu last hl).2.1, h3.2.trans (hu last hl).2.2⟩⟩
  · intro last blocks hl hout
    subst hout
    obtain ⟨hg', hids, hs⟩ := hu last hl
    rw [hs] at h3
    rw [← hids]
    obtain ⟨a1, a2, lost, a3, a4, a5⟩ := h3
    exact ⟨t0, h0, a1, a2, lost, a3, a4, fun _ => a5 hg'⟩

theorem IxInv.tick {parse : ParsePrincipal} {L : Chain} {t : Nat} {s : Ix} (h : IxInv parse L t s) :
    (∀ f, fetchStart s.cache (rangeU64 s.last (u64add s.last batchSize)) none = .wait f →
      TaskOk L t (.update s.last) f) ∧
    ∀ blocks, fetchStart s.cache (rangeU64 s.last (u64add s.last batchSize)) none = .done blocks →
      Delivered L t t (rangeU64 s.last (u64add s.last batchSize)) True none blocks := by
  have := (fetchStart_inv (g := True) (d := none) h.cache (ids := rangeU64 s.last (u64add s.last batchSize))
    (fun i hi => rangeU64_lt (u64add_bound _ _) hi) (fun _ => ⟨_, _, rfl⟩)).2
  refine ⟨fun f hf => ?_, fun blocks hb => ?_⟩
  · rw [hf] at this
    exact ⟨t, _, True, Nat.le_refl _, this.1, fun last hl => by cases hl; exact ⟨trivial, rfl, this.2⟩⟩
  · rw [hb] at this
    exact this

theorem getTask_set {s : Ix} {n i : Nat} {x : Task × Fetch} {y} (h : (s.tasks.set n x).get i = some y) :
    (i = n ∧ y = x) ∨ s.tasks.get i = some y := by
  rw [Map.get_set] at h
  split at h
  · rename_i he
    have : n = i := by simpa using he
    exact .inl ⟨this.symm, (Option.some.inj h).symm⟩
  · exact .inr h

theorem getTask_del {s : Ix} {n i : Nat} {y} (h : (s.tasks.del n).get i = some y) : i ≠ n ∧ s.tasks.get i = some y := by
  rw [Map.get_del] at h
  split at h
  · cases h
  · rename_i he
    exact ⟨fun e => by subst e; simp at he, h⟩

theorem IxInv.addedBy {parse : ParsePrincipal} {L : Chain} {t : Nat} {s : Ix} (h : IxInv parse L t s) {last : Nat}
    {blocks : List Block} {r : Nat × Index × List Block} (hb : ∀ b ∈ blocks, Genuine L b ∧ b.id < t)
    (hi : indexBlocks parse last s.index s.added blocks = some r) : ∀ b ∈ r.2.2, Genuine L b ∧ b.id < t := by
  obtain ⟨_, n, _, hr, _⟩ := indexBlocks_spec _ hi h.index
  intro b hm
  rw [hr] at hm
  rcases List.mem_append.1 hm with hm | hm
  · exact h.added b hm
  · exact hb b (List.mem_of_mem_take hm)

theorem IxInv.step {parse : ParsePrincipal} {L : Chain} {t : Nat} {s : Ix} (h : IxInv parse L t s) {m : IxMsg}
    (hm : HonestMsg L t s m) : IxInv parse L t (ixStep parse s m).1 := by
  have he := ixStep_eff parse s m
  generalize (ixStep parse s m).1 = s' at he
  generalize (ixStep parse s m).2 = o at he
  cases he with
  | same => exact h
  | drop ht => exact ⟨h.cache, h.nodup, h.index, h.added, fun i task f hg => h.tasks i task f (getTask_del hg).2⟩
  | upgrade => exact ⟨h.cache, h.nodup, h.index, h.added, fun i task f hg => by cases hg⟩
  | tickWait hf =>
    refine ⟨h.cache, h.nodup, h.index, h.added, fun i task f hg => ?_⟩
    rcases getTask_set hg with ⟨rfl, hx⟩ | hg
    · cases hx
      exact ⟨Nat.lt_succ_self _, h.tick.1 _ hf⟩
    · exact ⟨Nat.lt_succ_of_lt (h.tasks i task f hg).1, (h.tasks i task f hg).2⟩
  | tickDone hf hi => exact ⟨h.cache, h.nodup, (indexBlocks_spec _ hi h.index).1, h.addedBy (h.tick.2 _ hf).2.1 hi, h.tasks⟩
  | @getWait a ids f0 hids hf =>
    refine ⟨h.cache, h.nodup, h.index, h.added, fun i task f hg => ?_⟩
    rcases getTask_set hg with ⟨rfl, hx⟩ | hg
    · cases hx
      have := (fetchStart_inv (g := False) (d := some (a.sort.getD .asc)) h.cache (ids := ids) (getIds_lt h.index hids)
        (fun hf => hf.elim)).2
      rw [hf] at this
      exact ⟨Nat.lt_succ_self _, t, ids, False, Nat.le_refl _, this.1, fun last hl => by cases hl⟩
    · exact ⟨Nat.lt_succ_of_lt (h.tasks i task f hg).1, (h.tasks i task f hg).2⟩
  | getDone => exact h
  | resumeWait ht hr =>
    obtain ⟨h1, h2, h3, _⟩ := h.resume ht (hm _ _ ht) hr
    refine ⟨h1, h2, h.index, h.added, fun i task f hg => ?_⟩
    rcases getTask_set (s := { s with tasks := s.tasks.del _ }) hg with ⟨rfl, hx⟩ | hg
    · cases hx
      exact ⟨(h.tasks _ _ _ ht).1, h3 _ rfl⟩
    · exact h.tasks i task f (getTask_del hg).2
  | resumeUpdate ht hr hi =>
    obtain ⟨h1, h2, _, h4⟩ := h.resume ht (hm _ _ ht) hr
    obtain ⟨t0, _, hd⟩ := h4 _ _ rfl rfl
    exact ⟨h1, h2, (indexBlocks_spec _ hi h.index).1, h.addedBy hd.2.1 hi, fun i task f hg => h.tasks i task f (getTask_del hg).2⟩
  | resumeGet ht hr =>
    obtain ⟨h1, h2, _, _⟩ := h.resume ht (hm _ _ ht) hr
    exact ⟨h1, h2, h.index, h.added, fun i task f hg => h.tasks i task f (getTask_del hg).2⟩

theorem Run.inv {parse : ParsePrincipal} {L : Chain} {ok : Ix → IxMsg → Prop} {t t' : Nat} {s s' : Ix}
    (h : Run parse L ok t s t' s') (hi : IxInv parse L t s) : IxInv parse L t' s' := by
  induction h with
  | refl => exact hi
  | step _ ht hm _ ih => exact (ih.mono ht).step hm

/-! ## The update job -/

/-- Delivered blocks of a gap-free range are the first ones of it. -/
theorem delivered_prefix {L : Chain} {t0 tip a n : Nat} {bs : List Block}
    (h : Delivered L t0 tip (List.range' a n) True none bs) :
    bs.length ≤ n ∧ bs = (List.range' a bs.length).map (fun i => ⟨i, L i⟩) ∧ (n ≤ bs.length ∨ t0 ≤ a + bs.length) := by
  obtain ⟨hs, hg, lost, hp, hlost, hlt⟩ := h
  have hlt := hlt trivial
  have hsorted : (bs.map Block.id ++ sortNat lost).Pairwise (· ≤ ·) := by
    rw [List.pairwise_append]
    refine ⟨List.pairwise_map.2 hs, sortNat_sorted _, ?_⟩
    intro x hx y hy
    obtain ⟨b, hb, rfl⟩ := List.mem_map.1 hx
    exact Nat.le_of_lt (hlt y (mem_sortNat.1 hy) b hb)
  have heq : bs.map Block.id ++ sortNat lost = List.range' a n := by
    refine List.Perm.eq_of_pairwise (le := (· ≤ ·)) (fun x y _ _ => Nat.le_antisymm) hsorted List.pairwise_le_range' ?_
    exact ((sortNat_perm lost).append_left _).trans hp
  have hlen : bs.length + lost.length = n := by
    have := congrArg List.length heq
    simpa [length_sortNat] using this
  have hids : bs.map Block.id = List.range' a bs.length := by
    have := congrArg (List.take bs.length) heq
    rw [List.take_range'_of_length_ge (by omega)] at this
    rwa [← List.length_map (f := Block.id), List.take_left, List.length_map] at this
  refine ⟨by omega, ?_, ?_⟩
  · rw [← hids, List.map_map]
    conv => lhs; rw [← List.map_id bs]
    apply List.map_congr_left
    intro b hb
    cases b
    exact congrArg (Block.mk _) (hg _ hb).1
  · cases hl : sortNat lost with
    | nil =>
      left
      have := length_sortNat lost
      rw [hl] at this
      simp at this
      omega
    | cons x xs =>
      right
      have hx : x ∈ lost := by rw [← mem_sortNat, hl]; exact List.mem_cons_self
      have h2 : (List.range' a n)[bs.length]? = some x := by rw [← heq, hl]; simp
      have h3 : bs.length < n := by
        have := length_sortNat lost
        rw [hl] at this
        simp at this
        omega
      rw [List.getElem?_range' h3] at h2
      have := hlost x hx
      simp at h2
      omega

/-- Blocks 0 to `last - 1` of the chain are in the index, in this order. -/
def InOrder (L : Chain) (s : Ix) : Prop := s.last < U64 ∧ s.added = (List.range s.last).map fun i => ⟨i, L i⟩

theorem inOrder_update {parse : ParsePrincipal} {L : Chain} {t0 tip : Nat} {s : Ix} (ho : InOrder L s)
    (hi : IndexIs parse s.index s.added) {blocks : List Block} {r : Nat × Index × List Block}
    (hd : Delivered L t0 tip (rangeU64 s.last (u64add s.last batchSize)) True none blocks)
    (h : indexBlocks parse s.last s.index s.added blocks = some r) :
    r.1 < U64 ∧ r.2.2 = (List.range r.1).map fun i => ⟨i, L i⟩ := by
  obtain ⟨hl, hadd⟩ := ho
  obtain ⟨h1, h2, h3⟩ := delivered_prefix hd
  obtain ⟨_, n, hn, hr, _, hlast, _⟩ := indexBlocks_spec _ h hi
  have hsum : blocks.length = 0 ∨ s.last + blocks.length < U64 := by
    have : u64add s.last batchSize < U64 := u64add_bound _ _
    omega
  have hlast := hlast (by omega)
  refine ⟨by omega, ?_⟩
  rw [hr, hadd, h2, hlast, ← List.map_take, List.take_range'_of_length_ge hn, ← List.map_append]
  congr 1
  rw [List.range_eq_range', List.range_eq_range']
  have := List.range'_append_1 (s := 0) (m := s.last) (n := n)
  simpa using this

structure SeqInv (parse : ParsePrincipal) (L : Chain) (tip : Nat) (s : Ix) : Prop extends IxInv parse L tip s where
  order : InOrder L s
  current : ∀ i last f, s.tasks.get i = some (.update last, f) → last = s.last
  single : ∀ i j last last' f f', s.tasks.get i = some (.update last, f) → s.tasks.get j = some (.update last', f') → i = j

theorem SeqInv.step {parse : ParsePrincipal} {L : Chain} {t : Nat} {s : Ix} (h : SeqInv parse L t s) {m : IxMsg}
    (hm : HonestMsg L t s m) (hok : NoOverlap s m) : SeqInv parse L t (ixStep parse s m).1 := by
  have hinv := h.toIxInv.step hm
  have he := ixStep_eff parse s m
  generalize (ixStep parse s m).1 = s' at he hinv
  generalize (ixStep parse s m).2 = o at he
  refine { toIxInv := hinv, order := ?_, current := ?_, single := ?_ }
  · cases he with
    | tickDone hf hi => exact inOrder_update h.order h.index (h.toIxInv.tick.2 _ hf) hi
    | resumeUpdate ht hr hi =>
      obtain ⟨_, _, _, h4⟩ := h.toIxInv.resume ht (hm _ _ ht) hr
      obtain ⟨t0, _, hd⟩ := h4 _ _ rfl rfl
      have hl := h.current _ _ _ ht
      subst hl
      exact inOrder_update h.order h.index hd hi
    | _ => exact h.order
  · intro i last f hg
    cases he with
    | same => exact h.current i last f hg
    | drop ht => exact h.current i last f (getTask_del hg).2
    | upgrade => cases hg
    | tickWait hf =>
      rcases getTask_set hg with ⟨_, hx⟩ | hg
      · cases hx; rfl
      · exact h.current i last f hg
    | tickDone hf hi => exact absurd hg (hok rfl i last f)
    | getWait hids hf =>
      rcases getTask_set hg with ⟨_, hx⟩ | hg
      · cases hx
      · exact h.current i last f hg
    | getDone => exact h.current i last f hg
    | resumeWait ht hr =>
      rcases getTask_set (s := { s with tasks := s.tasks.del _ }) hg with ⟨_, hx⟩ | hg
      · cases hx; exact h.current _ _ _ ht
      · exact h.current i last f (getTask_del hg).2
    | resumeUpdate ht hr hi =>
      obtain ⟨hne, hg⟩ := getTask_del hg
      exact absurd (h.single _ _ _ _ _ _ hg ht) hne
    | resumeGet ht hr => exact h.current i last f (getTask_del hg).2
  · intro i j last last' f f' hgi hgj
    cases he with
    | same => exact h.single i j _ _ _ _ hgi hgj
    | drop ht => exact h.single i j _ _ _ _ (getTask_del hgi).2 (getTask_del hgj).2
    | upgrade => cases hgi
    | tickWait hf =>
      rcases getTask_set hgi with ⟨h1, _⟩ | h1
      · rcases getTask_set hgj with ⟨h2, _⟩ | h2
        · rw [h1, h2]
        · exact absurd h2 (hok rfl _ _ _)
      · exact absurd h1 (hok rfl _ _ _)
    | tickDone hf hi => exact h.single i j _ _ _ _ hgi hgj
    | getWait hids hf =>
      rcases getTask_set hgi with ⟨_, hx⟩ | h1
      · cases hx
      · rcases getTask_set hgj with ⟨_, hx⟩ | h2
        · cases hx
        · exact h.single i j _ _ _ _ h1 h2
    | getDone => exact h.single i j _ _ _ _ hgi hgj
    | resumeWait ht hr =>
      rcases getTask_set (s := { s with tasks := s.tasks.del _ }) hgi with ⟨h1, hx⟩ | h1
      · cases hx
        rcases getTask_set (s := { s with tasks := s.tasks.del _ }) hgj with ⟨h2, _⟩ | h2
        · rw [h1, h2]
        · rw [h1]; exact h.single _ _ _ _ _ _ ht (getTask_del h2).2
      · rcases getTask_set (s := { s with tasks := s.tasks.del _ }) hgj with ⟨h2, hx⟩ | h2
        · cases hx
          rw [h2]; exact h.single _ _ _ _ _ _ (getTask_del h1).2 ht
        · exact h.single _ _ _ _ _ _ (getTask_del h1).2 (getTask_del h2).2
    | resumeUpdate ht hr hi => exact h.single i j _ _ _ _ (getTask_del hgi).2 (getTask_del hgj).2
    | resumeGet ht hr => exact h.single i j _ _ _ _ (getTask_del hgi).2 (getTask_del hgj).2

theorem seqInv_fresh (parse : ParsePrincipal) (L : Chain) (t : Nat) : SeqInv parse L t Ix.fresh :=
  { ixInv_fresh parse L t with
    order := ⟨by decide, rfl⟩
    current := fun i last f h => by cases h
    single := fun i j last last' f f' h => by cases h }

theorem Run.seq {parse : ParsePrincipal} {L : Chain} {t t' : Nat} {s s' : Ix}
    (h : Run parse L NoOverlap t s t' s') (hi : SeqInv parse L t s) : SeqInv parse L t' s' := by
  induction h with
  | refl => exact hi
  | step _ ht hm hok ih =>
    exact SeqInv.step { ih.toIxInv.mono ht with order := ih.order, current := ih.current, single := ih.single } hm hok

/-! ## Following one call -/

/-- A suspended call, followed through an honest history. -/
theorem Run.track {parse : ParsePrincipal} {L : Chain} {ok : Ix → IxMsg → Prop} {t t' : Nat} {s s' : Ix}
    (h : Run parse L ok t s t' s') (hi : IxInv parse L t s) {i t0 : Nat} (ht0 : t0 ≤ t) {P : Task → Prop} {ids : List Nat} {g : Prop}
    {d : Option SortDir} (hn : i < s.nextTask)
    (hs : ∀ task f, s.tasks.get i = some (task, f) → P task ∧ FetchInv L t0 t ids g f ∧ f.sort = d) :
    t0 ≤ t' ∧ i < s'.nextTask ∧ ∀ task f, s'.tasks.get i = some (task, f) → P task ∧ FetchInv L t0 t' ids g f ∧ f.sort = d := by
  induction h with
  | refl => exact ⟨ht0, hn, hs⟩
  | @step t₁ s₁ t₂ m hrun ht hm _ ih =>
    obtain ⟨h0, hn1, hs1⟩ := ih
    have hinv := (Run.inv hrun hi).mono ht
    have hs1 : ∀ task f, s₁.tasks.get i = some (task, f) → P task ∧ FetchInv L t0 t₂ ids g f ∧ f.sort = d :=
      fun task f hg => ⟨(hs1 task f hg).1, (hs1 task f hg).2.1.mono ht, (hs1 task f hg).2.2⟩
    refine ⟨by omega, ?_⟩
    have he := ixStep_eff parse s₁ m
    generalize (ixStep parse s₁ m).1 = s2 at he ⊢
    generalize (ixStep parse s₁ m).2 = o at he
    cases he with
    | same => exact ⟨hn1, hs1⟩
    | drop _ => exact ⟨hn1, fun task f hg => hs1 task f (getTask_del hg).2⟩
    | upgrade => exact ⟨hn1, fun task f hg => by cases hg⟩
    | tickWait _ =>
      refine ⟨Nat.lt_succ_of_lt hn1, fun task f hg => ?_⟩
      rcases getTask_set hg with ⟨he, _⟩ | hg
      · omega
      · exact hs1 task f hg
    | tickDone => exact ⟨hn1, hs1⟩
    | getWait _ _ =>
      refine ⟨Nat.lt_succ_of_lt hn1, fun task f hg => ?_⟩
      rcases getTask_set hg with ⟨he, _⟩ | hg
      · omega
      · exact hs1 task f hg
    | getDone => exact ⟨hn1, hs1⟩
    | resumeWait hg0 hr =>
      refine ⟨hn1, fun task f hg => ?_⟩
      rcases getTask_set (s := { s₁ with tasks := s₁.tasks.del _ }) hg with ⟨he, hx⟩ | hg
      · cases hx
        subst he
        obtain ⟨a1, a2, a3⟩ := hs1 _ _ hg0
        obtain ⟨_, h3⟩ := fetchResume_inv a2 (by omega) (Nat.le_refl _) (hm _ _ hg0) hinv.cache hinv.nodup hr
        exact ⟨a1, h3.1, h3.2.trans a3⟩
      · exact hs1 task f (getTask_del hg).2
    | resumeUpdate => exact ⟨hn1, fun task f hg => hs1 task f (getTask_del hg).2⟩
    | resumeGet => exact ⟨hn1, fun task f hg => hs1 task f (getTask_del hg).2⟩

/-- What a `get_blocks` call delivers. -/
theorem Answered.delivered {parse : ParsePrincipal} {L : Chain} {t t' : Nat} {s : Ix} {a : GetArgs} {bs : List Block}
    {total : Nat} (h : Answered parse L t s a t' bs total) (hi : IxInv parse L t s) :
    ∃ ids, getIds s a = some ids ∧ Delivered L t t' ids False (some (a.sort.getD .asc)) bs := by
  have start : ∀ ids, getIds s a = some ids → FetchGood L t t ids False (some (a.sort.getD .asc))
      (fetchStart s.cache ids (some (a.sort.getD .asc))) := fun ids hids =>
    (fetchStart_inv (g := False) hi.cache (getIds_lt hi.index hids) (fun hf => hf.elim)).2
  cases h with
  | now hr =>
    have he := ixStep_eff parse s (.get a)
    rw [hr] at he
    generalize (ixStep parse s (.get a)).1 = s1 at he
    cases he with
    | same h => rcases h with h | h <;> cases h
    | getDone hids hf =>
      have := start _ hids
      rw [hf] at this
      exact ⟨_, hids, this⟩
  | @later i t₁ s₁ _ time ans _ _ hw hrun ht hm hr =>
    have he := ixStep_eff parse s (.get a)
    have hinv1 : IxInv parse L t (ixStep parse s (.get a)).1 := hi.step trivial
    rw [hw] at he
    generalize (ixStep parse s (.get a)).1 = s1 at he hrun hinv1
    cases he with
    | same h => rcases h with h | h <;> cases h
    | @getWait _ ids f hids hf =>
      have h0 := start _ hids
      rw [hf] at h0
      obtain ⟨ht0, _, htr⟩ := Run.track hrun hinv1 (i := s.nextTask) (t0 := t) (Nat.le_refl _) (P := fun _ => True)
        (ids := ids) (g := False) (d := some (a.sort.getD .asc)) (Nat.lt_succ_self _) (by
          intro task f' hg
          have hg' : (s.tasks.set s.nextTask (Task.get, f)).get s.nextTask = some (task, f') := hg
          rw [Map.get_set_self] at hg'
          cases hg'
          exact ⟨trivial, h0⟩)
      have hinv := (Run.inv hrun hinv1).mono ht
      have he2 := ixStep_eff parse s₁ (.resume time s.nextTask ans)
      rw [hr] at he2
      generalize (ixStep parse s₁ (.resume time s.nextTask ans)).1 = s3 at he2
      cases he2 with
      | same h => rcases h with h | h <;> cases h
      | resumeGet hg hres =>
        obtain ⟨_, a2, a3⟩ := htr _ _ hg
        obtain ⟨_, h3⟩ := fetchResume_inv a2 ht0 ht (hm _ _ hg) hinv.cache hinv.nodup hres
        rw [a3] at h3
        exact ⟨ids, hids, h3⟩

/-! ## Filters -/

theorem getIds_filtered {s : Ix} {filters : List IndexKey} (hf : filters ≠ []) :
    ∃ l, Selects s.index filters l ∧ ((entry s.index (filters.headD (.tokenId 0))).Nodup → l.Nodup) ∧
      ∀ start length sort, start + length < 2 ^ 32 →
        getIds s ⟨start, length, filters, sort⟩ = some (idPage l start length) := by
  obtain ⟨k, ks, rfl⟩ := List.exists_cons_of_ne_nil hf
  refine ⟨sortNat ((ks.map fun f => entry s.index f).foldl (fun acc f => acc.filter fun id => f.contains id) (entry s.index k)),
    ⟨sortNat_sorted _, ?_⟩, ?_, ?_⟩
  · intro i
    rw [mem_sortNat, mem_foldl_filter]
    simp
  · intro hn
    rw [(sortNat_perm _).nodup_iff]
    have : ∀ (fs : List (List Nat)) (r : List Nat), r.Nodup →
        (fs.foldl (fun acc f => acc.filter fun id => f.contains id) r).Nodup := by
      intro fs
      induction fs with
      | nil => intro r h; exact h
      | cons f fs ih => intro r h; exact ih _ (List.Pairwise.filter _ h)
    exact this _ _ hn
  · intro start length sort hlt
    have h1 : start % 2 ^ 32 = start := Nat.mod_eq_of_lt (by omega)
    have h2 : u64add start length % 2 ^ 32 = start + length := by
      unfold u64add
      have : (start + length) % U64 = start + length := Nat.mod_eq_of_lt (Nat.lt_trans hlt (by decide))
      rw [this, Nat.mod_eq_of_lt hlt]
    unfold getIds
    rw [if_neg (by simp)]
    unfold filterIds
    simp only [List.map_cons, h1, h2]
    generalize hl : sortNat _ = l
    have hl' : sortNat ((ks.map fun f => entry s.index f).foldl (fun acc f => acc.filter fun id => f.contains id)
      (entry s.index k)) = l := hl
    rw [hl']
    unfold idPage
    split
    · rw [List.drop_eq_nil_of_le (by assumption)]; simp
    · rw [if_neg (by omega)]
      congr 1
      have : min (start + length) l.length - start = min length (l.drop start).length := by
        rw [List.length_drop]; omega
      rw [this, List.take_eq_take_iff]; omega

end Verif
