import Verif.Props.Index
/-!
# C123: indexes of the same ledger agree
-/
namespace Verif

open Spec

private theorem added_grows (parse : ParsePrincipal) {s : Ix} (hi : IndexIs parse s.index s.added) (m : IxMsg) :
    IndexIs parse (ixStep parse s m).1.index (ixStep parse s m).1.added ∧
      ∃ new, (ixStep parse s m).1.added = s.added ++ new := by
  have he := ixStep_eff parse s m
  generalize (ixStep parse s m).1 = s' at he ⊢
  generalize (ixStep parse s m).2 = o at he
  cases he with
  | same => exact ⟨hi, [], (List.append_nil _).symm⟩
  | drop => exact ⟨hi, [], (List.append_nil _).symm⟩
  | upgrade => exact ⟨hi, [], (List.append_nil _).symm⟩
  | tickWait => exact ⟨hi, [], (List.append_nil _).symm⟩
  | tickDone _ h =>
    obtain ⟨h1, n, _, h2, _⟩ := indexBlocks_spec _ h hi
    exact ⟨h1, _, h2⟩
  | getWait => exact ⟨hi, [], (List.append_nil _).symm⟩
  | getDone => exact ⟨hi, [], (List.append_nil _).symm⟩
  | resumeWait => exact ⟨hi, [], (List.append_nil _).symm⟩
  | resumeUpdate _ _ h =>
    obtain ⟨h1, n, _, h2, _⟩ := indexBlocks_spec _ h hi
    exact ⟨h1, _, h2⟩
  | resumeGet => exact ⟨hi, [], (List.append_nil _).symm⟩

/-- **C123**, nothing is struck out: whatever happens to an index (answers of any kind,
overlapping runs, upgrades), an entry keeps what it lists, in its order; what is added is
put in front. -/
theorem C123_grows (parse : ParsePrincipal) (ms ms' : List IxMsg) (k : IndexKey) :
    ∃ newer, entry (ixRun parse Ix.fresh (ms ++ ms')).index k = newer ++ entry (ixRun parse Ix.fresh ms).index k := by
  have key : ∀ (l : List IxMsg) (s : Ix), IndexIs parse s.index s.added →
      IndexIs parse (ixRun parse s l).index (ixRun parse s l).added ∧ ∃ new, (ixRun parse s l).added = s.added ++ new := by
    intro l
    induction l with
    | nil => exact fun s hs => ⟨hs, [], (List.append_nil _).symm⟩
    | cons m l ih =>
      intro s hs
      obtain ⟨h1, n1, h2⟩ := added_grows parse hs m
      obtain ⟨h3, n2, h4⟩ := ih _ h1
      exact ⟨h3, n1 ++ n2, by rw [← List.append_assoc, ← h2]; exact h4⟩
  have h := (key ms Ix.fresh (indexIs_fresh parse)).1
  obtain ⟨h', new, hn⟩ := key ms' _ h
  have e : ixRun parse Ix.fresh (ms ++ ms') = ixRun parse (ixRun parse Ix.fresh ms) ms' := List.foldl_append
  rw [e, h'.1, hn, h.1, List.flatMap_append, List.reverse_append]
  exact ⟨_, rfl⟩

/-- **C123**, entries: two indexes that read the same ledger, by whatever schedules and
answers, at whatever times, through whatever failures and upgrades, have the same
entries once they have come equally far; and if one has come further, it has the
other's entries with only further blocks in front of them. Missing for the full
property: schedules in which the update job overlaps with itself (`C123_violated`). -/
theorem C123_entries_partial {parse : ParsePrincipal} {L : Chain} {t t' : Nat} {s s' : Ix}
    (h : Run parse L NoOverlap 0 Ix.fresh t s) (h' : Run parse L NoOverlap 0 Ix.fresh t' s')
    (further : ixStatus s ≤ ixStatus s') (k : IndexKey) :
    ∃ newer, entry s'.index k = newer ++ entry s.index k ∧
      (∀ i ∈ newer, ixStatus s ≤ i ∧ i < ixStatus s') ∧ ∀ i ∈ entry s.index k, i < ixStatus s := by
  have hs := Run.seq h (seqInv_fresh parse L 0)
  have hs' := Run.seq h' (seqInv_fresh parse L 0)
  have hf : s.last ≤ s'.last := further
  have e : List.range s'.last = List.range s.last ++ List.range' s.last (s'.last - s.last) := by
    rw [List.range_eq_range', List.range_eq_range']
    have := List.range'_append_1 (s := 0) (m := s.last) (n := s'.last - s.last)
    rw [Nat.zero_add] at this
    rw [this]
    congr 1
    omega
  rw [hs'.index.1, hs'.order.2, e, List.map_append, List.flatMap_append, List.reverse_append, ← hs.order.2, ← hs.index.1]
  refine ⟨_, rfl, fun i hi => ?_, fun i hi => ?_⟩
  · rw [List.mem_reverse, List.mem_flatMap] at hi
    obtain ⟨b, hb, hr⟩ := hi
    obtain ⟨j, hj, rfl⟩ := List.mem_map.1 hb
    rw [(List.mem_replicate.1 hr).2]
    rw [List.mem_range'_1] at hj
    show s.last ≤ j ∧ j < s'.last
    omega
  · rw [hs.index.1, hs.order.2, List.mem_reverse, List.mem_flatMap] at hi
    obtain ⟨b, hb, hr⟩ := hi
    obtain ⟨j, hj, rfl⟩ := List.mem_map.1 hb
    rw [(List.mem_replicate.1 hr).2]
    exact List.mem_range.1 hj

private theorem same_entries {parse : ParsePrincipal} {L : Chain} {t t' : Nat} {s s' : Ix}
    (h : Run parse L NoOverlap 0 Ix.fresh t s) (h' : Run parse L NoOverlap 0 Ix.fresh t' s')
    (equal : ixStatus s = ixStatus s') (k : IndexKey) : entry s'.index k = entry s.index k := by
  obtain ⟨newer, h1, h2, _⟩ := C123_entries_partial h h' (Nat.le_of_eq equal) k
  cases newer with
  | nil => exact h1
  | cons i _ =>
    have := h2 i List.mem_cons_self
    omega

private theorem same_ids {parse : ParsePrincipal} {L : Chain} {t t' : Nat} {s s' : Ix}
    (h : Run parse L NoOverlap 0 Ix.fresh t s) (h' : Run parse L NoOverlap 0 Ix.fresh t' s')
    (equal : ixStatus s = ixStatus s') (a : GetArgs) : getIds s' a = getIds s a := by
  have hl : s'.last = s.last := equal.symm
  unfold getIds
  rw [hl]
  split
  · rfl
  · unfold filterIds
    have e : (fun f => (s'.index.get f).getD []) = fun f => (s.index.get f).getD [] :=
      funext fun k => same_entries h h' equal k
    rw [e]

private theorem getIds_below {parse : ParsePrincipal} {L : Chain} {t : Nat} {s : Ix}
    (h : Run parse L NoOverlap 0 Ix.fresh t s) {a : GetArgs}
    (ha : a.filters = [] → match a.sort with
      | some .desc => a.length ≤ ixStatus s
      | _ => a.start + a.length ≤ t) {ids : List Nat} (hids : getIds s a = some ids) : ∀ i ∈ ids, i < t := by
  intro i him
  have hs := Run.seq h (seqInv_fresh parse L 0)
  have hlt : s.last ≤ t := (C43_once_partial h).2.2
  unfold getIds at hids
  split at hids
  · rename_i hf
    have ha := ha (List.isEmpty_iff.1 hf)
    have hmod : ∀ x, u64add x a.length ≤ x + a.length := fun x => Nat.mod_le _ _
    cases hids
    unfold rangeU64 at him
    rw [List.mem_range'_1] at him
    cases hso : a.sort with
    | none =>
      rw [hso] at ha him
      have := hmod a.start
      simp only at ha him
      omega
    | some d =>
      cases d with
      | asc =>
        rw [hso] at ha him
        have := hmod a.start
        simp only at ha him
        omega
      | desc =>
        rw [hso] at ha him
        have := hmod (s.last - a.length)
        simp only [ixStatus] at ha him
        omega
  · rename_i hf
    have hne : a.filters ≠ [] := fun he => hf (by rw [he]; rfl)
    obtain ⟨k, ks, hk⟩ := List.exists_cons_of_ne_nil hne
    have hm : i ∈ entry s.index k := by
      unfold filterIds at hids
      dsimp only at hids
      generalize hl : sortNat _ = l at hids
      have hsub : ∀ j, j ∈ l → j ∈ entry s.index k := by
        intro j hj
        rw [← hl, mem_sortNat, hk] at hj
        have hfold : ∀ (rs : List (List Nat)) (r : List Nat), j ∈ rs.foldl (fun acc f => acc.filter fun id => f.contains id) r → j ∈ r := by
          intro rs
          induction rs with
          | nil => exact fun r h => h
          | cons f rs ih => exact fun r h => (List.mem_filter.1 (ih _ h)).1
        exact hfold _ _ hj
      split at hids
      · cases hids; cases him
      · split at hids
        · cases hids
        · cases hids
          exact hsub i (List.mem_of_mem_drop (List.mem_of_mem_take him))
    obtain ⟨_, _, _, hb⟩ := C123_entries_partial h h (Nat.le_refl _) k
    exact Nat.lt_of_lt_of_le (hb i hm) hlt

private theorem delivered_all {parse : ParsePrincipal} {L : Chain} {t t₁ : Nat} {s : Ix} {a : GetArgs} {bs : List Block} {total : Nat}
    (h : Run parse L NoOverlap 0 Ix.fresh t s)
    (ha : a.filters = [] → match a.sort with
      | some .desc => a.length ≤ ixStatus s
      | _ => a.start + a.length ≤ t) (hans : Answered parse L t s a t₁ bs total) :
    ∃ ids, getIds s a = some ids ∧ SortedAs (a.sort.getD .asc) bs ∧ (bs.map Block.id).Perm ids ∧ ∀ b ∈ bs, b.data = L b.id := by
  obtain ⟨ids, h1, hsort, hg, lost, hp, hlost, _⟩ :=
    Answered.delivered hans (Run.seq h (seqInv_fresh parse L 0)).toIxInv
  refine ⟨ids, h1, hsort, ?_, fun b hb => (hg b hb).1⟩
  cases lost with
  | nil => rwa [List.append_nil] at hp
  | cons x xs =>
    have h2 := hlost x List.mem_cons_self
    have h3 := getIds_below h ha h1 x (hp.mem_iff.1 (List.mem_append_right _ List.mem_cons_self))
    omega

/-- **C123**, answers: two such indexes that have come equally far answer every
`get_blocks` call, with any filters, page and direction, with the same blocks, whatever
they have in their caches and however the ledger and its archives split their answers;
and they turn down the same calls. Without filters the blocks asked for must be there:
otherwise the answer depends on how far the ledger is when it is given. -/
theorem C123_answers_partial {parse : ParsePrincipal} {L : Chain} {t t' : Nat} {s s' : Ix}
    (h : Run parse L NoOverlap 0 Ix.fresh t s) (h' : Run parse L NoOverlap 0 Ix.fresh t' s')
    (equal : ixStatus s = ixStatus s') (a : GetArgs)
    (there : a.filters = [] → match a.sort with
      | some .desc => a.length ≤ ixStatus s
      | _ => a.start + a.length ≤ t ∧ a.start + a.length ≤ t') :
    ((ixStep parse s (.get a)).2 = .trapped ↔ (ixStep parse s' (.get a)).2 = .trapped) ∧
      ∀ t₁ t₂ bs bs' total total', Answered parse L t s a t₁ bs total → Answered parse L t' s' a t₂ bs' total' → bs = bs' := by
  have trap : ∀ {t : Nat} {s : Ix}, Run parse L NoOverlap 0 Ix.fresh t s →
      ((ixStep parse s (.get a)).2 = .trapped ↔ getIds s a = none) := by
    intro t s h
    have hs := Run.seq h (seqInv_fresh parse L 0)
    simp only [ixStep]
    cases hids : getIds s a with
    | none => simp
    | some ids =>
      have hne := (fetchStart_inv (g := False) (d := some (a.sort.getD .asc)) hs.cache (getIds_lt hs.index hids)
        (fun hf => hf.elim)).1
      simp only [reduceCtorEq, iff_false]
      cases hst : fetchStart s.cache ids (some (a.sort.getD .asc)) with
      | failed => exact absurd hst hne
      | wait f => intro h; cases h
      | done bs => intro h; cases h
  refine ⟨by rw [trap h, trap h', same_ids h h' equal], fun t₁ t₂ bs bs' total total' h1 h2 => ?_⟩
  obtain ⟨ids, i1, s1, p1, g1⟩ := delivered_all h (fun hf => by
    have := there hf
    cases hso : a.sort with
    | none => rw [hso] at this; exact this.1
    | some d =>
      rw [hso] at this
      cases d with
      | asc => exact this.1
      | desc => exact this) h1
  obtain ⟨ids', i2, s2, p2, g2⟩ := delivered_all h' (fun hf => by
    have := there hf
    cases hso : a.sort with
    | none => rw [hso] at this; exact this.2
    | some d =>
      rw [hso] at this
      cases d with
      | asc => exact this.2
      | desc => exact equal ▸ this) h2
  rw [same_ids h h' equal, i1] at i2
  cases i2
  have hp : (bs.map Block.id).Perm (bs'.map Block.id) := p1.trans p2.symm
  have hid : bs.map Block.id = bs'.map Block.id := by
    generalize a.sort.getD .asc = d at s1 s2
    cases d with
    | asc =>
      exact List.Perm.eq_of_pairwise (le := (· ≤ ·)) (fun x y _ _ => Nat.le_antisymm) (List.pairwise_map.2 s1)
        (List.pairwise_map.2 s2) hp
    | desc =>
      exact List.Perm.eq_of_pairwise (le := fun x y => y ≤ x) (fun x y _ _ h1 h2 => Nat.le_antisymm h2 h1)
        (List.pairwise_map.2 s1) (List.pairwise_map.2 s2) hp
  have hmap : ∀ l : List Block, (∀ b ∈ l, b.data = L b.id) → l = (l.map Block.id).map fun i => ⟨i, L i⟩ := by
    intro l hl
    rw [List.map_map]
    conv => lhs; rw [← List.map_id l]
    refine List.map_congr_left fun b hb => ?_
    show b = ⟨b.id, L b.id⟩
    rw [← hl b hb]
  rw [hmap bs g1, hmap bs' g2, hid]

namespace AgreeDemo

open IxDemo

/-- Another index over the same three blocks: it was updated twice, and the ledger answered alone. -/
def r1 : Ix := (ixStep parse s1 (.resume 5 0 (.ledger (blocks 1) []))).1
def r2 : Ix := (ixStep parse r1 .tick).1
def r3 : Ix := (ixStep parse r2 (.resume 7 1 (.ledger [block 2, block 1] []))).1

/-- What the second run waits for. -/
def g1 : Fetch := ⟨[], [List.range' 1 100], .ledger, none⟩

set_option maxRecDepth 20000

theorem r1_run : Run parse chain NoOverlap 0 Ix.fresh 1 r1 := by
  refine .step run1 (by decide) (honest get1 ?_) (noOverlap (by decide))
  exact ledgerHonest (chunk := List.range 100) (rest := []) rfl (by decide) (by decide)

theorem getr2 : r2.tasks.get 1 = some (.update 1, g1) := by decide

theorem r3_run : Run parse chain NoOverlap 0 Ix.fresh 3 r3 := by
  refine .step (.step r1_run (t₂ := 3) (by decide) trivial (fun _ i last f => ?_)) (Nat.le_refl _) (honest getr2 ?_) (noOverlap (by decide))
  · have : r1.tasks.get i = none := by
      rw [show r1.tasks = ∅ by decide]; rfl
    rw [this]
    exact fun h => by cases h
  · exact ledgerHonest (chunk := List.range' 1 100) (rest := []) rfl (by decide) (by decide)

end AgreeDemo

set_option maxRecDepth 20000 in
-- equally far on different ways, and the same entries; the caches differ
example : Run IxDemo.parse IxDemo.chain NoOverlap 0 Ix.fresh 3 IxDemo.s3 ∧
    Run IxDemo.parse IxDemo.chain NoOverlap 0 Ix.fresh 3 AgreeDemo.r3 ∧
    ixStatus IxDemo.s3 = 3 ∧ ixStatus AgreeDemo.r3 = 3 ∧
    entry IxDemo.s3.index (.tokenId 0) = [2, 0] ∧ entry AgreeDemo.r3.index (.tokenId 0) = [2, 0] ∧
    AgreeDemo.r3.cache.entries.length = 3 ∧
    IxDemo.s3.cache.entries ≠ AgreeDemo.r3.cache.entries :=
  ⟨IxDemo.run3, AgreeDemo.r3_run, by decide, by decide, by decide, by decide, by decide, by decide⟩

set_option maxRecDepth 20000 in
-- both answer a call at once, from different caches
example : Answered IxDemo.parse IxDemo.chain 3 IxDemo.s3 ⟨0, 10, [.tokenId 0], some .desc⟩ 3 [IxDemo.block 2, IxDemo.block 0] 3 ∧
    Answered IxDemo.parse IxDemo.chain 3 AgreeDemo.r3 ⟨0, 10, [.tokenId 0], some .desc⟩ 3 [IxDemo.block 2, IxDemo.block 0] 3 :=
  ⟨.now (by decide), .now (by decide)⟩

set_option maxRecDepth 20000 in
/-- **Violated** when the job overlaps with itself: two indexes that have come equally
far, over the same honest ledger, disagree. -/
theorem C123_violated : Run IxDemo.parse IxDemo.chain AnySchedule 0 Ix.fresh 1 IxDemo.o4 ∧
    Run IxDemo.parse IxDemo.chain AnySchedule 0 Ix.fresh 1 AgreeDemo.r1 ∧
    ixStatus IxDemo.o4 = ixStatus AgreeDemo.r1 ∧
    entry IxDemo.o4.index (.tokenId 0) = [0, 0] ∧ entry AgreeDemo.r1.index (.tokenId 0) = [0] :=
  ⟨IxDemo.runOverlap, Run.any AgreeDemo.r1_run, by decide, by decide, by decide⟩

end Verif
