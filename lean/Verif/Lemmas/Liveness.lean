import Verif.Spec.Liveness
import Verif.Props.Index
/-!
# The update job of the index never stops for good
-/
namespace Verif

open Spec

variable {parse : ParsePrincipal} {L : Chain}

/-! ### nothing traps -/

private theorem cacheAll_total {now : Nat} (bs : List Block) (h : ∀ b ∈ bs, b.data.inRange = true) (c : Cache) :
    ∃ c', cacheAll now c bs = some c' := by
  induction bs generalizing c with
  | nil => exact ⟨c, rfl⟩
  | cons b bs ih =>
    have ih := fun c => ih (fun x hx => h x (List.mem_cons_of_mem _ hx)) c
    unfold cacheAll
    split
    · unfold cacheInsert
      rw [if_pos (h b List.mem_cons_self)]
      exact ih _
    · exact ih _

private theorem inRangeM_mem {m : List (String × Value)} (h : Value.inRangeM m = true) {e : String × Value} (he : e ∈ m) :
    e.2.inRange = true := by
  induction m with
  | nil => cases he
  | cons x m ih =>
    obtain ⟨k, v⟩ := x
    simp only [Value.inRangeM, Bool.and_eq_true] at h
    rcases List.mem_cons.1 he with rfl | he
    · exact h.1
    · exact ih h.2 he

private theorem field_inRange {m : List (String × Value)} (h : Value.inRangeM m = true) {k : String} {v : Value}
    (hg : (⟨m⟩ : Map String Value).get k = some v) : v.inRange = true := by
  obtain ⟨k', _, hm⟩ := Map.mem_of_get hg
  exact inRangeM_mem h hm

private theorem token_inRange {b : Block} (h : b.data.inRange = true) {n : Nat} (hn : tokenIn b = some n) : n < U64 := by
  unfold tokenIn txField at hn
  split at hn
  · rename_i n' ht
    cases hn
    split at ht
    · rename_i tx htx
      unfold blockField at htx
      split at htx
      · rename_i m hd
        rw [hd] at h
        simp only [Value.inRange] at h
        have h1 := field_inRange h htx
        simp only [Value.inRange] at h1
        have h2 := field_inRange h1 ht
        simpa [Value.inRange] using h2
      · cases htx
    · cases ht
  · cases hn

private theorem known_type {b : Block} (h : Readable b) : ∃ u, blockTypeOf b.data = some u := by
  obtain ⟨⟨ty, hty, htt⟩, _⟩ := h
  have : ∃ u : BlockType, u.name = ty := by
    simp only [knownTypes, List.mem_cons, List.not_mem_nil, or_false] at hty
    rcases hty with rfl | rfl | rfl | rfl | rfl | rfl | rfl | rfl | rfl
    · exact ⟨.transfer, rfl⟩
    · exact ⟨.mint, rfl⟩
    · exact ⟨.burn, rfl⟩
    · exact ⟨.updateMeta, rfl⟩
    · exact ⟨.approve, rfl⟩
    · exact ⟨.transferFrom, rfl⟩
    · exact ⟨.approveColl, rfl⟩
    · exact ⟨.revoke, rfl⟩
    · exact ⟨.revokeColl, rfl⟩
  obtain ⟨u, rfl⟩ := this
  exact ⟨u, blockType_text.2 htt⟩

private theorem addBlock_total {b : Block} (h : Readable b) (hid : b.id < U64) (ix : Index) :
    ∃ ix', addBlock parse ix b = some (some ix') := by
  obtain ⟨u, hu⟩ := known_type h
  simp only [addBlock, hu, if_pos hid]
  cases ht : extractTokenId u b.data with
  | none => exact ⟨_, rfl⟩
  | some n =>
    have : n < U64 := by
      rw [extractTokenId_eq] at ht
      split at ht
      · cases ht
      · exact token_inRange h.2 ht
    simp only [if_pos this]
    exact ⟨_, rfl⟩

private theorem indexBlocks_total (bs : List Block) (h : ∀ b ∈ bs, Readable b ∧ b.id < U64) :
    ∀ (last : Nat) (ix : Index) (added : List Block), ∃ r, indexBlocks parse last ix added bs = some r := by
  induction bs with
  | nil => intro last ix added; exact ⟨_, rfl⟩
  | cons b bs ih =>
    intro last ix added
    obtain ⟨ix', h'⟩ := addBlock_total (parse := parse) (h b List.mem_cons_self).1 (h b List.mem_cons_self).2 ix
    simp only [indexBlocks, h']
    exact ih (fun x hx => h x (List.mem_cons_of_mem _ hx)) _ _ _

/-- What a fetch has still to wait for. -/
def Fetch.rank (f : Fetch) : Nat × Nat :=
  match f.wait with
  | .ledger => (2 * f.chunks.length + 1, 0)
  | .archive calls _ => (2 * f.chunks.length, calls.length)

private theorem readable_of {tip : Nat} (hr : ∀ j, j < tip → Readable ⟨j, L j⟩) {b : Block} (hg : Genuine L b)
    (hb : b.id < tip) : Readable b := by
  have := hr _ hb
  cases b
  unfold Genuine at hg
  dsimp only at hg this
  rw [hg]
  exact this

abbrev Shorter (f' f : Fetch) : Prop := Prod.Lex (· < ·) (· < ·) f'.rank f.rank

private theorem finishChunk_total {now : Nat} {c : Cache} {f : Fetch} {ret bs : List Block} (hne : f.chunks ≠ [])
    (hb : ∀ b ∈ bs, b.data.inRange = true) :
    ∃ c' out, finishChunk now c f ret bs = some (c', out) ∧ ((∃ l, out = .done l) ∨ ∃ f', out = .wait f' ∧ Shorter f' f) := by
  obtain ⟨c', hc'⟩ := cacheAll_total (now := now) bs hb c
  obtain ⟨chunk, rest, hch⟩ := List.exists_cons_of_ne_nil hne
  simp only [finishChunk, hc', hch, List.tail_cons]
  cases rest with
  | nil => exact ⟨_, _, rfl, .inl ⟨_, rfl⟩⟩
  | cons x xs =>
    refine ⟨_, _, rfl, .inr ⟨_, rfl, ?_⟩⟩
    unfold Shorter Fetch.rank
    dsimp only
    split <;> rw [hch] <;> refine Prod.Lex.left _ _ ?_ <;> simp only [List.length_cons] <;> omega

private theorem fetchResume_total {t0 tip now : Nat} {c : Cache} {ids : List Nat} {g : Prop} {f : Fetch} {ans : IxAnswer}
    (hf : FetchInv L t0 tip ids g f) (ha : HonestAnswer L tip f ans) (hfit : Fits f ans)
    (hr : ∀ j, j < tip → Readable ⟨j, L j⟩) :
    ∃ c' out, fetchResume now c f ans = some (c', out) ∧ ((∃ l, out = .done l) ∨ ∃ f', out = .wait f' ∧ Shorter f' f) := by
  cases ans with
  | failed => exact hfit.elim
  | ledger blocks calls =>
    have hw : f.wait = .ledger := hfit
    obtain ⟨chunk, rest, hch⟩ := List.exists_cons_of_ne_nil hf.nonempty
    obtain ⟨hgen, hp⟩ := ha hw chunk rest hch
    have hin : ∀ b ∈ blocks, b.data.inRange = true := fun b hb => by
      have hm := hp.subset (List.mem_append_left _ (List.mem_map_of_mem (f := Block.id) hb))
      have hlt : b.id < tip := by simpa using (List.mem_filter.1 hm).2
      exact (readable_of hr (hgen b hb) hlt).2
    cases calls with
    | nil =>
      simp only [fetchResume, hw]
      exact finishChunk_total hf.nonempty hin
    | cons x xs =>
      simp only [fetchResume, hw]
      refine ⟨_, _, rfl, .inr ⟨_, rfl, ?_⟩⟩
      unfold Shorter Fetch.rank
      dsimp only
      rw [hw]
      exact Prod.Lex.left _ _ (Nat.lt_succ_self _)
  | archive got =>
    cases hw : f.wait with
    | ledger => exact absurd hw hfit
    | archive calls blocks =>
      cases calls with
      | nil => exact absurd hw (hf.asked _)
      | cons call calls =>
        obtain ⟨hgen, hp⟩ := ha call calls blocks hw
        obtain ⟨hb, hlt⟩ := hf.waiting _ _ hw
        have hpend : pendingIds f = ((call :: calls).flatMap fun c => idsIn c.args) ++ blocks.map Block.id := by
          simp [pendingIds, hw]
        rw [hpend] at hlt
        have hin : ∀ b ∈ got, b.data.inRange = true := fun b hb => by
          refine (readable_of hr (hgen b hb) (hlt _ (List.mem_append_left _ ?_))).2
          exact List.mem_flatMap.2 ⟨call, List.mem_cons_self, hp.subset (List.mem_map_of_mem (f := Block.id) hb)⟩
        have hin2 : ∀ b ∈ blocks, b.data.inRange = true := fun b hm =>
          (readable_of hr (hb b hm) (hlt _ (List.mem_append_right _ (List.mem_map_of_mem (f := Block.id) hm)))).2
        obtain ⟨c', hc'⟩ := cacheAll_total (now := now) got hin c
        simp only [fetchResume, hw, hc', List.tail_cons]
        cases calls with
        | nil => exact finishChunk_total hf.nonempty hin2
        | cons y ys =>
          refine ⟨_, _, rfl, .inr ⟨_, rfl, ?_⟩⟩
          unfold Shorter Fetch.rank
          dsimp only
          rw [hw]
          exact Prod.Lex.right _ (Nat.lt_succ_self _)

/-! ### a life -/

variable {tip : Nat → Nat} {m : Nat → IxMsg} {s : Nat → Ix}

/-- A life over readable blocks. -/
structure GoodLife (parse : ParsePrincipal) (L : Chain) (tip : Nat → Nat) (m : Nat → IxMsg) (s : Nat → Ix) : Prop
    extends Life parse L tip m s where
  blocks : ∀ k j, j < tip k → Readable ⟨j, L j⟩

private theorem SeqInv.mono {t t' : Nat} {x : Ix} (h : SeqInv parse L t x) (ht : t ≤ t') : SeqInv parse L t' x :=
  { h.toIxInv.mono ht with order := h.order, current := h.current, single := h.single }

theorem Spec.Life.seq (h : Life parse L tip m s) (k : Nat) : SeqInv parse L (tip k) (s k) := by
  induction k with
  | zero =>
    obtain ⟨t, ht, h0⟩ := h.start
    exact (Run.seq h0 (seqInv_fresh parse L 0)).mono ht
  | succ k ih =>
    rw [h.steps k]
    exact (ih.step (h.honest k) (h.alone k)).mono (h.grows k)

theorem Spec.Life.tip_le (h : Life parse L tip m s) {k k' : Nat} (hk : k ≤ k') : tip k ≤ tip k' := by
  induction hk with
  | refl => exact Nat.le_refl _
  | step _ ih => exact Nat.le_trans ih (h.grows _)

theorem Spec.Life.run0 (h : Life parse L tip m s) (k : Nat) : Run parse L NoOverlap 0 Ix.fresh (tip k) (s (k + 1)) := by
  induction k with
  | zero =>
    obtain ⟨t, ht, h0⟩ := h.start
    rw [h.steps 0]
    exact .step h0 ht (h.honest 0) (h.alone 0)
  | succ k ih =>
    rw [h.steps (k + 1)]
    exact .step ih (h.grows k) (h.honest _) (h.alone _)

theorem Spec.Life.run (h : Life parse L tip m s) {t : Nat} {a : Nat} (ht : t ≤ tip a) :
    ∀ d, ∃ t', t' ≤ tip (a + d) ∧ Run parse L NoOverlap t (s a) t' (s (a + d))
  | 0 => ⟨t, ht, .refl⟩
  | d + 1 => by
    obtain ⟨t', ht', hr⟩ := h.run ht d
    refine ⟨tip (a + d), h.grows _, ?_⟩
    rw [← Nat.add_assoc, h.steps (a + d)]
    exact .step hr ht' (h.honest _) (h.alone _)

private theorem last_le {t : Nat} {x : Ix} {msg : IxMsg} (h : SeqInv parse L t x) (hm : HonestMsg L t x msg)
    (hok : NoOverlap x msg) : x.last ≤ (ixStep parse x msg).1.last := by
  have h1 := h.order.2
  have h2 := (h.step hm hok).order.2
  have he := ixStep_eff parse x msg
  have key : ∃ l, (ixStep parse x msg).1.added = x.added ++ l := by
    generalize (ixStep parse x msg).1 = y at he
    generalize (ixStep parse x msg).2 = o at he
    cases he with
    | tickDone hf hi => obtain ⟨_, n, _, hr, _⟩ := indexBlocks_spec _ hi h.index; exact ⟨_, hr⟩
    | resumeUpdate ht hr hi => obtain ⟨_, n, _, hr, _⟩ := indexBlocks_spec _ hi h.index; exact ⟨_, hr⟩
    | _ => exact ⟨[], (List.append_nil _).symm⟩
  obtain ⟨l, hl⟩ := key
  have := congrArg List.length hl
  rw [h1, h2] at this
  simp at this
  omega

theorem Spec.Life.last_le (h : Life parse L tip m s) {k k' : Nat} (hk : k ≤ k') : (s k).last ≤ (s k').last := by
  induction hk with
  | refl => exact Nat.le_refl _
  | step _ ih =>
    rw [h.steps]
    exact Nat.le_trans ih (Verif.last_le (h.seq _) (h.honest _) (h.alone _))

/-- A suspended run of the job is left alone by everything but its answers. -/
private theorem keeps {t : Nat} {x : Ix} {msg : IxMsg} (h : SeqInv parse L t x) {i : Nat} {y : Task × Fetch}
    (hg : x.tasks.get i = some y) (hu : msg ≠ .upgrade) (hr : ∀ now ans, msg ≠ .resume now i ans) :
    (ixStep parse x msg).1.tasks.get i = some y := by
  have hlt := (h.tasks i y.1 y.2 hg).1
  have he := ixStep_eff parse x msg
  have hset : ∀ z, (x.tasks.set x.nextTask z).get i = some y := fun z => by
    rw [Map.get_set, if_neg (by simp; omega)]; exact hg
  have hdel : ∀ j, j ≠ i → (x.tasks.del j).get i = some y := fun j hj => by
    rw [Map.get_del, if_neg (by simpa using hj)]; exact hg
  generalize (ixStep parse x msg).1 = x' at he
  generalize (ixStep parse x msg).2 = o at he
  cases he with
  | same => exact hg
  | @drop now j ans _ _ => exact hdel j (fun e => hr now ans (by rw [e]))
  | upgrade => exact absurd rfl hu
  | tickWait _ => exact hset _
  | tickDone _ _ => exact hg
  | getWait _ _ => exact hset _
  | getDone => exact hg
  | @resumeWait now j ans _ _ _ _ _ _ =>
    have hj : j ≠ i := fun e => hr now ans (by rw [e])
    show ((x.tasks.del j).set j _).get i = some y
    rw [Map.get_set, if_neg (by simpa using hj)]
    exact hdel j hj
  | @resumeUpdate now j ans _ _ _ _ _ _ _ _ => exact hdel j (fun e => hr now ans (by rw [e]))
  | @resumeGet now j ans _ _ _ _ _ => exact hdel j (fun e => hr now ans (by rw [e]))

/-- Up to its next answer. -/
private theorem until_answer (h : Life parse L tip m s) {i : Nat} {y : Task × Fetch} {k0 : Nat}
    (hu : ∀ k', k0 < k' → (s k').tasks.get i = some y → m k' ≠ .upgrade) : ∀ (d k : Nat), k0 < k →
    (∃ now ans, m (k + d) = .resume now i ans) → (s k).tasks.get i = some y →
    ∃ k', k ≤ k' ∧ (∃ now ans, m k' = .resume now i ans) ∧ (s k').tasks.get i = some y
  | 0, k, _, hm, hg => ⟨k, Nat.le_refl _, hm, hg⟩
  | d + 1, k, hlt, hm, hg => by
    by_cases hk : ∃ now ans, m k = .resume now i ans
    · exact ⟨k, Nat.le_refl _, hk, hg⟩
    · have hg' : (s (k + 1)).tasks.get i = some y := by
        rw [h.steps]
        exact keeps (h.seq k) hg (hu k hlt hg) (fun now ans e => hk ⟨now, ans, e⟩)
      obtain ⟨k', h1, h2⟩ := until_answer h hu d (k + 1) (by omega) (by rw [Nat.add_right_comm]; exact hm) hg'
      exact ⟨k', by omega, h2⟩

private theorem id_small (h : Life parse L tip m s) {k j : Nat} (hj : j < tip k) : j < U64 := by
  have := h.small k
  show _ < 2 ^ 64
  omega

/-- A run of the job that goes well ends. -/
private theorem job_ends (h : GoodLife parse L tip m s) {i last k0 : Nat} (hw : GoesWell m s k0) (hi : i = (s k0).nextTask)
    (f : Fetch) : ∀ k, k0 < k → (s k).tasks.get i = some (.update last, f) →
    ∃ k', k ≤ k' ∧ ∃ now ans, m k' = .resume now i ans ∧ ((s k').tasks.get i).isSome ∧
      (ixStep parse (s k') (m k')).2 = .none := by
  subst hi
  induction f using (InvImage.wf Fetch.rank (Prod.lex Nat.lt_wfRel Nat.lt_wfRel).wf).induction with
  | _ f ih =>
    intro k hlt0 hg
    obtain ⟨_, ⟨k1, hk0, hm0⟩, _⟩ := hw.2 k last f hlt0 hg
    obtain ⟨k1, hk1, ⟨now, ans, hm1⟩, hg1⟩ := until_answer h.toLife (fun k' h1 h2 => (hw.2 k' last f h1 h2).1) (k1 - k) k hlt0
      (by rw [Nat.add_sub_cancel' hk0]; exact hm0) hg
    have hinv := h.toLife.seq k1
    have hon := h.honest k1
    rw [hm1] at hon
    obtain ⟨t0, ids, g, ht0, hf, hu⟩ := (hinv.tasks _ _ _ hg1).2
    obtain ⟨c', out, hr, hout⟩ := fetchResume_total (now := now) (c := (s k1).cache) hf (hon _ _ hg1)
      ((hw.2 k1 last f (by omega) hg1).2.2 now ans hm1) (h.blocks k1)
    rcases hout with ⟨bs, rfl⟩ | ⟨f', rfl, hlt⟩
    · obtain ⟨_, _, _, h4⟩ := hinv.toIxInv.resume hg1 (hon _ _ hg1) hr
      obtain ⟨t1, _, hd⟩ := h4 _ _ rfl rfl
      obtain ⟨r, hi⟩ := indexBlocks_total (parse := parse) bs (fun b hb =>
        ⟨readable_of (h.blocks k1) (hd.2.1 b hb).1 (hd.2.1 b hb).2, id_small h.toLife (hd.2.1 b hb).2⟩) last (s k1).index (s k1).added
      refine ⟨k1, hk1, now, ans, hm1, by rw [hg1]; rfl, ?_⟩
      rw [hm1]
      simp only [ixStep, hg1, hr, finishTask, hi, orTrap]
    · have hg2 : (s (k1 + 1)).tasks.get (s k0).nextTask = some (.update last, f') := by
        rw [h.steps, hm1]
        simp only [ixStep, hg1, hr]
        rw [Map.get_set_self]
      obtain ⟨k', hk', hrest⟩ := ih f' hlt (k1 + 1) (by omega) hg2
      exact ⟨k', by omega, hrest⟩

/-- A round of the job. -/
theorem GoodLife.round (h : GoodLife parse L tip m s) (k : Nat) :
    ∃ k', k ≤ k' ∧ min ((s k).last + 100) (tip k) ≤ (s k').last := by
  obtain ⟨k2, hk2, hwell⟩ := h.goes_well (k + 1)
  have htick := hwell.1
  obtain ⟨k3, rfl⟩ : ∃ k3, k2 = k3 + 1 := ⟨k2 - 1, by omega⟩
  have hrun := h.toLife.run0 k3
  have hle : (s k).last ≤ (s (k3 + 1)).last := h.toLife.last_le (by omega)
  have htip : tip k ≤ tip k3 := h.toLife.tip_le (by omega)
  have hinv := h.toLife.seq (k3 + 1)
  have hinv3 := Run.seq hrun (seqInv_fresh parse L 0)
  have hok := h.alone (k3 + 1)
  rw [htick] at hok
  have hlast : (s (k3 + 1)).last + 100 < 2 ^ 64 := by
    have : (s (k3 + 1)).last ≤ tip k3 := (C43_once_partial hrun).2.2
    have := h.small k3
    omega
  have hstep := h.steps (k3 + 1)
  rw [htick] at hstep
  have hw : (∃ i f, i = (s (k3 + 1)).nextTask ∧ (ixStep parse (s (k3 + 1)) .tick).2 = .waiting i ∧ (s (k3 + 2)).tasks.get i = some (.update (s (k3 + 1)).last, f)) ∨
      min ((s (k3 + 1)).last + 100) (tip k3) ≤ (s (k3 + 2)).last := by
    cases hfs : fetchStart (s (k3 + 1)).cache (rangeU64 (s (k3 + 1)).last (u64add (s (k3 + 1)).last batchSize)) none with
    | failed =>
      exact absurd hfs (fetchStart_inv (g := True) (d := none) hinv.cache (fun i hi => rangeU64_lt (u64add_bound _ _) hi)
        (fun _ => ⟨_, _, rfl⟩)).1
    | wait f =>
      left
      refine ⟨(s (k3 + 1)).nextTask, f, rfl, ?_, ?_⟩
      · simp only [ixStep, hfs, finishTask, orTrap]
      · rw [hstep]
        simp only [ixStep, hfs, finishTask, orTrap]
        rw [Map.get_set_self]
    | done bs =>
      right
      have hd := hinv3.toIxInv.tick.2 _ hfs
      have hrd : ∀ b ∈ bs, Readable b ∧ b.id < U64 := fun b hb =>
        ⟨readable_of (h.blocks k3) (hd.2.1 b hb).1 (hd.2.1 b hb).2, id_small h.toLife (hd.2.1 b hb).2⟩
      obtain ⟨r, hi⟩ := indexBlocks_total (parse := parse) bs hrd (s (k3 + 1)).last (s (k3 + 1)).index (s (k3 + 1)).added
      have : (s (k3 + 2)).last = r.1 := by
        rw [hstep]
        simp only [ixStep, hfs, finishTask, hi, orTrap]
      rw [this]
      have hrange : rangeU64 (s (k3 + 1)).last (u64add (s (k3 + 1)).last batchSize) = List.range' (s (k3 + 1)).last 100 := by
        unfold rangeU64 u64add batchSize
        rw [Nat.mod_eq_of_lt (b := U64) hlast]
        congr 1
        omega
      rw [hrange] at hd
      obtain ⟨b1, b2, b3⟩ := delivered_prefix hd
      obtain ⟨_, n, hn, _, _, hl, hstop⟩ := indexBlocks_spec _ hi hinv3.index
      have hl := hl (by show _ < 2 ^ 64; omega)
      by_cases hlt : n < bs.length
      · obtain ⟨b, hb, hnone⟩ := hstop hlt
        obtain ⟨u, hu⟩ := known_type (hrd b (List.mem_of_getElem? hb)).1
        rw [hu] at hnone
        cases hnone
      · omega
  rcases hw with ⟨i, f, hid, hw, hg⟩ | hw
  · obtain ⟨k4, hk4, now, ans, hm4, hlive, hnone⟩ := job_ends h hwell hid f (k3 + 2) (by omega) hg
    obtain ⟨t', ht', hr'⟩ := h.toLife.run (a := k3 + 2) (t := tip k3) (h.toLife.tip_le (by omega)) (k4 - (k3 + 2))
    rw [Nat.add_sub_cancel' hk4] at ht' hr'
    rw [hstep] at hr'
    have hon := h.honest k4
    rw [hm4] at hon hnone
    have := C43_progress hrun hok hlast hw hr' ht' hon hlive hnone
      (fun j _ _ hj => (h.blocks k4 j hj).1)
    refine ⟨k4 + 1, by omega, ?_⟩
    rw [h.steps, hm4]
    omega
  · exact ⟨k3 + 2, by omega, by omega⟩

end Verif
