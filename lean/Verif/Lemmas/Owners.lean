import Verif.Lemmas.Replay
/-!
# The per-owner lists behind `icrc7_balance_of`
-/
namespace Verif

open Spec

variable {H : Type}

/-- The list kept for account `a`. -/
def listOf (b : Map Account (List Nat)) (a : Account) : List Nat := (b.get a).getD []

theorem balanceOf_eq (s : State H) (a : Account) : balanceOf s a = (listOf s.byOwner a).length := by
  unfold balanceOf listOf
  cases s.byOwner.get a <;> rfl

/-- `t` records the burn of `id` out of `a`. -/
def BurnOf (t : Tx) (a : Account) (id : Nat) : Prop :=
  t.op = .burn ∧ t.tid = some id ∧ ∃ f, t.from_ = some f ∧ (f == a) = true

/-- The lists hold exactly the ids an account owns and those it burned. -/
structure OwnInv (s : State H) : Prop where
  nodup : ∀ a, (listOf s.byOwner a).Nodup
  mem : ∀ a id, id ∈ listOf s.byOwner a ↔
    (∃ o, Owner s id = some o ∧ (o == a) = true) ∨ ∃ t ∈ s.log, BurnOf t a id
  burned : ∀ t ∈ s.log, t.op = .burn → ∃ id f, t.tid = some id ∧ t.from_ = some f ∧ id < s.lastId ∧ Owner s id = none
  once : (s.log.filter fun t => decide (t.op = .burn)).Pairwise fun t t' => t.tid ≠ t'.tid

theorem listOf_moveOwn {b : Map Account (List Nat)} {id : Nat} {prev to_ : Account}
    (hd : (prev == to_) = false) (a : Account) :
    listOf (moveOwn b id prev to_) a =
      if (prev == a) = true then (listOf b a).filter (· ≠ id)
      else if (to_ == a) = true then listOf b a ++ [id] else listOf b a := by
  unfold moveOwn listOf
  dsimp only
  have hd' : (to_ == prev) = false := by
    cases h : (to_ == prev) with
    | false => rfl
    | true => rw [Account.symm_beq h] at hd; cases hd
  rw [Map.get_set]
  by_cases h1 : (prev == a) = true
  · rw [if_pos h1, if_pos h1, Map.get_set_ne _ _ hd', Map.get_congr _ h1]
    rfl
  · rw [if_neg h1, if_neg h1, Map.get_set]
    by_cases h2 : (to_ == a) = true
    · rw [if_pos h2, if_pos h2, Map.get_congr _ h2]; rfl
    · rw [if_neg h2, if_neg h2]

theorem listOf_insOwn (reqs : List MintReq) : ∀ (b : Map Account (List Nat)) (tid : Nat) (a : Account),
    listOf (insOwn b tid reqs) a =
      listOf b a ++ ((reqs.zipIdx tid).filter fun e => e.1.owner == a).map Prod.snd := by
  induction reqs with
  | nil => intro b tid a; simp [insOwn]
  | cons r rs ih =>
    intro b tid a
    rw [insOwn, ih]
    have : listOf (b.set r.owner ((b.get r.owner).getD [] ++ [tid])) a =
        if (r.owner == a) = true then listOf b a ++ [tid] else listOf b a := by
      unfold listOf
      rw [Map.get_set]
      by_cases h : (r.owner == a) = true
      · rw [if_pos h, if_pos h, Map.get_congr _ h]; rfl
      · rw [if_neg h, if_neg h]
    rw [this, List.zipIdx_cons, List.filter_cons]
    by_cases h : (r.owner == a) = true
    · simp [h]
    · simp [h]

theorem zipIdx_snd_strict {α : Type} (l : List α) : ∀ n, (l.zipIdx n).Pairwise fun x y => x.2 < y.2 := by
  induction l with
  | nil => intro n; simp
  | cons a as ih =>
    intro n
    rw [List.zipIdx_cons, List.pairwise_cons]
    refine ⟨?_, ih _⟩
    rintro ⟨x, k⟩ hx
    have := List.le_snd_of_mem_zipIdx hx
    simp at this ⊢
    omega

theorem mem_mintList {reqs : List MintReq} {tid id : Nat} {a : Account} :
    id ∈ ((reqs.zipIdx tid).filter fun e => e.1.owner == a).map Prod.snd ↔
      ∃ h : tid ≤ id ∧ id < tid + reqs.length, ((reqs[id - tid]'(by omega)).owner == a) = true := by
  simp only [List.mem_map, List.mem_filter]
  constructor
  · rintro ⟨⟨r, k⟩, ⟨hm, he⟩, rfl⟩
    rw [List.mk_mem_zipIdx_iff_le_and_getElem?_sub] at hm
    obtain ⟨h1, h2⟩ := hm
    rw [List.getElem?_eq_some_iff] at h2
    obtain ⟨h3, h4⟩ := h2
    refine ⟨⟨h1, by simp at h1 ⊢; omega⟩, ?_⟩
    simp at he ⊢
    rw [h4]; exact he
  · rintro ⟨h, he⟩
    refine ⟨(reqs[id - tid]'(by omega), id), ⟨?_, he⟩, rfl⟩
    rw [List.mk_mem_zipIdx_iff_le_and_getElem?_sub]
    exact ⟨h.1, by rw [List.getElem?_eq_some_iff]; exact ⟨by omega, rfl⟩⟩

theorem nodup_mintList (reqs : List MintReq) (tid : Nat) (a : Account) :
    (((reqs.zipIdx tid).filter fun e => e.1.owner == a).map Prod.snd).Nodup := by
  have h := (zipIdx_snd_strict reqs tid).filter (fun e => e.1.owner == a)
  exact h.map (R := fun x y => x.2 < y.2) _ (fun x y (hxy : x.2 < y.2) => Nat.ne_of_lt hxy)

theorem ownInv_own {m : Msg} {s s' : State H} (hi : TokInv s) (ho : OwnInv s) (h : OwnEff m s s') : OwnInv s' := by
  obtain ⟨h1, h2, h3, h4⟩ := ho
  cases h with
  | same ht hb hl txs hlog hops hmint =>
    have hown : ∀ k, Owner s' k = Owner s k := by intro k; simp [Owner, ht]
    have hno : ∀ t ∈ txs, t.op ≠ .burn := fun t h => (hops t h).2.2
    refine ⟨by rw [hb]; exact h1, ?_, ?_, ?_⟩
    · intro a id
      rw [hb, h2, hown, hlog]
      constructor
      · rintro (h | ⟨t, ht, h⟩)
        · exact .inl h
        · exact .inr ⟨t, by simp [ht], h⟩
      · rintro (h | ⟨t, ht, h⟩)
        · exact .inl h
        · rw [List.mem_append] at ht
          rcases ht with ht | ht
          · exact .inr ⟨t, ht, h⟩
          · exact absurd h.1 (hno t ht)
    · intro t ht hop
      rw [hlog, List.mem_append] at ht
      rcases ht with ht | ht
      · obtain ⟨id, f, h⟩ := h3 t ht hop
        exact ⟨id, f, by rw [hown, hl]; exact h⟩
      · exact absurd hop (hno t ht)
    · rw [hlog, List.filter_append]
      have : txs.filter (fun t => decide (t.op = .burn)) = [] := by
        rw [List.filter_eq_nil_iff]; intro t ht; simpa using hno t ht
      rw [this, List.append_nil]; exact h4
  | rewrite tid t tok ht hb hl tx hlog hop =>
    have hown : ∀ k, Owner s' k = Owner s k := by
      intro k
      unfold Owner
      rw [ht, Map.get_set]
      split
      · rename_i he; simp at he; subst he; rw [tok]
      · rfl
    refine ⟨by rw [hb]; exact h1, ?_, ?_, ?_⟩
    · intro a id
      rw [hb, h2, hown, hlog]
      simp only [List.mem_append, List.mem_singleton]
      constructor
      · rintro (h | ⟨t, ht, h⟩)
        · exact .inl h
        · exact .inr ⟨t, .inl ht, h⟩
      · rintro (h | ⟨t, ht | rfl, h⟩)
        · exact .inl h
        · exact .inr ⟨t, ht, h⟩
        · have := h.1; rw [hop] at this; cases this
    · intro t ht hop'
      rw [hlog, List.mem_append, List.mem_singleton] at ht
      rcases ht with ht | rfl
      · obtain ⟨id, f, h⟩ := h3 t ht hop'
        exact ⟨id, f, by rw [hown, hl]; exact h⟩
      · rw [hop] at hop'; cases hop'
    · rw [hlog, List.filter_append]
      simp [hop]; exact h4
  | move id t to_ tx tok hid diff ht hb hl hlog htid hfrom hto why =>
    have hop : tx.op ≠ .burn := by
      rcases why with ⟨_, _, _, _, _, _, _, _, _, _, _, h⟩ | ⟨_, _, _, _, _, _, _, _, _, _, _, h⟩ <;> rw [h] <;> simp
    have hown : ∀ k, Owner s' k = if k = id then some to_ else Owner s k := by
      intro k
      unfold Owner
      rw [ht, Map.get_set]
      by_cases hk : k = id
      · subst hk; simp
      · have : ¬ (id == k) = true := by simpa using fun h => hk h.symm
        rw [if_neg this, if_neg hk]
    have hoid : Owner s id = some t.owner := owner_of_get tok
    have hlogm : ∀ a k, (∃ u ∈ s'.log, BurnOf u a k) ↔ ∃ u ∈ s.log, BurnOf u a k := by
      intro a k
      rw [hlog]
      simp only [List.mem_append, List.mem_singleton]
      constructor
      · rintro ⟨u, hu | rfl, h⟩
        · exact ⟨u, hu, h⟩
        · exact absurd h.1 hop
      · rintro ⟨u, hu, h⟩; exact ⟨u, .inl hu, h⟩
    have hnob : ∀ a, ¬ ∃ u ∈ s.log, BurnOf u a id := by
      rintro a ⟨u, hu, h⟩
      obtain ⟨id', f, h5, h6, h7, h8⟩ := h3 u hu h.1
      rw [h.2.1] at h5
      cases h5
      rw [hoid] at h8; cases h8
    have hnot : id ∉ listOf s.byOwner to_ := by
      rw [h2, hoid]
      rintro (⟨o, h, he⟩ | h)
      · cases h; rw [diff] at he; cases he
      · exact hnob _ h
    refine ⟨?_, ?_, ?_, ?_⟩
    · intro a
      rw [hb, listOf_moveOwn diff]
      split
      · exact (h1 a).sublist List.filter_sublist
      · split
        · rename_i hta
          rw [List.nodup_append]
          refine ⟨h1 a, by simp, ?_⟩
          intro x hx y hy
          simp at hy
          subst hy
          intro hxy; subst hxy
          apply hnot
          unfold listOf at hx ⊢
          rw [Map.get_congr _ hta]; exact hx
        · exact h1 a
    · intro a k
      rw [hb, listOf_moveOwn diff, hlogm, hown]
      split
      · rename_i hpa
        rw [List.mem_filter, h2]
        by_cases hk : k = id
        · subst hk
          simp only [if_true]
          constructor
          · rintro ⟨_, h⟩; simp at h
          · rintro (⟨o, h, he⟩ | h)
            · cases h
              rw [Account.trans_beq hpa (Account.symm_beq he)] at diff; cases diff
            · exact absurd h (hnob _)
        · simp [hk]
      · rename_i hpa
        split
        · rename_i hta
          rw [List.mem_append, h2, List.mem_singleton]
          by_cases hk : k = id
          · subst hk
            simp [hta]
          · simp [hk]
        · rename_i hta
          rw [h2]
          by_cases hk : k = id
          · subst hk
            simp only [if_true]
            constructor
            · rintro (⟨o, h, he⟩ | h)
              · rw [hoid] at h; cases h; exact absurd he hpa
              · exact .inr h
            · rintro (⟨o, h, he⟩ | h)
              · cases h; exact absurd he hta
              · exact .inr h
          · simp [hk]
    · intro u hu hop'
      rw [hlog, List.mem_append, List.mem_singleton] at hu
      rcases hu with hu | rfl
      · obtain ⟨k, f, h5, h6, h7, h8⟩ := h3 u hu hop'
        refine ⟨k, f, h5, h6, by rw [hl]; exact h7, ?_⟩
        rw [hown]
        by_cases hk : k = id
        · subst hk; rw [hoid] at h8; cases h8
        · rw [if_neg hk]; exact h8
      · exact absurd hop' hop
    · rw [hlog, List.filter_append]
      simp [hop]; exact h4
  | mint c now reqs hm perm cap hcfg ht hb hl hlog =>
    have hop : ∀ u ∈ reqs.mapIdx (fun k r => mintTx now (s.lastId + k) r), u.op ≠ .burn := by
      intro u hu
      rw [List.mem_mapIdx] at hu
      obtain ⟨i, _, rfl⟩ := hu
      simp [mintTx]
    have hlogm : ∀ a k, (∃ u ∈ s'.log, BurnOf u a k) ↔ ∃ u ∈ s.log, BurnOf u a k := by
      intro a k
      rw [hlog]
      simp only [List.mem_append]
      constructor
      · rintro ⟨u, hu | hu, h⟩
        · exact ⟨u, hu, h⟩
        · exact absurd h.1 (hop u hu)
      · rintro ⟨u, hu, h⟩; exact ⟨u, .inl hu, h⟩
    have hlt : ∀ a id, id ∈ listOf s.byOwner a → id < s.lastId := by
      intro a id hid
      rw [h2] at hid
      rcases hid with ⟨o, ho, _⟩ | ⟨u, hu, h⟩
      · obtain ⟨t, ht, _⟩ := owner_get ho
        exact hi.fresh _ _ ht
      · obtain ⟨k, f, h5, h6, h7, h8⟩ := h3 u hu h.1
        rw [h.2.1] at h5; cases h5; exact h7
    refine ⟨?_, ?_, ?_, ?_⟩
    · intro a
      rw [hb, listOf_insOwn, List.nodup_append]
      refine ⟨h1 a, nodup_mintList _ _ _, ?_⟩
      intro x hx y hy
      have := hlt a x hx
      obtain ⟨hy, _⟩ := mem_mintList.1 hy
      omega
    · intro a k
      rw [hb, listOf_insOwn, List.mem_append, mem_mintList, hlogm, h2, owner_insTok rfl ht]
      by_cases hk : s.lastId ≤ k ∧ k < s.lastId + reqs.length
      · rw [dif_pos hk]
        have hnone := owner_fresh hi hk.1
        rw [hnone]
        constructor
        · rintro ((⟨o, h, _⟩ | h) | ⟨_, h⟩)
          · cases h
          · exact .inr h
          · exact .inl ⟨_, rfl, h⟩
        · rintro (⟨o, h, he⟩ | h)
          · cases h; exact .inr ⟨hk, he⟩
          · exact .inl (.inr h)
      · rw [dif_neg hk]
        constructor
        · rintro (h | ⟨h, _⟩)
          · exact h
          · exact absurd h hk
        · exact .inl
    · intro u hu hop'
      rw [hlog, List.mem_append] at hu
      rcases hu with hu | hu
      · obtain ⟨k, f, h5, h6, h7, h8⟩ := h3 u hu hop'
        refine ⟨k, f, h5, h6, by omega, ?_⟩
        rw [owner_insTok rfl ht, dif_neg (by omega)]; exact h8
      · exact absurd hop' (hop u hu)
    · rw [hlog, List.filter_append]
      have : (reqs.mapIdx fun k r => mintTx now (s.lastId + k) r).filter (fun t => decide (t.op = .burn)) = [] := by
        rw [List.filter_eq_nil_iff]; intro t ht; simpa using hop t ht
      rw [this, List.append_nil]; exact h4
  | burn c now tid t hm tok own ht hb hl hlog =>
    have hoid : Owner s tid = some t.owner := owner_of_get tok
    have hown : ∀ k, Owner s' k = if k = tid then none else Owner s k := by
      intro k
      unfold Owner
      rw [ht, Map.get_del]
      by_cases hk : k = tid
      · subst hk; simp
      · have : ¬ (tid == k) = true := by simpa using fun h => hk h.symm
        rw [if_neg this, if_neg hk]
    have hb' : ∀ a k, BurnOf (burnTx now tid t) a k ↔ k = tid ∧ (t.owner == a) = true := by
      intro a k
      unfold BurnOf burnTx
      simp only [true_and, Option.some.injEq]
      constructor
      · rintro ⟨rfl, f, rfl, h⟩; exact ⟨rfl, h⟩
      · rintro ⟨rfl, h⟩; exact ⟨rfl, _, rfl, h⟩
    refine ⟨by rw [hb]; exact h1, ?_, ?_, ?_⟩
    · intro a k
      rw [hb, h2, hown, hlog]
      simp only [List.mem_append, List.mem_singleton]
      by_cases hk : k = tid
      · subst hk
        simp only [if_true]
        constructor
        · rintro (⟨o, h, he⟩ | ⟨u, hu, h⟩)
          · rw [hoid] at h; cases h
            exact .inr ⟨_, .inr rfl, (hb' _ _).2 ⟨rfl, he⟩⟩
          · exact .inr ⟨u, .inl hu, h⟩
        · rintro (⟨o, h, _⟩ | ⟨u, hu | rfl, h⟩)
          · cases h
          · exact .inr ⟨u, hu, h⟩
          · exact .inl ⟨_, hoid, ((hb' _ _).1 h).2⟩
      · simp only [hk, if_false]
        constructor
        · rintro (h | ⟨u, hu, h⟩)
          · exact .inl h
          · exact .inr ⟨u, .inl hu, h⟩
        · rintro (h | ⟨u, hu | rfl, h⟩)
          · exact .inl h
          · exact .inr ⟨u, hu, h⟩
          · exact absurd ((hb' _ _).1 h).1 hk
    · intro u hu hop'
      rw [hlog, List.mem_append, List.mem_singleton] at hu
      rcases hu with hu | rfl
      · obtain ⟨k, f, h5, h6, h7, h8⟩ := h3 u hu hop'
        refine ⟨k, f, h5, h6, by omega, ?_⟩
        rw [hown]
        split
        · rfl
        · exact h8
      · exact ⟨tid, t.owner, rfl, rfl, by rw [hl]; exact hi.fresh _ _ tok, by rw [hown, if_pos rfl]⟩
    · rw [hlog, List.filter_append, List.pairwise_append]
      refine ⟨h4, by simp [burnTx], ?_⟩
      intro u hu v hv
      simp [burnTx] at hv
      subst hv
      rw [List.mem_filter] at hu
      obtain ⟨k, f, h5, h6, h7, h8⟩ := h3 u hu.1 (by simpa using hu.2)
      rw [h5]
      intro hk
      cases hk
      rw [hoid] at h8; cases h8

theorem ownInv_init {v : String → Bool} {hid : H} {c a s} (h : init v hid c a = some s) : OwnInv s := by
  rw [init_eq h]
  refine ⟨?_, ?_, ?_, ?_⟩
  · intro a; simp [listOf]
  · intro a id; simp [listOf, Owner]
  · intro t ht; simp at ht
  · simp

theorem Reachable.ownInv {E : Env H} {s : State H} (h : Reachable E s) : OwnInv s :=
  h.ownInduct (fun _ _ _ _ _ h => ownInv_init h) (fun _ _ _ hi ho he => ownInv_own hi ho he)

/-- The ids `a` burned. -/
def burnedIds (log : List Tx) (a : Account) : List Nat :=
  (log.filter fun t => decide (t.op = .burn) && t.from_.any (fun f => decide (SameAccount f a))).filterMap Tx.tid

theorem filterMap_length_of_isSome {α β : Type} (f : α → Option β) (l : List α) (h : ∀ x ∈ l, (f x).isSome) :
    (l.filterMap f).length = l.length := by
  induction l with
  | nil => rfl
  | cons a as ih =>
    have ha := h a (by simp)
    obtain ⟨b, hb⟩ := Option.isSome_iff_exists.1 ha
    rw [List.filterMap_cons_some hb, List.length_cons, List.length_cons, ih (fun x hx => h x (by simp [hx]))]

theorem burnedIds_length {s : State H} (ho : OwnInv s) (a : Account) :
    (burnedIds s.log a).length = burnsFrom s.log a := by
  unfold burnedIds burnsFrom
  apply filterMap_length_of_isSome
  intro t ht
  rw [List.mem_filter] at ht
  obtain ⟨h1, h2⟩ := ht
  simp at h2
  obtain ⟨id, f, h, _⟩ := ho.burned t h1 h2.1
  simp [h]

theorem mem_burnedIds {log : List Tx} {a : Account} {id : Nat} :
    id ∈ burnedIds log a ↔ ∃ t ∈ log, BurnOf t a id := by
  unfold burnedIds BurnOf
  simp only [List.mem_filterMap, List.mem_filter]
  constructor
  · rintro ⟨t, ⟨h1, h2⟩, h3⟩
    simp at h2
    refine ⟨t, h1, h2.1, h3, ?_⟩
    cases hf : t.from_ with
    | none => simp [hf] at h2
    | some f => simp [hf] at h2; exact ⟨f, rfl, sameAccount_iff.1 h2.2⟩
  · rintro ⟨t, h1, h2, h3, f, h4, h5⟩
    refine ⟨t, ⟨h1, ?_⟩, h3⟩
    simp [h2, h4, sameAccount_iff, h5]

theorem nodup_burnedIds {s : State H} (ho : OwnInv s) (a : Account) : (burnedIds s.log a).Nodup := by
  unfold burnedIds
  have h1 : (s.log.filter fun t => decide (t.op = .burn) && t.from_.any (fun f => decide (SameAccount f a))) =
      (s.log.filter fun t => decide (t.op = .burn)).filter
        (fun t => t.from_.any (fun f => decide (SameAccount f a))) := by
    rw [List.filter_filter]
    congr 1
    funext t
    rw [Bool.and_comm]
  rw [h1]
  refine (ho.once.filter _).filterMap (R := fun t t' : Tx => t.tid ≠ t'.tid) _ ?_
  intro t t' hne b hb b' hb' hbb
  subst hbb
  exact hne (hb.trans hb'.symm)

/-- The list of `a` is, up to order, the ids it owns followed by those it burned. -/
theorem listOf_perm {s : State H} (hi : TokInv s) (ho : OwnInv s) (a : Account) :
    (listOf s.byOwner a).Perm (tokenIdsOf s a ++ burnedIds s.log a) := by
  rw [List.perm_ext_iff_of_nodup (ho.nodup a)]
  · intro id
    rw [ho.mem, List.mem_append, mem_tokenIdsOf hi, mem_burnedIds]
    simp only [sameAccount_iff]
  · rw [List.nodup_append]
    refine ⟨nodup_tokenIdsOf hi a, nodup_burnedIds ho a, ?_⟩
    intro x hx y hy hxy
    subst hxy
    obtain ⟨o, h, _⟩ := (mem_tokenIdsOf hi).1 hx
    obtain ⟨t, ht, hb⟩ := mem_burnedIds.1 hy
    obtain ⟨id, f, h5, h6, h7, h8⟩ := ho.burned t ht hb.1
    rw [hb.2.1] at h5
    cases h5
    rw [h] at h8; cases h8

theorem balance_split {s : State H} (hi : TokInv s) (ho : OwnInv s) (a : Account) :
    balanceOf s a = (tokenIdsOf s a).length + burnsFrom s.log a := by
  rw [balanceOf_eq, (listOf_perm hi ho a).length_eq, List.length_append, burnedIds_length ho]

end Verif
