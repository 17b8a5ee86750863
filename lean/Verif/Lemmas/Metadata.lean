import Verif.Spec.Metadata
import Verif.Lemmas.Pending
import Verif.Lemmas.Replay
/-!
# The metadata table
-/
namespace Verif

open Spec

variable {H : Type}

/-- The row of a token, empty if there is none. -/
def metaRow (t : MetaTable) (tid : Nat) : Map String Value := (t.get tid).getD ∅

/-- No row repeats a key. -/
def RowsNodup (t : MetaTable) : Prop := ∀ tid r, t.get tid = some r → r.NodupKeys

theorem RowsNodup.row {t : MetaTable} (h : RowsNodup t) (tid : Nat) : (metaRow t tid).NodupKeys := by
  unfold metaRow
  cases hg : t.get tid with
  | none => exact Map.nodup_empty
  | some r => exact h _ _ hg

theorem RowsNodup.del {t : MetaTable} (h : RowsNodup t) (tid : Nat) : RowsNodup (t.del tid) := by
  intro j r hj
  rw [Map.get_del] at hj
  split at hj
  · cases hj
  · exact h _ _ hj

theorem insertData_spec {t t' : MetaTable} {tid : Nat} {k : String} {v : Value}
    (h : insertData t tid k v = some t') :
    metaRow t' tid = (metaRow t tid).set k v ∧ (∀ j, j ≠ tid → t'.get j = t.get j) ∧
      (RowsNodup t → RowsNodup t') := by
  unfold insertData at h
  split at h
  · cases h
    refine ⟨by simp [metaRow], fun j hj => Map.get_set_ne _ _ (by simpa using fun h => hj h.symm), ?_⟩
    intro hn j r hj
    rw [Map.get_set] at hj
    split at hj
    · cases hj
      exact Map.nodup_set (hn.row tid) _ _
    · exact hn _ _ hj
  · cases h

theorem addMetadata_spec {tid : Nat} (kvs : List (String × Value)) : ∀ {t t' : MetaTable},
    addMetadata t tid kvs = some t' →
    (∀ k, (metaRow t' tid).get k = (lastValue kvs k).or ((metaRow t tid).get k)) ∧
      (∀ j, j ≠ tid → t'.get j = t.get j) ∧ (RowsNodup t → RowsNodup t') := by
  induction kvs with
  | nil =>
    intro t t' h
    cases h
    exact ⟨fun k => rfl, fun _ _ => rfl, id⟩
  | cons kv kvs ih =>
    obtain ⟨k₀, v₀⟩ := kv
    intro t t' h
    unfold addMetadata at h
    split at h
    · cases h
    rename_i t1 h1
    obtain ⟨hr, ho, hn⟩ := insertData_spec h1
    obtain ⟨hr', ho', hn'⟩ := ih h
    refine ⟨fun k => ?_, fun j hj => (ho' j hj).trans (ho j hj), fun h => hn' (hn h)⟩
    rw [hr', hr, Map.get_set, lastValue]
    cases lastValue kvs k with
    | some v => rfl
    | none =>
      by_cases hk : k₀ = k
      · simp [hk]
      · simp [hk]

theorem collectMap_spec (kvs : List (String × Value)) :
    (collectMap kvs).NodupKeys ∧ ∀ k, (collectMap kvs).get k = lastValue kvs k := by
  have key : ∀ (kvs : List (String × Value)) (m : Map String Value), m.NodupKeys →
      (kvs.foldl (fun m kv => m.set kv.1 kv.2) m).NodupKeys ∧
      ∀ k, (kvs.foldl (fun m kv => m.set kv.1 kv.2) m).get k = (lastValue kvs k).or (m.get k) := by
    intro kvs
    induction kvs with
    | nil => intro m h; exact ⟨h, fun k => rfl⟩
    | cons kv kvs ih =>
      obtain ⟨k₀, v₀⟩ := kv
      intro m h
      obtain ⟨h1, h2⟩ := ih (m.set k₀ v₀) (Map.nodup_set h _ _)
      refine ⟨h1, fun k => ?_⟩
      simp only [List.foldl_cons, h2, Map.get_set, lastValue]
      cases lastValue kvs k with
      | some v => rfl
      | none => by_cases hk : k₀ = k <;> simp [hk]
  obtain ⟨h1, h2⟩ := key kvs ∅ Map.nodup_empty
  exact ⟨h1, fun k => (h2 k).trans (by simp)⟩

theorem lastValue_of_nodup : ∀ {l : List (String × Value)},
    (l.Pairwise fun a b => (a.1 == b.1) = false) → ∀ k, lastValue l k = Map.getL l k := by
  intro l
  induction l with
  | nil => intro _ k; rfl
  | cons kv l ih =>
    obtain ⟨k₀, v₀⟩ := kv
    intro h k
    rw [List.pairwise_cons] at h
    simp only [lastValue, ih h.2, Map.getL]
    by_cases hk : k₀ = k
    · subst hk
      have : Map.getL l k₀ = none := by
        rw [Map.getL_eq_none]
        intro e he
        have := h.1 e he
        simp only [beq_eq_false_iff_ne, ne_eq] at this ⊢
        exact fun h => this h.symm
      simp [this]
    · simp [hk]
      cases Map.getL l k <;> rfl

theorem replaceMetadata_spec {t t' : MetaTable} {tid : Nat} {kvs : List (String × Value)}
    (h : replaceMetadata t tid kvs = some t') :
    (∀ k, (metaRow t' tid).get k = lastValue kvs k) ∧ (∀ j, j ≠ tid → t'.get j = t.get j) ∧
      (RowsNodup t → RowsNodup t') := by
  obtain ⟨hr, ho, hn⟩ := addMetadata_spec _ h
  obtain ⟨c1, c2⟩ := collectMap_spec kvs
  refine ⟨fun k => ?_, fun j hj => ?_, fun h => hn (h.del tid)⟩
  · rw [hr, lastValue_of_nodup c1, show Map.getL (collectMap kvs).entries k = (collectMap kvs).get k from rfl, c2]
    simp [metaRow]
  · rw [ho j hj, Map.get_del_ne _ (by simpa using fun h => hj h.symm)]

theorem mintMetadata_spec (reqs : List MintReq) : ∀ {t t' : MetaTable} {tid : Nat},
    mintMetadata t tid reqs = some t' →
    (∀ i r, reqs[i]? = some r → ∀ k, (metaRow t' (tid + i)).get k =
      (lastValue r.metadata k).or ((metaRow t (tid + i)).get k)) ∧
    (∀ j, j < tid ∨ tid + reqs.length ≤ j → t'.get j = t.get j) ∧ (RowsNodup t → RowsNodup t') := by
  induction reqs with
  | nil =>
    intro t t' tid h
    cases h
    exact ⟨by simp, fun _ _ => rfl, id⟩
  | cons r rs ih =>
    intro t t' tid h
    unfold mintMetadata at h
    split at h
    · cases h
    rename_i t1 h1
    obtain ⟨hr, ho, hn⟩ := addMetadata_spec _ h1
    obtain ⟨hr', ho', hn'⟩ := ih h
    refine ⟨?_, ?_, fun h => hn' (hn h)⟩
    · intro i r' hi k
      cases i with
      | zero =>
        simp only [List.getElem?_cons_zero, Option.some.injEq] at hi
        subst hi
        have : metaRow t' (tid + 0) = metaRow t1 tid := by
          unfold metaRow
          rw [ho' _ (.inl (by omega))]
          rfl
        rw [this, hr, Nat.add_zero]
      | succ i =>
        have := hr' i r' (by simpa using hi) k
        rw [show tid + 1 + i = tid + (i + 1) by omega] at this
        rw [this]
        unfold metaRow
        rw [ho _ (by omega)]
    · intro j hj
      simp only [List.length_cons] at hj
      rw [ho' j (by omega), ho j (by omega)]

/-! ### the query -/

theorem insertKey_perm (p : String × Value) (l : List (String × Value)) : (insertKey p l).Perm (p :: l) := by
  induction l with
  | nil => exact .refl _
  | cons q l ih =>
    unfold insertKey
    split
    · exact .refl _
    · exact (ih.cons q).trans (.swap ..)

theorem sortKeys_perm (l : List (String × Value)) : (sortKeys l).Perm l := by
  induction l with
  | nil => exact .refl _
  | cons p l ih => exact (insertKey_perm p _).trans (ih.cons p)

theorem insertKey_sorted {p : String × Value} {l : List (String × Value)} (h : l.Pairwise fun a b => a.1 ≤ b.1) :
    (insertKey p l).Pairwise fun a b => a.1 ≤ b.1 := by
  induction l with
  | nil => exact .cons (by simp) .nil
  | cons q l ih =>
    obtain ⟨hq, hl⟩ := List.pairwise_cons.1 h
    unfold insertKey
    split
    · rename_i hp
      refine .cons ?_ h
      intro x hx
      rcases List.mem_cons.1 hx with rfl | hx
      · exact hp
      · exact String.le_trans hp (hq x hx)
    · rename_i hp
      refine .cons ?_ (ih hl)
      intro x hx
      rcases List.mem_cons.1 ((insertKey_perm p l).mem_iff.1 hx) with rfl | hx
      · exact (String.le_total _ _).resolve_left hp
      · exact hq x hx

theorem sortKeys_sorted (l : List (String × Value)) : (sortKeys l).Pairwise fun a b => a.1 ≤ b.1 := by
  induction l with
  | nil => exact .nil
  | cons p l ih => exact insertKey_sorted ih

theorem sortKeys_keys {l : List (String × Value)} (h : (l.map Prod.fst).Nodup) : ((sortKeys l).map Prod.fst).Nodup :=
  ((sortKeys_perm l).map Prod.fst).nodup_iff.2 h

theorem getAllData_eq (t : MetaTable) (tid : Nat) : (getAllData t tid).getD [] = sortKeys (metaRow t tid).entries := by
  unfold getAllData metaRow
  cases t.get tid <;> rfl

theorem tokenMetadata_eq (s : State H) (t : Token) : tokenMetadata s t = sortKeys (metaRow s.mdata t.id).entries :=
  getAllData_eq ..

theorem shown_iff {s : State H} (hi : TokInv s) {tid : Nat} {l : List (String × Value)} :
    Shown s tid l ↔ (∃ o, Owner s tid = some o) ∧ l = sortKeys (metaRow s.mdata tid).entries := by
  unfold Shown Owner
  cases ht : s.tokens.get tid with
  | none => simp
  | some t =>
    simp only [Option.map_some, Option.some.injEq, tokenMetadata_eq, hi.ids _ _ ht]
    exact ⟨fun h => ⟨⟨_, rfl⟩, h.symm⟩, fun h => h.2.symm⟩

theorem metaIs_iff {s : State H} (hi : TokInv s) (hn : RowsNodup s.mdata) {tid : Nat} {kvs : List (String × Value)} :
    MetaIs s tid kvs ↔ (∃ o, Owner s tid = some o) ∧ ∀ k, (metaRow s.mdata tid).get k = lastValue kvs k := by
  unfold MetaIs
  constructor
  · rintro ⟨l, hs, hl⟩
    obtain ⟨h, rfl⟩ := (shown_iff hi).1 hs
    refine ⟨h, fun k => ?_⟩
    have row := hn.row tid
    cases hg : (metaRow s.mdata tid).get k with
    | some v =>
      obtain ⟨k', hk, hm⟩ := Map.mem_of_get hg
      have : k' = k := by first | exact eq_of_beq hk | exact (eq_of_beq hk).symm
      exact ((hl.2 k v).1 ((sortKeys_perm _).mem_iff.2 (this ▸ hm))).symm
    | none =>
      cases hv : lastValue kvs k with
      | none => rfl
      | some v =>
        rw [Map.get_of_mem row ((sortKeys_perm _).mem_iff.1 ((hl.2 k v).2 hv))] at hg
        cases hg
  · rintro ⟨h, hg⟩
    refine ⟨_, (shown_iff hi).2 ⟨h, rfl⟩, sortKeys_keys (Map.nodup_keys_lawful (hn.row tid)), fun k v => ?_⟩
    rw [← hg, (sortKeys_perm _).mem_iff]
    constructor
    · exact Map.get_of_mem (hn.row tid)
    · intro hg
      obtain ⟨k', hk, hm⟩ := Map.mem_of_get hg
      have : k' = k := by first | exact eq_of_beq hk | exact (eq_of_beq hk).symm
      exact this ▸ hm

/-! ### elementary effects -/

theorem micro_mdata {E : Env H} {m : Msg} {s s' : State H} (h : Micro E m s s') :
    s'.mdata = s.mdata ∨
    (∃ c now reqs, m = .call c now (.mint reqs) ∧ mintMetadata s.mdata s.lastId reqs = some s'.mdata) ∨
    (∃ c now tid kvs token, m = .call c now (.updateNftMetadata tid kvs) ∧ s.tokens.get tid = some token ∧
      replaceMetadata s.mdata token.id kvs = some s'.mdata) := by
  cases h with
  | mint reqs md h perm free batch cap memos hmd =>
    refine .inr (.inl ⟨_, _, reqs, rfl, ?_⟩)
    rw [mintInsert_eq]; exact hmd
  | mintCut reqs md h n perm free hn hmd => exact .inr (.inl ⟨_, _, reqs, rfl, hmd⟩)
  | updateMeta tid kvs token md h i perm free tok hmd add =>
    exact .inr (.inr ⟨_, _, tid, kvs, token, rfl, tok, hmd⟩)
  | updateMetaCut tid kvs token md h perm free tok hmd =>
    exact .inr (.inr ⟨_, _, tid, kvs, token, rfl, tok, hmd⟩)
  | @resume _ now i ans p hp =>
    obtain ⟨_, _, _, _, he⟩ := resumeBody_eq E { s with pending := s.pending.eraseIdx i } now p ans
    rw [he]
    exact .inl rfl
  | _ => exact .inl rfl

theorem Reachable.rowsNodup {E : Env H} {s : State H} (h : Reachable E s) : RowsNodup s.mdata :=
  h.induct (P := fun s => RowsNodup s.mdata)
    (by intro v hid c a s₀ h0; rw [init_eq h0]; intro tid r h; simp at h)
    (by
      intro m s s' hp hm
      rcases micro_mdata hm with h | ⟨_, _, _, _, h⟩ | ⟨_, _, _, _, _, _, _, h⟩
      · rwa [h]
      · exact (mintMetadata_spec _ h).2.2 hp
      · exact (replaceMetadata_spec h).2.2 hp)

/-- Messages other than mints and metadata updates leave the metadata table
alone and create no token. -/
theorem step_quiet_meta {E : Env H} {s : State H} (hi : TokInv s) {m : Msg}
    (hm : ∀ c now reqs, m ≠ .call c now (.mint reqs))
    (hu : ∀ c now tid kvs, m ≠ .call c now (.updateNftMetadata tid kvs)) :
    (step E s m).1.mdata = s.mdata ∧ (step E s m).1.lastId = s.lastId ∧
    ∀ tid, Owner s tid = none → Owner (step E s m).1 tid = none := by
  have := (step_steps E s m).induct
    (P := fun t => TokInv t ∧ t.mdata = s.mdata ∧ t.lastId = s.lastId ∧
      ∀ tid, Owner s tid = none → Owner t tid = none)
    (hp := ⟨hi, rfl, rfl, fun _ h => h⟩)
    (hmicro := by
      rintro t t' ⟨h1, h2, h3, h4⟩ hmic
      refine ⟨tokInv_micro h1 hmic, ?_⟩
      have hmd : t'.mdata = t.mdata := by
        rcases micro_mdata hmic with h | ⟨_, _, _, h, _⟩ | ⟨_, _, _, _, _, h, _⟩
        · exact h
        · exact absurd h (hm _ _ _)
        · exact absurd h (hu _ _ _ _)
      have keep : ∀ {id : Nat} {tk tk' : Token}, t.tokens.get id = some tk → t'.tokens = t.tokens.set id tk' →
          ∀ tid, Owner s tid = none → Owner t' tid = none := by
        intro id tk tk' hg ht tid h
        have h := h4 tid h
        unfold Owner at h ⊢
        rw [ht, Map.get_set]
        split
        · rename_i he
          have : id = tid := by simpa using he
          subst this
          rw [hg] at h; cases h
        · exact h
      cases micro_own h1 hmic with
      | same ht hb hl =>
        refine ⟨hmd.trans h2, hl.trans h3, fun tid h => ?_⟩
        have := h4 tid h
        unfold Owner at this ⊢
        rwa [ht]
      | rewrite id tk tok ht hb hl => exact ⟨hmd.trans h2, hl.trans h3, keep tok ht⟩
      | move id tk to_ tx tok hid diff ht hb hl => exact ⟨hmd.trans h2, hl.trans h3, keep tok ht⟩
      | mint c now reqs h => exact absurd h (hm _ _ _)
      | burn c now id tk h tok own ht hb hl =>
        refine ⟨hmd.trans h2, hl.trans h3, fun tid h => ?_⟩
        have := h4 tid h
        unfold Owner at this ⊢
        rw [ht, Map.get_del]
        split
        · rfl
        · exact this)
  exact this.2

/-! ### messages -/

theorem mint_step (E : Env H) (s : State H) (c : Principal) (now : Nat) (reqs : List MintReq) :
    step E s (.call c now (.mint reqs)) = (s, .rejected) ∨ step E s (.call c now (.mint reqs)) = (s, .trapped) ∨
    ∃ s' r, step E s (.call c now (.mint reqs)) = (s', .mgmt r) ∧ MintOut s c now reqs s' r := by
  simp only [step, execCall, Call.needs, exec]
  split
  · cases h : mint E s c now reqs with
    | none => exact .inr (.inl rfl)
    | some p => exact .inr (.inr ⟨p.1, p.2, rfl, mint_out h⟩)
  · exact .inl rfl

theorem update_step (E : Env H) (s : State H) (c : Principal) (now tid : Nat) (kvs : List (String × Value)) :
    step E s (.call c now (.updateNftMetadata tid kvs)) = (s, .rejected) ∨
    step E s (.call c now (.updateNftMetadata tid kvs)) = (s, .trapped) ∨
    ∃ s' r, step E s (.call c now (.updateNftMetadata tid kvs)) = (s', .mgmt r) ∧
      UpdateOut E s c now tid kvs s' r := by
  simp only [step, execCall, Call.needs, exec]
  split
  · cases h : updateNftMetadata E s c now tid kvs with
    | none => exact .inr (.inl rfl)
    | some p => exact .inr (.inr ⟨p.1, p.2, rfl, updateNftMetadata_out h⟩)
  · exact .inl rfl

/-! ### when a mint succeeds -/

theorem mintTxs_accept {L : Ledger H} (hL : ∀ h t, ∃ h' i, L.add h t = (h', .ok i)) {now : Nat} (reqs : List MintReq) :
    ∀ (s : State H) (tid : Nat), (mintTxs L s now tid reqs).2 = true := by
  induction reqs with
  | nil => intro s tid; rfl
  | cons r rs ih =>
    intro s tid
    obtain ⟨h', i, hadd⟩ := hL s.hid (mintTx now tid r)
    simp only [mintTxs, addTx, hadd]
    exact ih _ _

theorem checkMemos_true {s : State H} (h : MemoLimit s < 2 ^ 32) (reqs : List MintReq) :
    checkMemos s.cfg reqs = some true ↔ ∀ r ∈ reqs, ∀ b, r.memo = some b → b.length ≤ MemoLimit s := by
  induction reqs with
  | nil => simp [checkMemos]
  | cons r rs ih =>
    have hlim : ¬ USIZE ≤ s.cfg.maxMemo.getD defaultMaxMemo := Nat.not_le.2 h
    rw [List.forall_mem_cons, ← ih, checkMemos]
    generalize checkMemos s.cfg rs = x
    unfold checkMemo
    cases r.memo with
    | none => simp
    | some m =>
      simp only [hlim, if_false]
      by_cases hm : m.length ≤ s.cfg.maxMemo.getD defaultMaxMemo
      · rw [decide_eq_true hm]
        exact ⟨fun h => ⟨fun b hb => by cases hb; exact hm, h⟩, fun h => h.2⟩
      · rw [decide_eq_false hm]
        exact ⟨fun h => by simp at h, fun h => absurd (h.1 m rfl) hm⟩

theorem addMetadata_isSome {tid : Nat} (hid : tid < 2 ^ 64) (kvs : List (String × Value)) : ∀ (t : MetaTable),
    (addMetadata t tid kvs).isSome ↔ ∀ e ∈ kvs, e.2.inRange = true := by
  induction kvs with
  | nil => simp [addMetadata]
  | cons kv kvs ih =>
    obtain ⟨k, v⟩ := kv
    intro t
    have hd : decide (tid < U64) = true := decide_eq_true hid
    unfold addMetadata insertData
    rw [hd]
    cases hv : v.inRange with
    | false => simp [hv]
    | true => simp [hv, ih]

theorem mintMetadata_isSome (reqs : List MintReq) : ∀ {t : MetaTable} {tid : Nat}, tid + reqs.length ≤ 2 ^ 64 →
    ((mintMetadata t tid reqs).isSome ↔ ∀ r ∈ reqs, ∀ e ∈ r.metadata, e.2.inRange = true) := by
  induction reqs with
  | nil => simp [mintMetadata]
  | cons r rs ih =>
    intro t tid h
    simp only [List.length_cons] at h
    have ha := addMetadata_isSome (tid := tid) (by omega) r.metadata t
    unfold mintMetadata
    cases hx : addMetadata t tid r.metadata with
    | none =>
      rw [hx] at ha
      have hn : ¬ ∀ e ∈ r.metadata, e.2.inRange = true := fun h => by simpa using ha.2 h
      simp only [Option.isSome_none, List.forall_mem_cons]
      exact ⟨fun h => by simp at h, fun h => absurd h.1 hn⟩
    | some t' =>
      rw [hx] at ha
      dsimp only
      rw [ih (by omega), List.forall_mem_cons]
      exact ⟨fun h => ⟨ha.1 rfl, h⟩, fun h => h.2⟩

end Verif
