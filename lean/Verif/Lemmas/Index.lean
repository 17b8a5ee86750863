import Verif.Spec.Index
/-! # Lemmas about the index canister -/
namespace Verif

open Spec

/-! ## Entries -/

/-- The keys a block is pushed under. -/
def keysOf (parse : ParsePrincipal) (t : BlockType) (v : Value) : List IndexKey :=
  (extractAccounts parse t v).map .account ++ (.blockType t.name :: ((extractTokenId t v).map .tokenId).toList)

theorem addBlock_ok {parse : ParsePrincipal} {ix ix' : Index} {b : Block} (h : addBlock parse ix b = some (some ix')) :
    ∃ t, blockTypeOf b.data = some t ∧ b.id < U64 ∧ (∀ n, .tokenId n ∈ keysOf parse t b.data → n < U64) ∧
      ix' = (keysOf parse t b.data).foldl (fun ix k => pushBlock ix k b.id) ix := by
  unfold addBlock at h
  split at h
  · cases h
  rename_i t ht
  split at h
  · rename_i hid
    refine ⟨t, ht, hid, ?_⟩
    unfold keysOf
    rw [List.foldl_append, List.foldl_map]
    dsimp only at h
    cases htok : extractTokenId t b.data with
    | none =>
      rw [htok] at h
      dsimp only at h
      simp only [Option.some.injEq] at h
      simp [← h]
    | some n =>
      rw [htok] at h
      dsimp only at h
      split at h
      · rename_i hn
        simp only [Option.some.injEq] at h
        simpa [← h] using hn
      · cases h
  · cases h

theorem entry_push (ix : Index) (k k' : IndexKey) (id : Nat) :
    entry (pushBlock ix k id) k' = (if (k == k') = true then [id] else []) ++ entry ix k' := by
  unfold entry pushBlock
  rw [Map.get_set]
  split
  · rename_i h
    rw [Map.get_congr ix h]
    simp
  · simp

theorem entry_pushAll (ks : List IndexKey) (id : Nat) : ∀ (ix : Index) (k : IndexKey),
    entry (ks.foldl (fun ix k => pushBlock ix k id) ix) k = List.replicate (ks.countP (· == k)) id ++ entry ix k := by
  induction ks with
  | nil => intro ix k; simp
  | cons a ks ih =>
    intro ix k
    rw [List.foldl_cons, ih, entry_push, ← List.append_assoc, List.countP_cons]
    congr 1
    split
    · rw [List.replicate_succ']
    · simp

/-- How often a block is pushed under a key. -/
def hits (parse : ParsePrincipal) (b : Block) (k : IndexKey) : Nat :=
  match blockTypeOf b.data with
  | none => 0
  | some t => (keysOf parse t b.data).countP (· == k)

theorem entry_addBlock {parse : ParsePrincipal} {ix ix' : Index} {b : Block}
    (h : addBlock parse ix b = some (some ix')) (k : IndexKey) :
    entry ix' k = List.replicate (hits parse b k) b.id ++ entry ix k := by
  obtain ⟨t, ht, _, _, rfl⟩ := addBlock_ok h
  rw [entry_pushAll]
  simp [hits, ht]

/-- The entries of an index are exactly the pushes of the blocks added. -/
def IndexIs (parse : ParsePrincipal) (ix : Index) (added : List Block) : Prop :=
  (∀ k, entry ix k = (added.flatMap fun b => List.replicate (hits parse b k) b.id).reverse) ∧
  ∀ b ∈ added, (∃ t, blockTypeOf b.data = some t) ∧ b.id < U64 ∧ ∀ n, hits parse b (.tokenId n) ≠ 0 → n < U64

theorem IndexIs.add {parse : ParsePrincipal} {ix ix' : Index} {added : List Block} {b : Block}
    (h : IndexIs parse ix added) (hb : addBlock parse ix b = some (some ix')) : IndexIs parse ix' (added ++ [b]) := by
  refine ⟨fun k => ?_, fun c hc => ?_⟩
  · rw [entry_addBlock hb, h.1]
    simp [List.flatMap_append]
  · rcases List.mem_append.1 hc with hc | hc
    · exact h.2 c hc
    · rw [List.mem_singleton.1 hc]
      obtain ⟨t, ht, hid, hn, _⟩ := addBlock_ok hb
      refine ⟨⟨t, ht⟩, hid, fun n h => hn n ?_⟩
      simp only [hits, ht] at h
      obtain ⟨k, hk, hkn⟩ := List.countP_pos_iff.1 (Nat.pos_of_ne_zero h)
      cases k <;> simp [IndexKey.beq_def, IndexKey.same] at hkn
      exact hkn ▸ hk

theorem indexBlocks_spec {parse : ParsePrincipal} (bs : List Block) : ∀ {last : Nat} {ix : Index} {added : List Block} {r},
    indexBlocks parse last ix added bs = some r → IndexIs parse ix added →
    IndexIs parse r.2.1 r.2.2 ∧ ∃ n, n ≤ bs.length ∧ r.2.2 = added ++ bs.take n ∧
      (∀ b ∈ bs.take n, b.id < U64) ∧ (last + n < U64 → r.1 = last + n) ∧
      (n < bs.length → ∃ b, bs[n]? = some b ∧ blockTypeOf b.data = none) := by
  induction bs with
  | nil =>
    intro last ix added r h hi
    cases h
    exact ⟨hi, 0, by simp, by simp, by simp, by simp, by simp⟩
  | cons b bs ih =>
    intro last ix added r h hi
    unfold indexBlocks at h
    split at h
    · cases h
    · cases h
      rename_i hb
      refine ⟨hi, 0, by simp, by simp, by simp, by simp, fun _ => ⟨b, rfl, ?_⟩⟩
      unfold addBlock at hb
      split at hb
      · assumption
      · split at hb
        · dsimp only at hb
          split at hb
          · cases hb
          · split at hb <;> cases hb
        · cases hb
    · rename_i ix' hb
      obtain ⟨h1, n, h2, h3, h4, h5, h6⟩ := ih h (hi.add hb)
      refine ⟨h1, n + 1, by simp; omega, ?_, ?_, ?_, ?_⟩
      · rw [h3]; simp
      · obtain ⟨_, _, hid, _⟩ := addBlock_ok hb
        simp only [List.take_succ_cons, List.mem_cons]
        intro c hc
        rcases hc with rfl | hc
        · exact hid
        · exact h4 c hc
      · intro hu
        have : u64add last 1 = last + 1 := by unfold u64add; exact Nat.mod_eq_of_lt (by omega)
        rw [h5 (by rw [this]; omega), this]; omega
      · intro hn
        rw [List.length_cons] at hn
        obtain ⟨c, hc, hc'⟩ := h6 (by omega)
        exact ⟨c, by simpa using hc, hc'⟩

/-! ## Hits against the specification -/

theorem blockTypeOf_eq (b : Block) : blockTypeOf b.data = (match blockField b "btype" with
    | some (.text s) => BlockType.parse s | _ => none) := by
  unfold blockTypeOf blockField fieldOf
  cases b.data <;> rfl

theorem parse_iff {s : String} {t : BlockType} : BlockType.parse s = some t ↔ lowercase s = t.name := by
  unfold BlockType.parse
  dsimp only
  constructor
  · intro h
    repeat' split at h
    all_goals first | (cases h; assumption) | cases h
  · intro h
    rw [h]
    cases t <;> decide

theorem blockType_text {b : Block} {t : BlockType} : blockTypeOf b.data = some t ↔ typeText b = some t.name := by
  rw [blockTypeOf_eq]
  unfold typeText
  cases blockField b "btype" with
  | none => simp
  | some v =>
    cases v with
    | text s => exact parse_iff.trans Option.some_inj.symm
    | _ => simp

theorem typeName_inj {t u : BlockType} (h : t.name = u.name) : t = u := by
  cases t <;> cases u <;> first | rfl | (simp [BlockType.name] at h)

theorem extractAccounts_eq (parse : ParsePrincipal) (t : BlockType) (b : Block) :
    extractAccounts parse t b.data = (accountFields t).filterMap (partyIn parse b) := by
  unfold extractAccounts
  have key : ∀ (tx : List (String × Value)), blockField b "tx" = some (.map tx) → ∀ (l : List String) (acc : List Account),
      l.foldl (fun acc k => pushField parse tx k acc) acc = acc ++ l.filterMap (partyIn parse b) := by
    intro tx htx l
    induction l with
    | nil => intro acc; simp
    | cons k l ih =>
      intro acc
      rw [List.foldl_cons, ih]
      have : pushField parse tx k acc = acc ++ (partyIn parse b k).toList := by
        unfold pushField partyIn txField fieldOf parseAccount
        rw [htx]
        dsimp only
        cases (⟨tx⟩ : Map String Value).get k with
        | none => simp
        | some v =>
          cases v with
          | text s => dsimp only; cases parse s <;> simp
          | _ => simp
      rw [this, List.filterMap_cons]
      cases partyIn parse b k <;> simp
  have hno : (∀ tx, blockField b "tx" ≠ some (.map tx)) → ∀ l : List String, l.filterMap (partyIn parse b) = [] := by
    intro h l
    rw [List.filterMap_eq_nil_iff]
    intro k _
    unfold partyIn txField
    split
    · rename_i s hs
      split at hs
      · rename_i tx htx; exact absurd htx (h tx)
      · cases hs
    · rfl
  cases hd : b.data with
  | map m =>
    dsimp only
    have hf : fieldOf m "tx" = blockField b "tx" := by unfold fieldOf blockField; rw [hd]
    rw [hf]
    split
    · rename_i tx htx
      rw [key tx htx, List.nil_append]
    · rename_i hne
      exact (hno hne _).symm
  | _ =>
    refine (hno ?_ _).symm
    intro tx htx
    simp [blockField, hd] at htx

theorem extractTokenId_eq (t : BlockType) (b : Block) :
    extractTokenId t b.data = if t = .transferFrom ∨ t = .approveColl ∨ t = .revokeColl then none else tokenIn b := by
  unfold extractTokenId tokenIn txField blockField fieldOf
  cases hd : b.data with
  | map m =>
    dsimp only
    have : (match (⟨m⟩ : Map String Value).get "tx" with
        | some (.map tx) => match (⟨tx⟩ : Map String Value).get "tid" with | some (.nat n) => some n | _ => none
        | _ => none) =
      match (match (⟨m⟩ : Map String Value).get "tx" with
        | some (.map tx) => (⟨tx⟩ : Map String Value).get "tid"
        | _ => none) with
        | some (.nat n) => some n | _ => (none : Option Nat) := by
      cases (⟨m⟩ : Map String Value).get "tx" with
      | none => rfl
      | some v => cases v <;> rfl
    cases t <;> simp <;> exact this
  | _ => simp

theorem hits_of_type {parse : ParsePrincipal} {b : Block} {t : BlockType} (ht : blockTypeOf b.data = some t) (k : IndexKey) :
    hits parse b k = match k with
      | .account a => ((accountFields t).filterMap (partyIn parse b)).countP (· == a)
      | .blockType n => if t.name = n then 1 else 0
      | .tokenId n => if extractTokenId t b.data = some n then 1 else 0 := by
  unfold hits keysOf
  rw [ht]
  dsimp only
  rw [List.countP_append, List.countP_map, List.countP_cons, extractAccounts_eq]
  cases k with
  | account a =>
    have h1 : ((fun x : IndexKey => x == .account a) ∘ IndexKey.account) = fun x => x == a := by funext x; rfl
    have h2 : (IndexKey.blockType t.name == .account a) = false := rfl
    rw [h1, h2]
    cases extractTokenId t b.data <;> simp [IndexKey.beq_def, IndexKey.same]
  | blockType n =>
    have h1 : ((fun x : IndexKey => x == .blockType n) ∘ IndexKey.account) = fun x => false := by funext x; rfl
    rw [h1]
    cases extractTokenId t b.data <;> simp [IndexKey.beq_def, IndexKey.same]
  | tokenId n =>
    have h1 : ((fun x : IndexKey => x == .tokenId n) ∘ IndexKey.account) = fun x => false := by funext x; rfl
    rw [h1]
    cases extractTokenId t b.data <;> simp [List.countP_cons, IndexKey.beq_def, IndexKey.same]

theorem hits_sound {parse : ParsePrincipal} {b : Block} {k : IndexKey} (h : hits parse b k ≠ 0) :
    involves parse b k = true := by
  cases ht : blockTypeOf b.data with
  | none => simp [hits, ht] at h
  | some t =>
    rw [hits_of_type ht] at h
    cases k with
    | account a =>
      dsimp only at h
      obtain ⟨x, hx, hxa⟩ := List.countP_pos_iff.1 (Nat.pos_of_ne_zero h)
      obtain ⟨f, hf, hfx⟩ := List.mem_filterMap.1 hx
      refine List.any_eq_true.2 ⟨x, List.mem_filterMap.2 ⟨f, ?_, hfx⟩, hxa⟩
      cases t <;> simp [accountFields] at hf ⊢ <;> grind
    | blockType n =>
      dsimp only at h
      have : t.name = n := by
        by_cases hn : t.name = n
        · exact hn
        · rw [if_neg hn] at h; exact absurd rfl h
      subst this
      simp [involves, blockType_text.1 ht]
    | tokenId n =>
      dsimp only at h
      have : extractTokenId t b.data = some n := by
        by_cases hn : extractTokenId t b.data = some n
        · exact hn
        · rw [if_neg hn] at h; exact absurd rfl h
      rw [extractTokenId_eq] at this
      split at this
      · cases this
      · simp [involves, this]

theorem countP_distinct {l : List Account} (h : l.Pairwise fun x y => (x == y) = false) (a : Account) :
    l.countP (· == a) = if l.any (· == a) then 1 else 0 := by
  induction l with
  | nil => simp
  | cons x l ih =>
    rw [List.pairwise_cons] at h
    rw [List.countP_cons, List.any_cons]
    cases hx : (x == a) with
    | false => simpa using ih h.2
    | true =>
      have : l.countP (· == a) = 0 := by
        rw [List.countP_eq_zero]
        intro y hy hya
        have h1 := h.1 y hy
        have : (x == y) = true := BEq.trans hx (BEq.symm hya)
        rw [this] at h1; cases h1
      simp [this]

theorem hits_account {parse : ParsePrincipal} {b : Block} {t : BlockType} (ht : blockTypeOf b.data = some t)
    (hp : PlainParties parse b) (a : Account) :
    hits parse b (.account a) = if involves parse b (.account a) then 1 else 0 := by
  have hname := blockType_text.1 ht
  rw [hits_of_type ht, show involves parse b (.account a) = (parties parse b).any (· == a) from rfl,
    ← countP_distinct hp.distinct]
  unfold parties
  have h1 := hp.noFrom
  have h2 := hp.noTo t.name hname
  have h3 := hp.noSpender t.name hname
  rw [hname] at h1
  cases t <;> simp [BlockType.name] at h1 h2 h3 <;>
    simp [accountFields, List.filterMap_cons, h1, h2, h3] <;>
    (cases partyIn parse b "from" <;> cases partyIn parse b "to" <;> cases partyIn parse b "spender" <;>
      simp [List.countP_cons] <;> omega)

theorem hits_type {parse : ParsePrincipal} {b : Block} {t : BlockType} (ht : blockTypeOf b.data = some t) (n : String) :
    hits parse b (.blockType n) = if involves parse b (.blockType n) then 1 else 0 := by
  rw [hits_of_type ht]
  simp [involves, blockType_text.1 ht]

theorem hits_token {parse : ParsePrincipal} {b : Block} {t : BlockType} (ht : blockTypeOf b.data = some t)
    (hp : PlainToken b) (n : Nat) :
    hits parse b (.tokenId n) = if involves parse b (.tokenId n) then 1 else 0 := by
  rw [hits_of_type ht, show involves parse b (.tokenId n) = decide (tokenIn b = some n) from rfl]
  dsimp only
  rw [extractTokenId_eq]
  have := hp t.name (blockType_text.1 ht)
  split
  · rename_i h
    rw [this (by rcases h with h | h | h <;> subst h <;> decide)]
    simp
  · simp

theorem hits_eq {parse : ParsePrincipal} {b : Block} {k : IndexKey}
    (h : involves parse b k = true → hits parse b k = if involves parse b k then 1 else 0) :
    hits parse b k = if involves parse b k then 1 else 0 := by
  by_cases hv : involves parse b k = true
  · exact h hv
  · rw [if_neg hv]
    by_cases h0 : hits parse b k = 0
    · exact h0
    · exact absurd (hits_sound h0) hv

theorem hits_times {parse : ParsePrincipal} {b : Block} {t : BlockType} (ht : blockTypeOf b.data = some t) (k : IndexKey) :
    hits parse b k = timesRead parse b k := by
  have hname := blockType_text.1 ht
  rw [hits_of_type ht]
  cases k with
  | account a =>
    simp only [timesRead, hname, Option.getD_some, List.countP_eq_length_filter]
    cases t <;> rfl
  | blockType n => simp [timesRead, hname]
  | tokenId n =>
    simp only [timesRead, hname]
    rw [extractTokenId_eq]
    cases t <;> simp [BlockType.name]

theorem flatMap_congr_mem {α β : Type} {f g : α → List β} {l : List α} (h : ∀ a ∈ l, f a = g a) :
    l.flatMap f = l.flatMap g := by
  induction l with
  | nil => rfl
  | cons a l ih =>
    rw [List.flatMap_cons, List.flatMap_cons, h a List.mem_cons_self, ih fun b hb => h b (List.mem_cons_of_mem _ hb)]

theorem entry_eq_entryOf {parse : ParsePrincipal} {ix : Index} {added : List Block} (h : IndexIs parse ix added)
    {k : IndexKey} (hk : ∀ b ∈ added, hits parse b k = if involves parse b k then 1 else 0) :
    entry ix k = entryOf parse added k := by
  rw [h.1, entryOf]
  congr 1
  clear h
  induction added with
  | nil => rfl
  | cons b bs ih =>
    rw [List.flatMap_cons, List.filter_cons, hk b List.mem_cons_self, ih fun c hc => hk c (List.mem_cons_of_mem _ hc)]
    split <;> simp

end Verif
