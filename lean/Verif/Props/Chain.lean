import Verif.Model.Consent
import Verif.Lemmas.Chain
import Verif.Props.Transfers
import Verif.Props.Index
/-!
# The index over the records of the collection (C72, C73)

`Publishes parse s.log L` says that the chain `L` the index reads shows the records
of the collection in state `s`; `publishes_encode` below shows that such a chain
exists for every list of records.
-/
namespace Verif
open Spec

variable {H : Type}

/-! ## A block format -/

/-- Texts for principals that can be read back, and a word that is no principal. -/
structure Texts where
  text : Principal → String
  parse : ParsePrincipal
  read : ∀ p, parse (text p) = some p
  noise : parse "-" = none

/-- The text of an account in a block. -/
def Texts.account (T : Texts) (a : Account) : String :=
  if a.sub.getD (List.replicate 32 0) = List.replicate 32 0 then T.text a.owner else "-"

private def field (k : String) : Option Value → List (String × Value)
  | some v => [(k, v)]
  | none => []

/-- A block for a record. -/
def Texts.encode (T : Texts) (r : Tx) : Value :=
  .map [("btype", .text r.op.name), ("tx", .map (
    field "from" (r.from_.map fun a => .text (T.account a)) ++ field "spender" (r.spender.map fun a => .text (T.account a)) ++
    field "tid" (r.tid.map .nat) ++ field "to" (r.to_.map fun a => .text (T.account a))))]

/-- The chain of these blocks. -/
def Texts.chain (T : Texts) (log : List Tx) : Chain := fun i =>
  match log[i]? with
  | some r => T.encode r
  | none => .map []

private theorem field_ne {k k' : String} (h : k ≠ k') (v : Option Value) (rest : List (String × Value)) :
    (⟨field k v ++ rest⟩ : Map String Value).get k' = (⟨rest⟩ : Map String Value).get k' := by
  cases v with
  | none => rfl
  | some v =>
    show Map.getL ((k, v) :: rest) k' = Map.getL rest k'
    simp [Map.getL, h]

private theorem field_eq (k : String) (v : Option Value) (rest : List (String × Value))
    (h : (⟨rest⟩ : Map String Value).get k = none) :
    (⟨field k v ++ rest⟩ : Map String Value).get k = v := by
  cases v with
  | none => exact h
  | some v =>
    show Map.getL ((k, v) :: rest) k = some v
    simp [Map.getL]

private theorem field_last {k k' : String} (h : k ≠ k') (v : Option Value) :
    (⟨field k v⟩ : Map String Value).get k' = none := by
  have := field_ne h v []
  rw [List.append_nil] at this
  rw [this]; rfl

private theorem encode_field (T : Texts) (r : Tx) (i : Nat) (k : String) :
    txField ⟨i, T.encode r⟩ k = (⟨field "from" (r.from_.map fun a => .text (T.account a)) ++
      (field "spender" (r.spender.map fun a => .text (T.account a)) ++
      (field "tid" (r.tid.map .nat) ++ field "to" (r.to_.map fun a => .text (T.account a))))⟩ : Map String Value).get k := by
  rw [← List.append_assoc, ← List.append_assoc]
  rfl

private theorem encode_from (T : Texts) (r : Tx) (i : Nat) :
    txField ⟨i, T.encode r⟩ "from" = r.from_.map fun a => .text (T.account a) := by
  rw [encode_field, field_eq _ _ _ (by
    rw [field_ne (by decide), field_ne (by decide), field_last (by decide)])]

private theorem encode_spender (T : Texts) (r : Tx) (i : Nat) :
    txField ⟨i, T.encode r⟩ "spender" = r.spender.map fun a => .text (T.account a) := by
  rw [encode_field, field_ne (by decide), field_eq _ _ _ (by rw [field_ne (by decide), field_last (by decide)])]

private theorem encode_tid (T : Texts) (r : Tx) (i : Nat) : txField ⟨i, T.encode r⟩ "tid" = r.tid.map .nat := by
  rw [encode_field, field_ne (by decide), field_ne (by decide), field_eq _ _ _ (by rw [field_last (by decide)])]

private theorem encode_to (T : Texts) (r : Tx) (i : Nat) :
    txField ⟨i, T.encode r⟩ "to" = r.to_.map fun a => .text (T.account a) := by
  rw [encode_field, field_ne (by decide), field_ne (by decide), field_ne (by decide)]
  have := field_eq "to" (r.to_.map fun a => Value.text (T.account a)) [] rfl
  rwa [List.append_nil] at this

private theorem party_text (T : Texts) {b : Block} {k : String} {o : Option Account}
    (h : txField b k = o.map fun a => .text (T.account a)) : partyIn T.parse b k = o.bind shownAccount := by
  unfold partyIn
  rw [h]
  cases o with
  | none => rfl
  | some a =>
    simp only [Option.map_some, Option.bind_some, Texts.account, shownAccount]
    split
    · rw [T.read]; rfl
    · rw [T.noise]; rfl

/-- Every list of records is published by some chain. -/
theorem publishes_encode (T : Texts) (log : List Tx) : Publishes T.parse log (T.chain log) := by
  have hc : ∀ i r, log[i]? = some r → T.chain log i = T.encode r := by
    intro i r h
    simp only [Texts.chain, h]
  refine ⟨?_, ?_, ?_, ?_, ?_⟩ <;> intro i r h <;> rw [hc i r h]
  · show some (lowercase r.op.name) = some r.op.name
    cases r.op <;> decide
  · unfold tokenIn
    rw [encode_tid]
    cases r.tid <;> rfl
  · exact party_text T (encode_from T r i)
  · exact party_text T (encode_to T r i)
  · exact party_text T (encode_spender T r i)

/-! ## C72: the index gets over every record -/

/-- **C72.** Every record of the collection is of a type the collection announces and
the index knows. -/
theorem C72_announced (r : Tx) : r.op.name ∈ supportedBlocks ∧ r.op.name ∈ knownTypes := by
  cases r.op <;> decide

/-- **C72.** Whenever the update job of the index completes over the records of a
collection, it is past the 100 blocks it started with, or past all blocks there were
when it started: no record stops it. -/
theorem C72_progress {E : Env H} {s : State H} (_ : Reachable E s) {parse : ParsePrincipal} {L : Chain}
    (hp : Publishes parse s.log L) {t t₁ t₂ i now : Nat} {ix ix₁ : Ix} {ans : IxAnswer}
    (h : Run parse L NoOverlap 0 Ix.fresh t ix) (hok : NoOverlap ix .tick) (hlast : ix.last + 100 < 2 ^ 64)
    (hw : (ixStep parse ix .tick).2 = .waiting i)
    (h1 : Run parse L NoOverlap t (ixStep parse ix .tick).1 t₁ ix₁) (ht : t₁ ≤ t₂)
    (hm : HonestMsg L t₂ ix₁ (.resume now i ans)) (hlive : (ix₁.tasks.get i).isSome)
    (hdone : (ixStep parse ix₁ (.resume now i ans)).2 = .none) (htip : t₂ ≤ s.log.length) :
    min (ix.last + 100) t ≤ (ixStep parse ix₁ (.resume now i ans)).1.last := by
  refine C43_progress h hok hlast hw h1 ht hm hlive hdone fun j _ _ hj => ?_
  have hr : s.log[j]? = some s.log[j] := List.getElem?_eq_getElem (by omega)
  exact ⟨_, (C72_announced s.log[j]).2, hp.type_ j _ hr⟩

/-! ## C84: what is announced -/

/-- **C84.** The standards announced are these five, each once, with the address of a
document of that name. -/
theorem C84_standards :
    (∀ name, name ∈ supportedStandards.map Prod.fst ↔ name ∈ ["ICRC-3", "ICRC-7", "ICRC-10", "ICRC-21", "ICRC-37"]) ∧
    (supportedStandards.map Prod.fst).Nodup ∧
    ∀ e ∈ supportedStandards, ∃ before after, e.2 = before ++ "/" ++ e.1 ++ "/" ++ after := by
  refine ⟨fun name => ?_, by decide, ?_⟩
  · simp only [supportedStandards, List.map_cons, List.map_nil, List.mem_cons, List.not_mem_nil, or_false]
    constructor
    · rintro (h | h | h | h | h) <;> simp [h]
    · rintro (h | h | h | h | h) <;> simp [h]
  · intro e he
    simp only [supportedStandards, List.mem_cons, List.not_mem_nil, or_false] at he
    rcases he with rfl | rfl | rfl | rfl | rfl
    · exact ⟨"https://github.com/dfinity/ICRC/blob/main/ICRCs", "ICRC-37.md", by decide⟩
    · exact ⟨"https://github.com/dfinity/ICRC-1/blob/main/standards", "README.md", by decide⟩
    · exact ⟨"https://github.com/dfinity/ICRC/blob/main/ICRCs", "ICRC-7.md", by decide⟩
    · exact ⟨"https://github.com/dfinity/ICRC/blob/main/ICRCs", "ICRC-10.md", by decide⟩
    · exact ⟨"https://github.com/dfinity/wg-identity-authentication/blob/main/topics", "icrc_21_consent_msg.md", by decide⟩

/-- A history with a record of every kind. -/
def Demo.allKinds : List Msg :=
  [Demo.mintMsg, .call [1] (Demo.ms 200) (.transfer [{ to_ := Demo.bob, tid := 1 }]),
    .call [7] (Demo.ms 300) (.updateNftMetadata 2 [("k", .nat 2)]),
    .call [1] (Demo.ms 400) (.approveTokens [⟨2, { spender := Demo.carol, createdAt := Demo.ms 400 }⟩]),
    .call [1] (Demo.ms 500) (.approveCollection [{ spender := Demo.carol, createdAt := Demo.ms 500 }]),
    .call [1] (Demo.ms 600) (.revokeTokens [{ tid := 2 }]), .call [1] (Demo.ms 700) (.revokeCollection [{}]),
    .call [1] (Demo.ms 800) (.transferFrom [{ from_ := Demo.alice, to_ := Demo.bob, tid := 2 }]),
    .call [2] (Demo.ms 900) (.burn 3)]

example : ((run Demo.env Demo.s0 Demo.allKinds).log.map fun r => r.op.name) =
    ["7mint", "7mint", "7mint", "7xfer", "7update_token", "37approve", "37approve_coll", "37revoke", "37revoke_coll", "37xfer",
      "7burn"] := by
  decide

/-- **C84.** The block types announced are exactly the types of the records that
histories produce, each announced once. -/
theorem C84_block_types : supportedBlocks.Nodup ∧
    ∀ name, name ∈ supportedBlocks ↔ ∃ (s : State Nat) (r : Tx), Reachable Demo.env s ∧ r ∈ s.log ∧ r.op.name = name := by
  refine ⟨by decide, fun name => ⟨fun h => ?_, ?_⟩⟩
  · have all : ∀ b ∈ supportedBlocks, b ∈ (run Demo.env Demo.s0 Demo.allKinds).log.map fun r => r.op.name := by decide
    obtain ⟨r, hr, hn⟩ := List.mem_map.1 (all name h)
    exact ⟨_, r, Demo.reach _, hr, hn⟩
  · rintro ⟨s, r, -, -, rfl⟩
    exact (C72_announced r).1

/-! ## C73: the index answers with the records of the collection -/

private theorem entry_blocks {parse : ParsePrincipal} {L : Chain} {t : Nat} {ix : Ix}
    (h : Run parse L NoOverlap 0 Ix.fresh t ix) (k : IndexKey) :
    entry ix.index k = ((List.range ix.last).flatMap fun i => List.replicate (hits parse ⟨i, L i⟩ k) i).reverse := by
  rw [(Run.indexIs h (indexIs_fresh parse)).1 k, (C43_once_partial h).1, List.flatMap_map]

private theorem mem_entry {parse : ParsePrincipal} {L : Chain} {t : Nat} {ix : Ix}
    (h : Run parse L NoOverlap 0 Ix.fresh t ix) (k : IndexKey) (i : Nat) :
    i ∈ entry ix.index k ↔ i < ix.last ∧ hits parse ⟨i, L i⟩ k ≠ 0 := by
  rw [entry_blocks h, List.mem_reverse, List.mem_flatMap]
  constructor
  · rintro ⟨j, hj, hij⟩
    rw [List.mem_replicate] at hij
    obtain ⟨h1, rfl⟩ := hij
    exact ⟨List.mem_range.1 hj, h1⟩
  · rintro ⟨h1, h2⟩
    exact ⟨i, List.mem_range.2 h1, List.mem_replicate.2 ⟨h2, rfl⟩⟩

private theorem record_at {log : List Tx} {i : Nat} (h : i < log.length) : ∃ r, log[i]? = some r :=
  ⟨_, List.getElem?_eq_getElem h⟩

/-- **C73** for accounts, the part that holds: the index finds, under a default
account, exactly the indexed records of the collection that name it as sender,
recipient or spender, except that the spender of a collection approval is left out.
Missing: these spenders, repetitions (`C42_violated_repeat`), and accounts with a
subaccount (`C42_subaccount`). -/
theorem C73_account_partial {E : Env H} {s : State H} (hr : Reachable E s) {parse : ParsePrincipal} {L : Chain}
    (hp : Publishes parse s.log L) {t : Nat} {ix : Ix} (h : Run parse L NoOverlap 0 Ix.fresh t ix)
    (ht : t ≤ s.log.length) {a : Account} (ha : DefaultAccount a) (i : Nat) :
    i ∈ entry ix.index (.account a) ↔ i < ix.last ∧ ∃ r, s.log[i]? = some r ∧
      ((r.op ≠ .approveColl ∧ namesAccount r a) ∨ ∃ p, r.from_ = some p ∧ SameAccount p a) := by
  rw [mem_entry h]
  have hle := (C43_once_partial h).2.2
  constructor
  · rintro ⟨h1, h2⟩
    obtain ⟨r, hri⟩ := record_at (log := s.log) (i := i) (by omega)
    exact ⟨h1, r, hri, (hits_record_account hp hri (hr.shaped r (List.mem_of_getElem? hri)) ha).1 h2⟩
  · rintro ⟨h1, r, hri, h2⟩
    exact ⟨h1, (hits_record_account hp hri (hr.shaped r (List.mem_of_getElem? hri)) ha).2 h2⟩

/-- **C73** for tokens, the part that holds: under a token the index has exactly the
indexed records about it, each once, newest first, except the transfers made by
spenders. Missing: those (`C73_violated`). -/
theorem C73_token_partial {E : Env H} {s : State H} (hr : Reachable E s) {parse : ParsePrincipal} {L : Chain}
    (hp : Publishes parse s.log L) {t : Nat} {ix : Ix} (h : Run parse L NoOverlap 0 Ix.fresh t ix)
    (ht : t ≤ s.log.length) (n : Nat) :
    entry ix.index (.tokenId n) =
      ((List.range ix.last).filter fun i =>
        (s.log[i]?).any fun r => decide (r.tid = some n) && decide (r.op ≠ .xferFrom)).reverse := by
  rw [entry_blocks h]
  have hle := (C43_once_partial h).2.2
  congr 1
  have key : ∀ l : List Nat, (∀ i ∈ l, i < s.log.length) →
      (l.flatMap fun i => List.replicate (hits parse ⟨i, L i⟩ (.tokenId n)) i) = l.filter fun i =>
        (s.log[i]?).any fun r => decide (r.tid = some n) && decide (r.op ≠ .xferFrom) := by
    intro l
    induction l with
    | nil => intro _; rfl
    | cons i l ih =>
      intro hl
      obtain ⟨r, hri⟩ := record_at (log := s.log) (hl i (List.mem_cons_self ..))
      rw [List.flatMap_cons, ih fun j hj => hl j (List.mem_cons_of_mem _ hj),
        hits_record_token hp hri (hr.shaped r (List.mem_of_getElem? hri)), List.filter_cons, hri]
      by_cases hc : r.tid = some n ∧ r.op ≠ .xferFrom
      · simp [hc]
      · rw [if_neg hc, if_neg]
        · rfl
        · simpa using hc
  exact key _ fun i hi => by have := List.mem_range.1 hi; omega

/-- **C73** for block types: under a type the index has exactly the indexed records of
that kind, each once, newest first. -/
theorem C73_type {E : Env H} {s : State H} (_ : Reachable E s) {parse : ParsePrincipal} {L : Chain}
    (hp : Publishes parse s.log L) {t : Nat} {ix : Ix} (h : Run parse L NoOverlap 0 Ix.fresh t ix)
    (ht : t ≤ s.log.length) (o : Op) :
    entry ix.index (.blockType o.name) =
      ((List.range ix.last).filter fun i => (s.log[i]?).any fun r => decide (r.op = o)).reverse := by
  have hle := (C43_once_partial h).2.2
  rw [C42_chain_partial h (.blockType o.name) trivial]
  congr 1
  refine List.filter_congr fun i hi => ?_
  obtain ⟨r, hri⟩ := record_at (log := s.log) (i := i) (by have := List.mem_range.1 hi; omega)
  simp only [involves, hp.type_ i r hri, hri, Option.any_some, Option.some.injEq]
  cases r.op <;> cases o <;> decide

private theorem last_change (log : List Tx) : ∀ {k : Nat} {a : Account}, replay log k = some a →
    ∃ (i : Nat) (r : Tx), log[i]? = some r ∧ r.tid = some k ∧ r.to_ = some a ∧ changesOwner r ∧ r.op ≠ .burn ∧
      ∀ (j : Nat) (r' : Tx), i < j → log[j]? = some r' → r'.tid = some k → ¬ changesOwner r' := by
  have key : ∀ (log : List Tx), ∀ {k : Nat} {a : Account}, replay log.reverse k = some a →
    ∃ (i : Nat) (r : Tx), log.reverse[i]? = some r ∧ r.tid = some k ∧ r.to_ = some a ∧ changesOwner r ∧ r.op ≠ .burn ∧
      ∀ (j : Nat) (r' : Tx), i < j → log.reverse[j]? = some r' → r'.tid = some k → ¬ changesOwner r' := by
    intro log
    induction log with
    | nil => intro k a h; simp [replay] at h
    | cons x log ih =>
      intro k a h
      rw [List.reverse_cons, replay_append, List.foldl_cons, List.foldl_nil] at h
      by_cases hx : x.tid = some k ∧ changesOwner x
      · obtain ⟨hx1, hx2⟩ := hx
        refine ⟨log.reverse.length, x, by simp, hx1, ?_, hx2, ?_, ?_⟩
        · rcases hx2 with ho | ho | ho | ho <;> simp [applyTx, ho, hx1] at h <;> exact h
        · intro ho; simp [applyTx, ho, hx1] at h
        · intro j r' hj hr'
          rw [List.reverse_cons, List.getElem?_eq_none (by rw [List.length_append, List.length_singleton]; omega)] at hr'
          cases hr'
      · have h' : replay log.reverse k = some a := by
          rw [← h]
          by_cases hx1 : x.tid = some k
          · have hx2 : ¬ changesOwner x := fun hc => hx ⟨hx1, hc⟩
            simp only [changesOwner, not_or] at hx2
            rw [applyTx_quiet ⟨hx2.2.1, hx2.2.2.1, hx2.2.2.2⟩ hx2.1]
          · rw [applyTx_other hx1]
        obtain ⟨i, r, h1, h2, h3, h4, h5, h6⟩ := ih h'
        have hi : i < log.reverse.length := (List.getElem?_eq_some_iff.1 h1).1
        refine ⟨i, r, ?_, h2, h3, h4, h5, ?_⟩
        · rw [List.reverse_cons, List.getElem?_append_left hi]; exact h1
        · intro j r' hj hr' ht hc
          rw [List.reverse_cons] at hr'
          by_cases hjl : j < log.reverse.length
          · rw [List.getElem?_append_left hjl] at hr'
            exact h6 j r' hj hr' ht hc
          · rw [List.getElem?_append_right (by omega)] at hr'
            have hx' : r' = x := by
              have := List.mem_of_getElem? hr'
              simpa using this
            subst hx'
            exact hx ⟨ht, hc⟩
  intro k a h
  have := key log.reverse (k := k) (a := a) (by rw [List.reverse_reverse]; exact h)
  rwa [List.reverse_reverse] at this

/-- **C73.** The owner of a token, if a default account, finds in the index the record
that gave them the token, as soon as it is indexed: the mint or transfer of the token
to them after which nothing else changed its owner. -/
theorem C73_owner {E : Env H} {s : State H} (hr : Reachable E s) {parse : ParsePrincipal} {L : Chain}
    (hp : Publishes parse s.log L) {t : Nat} {ix : Ix} (h : Run parse L NoOverlap 0 Ix.fresh t ix)
    (ht : t ≤ s.log.length) {tid : Nat} {a : Account} (hown : Owner s tid = some a) (ha : DefaultAccount a) :
    ∃ i r, s.log[i]? = some r ∧ r.tid = some tid ∧ r.to_ = some a ∧ (r.op = .mint ∨ r.op = .xfer ∨ r.op = .xferFrom) ∧
      (∀ j r', i < j → s.log[j]? = some r' → r'.tid = some tid → ¬ changesOwner r') ∧
      (i < ix.last → i ∈ entry ix.index (.account a)) := by
  have hlt : tid < s.lastId := by
    obtain ⟨t, ht, _⟩ := Option.map_eq_some_iff.1 hown
    exact hr.tokInv.fresh tid t ht
  rw [C12_replay_partial hr hlt] at hown
  obtain ⟨i, r, h1, h2, h3, h4, h5, h6⟩ := last_change s.log hown
  have h4' : r.op = .mint ∨ r.op = .xfer ∨ r.op = .xferFrom := by
    rcases h4 with h | h | h | h
    · exact .inl h
    · exact .inr (.inl h)
    · exact .inr (.inr h)
    · exact absurd h h5
  refine ⟨i, r, h1, h2, h3, h4', h6, fun hi => ?_⟩
  refine (C73_account_partial hr hp h ht ha i).2 ⟨hi, r, h1, .inl ⟨?_, a, .inr (.inl h3), rfl, rfl⟩⟩
  rcases h4' with ho | ho | ho <;> rw [ho] <;> decide

/-! ## A collection and its index -/

namespace ChainDemo

/-- Texts of principals: a letter, then their bytes. -/
def texts : Texts where
  text p := String.ofList ('p' :: p.map fun b => Char.ofNat b.toNat)
  parse s := match s.toList with
    | 'p' :: cs => some (cs.map fun c => UInt8.ofNat c.toNat)
    | _ => none
  read p := by
    rw [String.toList_ofList]
    show some ((p.map fun b => Char.ofNat b.toNat).map fun c => UInt8.ofNat c.toNat) = some p
    rw [List.map_map]
    congr 1
    conv => rhs; rw [← List.map_id p]
    refine List.map_congr_left fun b _ => ?_
    have hb := b.toNat_lt
    have : (Char.ofNat b.toNat).toNat = b.toNat := by
      have hv : b.toNat.isValidChar := .inl (by omega)
      simp [Char.ofNat, hv, Char.toNat, Char.ofNatAux]
    simp [this]
  noise := by decide

/-- Three tokens are minted; alice lets carol take token 2; carol does. -/
def coll : State Nat := run Demo.env Demo.s0 [Demo.mintMsg, Demo.approveMsg, Demo.takeMsg]

theorem coll_reach : Reachable Demo.env coll := Demo.reach _

/-- Its chain. -/
def chain : Chain := texts.chain coll.log

theorem published : Publishes texts.parse coll.log chain := publishes_encode texts coll.log

/-- The index after it has fetched all five blocks. -/
def ix1 : Ix := (ixStep texts.parse Ix.fresh .tick).1
def ix5 : Ix := (ixStep texts.parse ix1 (.resume 5 0 (.ledger ((List.range 5).map fun i => ⟨i, chain i⟩) []))).1

set_option maxRecDepth 20000

theorem get1 : ix1.tasks.get 0 = some (.update 0, IxDemo.f1) := by decide

theorem run5 : Run texts.parse chain NoOverlap 0 Ix.fresh 5 ix5 := by
  refine .step (t₁ := 0) (s₁ := ix1) (.step .refl (Nat.le_refl _) trivial (fun _ i last f h => by cases h)) (t₂ := 5) (by decide)
    (IxDemo.honest get1 ?_) (IxDemo.noOverlap (by decide))
  exact IxDemo.ledgerHonest (chunk := List.range 100) (rest := []) rfl (by decide) (by decide)

theorem facts : coll.log.length = 5 ∧ ix5.last = 5 ∧ Owner coll 2 = some Demo.carol := by decide

end ChainDemo

set_option maxRecDepth 20000 in
/-- **C73 is violated**: carol, a spender, moved token 2 to themselves, the record is
indexed, but the history of the token in the index does not show it. -/
theorem C73_violated : Reachable Demo.env ChainDemo.coll ∧
    Publishes ChainDemo.texts.parse ChainDemo.coll.log ChainDemo.chain ∧
    Run ChainDemo.texts.parse ChainDemo.chain NoOverlap 0 Ix.fresh 5 ChainDemo.ix5 ∧ ChainDemo.ix5.last = 5 ∧
    (∃ r, ChainDemo.coll.log[4]? = some r ∧ r.op = .xferFrom ∧ r.tid = some 2) ∧
    entry ChainDemo.ix5.index (.tokenId 2) = [3, 1] :=
  ⟨ChainDemo.coll_reach, ChainDemo.published, ChainDemo.run5, ChainDemo.facts.2.1, ⟨_, rfl, rfl, rfl⟩, by decide⟩

set_option maxRecDepth 20000 in
/-- What the index finds for the parties and the kinds of record. -/
example : entry ChainDemo.ix5.index (.account Demo.alice) = [4, 3, 1, 0] ∧
    entry ChainDemo.ix5.index (.account Demo.carol) = [4, 4, 3] ∧
    entry ChainDemo.ix5.index (.blockType "7mint") = [2, 1, 0] := by decide

example : DefaultAccount Demo.carol ∧ DefaultAccount Demo.alice0 := by
  refine ⟨by decide, by decide⟩

/-- The record that gave carol token 2 is the last one. -/
example : ∃ i r, ChainDemo.coll.log[i]? = some r ∧ r.tid = some 2 ∧ r.to_ = some Demo.carol ∧
    (i < 5 → i ∈ entry ChainDemo.ix5.index (.account Demo.carol)) := by
  obtain ⟨i, r, h1, h2, h3, _, _, h4⟩ := C73_owner ChainDemo.coll_reach ChainDemo.published ChainDemo.run5
    (Nat.le_of_eq ChainDemo.facts.1.symm) ChainDemo.facts.2.2 (by decide : DefaultAccount Demo.carol)
  exact ⟨i, r, h1, h2, h3, by rw [ChainDemo.facts.2.1] at h4; exact h4⟩

set_option maxRecDepth 20000 in
/-- The first run of the update job takes the index to the end of the log. -/
example : min (Ix.fresh.last + 100) 5 ≤ ChainDemo.ix5.last :=
  C72_progress ChainDemo.coll_reach ChainDemo.published (t₁ := 5) (t₂ := 5) (i := 0) (now := 5) (ix₁ := ChainDemo.ix1)
    (ans := .ledger ((List.range 5).map fun i => ⟨i, ChainDemo.chain i⟩) [])
    (.step (m := .clean 0) .refl (t₂ := 5) (by decide) trivial (IxDemo.noOverlap (by decide)))
    (fun _ i last f h => by cases h) (by decide) (by decide) .refl (by decide)
    (IxDemo.honest ChainDemo.get1 (IxDemo.ledgerHonest (chunk := List.range 100) (rest := []) rfl (by decide) (by decide)))
    (by rw [ChainDemo.get1]; rfl) (by decide) (Nat.le_of_eq ChainDemo.facts.1.symm)

end Verif
