import Verif.Spec.Chain
import Verif.Lemmas.Indexer
import Verif.Lemmas.Replay
import Verif.Lemmas.Step
/-!
# Lemmas on records and blocks
-/
namespace Verif
open Spec

variable {H : Type}

/-- The type of block of a kind of record. -/
def Op.blockType : Op → BlockType
  | .mint => .mint | .burn => .burn | .xfer => .transfer | .updateToken => .updateMeta
  | .approve => .approve | .approveColl => .approveColl | .revoke => .revoke
  | .revokeColl => .revokeColl | .xferFrom => .transferFrom

theorem Op.blockType_name (o : Op) : o.blockType.name = o.name := by cases o <;> rfl

/-- Which parties a record can have. -/
structure Shaped (r : Tx) : Prop where
  noFrom : r.op = .mint → r.from_ = none
  noTo : r.op = .updateToken ∨ r.op = .approve ∨ r.op = .approveColl ∨ r.op = .revoke ∨ r.op = .revokeColl → r.to_ = none
  noSpender : r.op = .xfer ∨ r.op = .mint ∨ r.op = .burn ∨ r.op = .updateToken → r.spender = none
  noToken : r.op = .approveColl ∨ r.op = .revokeColl → r.tid = none
  token : r.op ≠ .approveColl → r.op ≠ .revokeColl → r.tid ≠ none

theorem shaped_micro {E : Env H} {m : Msg} {s s' : State H} (h : ∀ r ∈ s.log, Shaped r) (hm : Micro E m s s') :
    ∀ r ∈ s'.log, Shaped r := by
  have key : ∀ (l : List Tx), s'.log = s.log ++ l → (∀ r ∈ l, Shaped r) → ∀ r ∈ s'.log, Shaped r := by
    intro l hl h2 r hr
    rw [hl, List.mem_append] at hr
    exact hr.elim (h r) (h2 r)
  cases hm with
  | @mint _ c now reqs md h' perm free batch cap memos hmd =>
    refine key (reqs.mapIdx fun k r => mintTx now (s.lastId + k) r) ?_ ?_
    · rw [mintInsert_eq]
    · intro r hr
      rw [List.mem_mapIdx] at hr
      obtain ⟨k, hk, rfl⟩ := hr
      constructor <;> simp [mintTx]
  | mintCut reqs md h' n perm free hn hmd =>
    refine key _ rfl ?_
    intro r hr
    rw [List.mem_mapIdx] at hr
    obtain ⟨k, hk, rfl⟩ := hr
    constructor <;> simp [mintTx]
  | @resume _ now i ans p hp =>
    obtain ⟨_, _, _, _, he⟩ := resumeBody_eq E { s with pending := s.pending.eraseIdx i } now p ans
    rw [he]; exact h
  | xfer =>
    refine key [_] rfl ?_
    simp only [List.mem_singleton, forall_eq]
    constructor <;> simp [transferTx]
  | xferFrom =>
    refine key [_] rfl ?_
    simp only [List.mem_singleton, forall_eq]
    constructor <;> simp [transferFromTx]
  | approve =>
    refine key [_] rfl ?_
    simp only [List.mem_singleton, forall_eq]
    constructor <;> simp [approveTx]
  | approveColl =>
    refine key [_] rfl ?_
    simp only [List.mem_singleton, forall_eq]
    constructor <;> simp [approveCollTx]
  | revokeTok =>
    refine key [_] rfl ?_
    simp only [List.mem_singleton, forall_eq]
    constructor <;> simp [revokeTx]
  | revokeColl =>
    refine key [_] rfl ?_
    simp only [List.mem_singleton, forall_eq]
    constructor <;> simp [revokeCollTx]
  | updateMeta =>
    refine key [_] rfl ?_
    simp only [List.mem_singleton, forall_eq]
    constructor <;> simp [updateTx]
  | burn =>
    refine key [_] rfl ?_
    simp only [List.mem_singleton, forall_eq]
    constructor <;> simp [burnTx]
  | _ => exact h

theorem Reachable.shaped {E : Env H} {s : State H} (h : Reachable E s) : ∀ r ∈ s.log, Shaped r :=
  h.induct (P := fun s => ∀ r ∈ s.log, Shaped r) (fun _ _ _ _ _ h0 r hr => by rw [init_eq h0] at hr; cases hr)
    (fun _ _ _ hp hm => shaped_micro hp hm)

theorem Spec.Publishes.blockType {parse : ParsePrincipal} {log : List Tx} {L : Chain} (h : Publishes parse log L) {i : Nat}
    {r : Tx} (hr : log[i]? = some r) : blockTypeOf (L i) = some r.op.blockType := by
  have := h.type_ i r hr
  rw [← Op.blockType_name] at this
  exact (blockType_text (b := ⟨i, L i⟩)).2 this

/-- The accounts of a record that its block is indexed under. -/
theorem shownAccount_iff {p a : Account} (ha : DefaultAccount a) :
    (∃ q, shownAccount p = some q ∧ (q == a) = true) ↔ SameAccount p a := by
  unfold shownAccount DefaultAccount at *
  constructor
  · rintro ⟨q, hq, hqa⟩
    split at hq
    · rename_i hp
      cases hq
      have := sameAccount_iff.2 hqa
      exact ⟨this.1, by rw [hp, ha]⟩
    · cases hq
  · intro h
    have hp : p.sub.getD (List.replicate 32 0) = List.replicate 32 0 := by rw [h.2, ha]
    rw [if_pos hp]
    exact ⟨_, rfl, sameAccount_iff.1 ⟨h.1, by rw [ha]; rfl⟩⟩

private theorem bind_shown {o : Option Account} {a : Account} (ha : DefaultAccount a) :
    (∃ q, o.bind shownAccount = some q ∧ (q == a) = true) ↔ ∃ p, o = some p ∧ SameAccount p a := by
  cases o with
  | none => simp
  | some p => simp only [Option.bind_some, shownAccount_iff ha, Option.some.injEq, exists_eq_left']

theorem countP_ne_zero {A : Type} {l : List A} {p : A → Bool} : l.countP p ≠ 0 ↔ ∃ x ∈ l, p x = true := by
  rw [← Nat.pos_iff_ne_zero, List.countP_pos_iff]

theorem hits_record_account {parse : ParsePrincipal} {log : List Tx} {L : Chain} (h : Publishes parse log L) {i : Nat}
    {r : Tx} (hr : log[i]? = some r) (hs : Shaped r) {a : Account} (ha : DefaultAccount a) :
    hits parse ⟨i, L i⟩ (.account a) ≠ 0 ↔
      (r.op ≠ .approveColl ∧ namesAccount r a) ∨ ∃ p, r.from_ = some p ∧ SameAccount p a := by
  rw [hits_of_type (h.blockType hr), countP_ne_zero]
  have hf := h.from_ i r hr
  have ht := h.to_ i r hr
  have hsp := h.spender i r hr
  have hnames : namesAccount r a ↔ (∃ p, r.from_ = some p ∧ SameAccount p a) ∨ (∃ p, r.to_ = some p ∧ SameAccount p a) ∨
      ∃ p, r.spender = some p ∧ SameAccount p a := by
    unfold namesAccount
    constructor
    · rintro ⟨p, h1 | h1 | h1, h2⟩
      · exact .inl ⟨p, h1, h2⟩
      · exact .inr (.inl ⟨p, h1, h2⟩)
      · exact .inr (.inr ⟨p, h1, h2⟩)
    · rintro (⟨p, h1, h2⟩ | ⟨p, h1, h2⟩ | ⟨p, h1, h2⟩)
      · exact ⟨p, .inl h1, h2⟩
      · exact ⟨p, .inr (.inl h1), h2⟩
      · exact ⟨p, .inr (.inr h1), h2⟩
  have hmem : (∃ x ∈ (accountFields r.op.blockType).filterMap (partyIn parse ⟨i, L i⟩), (x == a) = true) ↔
      ∃ k ∈ accountFields r.op.blockType, ∃ q, partyIn parse ⟨i, L i⟩ k = some q ∧ (q == a) = true := by
    constructor
    · rintro ⟨x, hx, hxa⟩
      obtain ⟨k, hk, hkx⟩ := List.mem_filterMap.1 hx
      exact ⟨k, hk, x, hkx, hxa⟩
    · rintro ⟨k, hk, q, hq, hqa⟩
      exact ⟨q, List.mem_filterMap.2 ⟨k, hk, hq⟩, hqa⟩
  rw [hmem, hnames]
  have h1 : r.op = .mint → ¬ ∃ p, r.from_ = some p ∧ SameAccount p a := fun ho => by simp [hs.noFrom ho]
  have h2 : r.op = .updateToken ∨ r.op = .approve ∨ r.op = .approveColl ∨ r.op = .revoke ∨ r.op = .revokeColl →
      ¬ ∃ p, r.to_ = some p ∧ SameAccount p a := fun ho => by simp [hs.noTo ho]
  have h3 : r.op = .xfer ∨ r.op = .mint ∨ r.op = .burn ∨ r.op = .updateToken →
      ¬ ∃ p, r.spender = some p ∧ SameAccount p a := fun ho => by simp [hs.noSpender ho]
  have h4 : (∃ k ∈ accountFields r.op.blockType, ∃ q, partyIn parse ⟨i, L i⟩ k = some q ∧ (q == a) = true) ↔
      ("from" ∈ accountFields r.op.blockType ∧ ∃ p, r.from_ = some p ∧ SameAccount p a) ∨
      ("to" ∈ accountFields r.op.blockType ∧ ∃ p, r.to_ = some p ∧ SameAccount p a) ∨
      ("spender" ∈ accountFields r.op.blockType ∧ ∃ p, r.spender = some p ∧ SameAccount p a) := by
    rw [← bind_shown ha (o := r.from_), ← bind_shown ha (o := r.to_), ← bind_shown ha (o := r.spender), ← hf, ← ht, ← hsp]
    cases r.op <;> simp [Op.blockType, accountFields]
    exact or_congr_right or_comm
  rw [h4]
  generalize (∃ p, r.from_ = some p ∧ SameAccount p a) = F at *
  generalize (∃ p, r.to_ = some p ∧ SameAccount p a) = T at *
  generalize (∃ p, r.spender = some p ∧ SameAccount p a) = S at *
  cases hop : r.op <;> simp only [hop, Op.blockType, accountFields] at h1 h2 h3 ⊢ <;>
    by_cases F <;> by_cases T <;> by_cases S <;> simp_all

theorem hits_record_token {parse : ParsePrincipal} {log : List Tx} {L : Chain} (h : Publishes parse log L) {i : Nat}
    {r : Tx} (hr : log[i]? = some r) (hs : Shaped r) (n : Nat) :
    hits parse ⟨i, L i⟩ (.tokenId n) = if r.tid = some n ∧ r.op ≠ .xferFrom then 1 else 0 := by
  rw [hits_of_type (h.blockType hr)]
  dsimp only
  have := extractTokenId_eq r.op.blockType ⟨i, L i⟩
  dsimp only at this
  rw [this, h.token i r hr]
  have h1 := hs.noToken
  cases hop : r.op <;> simp [Op.blockType] <;> simp [h1, hop]

end Verif
