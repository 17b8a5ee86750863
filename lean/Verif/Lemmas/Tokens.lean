import Verif.Lemmas.Step
/-!
# The token table: invariants and effects
-/
namespace Verif

open Spec

variable {H : Type}

/-- Row ids match their keys, keys are distinct and below the counter. -/
structure TokInv (s : State H) : Prop where
  nodup : s.tokens.NodupKeys
  ids : ∀ k t, s.tokens.get k = some t → t.id = k
  fresh : ∀ k t, s.tokens.get k = some t → k < s.lastId
  pos : ∀ k t, s.tokens.get k = some t → 1 ≤ k
  start : 1 ≤ s.lastId

/-- The owner lists after a move. -/
def moveOwn (b : Map Account (List Nat)) (id : Nat) (prev to_ : Account) : Map Account (List Nat) :=
  let b1 := b.set to_ ((b.get to_).getD [] ++ [id])
  b1.set prev (((b1.get prev).getD []).filter (· ≠ id))

theorem moveToken_eq (s : State H) (nft : Token) (to_ : Account) :
    moveToken s nft to_ = { s with tokens := s.tokens.set nft.id { nft with owner := to_ },
                                   byOwner := moveOwn s.byOwner nft.id nft.owner to_ } := rfl

theorem resumeBody_eq (E : Env H) (s : State H) (now : Nat) (p : Pending) (ans : Answer) :
    ∃ subs uploads router redirects,
      (resumeBody E s now p ans).1 =
        { s with subs := subs, uploads := uploads, router := router, redirects := redirects } := by
  cases p with
  | init c path size subs =>
    simp only [resumeBody]
    cases managerInitUpload ans subs size with
    | none => exact ⟨_, _, _, _, rfl⟩
    | some q => exact ⟨_, _, _, _, rfl⟩
  | store c key u =>
    simp only [resumeBody]
    cases ans.resp with
    | error e => exact ⟨_, _, _, _, rfl⟩
    | ok _ => exact ⟨_, _, _, _, rfl⟩
  | finalize c key u =>
    simp only [resumeBody]
    cases ans.resp with
    | error e => exact ⟨_, _, _, _, rfl⟩
    | ok _ => exact ⟨_, _, _, _, rfl⟩
  | cancel c key u =>
    simp only [resumeBody]
    cases ans.resp with
    | error e => exact ⟨_, _, _, _, rfl⟩
    | ok _ => exact ⟨_, _, _, _, rfl⟩

/-- Effects on tokens, owner lists, counter and log. -/
inductive OwnEff (m : Msg) (s s' : State H) : Prop
  | same (ht : s'.tokens = s.tokens) (hb : s'.byOwner = s.byOwner) (hl : s'.lastId = s.lastId)
      (txs : List Tx) (hlog : s'.log = s.log ++ txs)
      (hops : ∀ t ∈ txs, t.op ≠ .xfer ∧ t.op ≠ .xferFrom ∧ t.op ≠ .burn)
      (hmint : txs = [] ∨ (∀ t ∈ txs, t.op ≠ .mint) ∨
        ∃ c now reqs n, m = .call c now (.mint reqs) ∧ n < reqs.length ∧ 
          hasPermission s.perms c .minting = true ∧
          txs = (reqs.take n).mapIdx fun k r => mintTx now (s.lastId + k) r)
  | rewrite (tid : Nat) (t : Token) (tok : s.tokens.get tid = some t)
      (ht : s'.tokens = s.tokens.set tid t) (hb : s'.byOwner = s.byOwner)
      (hl : s'.lastId = s.lastId) (tx : Tx) (hlog : s'.log = s.log ++ [tx]) (hop : tx.op = .updateToken)
  | move (id : Nat) (t : Token) (to_ : Account) (tx : Tx) (tok : s.tokens.get id = some t)
      (hid : t.id = id)
      (diff : (t.owner == to_) = false)
      (ht : s'.tokens = s.tokens.set id { id := id, owner := to_ })
      (hb : s'.byOwner = moveOwn s.byOwner id t.owner to_) (hl : s'.lastId = s.lastId)
      (hlog : s'.log = s.log ++ [tx]) (htid : tx.tid = some id)
      (hfrom : ∃ f, tx.from_ = some f ∧ (t.owner == f) = true) (hto : tx.to_ = some to_)
      (why : (∃ c now args arg, m = .call c now (.transfer args) ∧ arg ∈ args ∧ arg.tid = id ∧ arg.to_ = to_ ∧
               t.owner.owner = c ∧ c ≠ anonymous ∧ to_.owner ≠ anonymous ∧ tx.op = .xfer) ∨
             (∃ c now args arg, m = .call c now (.transferFrom args) ∧ arg ∈ args ∧ arg.tid = id ∧ arg.to_ = to_ ∧
               (t.owner == arg.from_) = true ∧ MayMove s now id t.owner ⟨c, arg.spenderSub⟩ ∧
               (to_ == anonymousAccount) = false ∧ tx.op = .xferFrom))
  | mint (c : Principal) (now : Nat) (reqs : List MintReq) (hm : m = .call c now (.mint reqs))
      (perm : hasPermission s.perms c .minting = true)
      (cap : s.tokens.size + reqs.length ≤ s.cfg.supplyCap.getD defaultSupplyCap)
      (hcfg : s'.cfg = s.cfg)
      (ht : s'.tokens = insTok s.tokens s.lastId reqs) (hb : s'.byOwner = insOwn s.byOwner s.lastId reqs)
      (hl : s'.lastId = s.lastId + reqs.length)
      (hlog : s'.log = s.log ++ reqs.mapIdx fun k r => mintTx now (s.lastId + k) r)
  | burn (c : Principal) (now tid : Nat) (t : Token) (hm : m = .call c now (.burn tid))
      (tok : s.tokens.get tid = some t) (own : c = t.owner.owner)
      (ht : s'.tokens = s.tokens.del tid) (hb : s'.byOwner = s.byOwner) (hl : s'.lastId = s.lastId)
      (hlog : s'.log = s.log ++ [burnTx now tid t])

theorem Account.symm_beq {a b : Account} (h : (a == b) = true) : (b == a) = true := by
  rw [Account.beq_iff] at *; exact ⟨h.1.symm, h.2.symm⟩

theorem Account.trans_beq {a b c : Account} (h : (a == b) = true) (h' : (b == c) = true) : (a == c) = true := by
  rw [Account.beq_iff] at *; exact ⟨h.1.trans h'.1, h.2.trans h'.2⟩

theorem Account.beq_rfl (a : Account) : (a == a) = true := by simp

theorem micro_own {E : Env H} {m : Msg} {s s' : State H} (hinv : TokInv s) (h : Micro E m s s') :
    OwnEff m s s' := by
  have single : ∀ {tx : Tx} {p : Tx → Prop}, p tx → ∀ t ∈ [tx], p t := by
    intro tx p h t ht
    rw [List.mem_singleton] at ht
    rw [ht]; exact h
  cases h with
  | quiet w h => exact .same rfl rfl rfl [] (by simp) (by simp) (.inl rfl)
  | xfer arg nft h i harg hc tok own toOk diff memo timing add =>
    have hid := hinv.ids _ _ tok
    refine .move arg.tid nft arg.to_ _ tok hid diff ?_ ?_ rfl rfl rfl ⟨_, rfl, Account.beq_rfl _⟩ rfl
      (.inl ⟨_, _, _, arg, rfl, harg, rfl, rfl, own, hc, toOk, rfl⟩)
    · simp [moveToken_eq, hid]
    · simp [moveToken_eq, hid]
  | xferFrom arg nft h i harg tok own auth diff toOk timing add =>
    have hid := hinv.ids _ _ tok
    refine .move arg.tid nft arg.to_ _ tok hid ?_ ?_ ?_ rfl rfl rfl ⟨arg.from_, rfl, own⟩ rfl
      (.inr ⟨_, _, _, arg, rfl, harg, rfl, rfl, own, auth, toOk, rfl⟩)
    · rw [← Map.beq_congr_left own] at diff; exact diff
    · simp [moveToken_eq, hid]
    · simp [moveToken_eq, hid]
  | pruneTok arg harg m a hm ha hexp => exact .same rfl rfl rfl [] (by simp) (by simp) (.inl rfl)
  | pruneColl arg harg nft tok m a hm ha hexp base hbase => exact .same rfl rfl rfl [] (by simp) (by simp) (.inl rfl)
  | approve arg owner h i harg own eqv sp room timing add =>
    exact .same rfl rfl rfl [_] rfl (single (by simp [approveTx])) (.inr (.inl (single (by simp [approveTx]))))
  | approveColl info h i harg sp holds room timing add =>
    exact .same rfl rfl rfl [_] rfl (single (by simp [approveCollTx])) (.inr (.inl (single (by simp [approveCollTx]))))
  | revokeTok arg owner h i m harg own eqv hm timing add =>
    exact .same rfl rfl rfl [_] rfl (single (by simp [revokeTx])) (.inr (.inl (single (by simp [revokeTx]))))
  | revokeColl arg h i m harg hm timing add =>
    exact .same rfl rfl rfl [_] rfl (single (by simp [revokeCollTx])) (.inr (.inl (single (by simp [revokeCollTx]))))
  | mint reqs md h perm free batch cap memos hmd =>
    rw [mintInsert_eq]
    exact .mint _ _ reqs rfl perm cap rfl rfl rfl rfl rfl
  | mintCut reqs md h n perm free hn hmd =>
    refine .same rfl rfl rfl _ rfl ?_ (.inr (.inr ⟨_, _, _, n, rfl, hn, perm, rfl⟩))
    intro t ht
    rw [List.mem_mapIdx] at ht
    obtain ⟨i, _, rfl⟩ := ht
    simp [mintTx]
  | updateMeta tid kvs token md h i perm free tok hmd add =>
    exact .rewrite tid token tok rfl rfl rfl _ rfl rfl
  | updateMetaCut tid kvs token md h perm free tok hmd => exact .same rfl rfl rfl [] (by simp) (by simp) (.inl rfl)
  | burn tid token h i free tok own add => exact .burn _ _ tid token rfl tok own rfl rfl rfl rfl
  | config a perm free => exact .same rfl rfl rfl [] (by simp) (by simp) (.inl rfl)
  | grant p x perm free => exact .same rfl rfl rfl [] (by simp) (by simp) (.inl rfl)
  | revoke p x perm free => exact .same rfl rfl rfl [] (by simp) (by simp) (.inl rfl)
  | suspend p perm free hp hcall => exact .same rfl rfl rfl [] (by simp) (by simp) (.inl rfl)
  | dropUpload key u perm free hu hst hgone hcall => exact .same rfl rfl rfl [] (by simp) (by simp) (.inl rfl)
  | @resume _ now i ans p hp =>
    obtain ⟨_, _, _, _, he⟩ := resumeBody_eq E { s with pending := s.pending.eraseIdx i } now p ans
    rw [he]
    exact .same rfl rfl rfl [] (by simp [guardLeave]) (by simp) (.inl rfl)
  | resumeTrap p hp => exact .same rfl rfl rfl [] (by simp [guardLeave]) (by simp) (.inl rfl)
  | upgrade => exact .same rfl rfl rfl [] (by simp [upgrade]) (by simp) (.inl rfl)

/-! ### `insTok` -/

theorem insTok_get (reqs : List MintReq) : ∀ (t : Map Nat Token) (tid k : Nat),
    (insTok t tid reqs).get k =
      if h : tid ≤ k ∧ k < tid + reqs.length then
        some { id := k, owner := (reqs[k - tid]'(by omega)).owner }
      else t.get k := by
  induction reqs with
  | nil => intro t tid k; simp [insTok]; intro h; omega
  | cons r rs ih =>
    intro t tid k
    simp only [insTok, ih, List.length_cons]
    by_cases h0 : k = tid
    · subst h0
      have h1 : ¬ (k + 1 ≤ k ∧ k < k + 1 + rs.length) := by omega
      have h2 : k ≤ k ∧ k < k + (rs.length + 1) := by omega
      rw [dif_neg h1, dif_pos h2]
      simp
    · by_cases h1 : tid + 1 ≤ k ∧ k < tid + 1 + rs.length
      · have h2 : tid ≤ k ∧ k < tid + (rs.length + 1) := by omega
        rw [dif_pos h1, dif_pos h2]
        have : k - tid = (k - (tid + 1)) + 1 := by omega
        simp [this]
      · have h2 : ¬ (tid ≤ k ∧ k < tid + (rs.length + 1)) := by omega
        rw [dif_neg h1, dif_neg h2, Map.get_set_ne _ _ (by simpa using fun h => h0 h.symm)]

theorem insTok_nodup (reqs : List MintReq) : ∀ (t : Map Nat Token) (tid : Nat), t.NodupKeys →
    (insTok t tid reqs).NodupKeys := by
  induction reqs with
  | nil => intro t tid h; exact h
  | cons r rs ih => intro t tid h; exact ih _ _ (Map.nodup_set h _ _)

theorem insTok_size (reqs : List MintReq) : ∀ (t : Map Nat Token) (tid : Nat),
    (∀ k v, t.get k = some v → k < tid) → (insTok t tid reqs).size = t.size + reqs.length := by
  induction reqs with
  | nil => intro t tid _; rfl
  | cons r rs ih =>
    intro t tid h
    have hn : t.get tid = none := by
      cases hg : t.get tid with
      | none => rfl
      | some v => exact absurd (h _ _ hg) (by omega)
    simp only [insTok]
    rw [ih, Map.size_set_of_none hn, List.length_cons]
    · omega
    · intro k v hk
      rw [Map.get_set] at hk
      split at hk
      · rename_i he; simp at he; omega
      · exact Nat.lt_succ_of_lt (h _ _ hk)

theorem tokInv_own {m : Msg} {s s' : State H} (hinv : TokInv s) (h : OwnEff m s s') : TokInv s' := by
  obtain ⟨h1, h2, h3, h4, h5⟩ := hinv
  cases h with
  | same ht hb hl => exact ⟨ht ▸ h1, ht ▸ h2, by rw [ht, hl]; exact h3, ht ▸ h4, hl ▸ h5⟩
  | rewrite tid t tok ht hb hl =>
    have hg : ∀ k, s'.tokens.get k = s.tokens.get k := by
      intro k
      rw [ht, Map.get_set]
      split
      · rename_i he; simp at he; subst he; exact tok.symm
      · rfl
    exact ⟨ht ▸ Map.nodup_set h1 _ _, by simpa only [hg] using h2, by simpa only [hg, hl] using h3,
      by simpa only [hg] using h4, hl ▸ h5⟩
  | move id t to_ tx tok hid diff ht hb hl hlog htid hfrom hto why =>
    refine ⟨ht ▸ Map.nodup_set h1 _ _, ?_, ?_, ?_, hl ▸ h5⟩ <;>
    · intro k v hk
      rw [ht, Map.get_set] at hk
      split at hk
      · rename_i he
        simp at he hk
        subst he
        first
          | (rw [← hk])
          | (rw [hl]; exact h3 _ _ tok)
          | exact h4 _ _ tok
      · first
          | exact h2 _ _ hk
          | (rw [hl]; exact h3 _ _ hk)
          | exact h4 _ _ hk
  | mint c now reqs hm perm cap hcfg ht hb hl hlog =>
    refine ⟨ht ▸ insTok_nodup _ _ _ h1, ?_, ?_, ?_, by omega⟩ <;>
    · intro k v hk
      rw [ht, insTok_get] at hk
      split at hk
      · rename_i hr
        simp at hk
        first
          | (rw [← hk])
          | omega
      · first
          | exact h2 _ _ hk
          | (have := h3 _ _ hk; omega)
          | exact h4 _ _ hk
  | burn c now tid t hm tok own ht hb hl hlog =>
    refine ⟨ht ▸ Map.nodup_del h1 _, ?_, ?_, ?_, hl ▸ h5⟩ <;>
    · intro k v hk
      rw [ht, Map.get_del] at hk
      split at hk
      · cases hk
      · first
          | exact h2 _ _ hk
          | (rw [hl]; exact h3 _ _ hk)
          | exact h4 _ _ hk

theorem tokInv_micro {E : Env H} {m : Msg} {s s' : State H} (hinv : TokInv s) (h : Micro E m s s') :
    TokInv s' := tokInv_own hinv (micro_own hinv h)

theorem tokInv_init {v : String → Bool} {hid : H} {c a s} (h : init v hid c a = some s) : TokInv s := by
  rw [init_eq h]
  exact ⟨Map.nodup_empty, by simp, by simp, by simp, by simp⟩

theorem Reachable.tokInv {E : Env H} {s : State H} (h : Reachable E s) : TokInv s :=
  h.induct (fun _ _ _ _ _ h => tokInv_init h) (fun _ _ _ h hm => tokInv_micro h hm)

/-- Along the elementary effects of one message the invariant holds throughout. -/
theorem Steps.tokInv {E : Env H} {m : Msg} {s s' : State H} (h : Steps E m s s') (hi : TokInv s) :
    TokInv s' := h.induct (fun _ _ hi hm => tokInv_micro hi hm) hi

/-- Sequences of `OwnEff`, for invariants that only look at ownership. -/
theorem Reachable.ownInduct {E : Env H} {P : State H → Prop}
    (hinit : ∀ validUrl hid caller a s₀, init validUrl hid caller a = some s₀ → P s₀)
    (heff : ∀ m s s', TokInv s → P s → OwnEff m s s' → P s') {s : State H} (h : Reachable E s) : P s := by
  have : TokInv s ∧ P s := h.induct (P := fun s => TokInv s ∧ P s)
    (fun v hid c a s h => ⟨tokInv_init h, hinit v hid c a s h⟩)
    (fun m s s' hp hm => ⟨tokInv_micro hp.1 hm, heff m s s' hp.1 hp.2 (micro_own hp.1 hm)⟩)
  exact this.2

end Verif
