import Verif.Lemmas.Metadata
import Verif.Lemmas.Replay
/-!
# Minting several tokens is minting each: helper lemmas
-/
namespace Verif.Spec

variable {H : Type}

theorem replies_append (E : Env H) (s : State H) (ms ms' : List Msg) :
    replies E s (ms ++ ms') = replies E s ms ++ replies E (run E s ms) ms' := by
  induction ms generalizing s with
  | nil => rfl
  | cons m ms ih =>
    simp only [List.cons_append, replies, ih]
    rfl

theorem replies_length (E : Env H) (s : State H) (ms : List Msg) : (replies E s ms).length = ms.length := by
  induction ms generalizing s with
  | nil => rfl
  | cons m ms ih => simp only [replies, List.length_cons, ih]

/-- The ledger after it has taken the records of a mint, if it takes them all. -/
def takesMints (L : Ledger H) (now : Nat) : H → Nat → List MintReq → Option H
  | h, _, [] => some h
  | h, tid, r :: rs =>
    match L.add h (mintTx now tid r) with
    | (h', .ok _) => takesMints L now h' (tid + 1) rs
    | (_, .error _) => none

theorem mintTxs_takes (L : Ledger H) (now : Nat) (reqs : List MintReq) : ∀ (s : State H) (tid : Nat) (s' : State H),
    mintTxs L s now tid reqs = (s', true) ↔ ∃ h, takesMints L now s.hid tid reqs = some h ∧
      s' = { s with hid := h, log := s.log ++ reqs.mapIdx fun k r => mintTx now (tid + k) r } := by
  induction reqs with
  | nil =>
    intro s tid s'
    simp only [mintTxs, takesMints, Prod.mk.injEq, and_true, Option.some.injEq, List.mapIdx_nil, List.append_nil]
    exact ⟨fun h => ⟨_, rfl, h.symm⟩, fun ⟨_, h1, h2⟩ => by rw [h2, ← h1]⟩
  | cons r rs ih =>
    intro s tid s'
    simp only [mintTxs, takesMints, addTx]
    generalize L.add s.hid (mintTx now tid r) = x
    obtain ⟨h, e | i⟩ := x
    · simp
    · simp only [ih, List.mapIdx_cons, List.append_assoc, List.singleton_append, Nat.add_zero, Nat.add_assoc,
        Nat.add_comm 1]

/-- The state after an accepted mint. -/
def mintedState (s : State H) (now : Nat) (reqs : List MintReq) (md : MetaTable) (h : H) : State H :=
  { s with hid := h, mdata := md, lastId := s.lastId + reqs.length,
           log := s.log ++ reqs.mapIdx fun k r => mintTx now (s.lastId + k) r
           tokens := insTok s.tokens s.lastId reqs, byOwner := insOwn s.byOwner s.lastId reqs }

/-- Exactly when a mint is accepted, and what it does. -/
theorem mint_ok_iff (E : Env H) (s s' : State H) (c : Principal) (now : Nat) (reqs : List MintReq) (v : MgmtOk) :
    step E s (.call c now (.mint reqs)) = (s', .mgmt (.ok v)) ↔
      hasPermission s.perms c .minting = true ∧ s.guards = [] ∧ reqs.length ≤ s.cfg.maxUpdateBatch.getD 100 ∧
      s.tokens.size + reqs.length ≤ s.cfg.supplyCap.getD defaultSupplyCap ∧ checkMemos s.cfg reqs = some true ∧
      v = .id s.lastId ∧ ∃ md h, mintMetadata s.mdata s.lastId reqs = some md ∧
        takesMints E.ledger now s.hid s.lastId reqs = some h ∧ s' = mintedState s now reqs md h := by
  constructor
  · intro h
    simp only [step, execCall, Call.needs] at h
    split at h
    · rename_i hp
      simp only [exec] at h
      cases hm : mint E s c now reqs with
      | none => rw [hm] at h; cases h
      | some x =>
        obtain ⟨t, r⟩ := x
        rw [hm] at h
        simp only [ofMgmt, Prod.mk.injEq, Reply.mgmt.injEq] at h
        obtain ⟨rfl, rfl⟩ := h
        rcases withGuard_out hm with ⟨_, _, h⟩ | ⟨free, s1, hb, rfl⟩
        · cases h
        dsimp only at hb
        split at hb
        · cases hb
        rename_i batch
        split at hb
        · cases hb
        rename_i cap
        split at hb
        · cases hb
        · cases hb
        rename_i memos
        split at hb
        · cases hb
        rename_i md hmd
        split at hb
        · cases hb
        rename_i s2 htx
        obtain ⟨h, ht, rfl⟩ := (mintTxs_takes E.ledger now reqs _ _ _).1 htx
        simp only [Option.some.injEq, Prod.mk.injEq, Except.ok.injEq] at hb
        obtain ⟨rfl, rfl⟩ := hb
        refine ⟨hp, free, Nat.not_lt.1 batch, Nat.not_lt.1 cap, memos, rfl, md, h, hmd, ht, ?_⟩
        rw [mintInsert_eq, guardLeave_self _ _ rfl]
        obtain ⟨⟩ := s
        simp only at free
        subst free
        rfl
    · cases h
  · rintro ⟨hp, hg, hb, hc, hm, rfl, md, h, hmd, ht, rfl⟩
    have htx := (mintTxs_takes E.ledger now reqs { s with guards := [c], mdata := md } s.lastId _).2 ⟨h, ht, rfl⟩
    simp only [step, execCall, Call.needs, hp, if_true, exec, mint, withGuard, guardEnter, hg, List.length_nil, maxConcurrent,
      List.not_mem_nil, if_false, List.nil_append, Nat.not_lt.2 hb, Nat.not_lt.2 hc, hm, hmd, htx, mintInsert_eq,
      show ¬ (1 ≤ 0) by omega]
    rw [guardLeave_self _ _ rfl]
    obtain ⟨⟩ := s
    simp only at hg
    subst hg
    rfl

theorem takesMints_cons {L : Ledger H} {now tid : Nat} {h h' : H} {r : MintReq} {rs : List MintReq}
    (ht : takesMints L now h tid (r :: rs) = some h') :
    ∃ h₁, takesMints L now h tid [r] = some h₁ ∧ takesMints L now h₁ (tid + 1) rs = some h' := by
  simp only [takesMints] at ht ⊢
  split at ht
  · rename_i h₁ i hadd
    exact ⟨h₁, rfl, ht⟩
  · cases ht

theorem checkMemos_cons {cfg : Config} {r : MintReq} {rs : List MintReq} (h : checkMemos cfg (r :: rs) = some true) :
    checkMemos cfg [r] = some true ∧ checkMemos cfg rs = some true := by
  simp only [checkMemos] at h ⊢
  split at h
  · cases h
  · cases h
  · exact ⟨rfl, h⟩

theorem mintMetadata_cons {t t' : MetaTable} {tid : Nat} {r : MintReq} {rs : List MintReq}
    (h : mintMetadata t tid (r :: rs) = some t') :
    ∃ t₁, mintMetadata t tid [r] = some t₁ ∧ mintMetadata t₁ (tid + 1) rs = some t' := by
  simp only [mintMetadata] at h ⊢
  split at h
  · cases h
  · rename_i t₁ ht
    exact ⟨t₁, rfl, h⟩

theorem size_set_le (m : Map Nat Token) (k : Nat) (v : Token) : (m.set k v).size ≤ m.size + 1 := by
  cases h : m.get k with
  | none => rw [Map.size_set_of_none h]; omega
  | some w => rw [Map.size_set_of_some h]; omega

/-- The first of several tokens minted alone, and the others after it. -/
theorem mint_cons {E : Env H} {s s' : State H} {c : Principal} {now : Nat} {r : MintReq} {rs : List MintReq} {v : MgmtOk}
    (h : step E s (.call c now (.mint (r :: rs))) = (s', .mgmt (.ok v))) :
    ∃ s₁, v = .id s.lastId ∧ s₁.lastId = s.lastId + 1 ∧
      step E s (.call c now (.mint [r])) = (s₁, .mgmt (.ok (.id s.lastId))) ∧
      step E s₁ (.call c now (.mint rs)) = (s', .mgmt (.ok (.id s₁.lastId))) := by
  obtain ⟨hp, hg, hb, hc, hm, hv, md, hh, hmd, ht, rfl⟩ := (mint_ok_iff E s s' c now _ v).1 h
  obtain ⟨h₁, t1, t2⟩ := takesMints_cons ht
  obtain ⟨m1, m2⟩ := checkMemos_cons hm
  obtain ⟨md₁, d1, d2⟩ := mintMetadata_cons hmd
  simp only [List.length_cons] at hb hc
  refine ⟨mintedState s now [r] md₁ h₁, hv, rfl, (mint_ok_iff _ _ _ _ _ _ _).2
    ⟨hp, hg, by simp; omega, by simp; omega, m1, rfl, md₁, h₁, d1, t1, rfl⟩, (mint_ok_iff _ _ _ _ _ _ _).2
    ⟨hp, hg, ?_, ?_, m2, rfl, md, hh, d2, t2, ?_⟩⟩
  · show rs.length ≤ s.cfg.maxUpdateBatch.getD 100
    omega
  · show (s.tokens.set s.lastId _).size + rs.length ≤ s.cfg.supplyCap.getD defaultSupplyCap
    have := size_set_le s.tokens s.lastId { id := s.lastId, owner := r.owner }
    omega
  · simp only [mintedState, insTok, insOwn, List.length_cons, List.length_nil, List.mapIdx_cons, List.mapIdx_nil,
      List.append_assoc, List.singleton_append, Nat.add_zero, Nat.zero_add]
    congr 1
    · omega
    · congr 2
      refine congrArg (fun f => List.mapIdx f rs) ?_
      funext k r
      rw [Nat.add_assoc, Nat.add_comm 1]

/-- A token minted alone and others after it are minted together, too. -/
theorem mint_join {E : Env H} {s s₁ s' : State H} {c : Principal} {now : Nat} {r : MintReq} {rs : List MintReq} {v w : MgmtOk}
    (hb : rs.length + 1 ≤ s.cfg.maxUpdateBatch.getD 100) (hfresh : s.tokens.get s.lastId = none)
    (h : step E s (.call c now (.mint [r])) = (s₁, .mgmt (.ok v)))
    (h' : step E s₁ (.call c now (.mint rs)) = (s', .mgmt (.ok w))) :
    step E s (.call c now (.mint (r :: rs))) = (s', .mgmt (.ok v)) := by
  obtain ⟨hp, hg, _, _, m1, rfl, md₁, h₁, d1, t1, rfl⟩ := (mint_ok_iff E s s₁ c now _ v).1 h
  obtain ⟨_, _, _, hc, m2, rfl, md, hh, d2, t2, rfl⟩ := (mint_ok_iff E _ s' c now _ w).1 h'
  have hsize : (s.tokens.set s.lastId { id := s.lastId, owner := r.owner }).size = s.tokens.size + 1 :=
    Map.size_set_of_none hfresh
  have hc' : (s.tokens.set s.lastId { id := s.lastId, owner := r.owner }).size + rs.length
      ≤ s.cfg.supplyCap.getD defaultSupplyCap := hc
  refine (mint_ok_iff _ _ _ _ _ _ _).2 ⟨hp, hg, hb, ?_, ?_, rfl, md, hh, ?_, ?_, ?_⟩
  · rw [hsize] at hc'
    simp only [List.length_cons]
    omega
  · simp only [checkMemos] at m1 ⊢
    split at m1
    · cases m1
    · cases m1
    · rename_i e
      exact m2
  · simp only [mintMetadata] at d1 ⊢
    split at d1
    · cases d1
    · rename_i t e
      cases d1
      exact d2
  · simp only [takesMints] at t1 ⊢
    split at t1
    · rename_i t i e
      cases t1
      exact t2
    · cases t1
  · simp only [mintedState, insTok, insOwn, List.length_cons, List.length_nil, List.mapIdx_cons, List.mapIdx_nil,
      List.append_assoc, List.singleton_append, Nat.add_zero, Nat.zero_add]
    congr 1
    · omega
    · congr 2
      refine congrArg (fun f => List.mapIdx f rs) ?_
      funext k r
      rw [Nat.add_assoc, Nat.add_comm 1]

theorem mint_singles {E : Env H} {c : Principal} {now : Nat} (reqs : List MintReq) : ∀ {s s' : State H} {v : MgmtOk},
    step E s (.call c now (.mint reqs)) = (s', .mgmt (.ok v)) →
    v = .id s.lastId ∧ run E s (reqs.map fun r => .call c now (.mint [r])) = s' ∧
      replies E s (reqs.map fun r => .call c now (.mint [r]))
        = (List.range reqs.length).map fun k => .mgmt (.ok (.id (s.lastId + k))) := by
  induction reqs with
  | nil =>
    intro s s' v h
    obtain ⟨_, _, _, _, _, rfl, md, hh, hmd, ht, rfl⟩ := (mint_ok_iff E s s' c now _ v).1 h
    cases hmd
    cases ht
    refine ⟨rfl, ?_, rfl⟩
    simp [run, mintedState, insTok, insOwn]
  | cons r rs ih =>
    intro s s' v h
    obtain ⟨s₁, hv, hl, h1, h2⟩ := mint_cons h
    obtain ⟨_, i2, i3⟩ := ih h2
    refine ⟨hv, ?_, ?_⟩
    · simp only [List.map_cons, run, h1]
      exact i2
    · simp only [List.map_cons, replies, h1, i3, List.length_cons, List.range_succ_eq_map, List.map_map, hl, Nat.add_zero]
      congr 1
      refine List.map_congr_left fun k _ => ?_
      simp only [Function.comp_apply, Nat.succ_eq_add_one]
      congr 3
      omega

theorem singles_mint {E : Env H} {c : Principal} {now : Nat} (reqs : List MintReq) : ∀ {s : State H} {first : Nat},
    Reachable E s → reqs ≠ [] → reqs.length ≤ BatchLimit s →
    replies E s (reqs.map fun r => .call c now (.mint [r]))
      = ((List.range reqs.length).map fun k => .mgmt (.ok (.id (first + k)))) →
    step E s (.call c now (.mint reqs))
      = (run E s (reqs.map fun r => .call c now (.mint [r])), .mgmt (.ok (.id first))) := by
  induction reqs with
  | nil => intro s first _ h; exact absurd rfl h
  | cons r rs ih =>
    intro s first hr _ hb hrep
    simp only [List.map_cons, replies, List.length_cons, List.range_succ_eq_map, List.map_map, Nat.add_zero,
      List.cons.injEq] at hrep
    obtain ⟨h1, h2⟩ := hrep
    obtain ⟨s₁, hs₁⟩ : ∃ s₁, step E s (.call c now (.mint [r])) = (s₁, .mgmt (.ok (.id first))) :=
      ⟨_, Prod.ext rfl h1⟩
    rw [hs₁] at h2
    simp only [List.map_cons, run, hs₁]
    cases rs with
    | nil => exact hs₁
    | cons r' rs =>
      have hcfg : s₁.cfg = s.cfg := by
        obtain ⟨_, _, _, _, _, _, _, _, _, _, rfl⟩ := (mint_ok_iff E s s₁ c now _ _).1 hs₁
        rfl
      have hr₁ : Reachable E s₁ := by
        have := hr.step (.call c now (.mint [r]))
        rwa [hs₁] at this
      have := ih (first := first + 1) hr₁ (by simp) (by
        simp only [BatchLimit, hcfg, List.length_cons] at hb ⊢
        omega) (by
        rw [h2]
        refine List.map_congr_left fun k _ => ?_
        simp only [Function.comp_apply, Nat.succ_eq_add_one]
        congr 3
        omega)
      refine mint_join hb ?_ hs₁ this
      have hf := owner_fresh hr.tokInv (Nat.le_refl s.lastId)
      unfold Owner at hf
      simpa using hf

end Verif.Spec
