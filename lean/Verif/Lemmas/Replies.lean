import Verif.Lemmas.Pages
/-!
# Accepted management calls and monotone facts
-/
namespace Verif

open Spec

variable {H : Type}

theorem mgmt_of_ofMgmt {s s' : State H} {o r} (h : ofMgmt s o = (s', .mgmt r)) : o = some (s', r) := by
  cases o with
  | none => simp [ofMgmt] at h
  | some p => obtain ⟨p1, p2⟩ := p; simp [ofMgmt] at h; obtain ⟨rfl, rfl⟩ := h; rfl

theorem exec_of_step {E : Env H} {s : State H} {c : Principal} {now : Nat} {call : Call}
    {s' : State H} {r} (h : step E s (.call c now call) = (s', .mgmt r)) :
    exec E s c now call = (s', .mgmt r) ∧ (∀ p, call.needs = some p → hasPermission s.perms c p = true) := by
  simp only [step, execCall] at h
  split at h
  · rename_i p hp
    split at h
    · rename_i hperm
      exact ⟨h, by intro q hq; rw [hp] at hq; cases hq; exact hperm⟩
    · simp at h
  · rename_i hp
    exact ⟨h, by intro q hq; rw [hp] at hq; cases hq⟩

/-- A `mint` message answered with `Ok`. -/
theorem mint_accepted {E : Env H} {s s' : State H} {c : Principal} {now : Nat} {reqs : List MintReq} {v}
    (h : step E s (.call c now (.mint reqs)) = (s', .mgmt (.ok v))) :
    ∃ md h', v = .id s.lastId ∧ hasPermission s.perms c .minting = true ∧ s.guards = [] ∧
      reqs.length ≤ s.cfg.maxUpdateBatch.getD 100 ∧
      s.tokens.size + reqs.length ≤ s.cfg.supplyCap.getD defaultSupplyCap ∧
      checkMemos s.cfg reqs = some true ∧ mintMetadata s.mdata s.lastId reqs = some md ∧
      s' = mintInsert { s with hid := h', mdata := md, lastId := s.lastId + reqs.length,
                               log := s.log ++ reqs.mapIdx fun k r => mintTx now (s.lastId + k) r }
            s.lastId reqs := by
  obtain ⟨hx, hp⟩ := exec_of_step h
  have hout := mint_out (mgmt_of_ofMgmt hx)
  cases hout with
  | minted md h' free batch cap memos hmd =>
    exact ⟨md, h', rfl, hp _ rfl, free, batch, cap, memos, hmd, rfl⟩

/-- A `burn_nft` message answered with `Ok`. -/
theorem burn_accepted {E : Env H} {s s' : State H} {c : Principal} {now tid : Nat} {v}
    (h : step E s (.call c now (.burn tid)) = (s', .mgmt (.ok v))) :
    ∃ t h', s.tokens.get tid = some t ∧ c = t.owner.owner ∧
      s' = { s with hid := h', log := s.log ++ [burnTx now tid t], tokens := s.tokens.del tid } := by
  obtain ⟨hx, hp⟩ := exec_of_step h
  have hout := burnNft_out (mgmt_of_ofMgmt hx)
  cases hout with
  | burned token h' i free tok own add => exact ⟨token, h', tok, own, rfl⟩

theorem lastId_eff {m : Msg} {s s' : State H} (h : OwnEff m s s') : s.lastId ≤ s'.lastId := by
  cases h with
  | same _ _ hl => omega
  | rewrite _ _ _ _ _ hl => omega
  | move _ _ _ _ _ _ _ _ _ hl => omega
  | mint _ _ _ _ _ _ _ _ _ hl => omega
  | burn _ _ _ _ _ _ _ _ _ hl => omega

theorem lastId_run {E : Env H} {s : State H} (hi : TokInv s) (ms : List Msg) :
    s.lastId ≤ (run E s ms).lastId := by
  have := run_induct (E := E) (P := fun t => TokInv t ∧ s.lastId ≤ t.lastId)
    (fun m t t' ht hm => ⟨tokInv_micro ht.1 hm, Nat.le_trans ht.2 (lastId_eff (micro_own ht.1 hm))⟩)
    ms (s := s) ⟨hi, Nat.le_refl _⟩
  exact this.2

theorem owner_get {s : State H} {tid : Nat} {o : Account} (h : Owner s tid = some o) :
    ∃ t, s.tokens.get tid = some t ∧ t.owner = o := by
  unfold Owner at h
  cases hg : s.tokens.get tid with
  | none => simp [hg] at h
  | some t => simp [hg] at h; exact ⟨t, rfl, h⟩

theorem gone_eff {m : Msg} {s s' : State H} {tid : Nat} (h : OwnEff m s s')
    (hg : s.tokens.get tid = none ∧ tid < s.lastId) : s'.tokens.get tid = none ∧ tid < s'.lastId := by
  refine ⟨?_, Nat.lt_of_lt_of_le hg.2 (lastId_eff h)⟩
  cases h with
  | same ht => rw [ht]; exact hg.1
  | rewrite k t tok ht =>
    rw [ht, Map.get_set]
    split
    · rename_i he; simp at he; subst he; rw [hg.1] at tok; cases tok
    · exact hg.1
  | move k t to_ tx tok hid diff ht =>
    rw [ht, Map.get_set]
    split
    · rename_i he; simp at he; subst he; rw [hg.1] at tok; cases tok
    · exact hg.1
  | mint c now reqs hm perm cap hcfg ht =>
    rw [ht, insTok_get, dif_neg (by omega)]
    exact hg.1
  | burn c now k t hm tok own ht =>
    rw [ht, Map.get_del]
    split
    · rfl
    · exact hg.1

end Verif
