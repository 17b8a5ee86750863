import Verif.Lemmas.Moments
import Verif.Spec.Permitted
/-!
# Only the permission check reads permissions: helper lemmas
-/
namespace Verif.Spec.Permitted

open Background Moments

variable {H : Type}

/-- The state with another table of permissions. -/
def wp (q : Map Principal (List Permission)) (s : State H) : State H := { s with perms := q }

/-- A result whose first part is a state. -/
def res {R : Type} (q : Map Principal (List Permission)) (x : State H × R) : State H × R := (wp q x.1, x.2)

/-- A possibly trapped result. -/
def optRes {R : Type} (q : Map Principal (List Permission)) (x : Option (State H × R)) : Option (State H × R) := x.map (res q)

theorem res_mk {R : Type} (q : Map Principal (List Permission)) (s : State H) (x : R) : res q (s, x) = (wp q s, x) := rfl
theorem optRes_some {R : Type} (q : Map Principal (List Permission)) (s : State H) (x : R) :
    optRes q (some (s, x)) = some (wp q s, x) := rfl
theorem wp_cfg (q : Map Principal (List Permission)) (s : State H) : (wp q s).cfg = s.cfg := rfl
theorem wp_tokens (q : Map Principal (List Permission)) (s : State H) : (wp q s).tokens = s.tokens := rfl

theorem addTx_wp (q : Map Principal (List Permission)) (L : Ledger H) (s : State H) (t : Tx) :
    addTx L (wp q s) t = res q (addTx L s t) := by
  simp only [addTx, show (wp q s).hid = s.hid from rfl]
  generalize L.add s.hid t = x
  obtain ⟨h, _ | i⟩ := x <;> rfl

theorem guardEnter_wp (q : Map Principal (List Permission)) (s : State H) (p : Principal) : guardEnter (wp q s) p = (guardEnter s p).map (wp q) := by
  unfold guardEnter
  rw [show (wp q s).guards = s.guards from rfl]
  split <;> rfl

theorem withGuard_wp (q : Map Principal (List Permission)) (s : State H) (p : Principal) {b' b : State H → Option (MgmtRes H)}
    (h : ∀ s, b' (wp q s) = optRes q (b s)) : withGuard (wp q s) p b' = optRes q (withGuard s p b) := by
  unfold withGuard
  rw [guardEnter_wp q]
  cases guardEnter s p with
  | none => rfl
  | some s =>
    simp only [Option.map_some, h]
    cases b s with
    | none => rfl
    | some x => obtain ⟨s, y⟩ := x; rfl

theorem mintTxs_wp (q : Map Principal (List Permission)) (L : Ledger H) (s : State H) (now i : Nat) (l : List MintReq) :
    mintTxs L (wp q s) now i l = res q (mintTxs L s now i l) := by
  induction l generalizing s i with
  | nil => rfl
  | cons a l ih =>
    simp only [mintTxs]
    rw [addTx_wp q]
    generalize addTx L s _ = x
    obtain ⟨s, e | j⟩ := x
    · rfl
    · exact ih s (i + 1)

theorem mintInsert_wp (q : Map Principal (List Permission)) (s : State H) (i : Nat) (l : List MintReq) : mintInsert (wp q s) i l = wp q (mintInsert s i l) := by
  induction l generalizing s i with
  | nil => rfl
  | cons a l ih =>
    simp only [mintInsert]
    rw [← ih]
    rfl

theorem mint_wp (q : Map Principal (List Permission)) (E : Env H) (s : State H) (caller : Principal) (now : Nat) (l : List MintReq) :
    mint E (wp q s) caller now l = optRes q (mint E s caller now l) := by
  refine withGuard_wp q s caller fun s => ?_
  rw [wp_cfg, wp_tokens]
  split
  · rfl
  · split
    · rfl
    · cases checkMemos s.cfg l with
      | none => rfl
      | some b =>
        cases b with
        | false => rfl
        | true =>
          simp only [show (wp q s).mdata = s.mdata from rfl, show (wp q s).lastId = s.lastId from rfl]
          cases mintMetadata s.mdata s.lastId l with
          | none => rfl
          | some md =>
            dsimp only
            have hx := mintTxs_wp q E.ledger { s with mdata := md } now s.lastId l
            change mintTxs E.ledger { wp q s with mdata := md } now s.lastId l = _ at hx
            change (match mintTxs E.ledger { wp q s with mdata := md } now s.lastId l with
              | (s, false) => _
              | (s₁, true) => _) = _
            rw [hx]
            clear hx
            generalize mintTxs E.ledger _ _ _ _ = x
            obtain ⟨s', b⟩ := x
            cases b with
            | false => rfl
            | true =>
              simp only [res_mk, optRes_some]
              rw [← mintInsert_wp q]
              rfl

theorem updateNftMetadata_wp (q : Map Principal (List Permission)) (E : Env H) (s : State H) (caller : Principal) (now tid : Nat) (kvs : List (String × Value)) :
    updateNftMetadata E (wp q s) caller now tid kvs = optRes q (updateNftMetadata E s caller now tid kvs) := by
  refine withGuard_wp q s caller fun s => ?_
  simp only [wp_tokens, show (wp q s).mdata = s.mdata from rfl]
  cases s.tokens.get tid with
  | none => rfl
  | some t =>
    dsimp only
    cases replaceMetadata s.mdata t.id kvs with
    | none => rfl
    | some md =>
      dsimp only
      have hx := addTx_wp q E.ledger { s with mdata := md }
          { op := .updateToken, ts := now, tid := some tid, from_ := some ⟨caller, none⟩,
            meta_ := some ((getAllData s.mdata tid).getD [], (getAllData md tid).getD []), createdAt := some now }
      change addTx E.ledger { wp q s with mdata := md } _ = _ at hx
      change (match addTx E.ledger { wp q s with mdata := md } _ with
        | (s, .error _) => _
        | (s, .ok _) => _) = _
      rw [hx]
      clear hx
      generalize addTx E.ledger _ _ = x
      obtain ⟨s', e | j⟩ := x <;> rfl

theorem burnNft_wp (q : Map Principal (List Permission)) (E : Env H) (s : State H) (caller : Principal) (now tid : Nat) :
    burnNft E (wp q s) caller now tid = optRes q (burnNft E s caller now tid) := by
  refine withGuard_wp q s caller fun s => ?_
  simp only [wp_tokens]
  cases s.tokens.get tid with
  | none => rfl
  | some t =>
    dsimp only
    split
    · rfl
    · rw [addTx_wp q]
      generalize addTx E.ledger _ _ = x
      obtain ⟨s', e | j⟩ := x <;> rfl

/-- The first segment of an asynchronous method. -/
def started (q : Map Principal (List Permission)) : Started H → Started H
  | .done s x => .done (wp q s) x
  | .suspended s => .suspended (wp q s)

theorem withGuardAsync_wp (q : Map Principal (List Permission)) (s : State H) (p : Principal) {b : State H → State H × (Except MgmtErr MgmtOk ⊕ Pending)}
    (h : ∀ s, b (wp q s) = res q (b s)) : withGuardAsync (wp q s) p b = started q (withGuardAsync s p b) := by
  unfold withGuardAsync
  rw [guardEnter_wp q]
  cases guardEnter s p with
  | none => rfl
  | some s =>
    simp only [Option.map_some, h]
    generalize b s = x
    obtain ⟨s, e | q⟩ := x <;> rfl

theorem callStorage_wp (q : Map Principal (List Permission)) (s : State H) (key : String) (u : Upload) (p : Pending) :
    callStorage (wp q s) key u p = res q (callStorage s key u p) := by
  unfold callStorage
  rw [show (wp q s).subs = s.subs from rfl]
  cases getSub s.subs u.canister with
  | none => rfl
  | some c =>
    simp only
    split <;> rfl

theorem initUpload_wp (q : Map Principal (List Permission)) (s : State H) (caller : Principal) (path : String) (n : Nat) :
    initUpload (wp q s) caller path n = started q (initUpload s caller path n) := by
  refine withGuardAsync_wp q s caller fun s => ?_
  rw [show (wp q s).uploads = s.uploads from rfl]
  split
  · rfl
  · split <;> rfl

theorem storeChunk_wp (q : Map Principal (List Permission)) (s : State H) (caller : Principal) (key : String) :
    storeChunk (wp q s) caller key = started q (storeChunk s caller key) := by
  refine withGuardAsync_wp q s caller fun s => ?_
  simp only [show (wp q s).uploads = s.uploads from rfl, callStorage_wp q]
  cases s.uploads.get key with
  | none => rfl
  | some u => simp only; cases u.state <;> rfl

theorem finalizeUpload_wp (q : Map Principal (List Permission)) (s : State H) (caller : Principal) (key : String) :
    finalizeUpload (wp q s) caller key = started q (finalizeUpload s caller key) := by
  refine withGuardAsync_wp q s caller fun s => ?_
  simp only [show (wp q s).uploads = s.uploads from rfl, callStorage_wp q]
  cases s.uploads.get key with
  | none => rfl
  | some u => simp only; cases u.state <;> rfl

theorem cancelUpload_wp (q : Map Principal (List Permission)) (s : State H) (caller : Principal) (key : String) :
    cancelUpload (wp q s) caller key = started q (cancelUpload s caller key) := by
  refine withGuardAsync_wp q s caller fun s => ?_
  simp only [show (wp q s).uploads = s.uploads from rfl, callStorage_wp q]
  cases s.uploads.get key with
  | none => rfl
  | some u => simp only; cases u.state <;> rfl

theorem resumeBody_wp (q : Map Principal (List Permission)) (E : Env H) (s : State H) (now : Nat) (p : Pending) (a : Answer) :
    resumeBody E (wp q s) now p a = res q (resumeBody E s now p a) := by
  cases p with
  | init c path n subs =>
    simp only [resumeBody]
    cases managerInitUpload a subs n <;> rfl
  | store c key u => simp only [resumeBody]; cases a.resp <;> rfl
  | finalize c key u => simp only [resumeBody]; cases a.resp <;> rfl
  | cancel c key u => simp only [resumeBody]; cases a.resp <;> rfl

theorem ofMgmt_wp (q : Map Principal (List Permission)) (s : State H) (x : Option (MgmtRes H)) : ofMgmt (wp q s) (optRes q x) = res q (ofMgmt s x) := by
  cases x <;> rfl

theorem ofStarted_wp (q : Map Principal (List Permission)) (x : Started H) : ofStarted (started q x) = res q (ofStarted x) := by
  cases x <;> rfl

theorem trade_wp (q : Map Principal (List Permission)) (E : Env H) (s : State H) {m : Msg} (ht : isTrade m = true) :
    step E (wp q s) m = res q (step E s m) := by
  have h1 := trade_floor E s ht
  have h2 := trade_floor E (wp q s) ht
  rw [show floor (wp q s) = floor s from rfl, h1] at h2
  have e1 : floor (step E (wp q s) m).1 = floor (step E s m).1 := (congrArg Prod.fst h2).symm
  have e2 : (step E (wp q s) m).2 = (step E s m).2 := (congrArg Prod.snd h2).symm
  have b := trade_back E s ht
  have b' := trade_back E (wp q s) ht
  refine Prod.ext (ext_back ⟨?_, ?_, ?_, ?_, ?_, ?_, ?_, ?_⟩ e1) e2
  · exact b'.perms
  · exact b'.subs.trans b.subs.symm
  · exact b'.redirects.trans b.redirects.symm
  · exact b'.guards.trans b.guards.symm
  · exact b'.uploads.trans b.uploads.symm
  · exact b'.mdata.trans b.mdata.symm
  · exact b'.router.trans b.router.symm
  · exact b'.pending.trans b.pending.symm

/-- Except for `grant_permission` and `revoke_permission`, the bodies of the methods neither
read nor write permissions. -/
theorem exec_wp (q : Map Principal (List Permission)) (E : Env H) (s : State H) (caller : Principal) (now : Nat) (c : Call)
    (hg : ∀ p x, c ≠ .grant p x ∧ c ≠ .revoke p x) : exec E (wp q s) caller now c = res q (exec E s caller now c) := by
  cases c with
  | transfer args => exact trade_wp q E s (m := .call caller now (.transfer args)) rfl
  | approveTokens args => exact trade_wp q E s (m := .call caller now (.approveTokens args)) rfl
  | approveCollection args => exact trade_wp q E s (m := .call caller now (.approveCollection args)) rfl
  | revokeTokens args => exact trade_wp q E s (m := .call caller now (.revokeTokens args)) rfl
  | revokeCollection args => exact trade_wp q E s (m := .call caller now (.revokeCollection args)) rfl
  | transferFrom args => exact trade_wp q E s (m := .call caller now (.transferFrom args)) rfl
  | updateCollectionMetadata a =>
    simp only [exec, updateCollectionMetadata]
    rw [withGuard_wp q s caller (b := fun s => some ({ s with cfg := applyUpdate s.cfg a }, .ok .unit)) (fun s => rfl),
      ofMgmt_wp]
  | mint reqs => simp only [exec, mint_wp, ofMgmt_wp]
  | updateNftMetadata tid kvs => simp only [exec, updateNftMetadata_wp, ofMgmt_wp]
  | burn tid => simp only [exec, burnNft_wp, ofMgmt_wp]
  | initUpload path n => simp only [exec, initUpload_wp, ofStarted_wp]
  | storeChunk path => simp only [exec, storeChunk_wp, ofStarted_wp]
  | finalizeUpload path => simp only [exec, finalizeUpload_wp, ofStarted_wp]
  | cancelUpload path => simp only [exec, cancelUpload_wp, ofStarted_wp]
  | grant p x => exact absurd rfl (hg p x).1
  | revoke p x => exact absurd rfl (hg p x).2

/-- How one message changes two tables of permissions: not at all, or both in the same way. -/
def Along (q q' r r' : Map Principal (List Permission)) : Prop :=
  (q' = q ∧ r' = r) ∨ (∃ p x, q' = grantPermission q p x ∧ r' = grantPermission r p x) ∨
    (∃ p x, q' = revokePermission q p x ∧ r' = revokePermission r p x)

theorem exec_along (q : Map Principal (List Permission)) (E : Env H) (s : State H) (caller : Principal) (now : Nat) (c : Call) :
    ∃ q', exec E (wp q s) caller now c = res q' (exec E s caller now c) ∧
      Along q q' s.perms (exec E s caller now c).1.perms := by
  by_cases hg : ∀ p x, c ≠ .grant p x ∧ c ≠ .revoke p x
  · refine ⟨q, exec_wp q E s caller now c hg, .inl ⟨rfl, ?_⟩⟩
    have h := exec_wp s.perms E s caller now c hg
    exact congrArg (fun x : State H × Reply => x.1.perms) h
  · cases c with
    | grant p x =>
      simp only [exec, grant, withGuard, guardEnter, show (wp q s).guards = s.guards from rfl]
      by_cases hb : maxConcurrent ≤ s.guards.length
      · simp only [if_pos hb, ofMgmt]
        exact ⟨q, rfl, .inl ⟨rfl, rfl⟩⟩
      · simp only [if_neg hb, ofMgmt]
        exact ⟨grantPermission q p x, rfl, .inr (.inl ⟨p, x, rfl, rfl⟩)⟩
    | revoke p x =>
      simp only [exec, revoke, withGuard, guardEnter, show (wp q s).guards = s.guards from rfl]
      by_cases hb : maxConcurrent ≤ s.guards.length
      · simp only [if_pos hb, ofMgmt]
        exact ⟨q, rfl, .inl ⟨rfl, rfl⟩⟩
      · simp only [if_neg hb, ofMgmt]
        exact ⟨revokePermission q p x, rfl, .inr (.inr ⟨p, x, rfl, rfl⟩)⟩
    | _ => exact absurd (fun p x => ⟨(fun h => by cases h), (fun h => by cases h)⟩) hg

theorem step_along (q : Map Principal (List Permission)) (E : Env H) (s : State H) (m : Msg)
    (hn : ∀ c now call p, m = .call c now call → call.needs = some p → hasPermission q c p = hasPermission s.perms c p) :
    ∃ q', step E (wp q s) m = res q' (step E s m) ∧ Along q q' s.perms (step E s m).1.perms := by
  cases m with
  | call caller now c =>
    have hx := exec_along q E s caller now c
    simp only [step, execCall]
    cases hc : c.needs with
    | none => exact hx
    | some p =>
      dsimp only
      rw [show (wp q s).perms = q from rfl, hn caller now c p rfl hc]
      split
      · exact hx
      · exact ⟨q, rfl, .inl ⟨rfl, rfl⟩⟩
  | resume now i ans =>
    simp only [step, show (wp q s).pending = s.pending from rfl]
    cases s.pending[i]? with
    | none => exact ⟨q, rfl, .inl ⟨rfl, rfl⟩⟩
    | some p =>
      have hx := fun q => resumeBody_wp q E { s with pending := s.pending.eraseIdx i } now p ans
      refine ⟨q, ?_, .inl ⟨rfl, ?_⟩⟩
      · have h := hx q
        change resumeBody E { wp q s with pending := s.pending.eraseIdx i } now p ans = _ at h
        dsimp only
        rw [h]
        rfl
      · exact congrArg (fun x : MgmtRes H => x.1.perms) (hx s.perms)
  | resumeTrap i =>
    simp only [step, show (wp q s).pending = s.pending from rfl]
    cases s.pending[i]? <;> exact ⟨q, rfl, .inl ⟨rfl, rfl⟩⟩
  | upgrade => exact ⟨q, rfl, .inl ⟨rfl, rfl⟩⟩

theorem hasPermission_grant {m : Map Principal (List Permission)} {p p' : Principal} {x x' : Permission} :
    hasPermission (grantPermission m p x) p' x' = (hasPermission m p' x' || (decide (p = p') && decide (x = x'))) := by
  unfold hasPermission grantPermission
  by_cases h : p = p'
  · subst h
    rw [Map.get_set_self]
    cases m.get p with
    | none => simp [eq_comm]
    | some l => simp [eq_comm]
  · rw [Map.get_set_ne _ _ (by simpa using h)]
    simp [h]

theorem hasPermission_revoke {m : Map Principal (List Permission)} {p p' : Principal} {x x' : Permission} :
    hasPermission (revokePermission m p x) p' x' = (hasPermission m p' x' && !(decide (p = p') && decide (x = x'))) := by
  unfold hasPermission revokePermission
  by_cases h : p = p'
  · subst h
    cases hm : m.get p with
    | none => simp [hm]
    | some l =>
      dsimp only
      rw [Map.get_set_self]
      simp only [Option.map_some, Option.getD_some, decide_true, Bool.true_and]
      rw [Bool.eq_iff_iff]
      simp only [List.contains_iff_mem, List.mem_filter, Bool.and_eq_true, Bool.not_eq_true', decide_eq_false_iff_not,
        decide_eq_true_eq, ne_eq]
      constructor
      · exact fun h => ⟨h.1, fun e => h.2 e.symm⟩
      · exact fun h => ⟨h.1, fun e => h.2 e.symm⟩
  · cases hm : m.get p with
    | none => simp [h]
    | some l =>
      dsimp only
      rw [Map.get_set_ne _ _ (by simpa using h)]
      simp [h]

theorem more_along {q q' r r' : Map Principal (List Permission)} (h : Along q q' r r')
    (hm : ∀ p x, hasPermission r p x = true → hasPermission q p x = true) :
    ∀ p x, hasPermission r' p x = true → hasPermission q' p x = true := by
  intro p x
  rcases h with ⟨rfl, rfl⟩ | ⟨p', x', rfl, rfl⟩ | ⟨p', x', rfl, rfl⟩
  · exact hm p x
  · rw [hasPermission_grant, hasPermission_grant, Bool.or_eq_true, Bool.or_eq_true]
    exact fun h => h.imp_left (hm p x)
  · rw [hasPermission_revoke, hasPermission_revoke, Bool.and_eq_true, Bool.and_eq_true]
    exact fun h => ⟨hm p x h.1, h.2⟩

theorem others_along {q q' r r' : Map Principal (List Permission)} (h : Along q q' r r') {z : Principal}
    (hm : ∀ p, p ≠ z → q.get p = r.get p) : ∀ p, p ≠ z → q'.get p = r'.get p := by
  intro p hp
  rcases h with ⟨rfl, rfl⟩ | ⟨p', x', rfl, rfl⟩ | ⟨p', x', rfl, rfl⟩
  · exact hm p hp
  · unfold grantPermission
    by_cases e : p' = p
    · subst e; rw [Map.get_set_self, Map.get_set_self, hm _ hp]
    · rw [Map.get_set_ne _ _ (by simpa using e), Map.get_set_ne _ _ (by simpa using e), hm p hp]
  · unfold revokePermission
    by_cases e : p' = p
    · subst e
      rw [hm _ hp]
      cases hx : r.get p' with
      | none => simp only [hm _ hp]
      | some l => simp only [Map.get_set_self]
    · have e' : (p' == p) = false := by simpa using e
      cases q.get p' <;> cases r.get p' <;> simp only [Map.get_set_ne _ _ e', hm p hp]

end Verif.Spec.Permitted
