import Verif.Props.Admin
import Verif.Lemmas.Moments
import Verif.Lemmas.Uploads
import Verif.Spec.Files
/-!
# Uploads of other files: helper lemmas
-/
namespace Verif.Spec.Files

open Background Moments

variable {H : Type}

/-- Everything that only the upload calls touch. -/
abbrev Shelf := Map String Upload × List SubCanister × Map String String × Map String String

/-- The state with other uploads. -/
def wf (q : Shelf) (s : State H) : State H := { s with uploads := q.1, subs := q.2.1, redirects := q.2.2.1, router := q.2.2.2 }

/-- A result whose first part is a state. -/
def res {R : Type} (q : Shelf) (x : State H × R) : State H × R := (wf q x.1, x.2)

/-- A possibly trapped result. -/
def optRes {R : Type} (q : Shelf) (x : Option (State H × R)) : Option (State H × R) := x.map (res q)

theorem res_mk {R : Type} (q : Shelf) (s : State H) (x : R) : res q (s, x) = (wf q s, x) := rfl
theorem optRes_some {R : Type} (q : Shelf) (s : State H) (x : R) :
    optRes q (some (s, x)) = some (wf q s, x) := rfl
theorem wf_cfg (q : Shelf) (s : State H) : (wf q s).cfg = s.cfg := rfl
theorem wf_tokens (q : Shelf) (s : State H) : (wf q s).tokens = s.tokens := rfl

theorem addTx_wf (q : Shelf) (L : Ledger H) (s : State H) (t : Tx) :
    addTx L (wf q s) t = res q (addTx L s t) := by
  simp only [addTx, show (wf q s).hid = s.hid from rfl]
  generalize L.add s.hid t = x
  obtain ⟨h, _ | i⟩ := x <;> rfl

theorem guardEnter_wf (q : Shelf) (s : State H) (p : Principal) : guardEnter (wf q s) p = (guardEnter s p).map (wf q) := by
  unfold guardEnter
  rw [show (wf q s).guards = s.guards from rfl]
  split <;> rfl

theorem withGuard_wf (q : Shelf) (s : State H) (p : Principal) {b' b : State H → Option (MgmtRes H)}
    (h : ∀ s, b' (wf q s) = optRes q (b s)) : withGuard (wf q s) p b' = optRes q (withGuard s p b) := by
  unfold withGuard
  rw [guardEnter_wf q]
  cases guardEnter s p with
  | none => rfl
  | some s =>
    simp only [Option.map_some, h]
    cases b s with
    | none => rfl
    | some x => obtain ⟨s, y⟩ := x; rfl

theorem mintTxs_wf (q : Shelf) (L : Ledger H) (s : State H) (now i : Nat) (l : List MintReq) :
    mintTxs L (wf q s) now i l = res q (mintTxs L s now i l) := by
  induction l generalizing s i with
  | nil => rfl
  | cons a l ih =>
    simp only [mintTxs]
    rw [addTx_wf q]
    generalize addTx L s _ = x
    obtain ⟨s, e | j⟩ := x
    · rfl
    · exact ih s (i + 1)

theorem mintInsert_wf (q : Shelf) (s : State H) (i : Nat) (l : List MintReq) : mintInsert (wf q s) i l = wf q (mintInsert s i l) := by
  induction l generalizing s i with
  | nil => rfl
  | cons a l ih =>
    simp only [mintInsert]
    rw [← ih]
    rfl

theorem mint_wf (q : Shelf) (E : Env H) (s : State H) (caller : Principal) (now : Nat) (l : List MintReq) :
    mint E (wf q s) caller now l = optRes q (mint E s caller now l) := by
  refine withGuard_wf q s caller fun s => ?_
  rw [wf_cfg, wf_tokens]
  split
  · rfl
  · split
    · rfl
    · cases checkMemos s.cfg l with
      | none => rfl
      | some b =>
        cases b with
        | false => rfl
        | true =>
          simp only [show (wf q s).mdata = s.mdata from rfl, show (wf q s).lastId = s.lastId from rfl]
          cases mintMetadata s.mdata s.lastId l with
          | none => rfl
          | some md =>
            dsimp only
            have hx := mintTxs_wf q E.ledger { s with mdata := md } now s.lastId l
            change mintTxs E.ledger { wf q s with mdata := md } now s.lastId l = _ at hx
            change (match mintTxs E.ledger { wf q s with mdata := md } now s.lastId l with
              | (s, false) => _
              | (s₁, true) => _) = _
            rw [hx]
            clear hx
            generalize mintTxs E.ledger _ _ _ _ = x
            obtain ⟨s', b⟩ := x
            cases b with
            | false => rfl
            | true =>
              simp only [res_mk, optRes_some]
              rw [← mintInsert_wf q]
              rfl

theorem updateNftMetadata_wf (q : Shelf) (E : Env H) (s : State H) (caller : Principal) (now tid : Nat) (kvs : List (String × Value)) :
    updateNftMetadata E (wf q s) caller now tid kvs = optRes q (updateNftMetadata E s caller now tid kvs) := by
  refine withGuard_wf q s caller fun s => ?_
  simp only [wf_tokens, show (wf q s).mdata = s.mdata from rfl]
  cases s.tokens.get tid with
  | none => rfl
  | some t =>
    dsimp only
    cases replaceMetadata s.mdata t.id kvs with
    | none => rfl
    | some md =>
      dsimp only
      have hx := addTx_wf q E.ledger { s with mdata := md }
          { op := .updateToken, ts := now, tid := some tid, from_ := some ⟨caller, none⟩,
            meta_ := some ((getAllData s.mdata tid).getD [], (getAllData md tid).getD []), createdAt := some now }
      change addTx E.ledger { wf q s with mdata := md } _ = _ at hx
      change (match addTx E.ledger { wf q s with mdata := md } _ with
        | (s, .error _) => _
        | (s, .ok _) => _) = _
      rw [hx]
      clear hx
      generalize addTx E.ledger _ _ = x
      obtain ⟨s', e | j⟩ := x <;> rfl

theorem burnNft_wf (q : Shelf) (E : Env H) (s : State H) (caller : Principal) (now tid : Nat) :
    burnNft E (wf q s) caller now tid = optRes q (burnNft E s caller now tid) := by
  refine withGuard_wf q s caller fun s => ?_
  simp only [wf_tokens]
  cases s.tokens.get tid with
  | none => rfl
  | some t =>
    dsimp only
    split
    · rfl
    · rw [addTx_wf q]
      generalize addTx E.ledger _ _ = x
      obtain ⟨s', e | j⟩ := x <;> rfl

theorem ofMgmt_wf (q : Shelf) (s : State H) (x : Option (MgmtRes H)) : ofMgmt (wf q s) (optRes q x) = res q (ofMgmt s x) := by
  cases x <;> rfl

theorem trade_wf (q : Shelf) (E : Env H) (s : State H) {m : Msg} (ht : isTrade m = true) :
    step E (wf q s) m = res q (step E s m) := by
  have h1 := trade_floor E s ht
  have h2 := trade_floor E (wf q s) ht
  rw [show floor (wf q s) = floor s from rfl, h1] at h2
  have e1 : floor (step E (wf q s) m).1 = floor (step E s m).1 := (congrArg Prod.fst h2).symm
  have e2 : (step E (wf q s) m).2 = (step E s m).2 := (congrArg Prod.snd h2).symm
  have b := trade_back E s ht
  have b' := trade_back E (wf q s) ht
  refine Prod.ext (ext_back ⟨?_, ?_, ?_, ?_, ?_, ?_, ?_, ?_⟩ e1) e2
  · exact b'.perms.trans b.perms.symm
  · exact b'.subs
  · exact b'.redirects
  · exact b'.guards.trans b.guards.symm
  · exact b'.uploads
  · exact b'.mdata.trans b.mdata.symm
  · exact b'.router
  · exact b'.pending.trans b.pending.symm

/-- The calls that are not about a file neither read nor write what belongs to uploads. -/
theorem exec_wf (q : Shelf) (E : Env H) (s : State H) (caller : Principal) (now : Nat) (c : Call)
    (hc : fileOf c = none) : exec E (wf q s) caller now c = res q (exec E s caller now c) := by
  cases c with
  | transfer args => exact trade_wf q E s (m := .call caller now (.transfer args)) rfl
  | approveTokens args => exact trade_wf q E s (m := .call caller now (.approveTokens args)) rfl
  | approveCollection args => exact trade_wf q E s (m := .call caller now (.approveCollection args)) rfl
  | revokeTokens args => exact trade_wf q E s (m := .call caller now (.revokeTokens args)) rfl
  | revokeCollection args => exact trade_wf q E s (m := .call caller now (.revokeCollection args)) rfl
  | transferFrom args => exact trade_wf q E s (m := .call caller now (.transferFrom args)) rfl
  | updateCollectionMetadata a =>
    simp only [exec, updateCollectionMetadata]
    rw [withGuard_wf q s caller (b := fun s => some ({ s with cfg := applyUpdate s.cfg a }, .ok .unit)) (fun s => rfl),
      ofMgmt_wf]
  | mint reqs => simp only [exec, mint_wf, ofMgmt_wf]
  | updateNftMetadata tid kvs => simp only [exec, updateNftMetadata_wf, ofMgmt_wf]
  | burn tid => simp only [exec, burnNft_wf, ofMgmt_wf]
  | grant p x =>
    simp only [exec, grant]
    rw [withGuard_wf q s caller (b := fun s => some ({ s with perms := grantPermission s.perms p x }, .ok .unit)) (fun s => rfl),
      ofMgmt_wf]
  | revoke p x =>
    simp only [exec, revoke]
    rw [withGuard_wf q s caller (b := fun s => some ({ s with perms := revokePermission s.perms p x }, .ok .unit)) (fun s => rfl),
      ofMgmt_wf]
  | initUpload path n => cases hc
  | storeChunk path => cases hc
  | finalizeUpload path => cases hc
  | cancelUpload path => cases hc

theorem call_wf (q : Shelf) (E : Env H) (s : State H) (caller : Principal) (now : Nat) (c : Call)
    (hc : fileOf c = none) : step E (wf q s) (.call caller now c) = res q (step E s (.call caller now c)) := by
  simp only [step, execCall]
  cases c.needs with
  | none => exact exec_wf q E s caller now c hc
  | some p =>
    dsimp only
    by_cases hp : hasPermission s.perms caller p = true
    · rw [if_pos hp, if_pos (show hasPermission (wf q s).perms caller p = true from hp)]
      exact exec_wf q E s caller now c hc
    · rw [if_neg hp, if_neg (show ¬ hasPermission (wf q s).perms caller p = true from hp)]
      rfl

/-- What belongs to uploads. -/
def shelf (s : State H) : Shelf := (s.uploads, s.subs, s.redirects, s.router)

theorem wf_shelf (s : State H) : wf (shelf s) s = s := rfl
theorem shelf_wf (q : Shelf) (s : State H) : shelf (wf q s) = q := rfl

/-- A call that is not about a file leaves the uploads alone. -/
theorem call_shelf (E : Env H) (s : State H) (caller : Principal) (now : Nat) (c : Call) (hc : fileOf c = none) :
    shelf (step E s (.call caller now c)).1 = shelf s := by
  have h := call_wf (shelf s) E s caller now c hc
  rw [wf_shelf] at h
  rw [h]
  rfl

/-- … and does not wait. -/
theorem call_done (E : Env H) (s : State H) (caller : Principal) (now : Nat) (c : Call) (hc : fileOf c = none) :
    (step E s (.call caller now c)).2 ≠ .suspended := by
  have key : (exec E s caller now c).2 ≠ .suspended := by
    cases c with
    | transfer args => exact ofBatch_waits
    | approveTokens args => exact ofBatch_waits
    | approveCollection args => exact ofBatch_waits
    | revokeCollection args => exact ofBatch_waits
    | transferFrom args => exact ofBatch_waits
    | revokeTokens args =>
      simp only [exec]
      split <;> intro h <;> cases h
    | updateCollectionMetadata a => exact ofMgmt_waits
    | mint a => exact ofMgmt_waits
    | updateNftMetadata a b => exact ofMgmt_waits
    | burn a => exact ofMgmt_waits
    | grant a b => exact ofMgmt_waits
    | revoke a b => exact ofMgmt_waits
    | initUpload path n => cases hc
    | storeChunk path => cases hc
    | finalizeUpload path => cases hc
    | cancelUpload path => cases hc
  simp only [step, execCall]
  split
  · split
    · exact key
    · intro h; cases h
  · exact key

/-- There is nothing to end if no call waits. -/
theorem ending_idle (E : Env H) {s : State H} (h0 : s.pending = []) (e : Ending) : step E s e.msg = (s, .none) := by
  cases e <;> simp [Ending.msg, step, h0]

/-! ## The first half of an upload call -/

/-- The call goes to the storage canister, about the file `path`. -/
inductive Sent (path : String) (u : Upload) (c : Principal) : Pending → Prop
  | store : Sent path u c (.store c path u)
  | finalize : Sent path u c (.finalize c path u)
  | cancel : Sent path u c (.cancel c path u)

/-- The first half of an upload call: answered at once, or sent to the storage canister. -/
def Starts (path : String) (E : Env H) (t t' : State H) (m : Msg) : Prop :=
  (∃ r, step E t m = (t, r) ∧ step E t' m = (t', r)) ∨
  (∃ c p u, t.guards = [] ∧ t.uploads.get path = some u ∧ Sent path u c p ∧
    step E t m = (hold c p t, .suspended) ∧ step E t' m = (hold c p t', .suspended))

theorem async_starts {path : String} {t t' : State H} (hg : t'.guards = t.guards) (h0 : t.pending = []) (h0' : t'.pending = []) {c : Principal}
    {b : State H → State H × (Except MgmtErr MgmtOk ⊕ Pending)}
    (hb : (∃ r, ∀ g, b { t with guards := g } = ({ t with guards := g }, .inl r) ∧ b { t' with guards := g } = ({ t' with guards := g }, .inl r)) ∨
      ∃ p u, t.uploads.get path = some u ∧ Sent path u c p ∧
        ∀ g, b { t with guards := g } = ({ t with guards := g }, .inr p) ∧ b { t' with guards := g } = ({ t' with guards := g }, .inr p)) :
    (∃ r, ofStarted (withGuardAsync t c b) = (t, r) ∧ ofStarted (withGuardAsync t' c b) = (t', r)) ∨
    (∃ p u, t.guards = [] ∧ t.uploads.get path = some u ∧ Sent path u c p ∧
      ofStarted (withGuardAsync t c b) = (hold c p t, .suspended) ∧ ofStarted (withGuardAsync t' c b) = (hold c p t', .suspended)) := by
  by_cases hgt : t.guards = []
  · have e : ∀ t : State H, t.guards = [] → guardEnter t c = some { t with guards := [c] } := by
      intro t ht; simp [guardEnter, ht, maxConcurrent]
    have l : ∀ t : State H, t.guards = [] → guardLeave { t with guards := [c] } c = t := by
      intro t ht; cases t; simp_all [guardLeave]
    unfold withGuardAsync
    rw [e t hgt, e t' (hg.trans hgt)]
    dsimp only
    rcases hb with ⟨r, h⟩ | ⟨p, u, hu, hs, h⟩
    · rw [(h [c]).1, (h [c]).2]
      refine .inl ⟨.mgmt r, ?_, ?_⟩
      · simp only [ofStarted, l t hgt]
      · simp only [ofStarted, l t' (hg.trans hgt)]
    · rw [(h [c]).1, (h [c]).2]
      refine .inr ⟨p, u, hgt, hu, hs, ?_, ?_⟩
      · simp [ofStarted, hold, h0]
      · simp [ofStarted, hold, h0']
  · refine .inl ⟨.mgmt (.error .concurrentManagementCall), ?_, ?_⟩
    · unfold withGuardAsync; rw [guardEnter_busy hgt]; rfl
    · unfold withGuardAsync; rw [guardEnter_busy (hg ▸ hgt)]; rfl

theorem callStorage_sent {t : State H} {key path : String} {u : Upload} (hi : UploadInv t) (hu : t.uploads.get path = some u)
    (p : Pending) (g : List Principal) : callStorage { t with guards := g } key u p = ({ t with guards := g }, .inr p) := by
  obtain ⟨c, hc, hin⟩ := hi.store _ _ hu
  unfold callStorage
  rw [show ({ t with guards := g } : State H).subs = t.subs from rfl, hc]
  dsimp only
  rw [if_pos hin]

/-- The first half of a call about a file that is already being uploaded depends on its entry
only. -/
theorem starts {E : Env H} {t t' : State H} (hi : UploadInv t) (hi' : UploadInv t') (hp : t'.perms = t.perms)
    (hg : t'.guards = t.guards) (h0 : t.pending = []) (h0' : t'.pending = []) {path : String}
    (hu : t'.uploads.get path = t.uploads.get path) (c : Principal) (now : Nat) {call : Call} (hf : fileOf call = some path)
    (hn : ∀ n, call ≠ .initUpload path n) : Starts path E t t' (.call c now call) := by
  have key : (∃ r, exec E t c now call = (t, r) ∧ exec E t' c now call = (t', r)) ∨
    (∃ p u, t.guards = [] ∧ t.uploads.get path = some u ∧ Sent path u c p ∧
      exec E t c now call = (hold c p t, .suspended) ∧ exec E t' c now call = (hold c p t', .suspended)) := by
    cases call with
    | initUpload p n => cases hf; exact absurd rfl (hn n)
    | storeChunk p =>
      cases hf
      refine async_starts hg h0 h0' ?_
      dsimp only
      rw [hu]
      cases hx : t.uploads.get path with
      | none => exact .inl ⟨_, fun g => ⟨rfl, rfl⟩⟩
      | some u =>
        dsimp only
        cases u.state with
        | finalized => exact .inl ⟨_, fun g => ⟨rfl, rfl⟩⟩
        | init => exact .inr ⟨_, u, rfl, .store, fun g => ⟨callStorage_sent hi hx _ g, callStorage_sent hi' (hu.trans hx) _ g⟩⟩
        | inProgress => exact .inr ⟨_, u, rfl, .store, fun g => ⟨callStorage_sent hi hx _ g, callStorage_sent hi' (hu.trans hx) _ g⟩⟩
    | finalizeUpload p =>
      cases hf
      refine async_starts hg h0 h0' ?_
      dsimp only
      rw [hu]
      cases hx : t.uploads.get path with
      | none => exact .inl ⟨_, fun g => ⟨rfl, rfl⟩⟩
      | some u =>
        dsimp only
        cases u.state with
        | finalized => exact .inl ⟨_, fun g => ⟨rfl, rfl⟩⟩
        | init => exact .inl ⟨_, fun g => ⟨rfl, rfl⟩⟩
        | inProgress => exact .inr ⟨_, u, rfl, .finalize, fun g => ⟨callStorage_sent hi hx _ g, callStorage_sent hi' (hu.trans hx) _ g⟩⟩
    | cancelUpload p =>
      cases hf
      refine async_starts hg h0 h0' ?_
      dsimp only
      rw [hu]
      cases hx : t.uploads.get path with
      | none => exact .inl ⟨_, fun g => ⟨rfl, rfl⟩⟩
      | some u =>
        dsimp only
        cases u.state with
        | finalized => exact .inl ⟨_, fun g => ⟨rfl, rfl⟩⟩
        | init => exact .inr ⟨_, u, rfl, .cancel, fun g => ⟨callStorage_sent hi hx _ g, callStorage_sent hi' (hu.trans hx) _ g⟩⟩
        | inProgress => exact .inr ⟨_, u, rfl, .cancel, fun g => ⟨callStorage_sent hi hx _ g, callStorage_sent hi' (hu.trans hx) _ g⟩⟩
    | _ => cases hf
  unfold Starts
  simp only [step, execCall]
  cases call.needs with
  | none =>
    rcases key with h | ⟨p, h⟩
    · exact .inl h
    · exact .inr ⟨c, p, h⟩
  | some x =>
    dsimp only
    rw [hp]
    by_cases hx : hasPermission t.perms c x = true
    · rw [if_pos hx, if_pos hx]
      rcases key with h | ⟨p, h⟩
      · exact .inl h
      · exact .inr ⟨c, p, h⟩
    · rw [if_neg hx, if_neg hx]
      exact .inl ⟨_, rfl, rfl⟩

/-- The first half of an `init_upload`. -/
theorem starts_init (E : Env H) {t : State H} (h0 : t.pending = []) (c : Principal) (now : Nat) (path : String) (n : Nat) :
    (∃ r, step E t (.call c now (.initUpload path n)) = (t, r)) ∨
    (t.guards = [] ∧ step E t (.call c now (.initUpload path n)) = (hold c (.init c path n t.subs) t, .suspended)) := by
  have key : (∃ r, exec E t c now (.initUpload path n) = (t, r)) ∨
    (t.guards = [] ∧ exec E t c now (.initUpload path n) = (hold c (.init c path n t.subs) t, .suspended)) := by
    by_cases hgt : t.guards = []
    · have e : guardEnter t c = some { t with guards := [c] } := by simp [guardEnter, hgt, maxConcurrent]
      have l : guardLeave { t with guards := [c] } c = t := by cases t; simp_all [guardLeave]
      simp only [exec, initUpload, withGuardAsync, e]
      by_cases h1 : containsPath t.uploads path = true
      · refine .inl ⟨.mgmt (.error .fileAlreadyExists), ?_⟩
        rw [if_pos h1]
        simp only [ofStarted, l]
      · rw [if_neg h1]
        by_cases h2 : n > maxFileSize
        · refine .inl ⟨.mgmt (.error .storageCanisterError), ?_⟩
          rw [if_pos h2]
          simp only [ofStarted, l]
        · refine .inr ⟨hgt, ?_⟩
          rw [if_neg h2]
          simp [ofStarted, hold, h0]
    · refine .inl ⟨.mgmt (.error .concurrentManagementCall), ?_⟩
      simp only [exec, initUpload, withGuardAsync, guardEnter_busy hgt]
      rfl
  simp only [step, execCall]
  cases (Call.initUpload path n).needs with
  | none => exact key
  | some x =>
    dsimp only
    by_cases hx : hasPermission t.perms c x = true
    · rw [if_pos hx]; exact key
    · rw [if_neg hx]; exact .inl ⟨_, rfl⟩

/-! ## The second half -/

theorem end_trap (E : Env H) {t : State H} (hg : t.guards = []) (h0 : t.pending = []) (p : Pending) :
    step E (hold p.caller p t) (.resumeTrap 0) = (t, .trapped) := by
  cases t
  dsimp only at hg h0
  subst hg h0
  simp [step, hold, guardLeave]

theorem end_answer (E : Env H) {t : State H} (hg : t.guards = []) (h0 : t.pending = []) (p : Pending) (now : Nat) (ans : Answer) :
    step E (hold p.caller p t) (.resume now 0 ans) = ((resumeBody E t now p ans).1, .mgmt (resumeBody E t now p ans).2) := by
  cases t
  dsimp only at hg h0
  subst hg h0
  cases p with
  | init c path n subs =>
    cases hx : managerInitUpload ans subs n <;> simp [step, hold, resumeBody, Pending.caller, guardLeave, hx]
  | store c key u => cases hx : ans.resp <;> simp [step, hold, resumeBody, Pending.caller, guardLeave, hx]
  | finalize c key u => cases hx : ans.resp <;> simp [step, hold, resumeBody, Pending.caller, guardLeave, hx]
  | cancel c key u => cases hx : ans.resp <;> simp [step, hold, resumeBody, Pending.caller, guardLeave, hx]

/-- One end for both. -/
theorem ends {E : Env H} {t : State H} {q : Shelf} {path : String} (hu : q.1.get path = t.uploads.get path)
    (hi : UploadInv t) {u : Upload} (hx : t.uploads.get path = some u) {c : Principal}
    {p : Pending} (hs : Sent path u c p) (now : Nat) (ans : Answer) :
    (resumeBody E (wf q t) now p ans).2 = (resumeBody E t now p ans).2 ∧
    ∃ q' : Shelf, (resumeBody E (wf q t) now p ans).1 = wf q' (resumeBody E t now p ans).1 ∧
      q'.1.get path = (resumeBody E t now p ans).1.uploads.get path ∧
      (q.2.2.2.get (mediaPath path) = t.router.get (mediaPath path) →
        q'.2.2.2.get (mediaPath path) = (resumeBody E t now p ans).1.router.get (mediaPath path)) := by
  have hpath := hi.path _ _ hx
  cases hs with
  | store =>
    simp only [resumeBody]
    cases ans.resp with
    | error e => exact ⟨rfl, q, rfl, hu, id⟩
    | ok x => exact ⟨rfl, ⟨q.1.set path _, q.2⟩, rfl, by simp [Map.get_set_self], id⟩
  | finalize =>
    simp only [resumeBody]
    cases ans.resp with
    | error e => exact ⟨rfl, q, rfl, hu, id⟩
    | ok x =>
      exact ⟨rfl, ⟨q.1.set path _, q.2.1, q.2.2.1.set _ _, q.2.2.2.set _ _⟩, rfl, by simp [Map.get_set_self],
        fun _ => by rw [hpath]; simp [Map.get_set_self]⟩
  | cancel =>
    simp only [resumeBody]
    cases ans.resp with
    | error e => exact ⟨rfl, q, rfl, hu, id⟩
    | ok x => exact ⟨rfl, ⟨q.1.del path, q.2⟩, rfl, by simp [Map.get_del_self], id⟩

theorem sent_caller {path : String} {u : Upload} {c : Principal} {p : Pending} (h : Sent path u c p) : p.caller = c := by
  cases h <;> rfl

/-- How two states are related. -/
structure Like (path : String) (s s' : State H) : Prop where
  file : s'.uploads.get path = s.uploads.get path
  rest : ∃ q, s' = wf q s

theorem Like.refl (path : String) (s : State H) : Like path s s := ⟨rfl, shelf s, rfl⟩

theorem Like.trans {path : String} {s t u : State H} (h : Like path s t) (h' : Like path t u) : Like path s u := by
  obtain ⟨q, rfl⟩ := h.rest
  obtain ⟨q', rfl⟩ := h'.rest
  exact ⟨h'.file.trans h.file, q', rfl⟩

theorem Like.symm {path : String} {s t : State H} (h : Like path s t) : Like path t s := by
  obtain ⟨q, rfl⟩ := h.rest
  exact ⟨h.file.symm, shelf s, rfl⟩

/-- Both serve the file alike. -/
def Served (path : String) (s s' : State H) : Prop := s'.router.get (mediaPath path) = s.router.get (mediaPath path)

/-- A deed about another file changes nothing else. -/
theorem other_deed {E : Env H} {t : State H} (hr : Reachable E t) (h0 : t.pending = []) {path : String} {d : Deed}
    (ho : aboutOther path d = true) :
    (run E t d.msgs).pending = [] ∧ Like path t (run E t d.msgs) ∧
    ((∀ c now call e p, d = .call c now call e → fileOf call = some p → mediaPath p ≠ mediaPath path) →
      Served path t (run E t d.msgs)) := by
  have hi := hr.uploadInv
  cases d with
  | upgrade => cases ho
  | call c now call e =>
    cases hf : fileOf call with
    | none => simp [aboutOther, hf] at ho
    | some p =>
      have hne : p ≠ path := by simpa [aboutOther, hf] using ho
      have hb : (p == path) = false := by simpa using hne
      show (step E (step E t _).1 e.msg).1.pending = [] ∧ Like path t (step E (step E t _).1 e.msg).1 ∧
        ((∀ c' now' call' e' p', Deed.call c now call e = .call c' now' call' e' → fileOf call' = some p' →
          mediaPath p' ≠ mediaPath path) → Served path t (step E (step E t _).1 e.msg).1)
      -- the second half, for a call that waits
      have fin : ∀ (pend : Pending), t.guards = [] →
          (∀ now ans, (resumeBody E t now pend ans).1.pending = [] ∧ Like path t (resumeBody E t now pend ans).1 ∧
            (mediaPath p ≠ mediaPath path → Served path t (resumeBody E t now pend ans).1)) →
          (step E (hold pend.caller pend t) e.msg).1.pending = [] ∧ Like path t (step E (hold pend.caller pend t) e.msg).1 ∧
          ((∀ c' now' call' e' p', Deed.call c now call e = .call c' now' call' e' → fileOf call' = some p' →
            mediaPath p' ≠ mediaPath path) → Served path t (step E (hold pend.caller pend t) e.msg).1) := by
        intro pend hg h
        cases e with
        | trapped =>
          simp only [Ending.msg, end_trap E hg h0]
          exact ⟨h0, Like.refl _ _, fun _ => rfl⟩
        | answered now' ans =>
          simp only [Ending.msg, end_answer E hg h0]
          obtain ⟨a, b, c⟩ := h now' ans
          exact ⟨a, b, fun hm => c (hm _ _ _ _ p rfl hf)⟩
      have same : ∀ r, step E t (.call c now call) = (t, r) →
          (step E (step E t (.call c now call)).1 e.msg).1.pending = [] ∧
          Like path t (step E (step E t (.call c now call)).1 e.msg).1 ∧
          ((∀ c' now' call' e' p', Deed.call c now call e = .call c' now' call' e' → fileOf call' = some p' →
            mediaPath p' ≠ mediaPath path) → Served path t (step E (step E t (.call c now call)).1 e.msg).1) := by
        intro r h
        rw [h]
        dsimp only
        rw [ending_idle E h0]
        exact ⟨h0, Like.refl _ _, fun _ => rfl⟩
      by_cases hinit : ∃ n, call = .initUpload p n
      · obtain ⟨n, rfl⟩ := hinit
        rcases starts_init E h0 c now p n with ⟨r, h⟩ | ⟨hg, h⟩
        · exact same r h
        · rw [h]
          refine fin (.init c p n t.subs) hg ?_
          intro now' ans
          simp only [resumeBody]
          cases managerInitUpload ans t.subs n with
          | none => exact ⟨h0, Like.refl _ _, fun _ => rfl⟩
          | some x =>
            refine ⟨h0, ⟨?_, (_, _, _, _), rfl⟩, fun _ => rfl⟩
            exact Map.get_set_ne _ _ hb
      · rcases starts (E := E) hi hi rfl rfl h0 h0 rfl c now hf (fun n h => hinit ⟨n, h⟩) with ⟨r, h, _⟩ | ⟨c', pend, u, hg, hx, hs, h, _⟩
        · exact same r h
        · rw [h, show hold c' pend t = hold pend.caller pend t by rw [sent_caller hs]]
          refine fin pend hg ?_
          intro now' ans
          have hpath := hi.path _ _ hx
          cases hs with
          | store =>
            simp only [resumeBody]
            cases ans.resp with
            | error e => exact ⟨h0, Like.refl _ _, fun _ => rfl⟩
            | ok x => exact ⟨h0, ⟨Map.get_set_ne _ _ hb, (_, _, _, _), rfl⟩, fun _ => rfl⟩
          | finalize =>
            simp only [resumeBody]
            cases ans.resp with
            | error e => exact ⟨h0, Like.refl _ _, fun _ => rfl⟩
            | ok x =>
              refine ⟨h0, ⟨Map.get_set_ne _ _ hb, (_, _, _, _), rfl⟩, fun hm => ?_⟩
              refine Map.get_set_ne _ _ ?_
              rw [hpath]
              simpa using hm
          | cancel =>
            simp only [resumeBody]
            cases ans.resp with
            | error e => exact ⟨h0, Like.refl _ _, fun _ => rfl⟩
            | ok x => exact ⟨h0, ⟨Map.get_del_ne _ hb, (_, _, _, _), rfl⟩, fun _ => rfl⟩

/-- Any other deed goes the same way in both. -/
theorem kept_deed {E : Env H} {s s' : State H} (hr : Reachable E s) (hr' : Reachable E s') (h0 : s.pending = [])
    {path : String} (hl : Like path s s') {d : Deed} (ho : aboutOther path d = false)
    (hn : ∀ c now n e, d ≠ .call c now (.initUpload path n) e) :
    replies E s' d.msgs = replies E s d.msgs ∧ (run E s d.msgs).pending = [] ∧
    Like path (run E s d.msgs) (run E s' d.msgs) ∧ (Served path s s' → Served path (run E s d.msgs) (run E s' d.msgs)) := by
  have hi := hr.uploadInv
  have hi' := hr'.uploadInv
  obtain ⟨hfile, q, rfl⟩ := hl
  cases d with
  | upgrade =>
    refine ⟨rfl, rfl, ⟨hfile, (q.1, q.2.1, q.2.2.1, (upgrade (wf q s)).router), rfl⟩, ?_⟩
    intro h
    show (upgrade (wf q s)).router.get _ = (upgrade s).router.get _
    rw [upgrade_router hr.routeInv.nodup, upgrade_router hr'.routeInv.nodup, ← hr.routeInv.same, ← hr'.routeInv.same]
    exact h
  | call c now call e =>
    show [(step E (wf q s) _).2, (step E (step E (wf q s) _).1 _).2] = [(step E s _).2, (step E (step E s _).1 _).2] ∧
      (step E (step E s _).1 _).1.pending = [] ∧ Like path (step E (step E s _).1 _).1 (step E (step E (wf q s) _).1 _).1 ∧
      (_ → Served path (step E (step E s _).1 _).1 (step E (step E (wf q s) _).1 _).1)
    cases hf : fileOf call with
    | none =>
      have h1 := pending_of_reply h0 (call_done E s c now call hf)
      have h2 : shelf (step E s (.call c now call)).1 = shelf s := call_shelf E s c now call hf
      rw [call_wf q E s c now call hf]
      simp only [res]
      rw [ending_idle E h1, ending_idle E (show (wf q (step E s (.call c now call)).1).pending = [] from h1)]
      have hu : (step E s (.call c now call)).1.uploads = s.uploads := congrArg Prod.fst h2
      have hro : (step E s (.call c now call)).1.router = s.router := congrArg (fun q : Shelf => q.2.2.2) h2
      refine ⟨rfl, h1, ⟨?_, q, rfl⟩, ?_⟩
      · exact hfile.trans (by rw [hu])
      · intro h
        exact h.trans (by rw [hro])
    | some p =>
      have hp : p = path := by simpa [aboutOther, hf] using ho
      subst hp
      rcases starts (E := E) hi hi' rfl rfl h0 h0 hfile c now hf (fun n h => hn c now n e (by rw [h])) with
        ⟨r, h, h'⟩ | ⟨c', pend, u, hg, hx, hs, h, h'⟩
      · rw [h, h']
        dsimp only
        rw [ending_idle E h0, ending_idle E (show (wf q s).pending = [] from h0)]
        exact ⟨rfl, h0, ⟨hfile, q, rfl⟩, id⟩
      · rw [h, h', show hold c' pend s = hold pend.caller pend s by rw [sent_caller hs],
          show hold c' pend (wf q s) = hold pend.caller pend (wf q s) by rw [sent_caller hs]]
        cases e with
        | trapped =>
          simp only [Ending.msg]
          rw [end_trap E hg h0, end_trap E (show (wf q s).guards = [] from hg) (show (wf q s).pending = [] from h0)]
          exact ⟨rfl, h0, ⟨hfile, q, rfl⟩, id⟩
        | answered now' ans =>
          simp only [Ending.msg]
          rw [end_answer E hg h0, end_answer E (show (wf q s).guards = [] from hg) (show (wf q s).pending = [] from h0)]
          obtain ⟨e1, q', e2, e3, e4⟩ := ends (E := E) (q := q) hfile hi hx hs now' ans
          dsimp only
          rw [e1, e2]
          refine ⟨rfl, ?_, ⟨e3, q', rfl⟩, e4⟩
          cases hs with
          | store => simp only [resumeBody]; cases ans.resp <;> exact h0
          | finalize => simp only [resumeBody]; cases ans.resp <;> exact h0
          | cancel => simp only [resumeBody]; cases ans.resp <;> exact h0

theorem afterDeeds_cons (E : Env H) (s : State H) (d : Deed) (l : List Deed) :
    afterDeeds E s (d :: l) = afterDeeds E (run E s d.msgs) l := by
  unfold afterDeeds
  rw [List.flatMap_cons, run_append]

theorem deeds {E : Env H} {path : String} (l : List Deed) (hn : ∀ d ∈ l, ∀ c now n e, d ≠ .call c now (.initUpload path n) e)
    {s s' : State H} (hr : Reachable E s) (hr' : Reachable E s') (h0 : s.pending = []) (hl : Like path s s') :
    deedReplies E s' (l.filter fun d => !aboutOther path d) = (deedReplies E s l).filter (fun x => !aboutOther path x.1) ∧
    Like path (afterDeeds E s l) (afterDeeds E s' (l.filter fun d => !aboutOther path d)) ∧
    ((∀ d ∈ l, ∀ c now call e p, d = .call c now call e → fileOf call = some p → p ≠ path → mediaPath p ≠ mediaPath path) →
      Served path s s' → Served path (afterDeeds E s l) (afterDeeds E s' (l.filter fun d => !aboutOther path d))) := by
  induction l generalizing s s' with
  | nil => exact ⟨rfl, hl, fun _ h => h⟩
  | cons d l ih =>
    have hn' : ∀ d ∈ l, ∀ c now n e, d ≠ .call c now (.initUpload path n) e := fun d' h => hn d' (List.mem_cons_of_mem _ h)
    rw [afterDeeds_cons]
    simp only [deedReplies]
    cases ho : aboutOther path d with
    | true =>
      rw [List.filter_cons_of_neg (by simp [ho]), List.filter_cons_of_neg (by simp [ho])]
      obtain ⟨a, b, c⟩ := other_deed hr h0 ho
      obtain ⟨i1, i2, i3⟩ := ih hn' (hr.run d.msgs) hr' a (b.symm.trans hl)
      refine ⟨i1, i2, fun hm hsv => i3 (fun d' h => hm d' (List.mem_cons_of_mem _ h)) ?_⟩
      refine hsv.trans (c ?_).symm
      intro c' now' call' e' p' hd hf
      refine hm d (List.mem_cons_self ..) c' now' call' e' p' hd hf ?_
      subst hd
      simpa [aboutOther, hf] using ho
    | false =>
      rw [List.filter_cons_of_pos (by simp [ho]), List.filter_cons_of_pos (by simp [ho])]
      obtain ⟨a, b, c, e⟩ := kept_deed hr hr' h0 hl ho (hn d (List.mem_cons_self ..))
      rw [afterDeeds_cons]
      simp only [deedReplies]
      obtain ⟨i1, i2, i3⟩ := ih hn' (hr.run d.msgs) (hr'.run d.msgs) b c
      refine ⟨?_, i2, fun hm hsv => i3 (fun d' h => hm d' (List.mem_cons_of_mem _ h)) (e hsv)⟩
      rw [a, i1]

/-- Whether an upload can be begun depends on the entry of its file only. -/
theorem init_alike {E : Env H} {s s' : State H} (hr : Reachable E s) (hr' : Reachable E s') {path : String}
    (hl : Like path s s') (c : Principal) (now n : Nat) :
    (step E s' (.call c now (.initUpload path n))).2 = (step E s (.call c now (.initUpload path n))).2 := by
  have hi := hr.uploadInv
  have hi' := hr'.uploadInv
  obtain ⟨hfile, q, rfl⟩ := hl
  have hc : containsPath q.1 path = containsPath s.uploads path := by
    cases h1 : containsPath s.uploads path with
    | true =>
      obtain ⟨u, hu⟩ := containsPath_true hi h1
      cases h2 : containsPath q.1 path with
      | true => rfl
      | false =>
        have := containsPath_false hi' h2
        rw [hfile, hu] at this
        cases this
    | false =>
      have hu := containsPath_false hi h1
      cases h2 : containsPath q.1 path with
      | false => rfl
      | true =>
        obtain ⟨u, hu'⟩ := containsPath_true hi' h2
        rw [hfile, hu] at hu'
        cases hu'
  have key : (exec E (wf q s) c now (.initUpload path n)).2 = (exec E s c now (.initUpload path n)).2 := by
    simp only [exec, initUpload, withGuardAsync]
    rw [guardEnter_wf]
    cases hg : guardEnter s c with
    | none => rfl
    | some t =>
      have ht : t.uploads = s.uploads := by
        unfold guardEnter at hg
        split at hg
        · cases hg
        · cases hg; rfl
      simp only [Option.map_some]
      rw [show (wf q t).uploads = q.1 from rfl, hc, ht]
      by_cases h1 : containsPath s.uploads path = true
      · rw [if_pos h1, if_pos h1]; rfl
      · rw [if_neg h1, if_neg h1]
        by_cases h2 : n > maxFileSize
        · rw [if_pos h2, if_pos h2]; rfl
        · rw [if_neg h2, if_neg h2]; rfl
  simp only [step, execCall]
  cases (Call.initUpload path n).needs with
  | none => exact key
  | some x =>
    dsimp only
    by_cases hx : hasPermission s.perms c x = true
    · rw [if_pos hx, if_pos (show hasPermission (wf q s).perms c x = true from hx)]; exact key
    · rw [if_neg hx, if_neg (show ¬ hasPermission (wf q s).perms c x = true from hx)]

end Verif.Spec.Files
