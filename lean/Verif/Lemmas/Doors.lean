import Verif.Spec.Doors
/-!
# Approvals only open doors: helper lemmas
-/
namespace Verif.Spec.Doors

variable {H : Type}

/-- The two tables of approvals. -/
abbrev Tables := Map Nat (Map Account Approval) × Map Account (Map Account Approval)

/-- The state with other tables of approvals. -/
def wa (q : Tables) (s : State H) : State H := { s with tokAppr := q.1, collAppr := q.2 }

/-- A result whose first part is a state. -/
def res {R : Type} (q : Tables) (x : State H × R) : State H × R := (wa q x.1, x.2)

/-- A possibly trapped result. -/
def optRes {R : Type} (q : Tables) (x : Option (State H × R)) : Option (State H × R) := x.map (res q)

theorem res_mk {R : Type} (q : Tables) (s : State H) (x : R) : res q (s, x) = (wa q s, x) := rfl
theorem optRes_some {R : Type} (q : Tables) (s : State H) (x : R) :
    optRes q (some (s, x)) = some (wa q s, x) := rfl
theorem wa_cfg (q : Tables) (s : State H) : (wa q s).cfg = s.cfg := rfl
theorem wa_tokens (q : Tables) (s : State H) : (wa q s).tokens = s.tokens := rfl

theorem addTx_wa (q : Tables) (L : Ledger H) (s : State H) (t : Tx) :
    addTx L (wa q s) t = res q (addTx L s t) := by
  simp only [addTx, show (wa q s).hid = s.hid from rfl]
  generalize L.add s.hid t = x
  obtain ⟨h, _ | i⟩ := x <;> rfl

theorem guardEnter_wa (q : Tables) (s : State H) (p : Principal) : guardEnter (wa q s) p = (guardEnter s p).map (wa q) := by
  unfold guardEnter
  rw [show (wa q s).guards = s.guards from rfl]
  split <;> rfl

theorem withGuard_wa (q : Tables) (s : State H) (p : Principal) {b' b : State H → Option (MgmtRes H)}
    (h : ∀ s, b' (wa q s) = optRes q (b s)) : withGuard (wa q s) p b' = optRes q (withGuard s p b) := by
  unfold withGuard
  rw [guardEnter_wa q]
  cases guardEnter s p with
  | none => rfl
  | some s =>
    simp only [Option.map_some, h]
    cases b s with
    | none => rfl
    | some x => obtain ⟨s, y⟩ := x; rfl

theorem mintTxs_wa (q : Tables) (L : Ledger H) (s : State H) (now i : Nat) (l : List MintReq) :
    mintTxs L (wa q s) now i l = res q (mintTxs L s now i l) := by
  induction l generalizing s i with
  | nil => rfl
  | cons a l ih =>
    simp only [mintTxs]
    rw [addTx_wa q]
    generalize addTx L s _ = x
    obtain ⟨s, e | j⟩ := x
    · rfl
    · exact ih s (i + 1)

theorem mintInsert_wa (q : Tables) (s : State H) (i : Nat) (l : List MintReq) : mintInsert (wa q s) i l = wa q (mintInsert s i l) := by
  induction l generalizing s i with
  | nil => rfl
  | cons a l ih =>
    simp only [mintInsert]
    rw [← ih]
    rfl

theorem mint_wa (q : Tables) (E : Env H) (s : State H) (caller : Principal) (now : Nat) (l : List MintReq) :
    mint E (wa q s) caller now l = optRes q (mint E s caller now l) := by
  refine withGuard_wa q s caller fun s => ?_
  rw [wa_cfg, wa_tokens]
  split
  · rfl
  · split
    · rfl
    · cases checkMemos s.cfg l with
      | none => rfl
      | some b =>
        cases b with
        | false => rfl
        | true =>
          simp only [show (wa q s).mdata = s.mdata from rfl, show (wa q s).lastId = s.lastId from rfl]
          cases mintMetadata s.mdata s.lastId l with
          | none => rfl
          | some md =>
            dsimp only
            have hx := mintTxs_wa q E.ledger { s with mdata := md } now s.lastId l
            change mintTxs E.ledger { wa q s with mdata := md } now s.lastId l = _ at hx
            change (match mintTxs E.ledger { wa q s with mdata := md } now s.lastId l with
              | (s, false) => _
              | (s₁, true) => _) = _
            rw [hx]
            clear hx
            generalize mintTxs E.ledger _ _ _ _ = x
            obtain ⟨s', b⟩ := x
            cases b with
            | false => rfl
            | true =>
              simp only [res_mk, optRes_some]
              rw [← mintInsert_wa q]
              rfl

theorem updateNftMetadata_wa (q : Tables) (E : Env H) (s : State H) (caller : Principal) (now tid : Nat) (kvs : List (String × Value)) :
    updateNftMetadata E (wa q s) caller now tid kvs = optRes q (updateNftMetadata E s caller now tid kvs) := by
  refine withGuard_wa q s caller fun s => ?_
  simp only [wa_tokens, show (wa q s).mdata = s.mdata from rfl]
  cases s.tokens.get tid with
  | none => rfl
  | some t =>
    dsimp only
    cases replaceMetadata s.mdata t.id kvs with
    | none => rfl
    | some md =>
      dsimp only
      have hx := addTx_wa q E.ledger { s with mdata := md }
          { op := .updateToken, ts := now, tid := some tid, from_ := some ⟨caller, none⟩,
            meta_ := some ((getAllData s.mdata tid).getD [], (getAllData md tid).getD []), createdAt := some now }
      change addTx E.ledger { wa q s with mdata := md } _ = _ at hx
      change (match addTx E.ledger { wa q s with mdata := md } _ with
        | (s, .error _) => _
        | (s, .ok _) => _) = _
      rw [hx]
      clear hx
      generalize addTx E.ledger _ _ = x
      obtain ⟨s', e | j⟩ := x <;> rfl

theorem burnNft_wa (q : Tables) (E : Env H) (s : State H) (caller : Principal) (now tid : Nat) :
    burnNft E (wa q s) caller now tid = optRes q (burnNft E s caller now tid) := by
  refine withGuard_wa q s caller fun s => ?_
  simp only [wa_tokens]
  cases s.tokens.get tid with
  | none => rfl
  | some t =>
    dsimp only
    split
    · rfl
    · rw [addTx_wa q]
      generalize addTx E.ledger _ _ = x
      obtain ⟨s', e | j⟩ := x <;> rfl

/-- The first segment of an asynchronous method. -/
def started (q : Tables) : Started H → Started H
  | .done s x => .done (wa q s) x
  | .suspended s => .suspended (wa q s)

theorem withGuardAsync_wa (q : Tables) (s : State H) (p : Principal) {b : State H → State H × (Except MgmtErr MgmtOk ⊕ Pending)}
    (h : ∀ s, b (wa q s) = res q (b s)) : withGuardAsync (wa q s) p b = started q (withGuardAsync s p b) := by
  unfold withGuardAsync
  rw [guardEnter_wa q]
  cases guardEnter s p with
  | none => rfl
  | some s =>
    simp only [Option.map_some, h]
    generalize b s = x
    obtain ⟨s, e | q⟩ := x <;> rfl

theorem callStorage_wa (q : Tables) (s : State H) (key : String) (u : Upload) (p : Pending) :
    callStorage (wa q s) key u p = res q (callStorage s key u p) := by
  unfold callStorage
  rw [show (wa q s).subs = s.subs from rfl]
  cases getSub s.subs u.canister with
  | none => rfl
  | some c =>
    simp only
    split <;> rfl

theorem initUpload_wa (q : Tables) (s : State H) (caller : Principal) (path : String) (n : Nat) :
    initUpload (wa q s) caller path n = started q (initUpload s caller path n) := by
  refine withGuardAsync_wa q s caller fun s => ?_
  rw [show (wa q s).uploads = s.uploads from rfl]
  split
  · rfl
  · split <;> rfl

theorem storeChunk_wa (q : Tables) (s : State H) (caller : Principal) (key : String) :
    storeChunk (wa q s) caller key = started q (storeChunk s caller key) := by
  refine withGuardAsync_wa q s caller fun s => ?_
  simp only [show (wa q s).uploads = s.uploads from rfl, callStorage_wa q]
  cases s.uploads.get key with
  | none => rfl
  | some u => simp only; cases u.state <;> rfl

theorem finalizeUpload_wa (q : Tables) (s : State H) (caller : Principal) (key : String) :
    finalizeUpload (wa q s) caller key = started q (finalizeUpload s caller key) := by
  refine withGuardAsync_wa q s caller fun s => ?_
  simp only [show (wa q s).uploads = s.uploads from rfl, callStorage_wa q]
  cases s.uploads.get key with
  | none => rfl
  | some u => simp only; cases u.state <;> rfl

theorem cancelUpload_wa (q : Tables) (s : State H) (caller : Principal) (key : String) :
    cancelUpload (wa q s) caller key = started q (cancelUpload s caller key) := by
  refine withGuardAsync_wa q s caller fun s => ?_
  simp only [show (wa q s).uploads = s.uploads from rfl, callStorage_wa q]
  cases s.uploads.get key with
  | none => rfl
  | some u => simp only; cases u.state <;> rfl

theorem resumeBody_wa (q : Tables) (E : Env H) (s : State H) (now : Nat) (p : Pending) (a : Answer) :
    resumeBody E (wa q s) now p a = res q (resumeBody E s now p a) := by
  cases p with
  | init c path n subs =>
    simp only [resumeBody]
    cases managerInitUpload a subs n <;> rfl
  | store c key u => simp only [resumeBody]; cases a.resp <;> rfl
  | finalize c key u => simp only [resumeBody]; cases a.resp <;> rfl
  | cancel c key u => simp only [resumeBody]; cases a.resp <;> rfl

theorem ofMgmt_wa (q : Tables) (s : State H) (x : Option (MgmtRes H)) : ofMgmt (wa q s) (optRes q x) = res q (ofMgmt s x) := by
  cases x <;> rfl

theorem ofStarted_wa (q : Tables) (x : Started H) : ofStarted (started q x) = res q (ofStarted x) := by
  cases x <;> rfl

theorem guardWindow_wa (q : Tables) (s : State H) (now tid : Nat) : guardWindow (wa q s) now tid = res q (guardWindow s now tid) := rfl

theorem transferNft_wa (q : Tables) (L : Ledger H) (s : State H) (caller : Principal) (now : Nat) (a : TransferArg) :
    transferNft L (wa q s) caller now a = optRes q (transferNft L s caller now a) := by
  unfold transferNft
  obtain ⟨s₁, ok, hx⟩ : ∃ s₁ ok, guardWindow s now a.tid = (s₁, ok) := ⟨_, _, rfl⟩
  rw [guardWindow_wa q, hx]
  clear hx
  revert s₁
  intro s
  cases ok with
  | false => rfl
  | true =>
    simp only [res_mk, Bool.not_true, Bool.false_eq_true, if_false, wa_tokens, wa_cfg]
    cases s.tokens.get a.tid with
    | none => rfl
    | some nft =>
      dsimp only
      cases checkMemo s.cfg a.memo with
      | none => rfl
      | some b =>
        cases b with
        | false => rfl
        | true =>
          dsimp only
          split
          · rfl
          · cases transferTiming s.cfg now (a.createdAt.getD now) with
            | none => rfl
            | some o =>
              cases o with
              | some e => rfl
              | none =>
                dsimp only
                rw [addTx_wa q]
                generalize addTx L s _ = y
                obtain ⟨s, e | i⟩ := y
                · cases e <;> rfl
                · rfl

theorem runBatch_wa (q : Tables) {A R : Type} {f : State H → A → Option (State H × R)}
    (h : ∀ s a, f (wa q s) a = optRes q (f s a)) (s : State H) (l : List A) :
    runBatch f (wa q s) l = optRes q (runBatch f s l) := by
  induction l generalizing s with
  | nil => rfl
  | cons a l ih =>
    simp only [runBatch, h s a]
    cases f s a with
    | none => rfl
    | some x =>
      obtain ⟨s', y⟩ := x
      simp only [optRes_some, ih s']
      cases runBatch f s' l with
      | none => rfl
      | some x => obtain ⟨s, y⟩ := x; rfl

theorem icrc7Transfer_wa (q : Tables) (L : Ledger H) (s : State H) (caller : Principal) (now : Nat) (args : List TransferArg) :
    icrc7Transfer L (wa q s) caller now args = optRes q (icrc7Transfer L s caller now args) := by
  unfold icrc7Transfer
  rw [wa_cfg]
  split
  · rfl
  · split
    · rfl
    · split
      · rfl
      · split
        · rfl
        · exact runBatch_wa q (fun s a => transferNft_wa q L s caller now a) s _

/-! ### Rows of approvals -/

theorem expired_of_outlasts {a a' : Approval} (h : Outlasts a a') {now : Nat} (he : expired a' now = true) :
    expired a now = true := by
  unfold expired at he ⊢
  cases h' : a'.expiresAt with
  | none => rw [h'] at he; cases he
  | some e' =>
    rw [h'] at he
    obtain ⟨e, h1, h2⟩ := h e' h'
    rw [h1]
    simp only [decide_eq_true_eq] at he ⊢
    omega

theorem covers_del {m m' : Map Account Approval} (h : Covers m m') (x : Account) : Covers (m.del x) (m'.del x) := by
  intro y a hy
  rw [Map.get_del] at hy ⊢
  split at hy
  · cases hy
  · rename_i hn
    rw [if_neg hn]
    exact h y a hy

theorem covers_del_left {m m' : Map Account Approval} (h : Covers m m') (x : Account) : Covers (m.del x) m' := by
  intro y a hy
  rw [Map.get_del] at hy
  split at hy
  · cases hy
  · exact h y a hy

theorem covers_del_right {m m' : Map Account Approval} (h : Covers m m') {x : Account} (hx : m.get x = none) :
    Covers m (m'.del x) := by
  intro y a hy
  rw [Map.get_del]
  split
  · rename_i he
    rw [← Map.get_congr m he, hx] at hy
    cases hy
  · exact h y a hy

theorem covers_drop {m m' : Map Account Approval} (h : Covers m m') (o : Option Account) :
    Covers (dropSpender m o) (dropSpender m' o) := by
  cases o with
  | none => exact fun x a hx => by cases hx
  | some x => exact covers_del h x

/-- Every row of the first table is covered by the same row of the second. -/
def Rows {K : Type} [BEq K] (t q : Map K (Map Account Approval)) : Prop :=
  ∀ k m, t.get k = some m → ∃ m', q.get k = some m' ∧ Covers m m'

section
variable {K : Type} [BEq K] [EquivBEq K] {t q : Map K (Map Account Approval)}

theorem rows_left (h : Rows t q) {k : K} {m m' : Map Account Approval} (hq : q.get k = some m') (hm : Covers m m') :
    Rows (t.set k m) q := by
  intro k' m₁ hk
  rw [Map.get_set] at hk
  split at hk
  · rename_i he
    cases hk
    exact ⟨m', by rw [← Map.get_congr q he]; exact hq, hm⟩
  · exact h k' m₁ hk

theorem rows_right (h : Rows t q) {k : K} {m' : Map Account Approval} (hm : ∀ m, t.get k = some m → Covers m m') :
    Rows t (q.set k m') := by
  intro k' m hk
  rw [Map.get_set]
  split
  · rename_i he
    exact ⟨m', rfl, hm m (by rw [Map.get_congr t he]; exact hk)⟩
  · exact h k' m hk

theorem rows_both (h : Rows t q) {k : K} {m m' : Map Account Approval} (hm : Covers m m') :
    Rows (t.set k m) (q.set k m') := by
  intro k' m₁ hk
  rw [Map.get_set] at hk ⊢
  split at hk
  · rename_i he
    rw [if_pos he]
    cases hk
    exact ⟨m', rfl, hm⟩
  · rename_i he
    rw [if_neg he]
    exact h k' m₁ hk

theorem rows_del (h : Rows t q) (k : K) : Rows (t.del k) (q.del k) := by
  intro k' m hk
  rw [Map.get_del] at hk ⊢
  split at hk
  · cases hk
  · rename_i he
    rw [if_neg he]
    exact h k' m hk

theorem get_redo (t : Map K (Map Account Approval)) (b : Bool) (k k' : K) (m : Map Account Approval) :
    ((if b = true then t.del k else t).set k m).get k' = (t.set k m).get k' := by
  cases b with
  | false => rfl
  | true =>
    simp only [if_true, Map.get_set, Map.get_del]
    split
    · rfl
    · rfl

omit [EquivBEq K] in
theorem rows_congr {t' q' : Map K (Map Account Approval)} (h : Rows t q) (ht : ∀ k, t'.get k = t.get k)
    (hq : ∀ k, q'.get k = q.get k) : Rows t' q' := by
  intro k m hk
  rw [ht] at hk
  rw [hq]
  exact h k m hk

end

/-- The tables of a state. -/
def tabs (s : State H) : Tables := (s.tokAppr, s.collAppr)

/-- More, or longer, approvals. -/
def More (t q : Tables) : Prop := Rows t.1 q.1 ∧ Rows t.2 q.2 ∧ ∀ tid m, q.1.get tid = some m → tid < U64

theorem checkToken_more {q : Tables} {s s₁ : State H} {now tid : Nat} {x : Account} {b : Bool} (h : More (tabs s) q)
    (hx : checkTokenApproval s now tid x = some (s₁, b)) :
    ∃ q' b', checkTokenApproval (wa q s) now tid x = some (wa q' s₁, b') ∧ More (tabs s₁) q' ∧ (b = true → b' = true) := by
  obtain ⟨h1, h2, h3⟩ := h
  unfold checkTokenApproval at hx ⊢
  rw [show (wa q s).tokAppr = q.1 from rfl]
  cases hq : q.1.get tid with
  | none =>
    cases ht : s.tokAppr.get tid with
    | some m =>
      obtain ⟨m', e, _⟩ := h1 tid m ht
      rw [hq] at e
      cases e
    | none =>
      rw [ht] at hx
      cases hx
      exact ⟨q, false, rfl, ⟨h1, h2, h3⟩, fun e => by cases e⟩
  | some m' =>
    dsimp only
    have hid := h3 tid m' hq
    cases hs : m'.get x with
    | none =>
      have e : s₁ = s ∧ b = false := by
        cases ht : s.tokAppr.get tid with
        | none => rw [ht] at hx; cases hx; exact ⟨rfl, rfl⟩
        | some m =>
          rw [ht] at hx
          obtain ⟨m₂, e, hc⟩ := h1 tid m ht
          rw [hq] at e
          cases e
          dsimp only at hx
          cases hm : m.get x with
          | none => rw [hm] at hx; cases hx; exact ⟨rfl, rfl⟩
          | some a =>
            obtain ⟨a', e, _⟩ := hc x a hm
            rw [hs] at e
            cases e
      obtain ⟨rfl, rfl⟩ := e
      exact ⟨q, false, rfl, ⟨h1, h2, h3⟩, fun e => by cases e⟩
    | some a' =>
      dsimp only
      cases he' : expired a' now with
      | true =>
        rw [if_pos rfl]
        simp only [putTokAppr, if_pos hid]
        have ids : ∀ tid₁ m₁, (q.1.set tid (m'.del x)).get tid₁ = some m₁ → tid₁ < U64 := by
          intro tid₁ m₁ hm
          rw [Map.get_set] at hm
          split at hm
          · rename_i e
            rw [← eq_of_beq e]
            exact hid
          · exact h3 tid₁ m₁ hm
        cases ht : s.tokAppr.get tid with
        | none =>
          rw [ht] at hx
          cases hx
          exact ⟨(q.1.set tid (m'.del x), q.2), false, rfl,
            ⟨rows_right h1 (fun m hm => by rw [show (tabs s).1 = s.tokAppr from rfl, ht] at hm; cases hm), h2, ids⟩,
            fun e => by cases e⟩
        | some m =>
          rw [ht] at hx
          obtain ⟨m₂, e, hc⟩ := h1 tid m ht
          rw [hq] at e
          cases e
          dsimp only at hx
          cases hm : m.get x with
          | none =>
            rw [hm] at hx
            cases hx
            refine ⟨(q.1.set tid (m'.del x), q.2), false, rfl,
              ⟨rows_right h1 (fun m₁ hm₁ => ?_), h2, ids⟩, fun e => by cases e⟩
            rw [show (tabs s).1 = s.tokAppr from rfl, ht] at hm₁
            cases hm₁
            exact covers_del_right hc hm
          | some a =>
            rw [hm] at hx
            obtain ⟨a₂, e, ho⟩ := hc x a hm
            rw [hs] at e
            cases e
            dsimp only at hx
            rw [expired_of_outlasts ho he', if_pos rfl] at hx
            simp only [putTokAppr, if_pos hid] at hx
            cases hx
            exact ⟨(q.1.set tid (m'.del x), q.2), false, rfl, ⟨rows_both h1 (covers_del hc x), h2, ids⟩, fun e => by cases e⟩
      | false =>
        rw [if_neg (by simp)]
        refine ⟨q, true, ?_, ?_, fun _ => rfl⟩
        · cases ht : s.tokAppr.get tid with
          | none => rw [ht] at hx; cases hx; rfl
          | some m =>
            rw [ht] at hx
            dsimp only at hx
            cases hm : m.get x with
            | none => rw [hm] at hx; cases hx; rfl
            | some a =>
              rw [hm] at hx
              dsimp only at hx
              split at hx
              · simp only [putTokAppr, if_pos hid] at hx
                cases hx
                rfl
              · cases hx; rfl
        · cases ht : s.tokAppr.get tid with
          | none => rw [ht] at hx; cases hx; exact ⟨h1, h2, h3⟩
          | some m =>
            rw [ht] at hx
            obtain ⟨m₂, e, hc⟩ := h1 tid m ht
            rw [hq] at e
            cases e
            dsimp only at hx
            cases hm : m.get x with
            | none => rw [hm] at hx; cases hx; exact ⟨h1, h2, h3⟩
            | some a =>
              rw [hm] at hx
              dsimp only at hx
              split at hx
              · simp only [putTokAppr, if_pos hid] at hx
                cases hx
                exact ⟨rows_left h1 hq (covers_del_left hc x), h2, h3⟩
              · cases hx; exact ⟨h1, h2, h3⟩

theorem checkColl_more {q : Tables} {s : State H} (now : Nat) (o x : Account) (h : More (tabs s) q) :
    ∃ q' b', checkCollApproval (wa q s) now o x = (wa q' (checkCollApproval s now o x).1, b') ∧
      More (tabs (checkCollApproval s now o x).1) q' ∧ ((checkCollApproval s now o x).2 = true → b' = true) := by
  obtain ⟨h1, h2, h3⟩ := h
  unfold checkCollApproval
  rw [show (wa q s).collAppr = q.2 from rfl]
  have key : ∀ m, s.collAppr.get o = some m → ∃ m', q.2.get o = some m' ∧ Covers m m' := fun m hm => h2 o m hm
  cases hq : q.2.get o with
  | none =>
    cases ht : s.collAppr.get o with
    | some m =>
      obtain ⟨m', e, _⟩ := key m ht
      rw [hq] at e
      cases e
    | none => exact ⟨q, false, rfl, ⟨h1, h2, h3⟩, fun e => by cases e⟩
  | some m' =>
    dsimp only
    cases hs : m'.get x with
    | none =>
      cases ht : s.collAppr.get o with
      | none => exact ⟨q, false, rfl, ⟨h1, h2, h3⟩, fun e => by cases e⟩
      | some m =>
        obtain ⟨m₂, e, hc⟩ := key m ht
        rw [hq] at e
        cases e
        dsimp only
        cases hm : m.get x with
        | none => exact ⟨q, false, rfl, ⟨h1, h2, h3⟩, fun e => by cases e⟩
        | some a =>
          obtain ⟨a', e, _⟩ := hc x a hm
          rw [hs] at e
          cases e
    | some a' =>
      dsimp only
      cases he' : expired a' now with
      | true =>
        rw [if_pos rfl]
        have hq' := get_redo q.2 (m'.del x).entries.isEmpty o
        cases ht : s.collAppr.get o with
        | none =>
          refine ⟨(q.1, (if (m'.del x).entries.isEmpty = true then q.2.del o else q.2).set o (m'.del x)), false, rfl,
            ⟨h1, rows_congr (rows_right (k := o) (m' := m'.del x) h2 fun m hm => ?_) (fun k => rfl) (fun k => hq' k _), h3⟩,
            fun e => by cases e⟩
          rw [show (tabs s).2 = s.collAppr from rfl, ht] at hm
          cases hm
        | some m =>
          obtain ⟨m₂, e, hc⟩ := key m ht
          rw [hq] at e
          cases e
          dsimp only
          cases hm : m.get x with
          | none =>
            refine ⟨(q.1, (if (m'.del x).entries.isEmpty = true then q.2.del o else q.2).set o (m'.del x)), false, rfl,
              ⟨h1, rows_congr (rows_right (k := o) (m' := m'.del x) h2 fun m₁ hm₁ => ?_) (fun k => rfl) (fun k => hq' k _), h3⟩,
              fun e => by cases e⟩
            rw [show (tabs s).2 = s.collAppr from rfl, ht] at hm₁
            cases hm₁
            exact covers_del_right hc hm
          | some a =>
            obtain ⟨a₂, e, ho⟩ := hc x a hm
            rw [hs] at e
            cases e
            dsimp only
            rw [expired_of_outlasts ho he', if_pos rfl]
            exact ⟨(q.1, (if (m'.del x).entries.isEmpty = true then q.2.del o else q.2).set o (m'.del x)), false, rfl,
              ⟨h1, rows_congr (rows_both (k := o) h2 (covers_del hc x)) (fun k => get_redo s.collAppr (m.del x).entries.isEmpty o k _)
                (fun k => hq' k _), h3⟩, fun e => by cases e⟩
      | false =>
        rw [if_neg (by simp)]
        cases ht : s.collAppr.get o with
        | none => exact ⟨q, true, rfl, ⟨h1, h2, h3⟩, fun _ => rfl⟩
        | some m =>
          obtain ⟨m₂, e, hc⟩ := key m ht
          rw [hq] at e
          cases e
          dsimp only
          cases hm : m.get x with
          | none => exact ⟨q, true, rfl, ⟨h1, h2, h3⟩, fun _ => rfl⟩
          | some a =>
            dsimp only
            split
            · exact ⟨q, true, rfl, ⟨h1, rows_congr (rows_left h2 hq (covers_del_left hc x))
                (fun k => get_redo s.collAppr (m.del x).entries.isEmpty o k _) (fun k => rfl), h3⟩, fun _ => rfl⟩
            · exact ⟨q, true, rfl, ⟨h1, h2, h3⟩, fun _ => rfl⟩

/-! ### Items done -/

/-- An item was done. -/
def Done (r : Except TokErr Nat) : Prop := ∃ i, r = .ok i

/-- A success stays a success, with the same effect but for the additional approvals. -/
def Keeps {R : Type} (good : R → Prop) (x y : Option (State H × R)) : Prop :=
  ∀ s₁ r, x = some (s₁, r) → good r → ∃ q', y = some (wa q' s₁, r) ∧ More (tabs s₁) q'

theorem Keeps.error {s₁ : State H} {e : TokErr} {y : Option (State H × Except TokErr Nat)} :
    Keeps Done (some (s₁, .error e)) y := by
  rintro s₂ r h ⟨i, rfl⟩
  cases h

theorem Keeps.none {R : Type} {good : R → Prop} {y : Option (State H × R)} : Keeps good Option.none y := by
  intro s₂ r h
  cases h

theorem addTx_both (q : Tables) (L : Ledger H) (s : State H) (t : Tx) : ∃ s₁ r, addTx L s t = (s₁, r) ∧
    addTx L (wa q s) t = (wa q s₁, r) ∧ tabs s₁ = tabs s := by
  refine ⟨(addTx L s t).1, (addTx L s t).2, rfl, addTx_wa q L s t, ?_⟩
  exact congrArg (fun x : State H × Except LedgerErr Nat => tabs x.1) (addTx_wa (tabs s) L s t)

theorem guardWindow_both (q : Tables) (s : State H) (now tid : Nat) : ∃ s₁ b, guardWindow s now tid = (s₁, b) ∧
    guardWindow (wa q s) now tid = (wa q s₁, b) ∧ tabs s₁ = tabs s :=
  ⟨(guardWindow s now tid).1, (guardWindow s now tid).2, rfl, rfl, rfl⟩

theorem transferFrom_more {q : Tables} (L : Ledger H) (s : State H) (caller : Principal) (now : Nat) (a : TransferFromArg)
    (h : More (tabs s) q) : Keeps Done (transferFrom L s caller now a) (transferFrom L (wa q s) caller now a) := by
  unfold transferFrom
  obtain ⟨s₁, b, e1, e2, e3⟩ := guardWindow_both q s now a.tid
  rw [e1, e2]
  rw [← e3] at h
  clear e1 e2 e3
  cases b with
  | false => exact .error
  | true =>
    dsimp only
    simp only [Bool.not_true, Bool.false_eq_true, if_false, wa_cfg, wa_tokens]
    cases verifyTimingOpt s₁.cfg a.createdAt now with
    | some e => exact .error
    | none =>
      dsimp only
      cases s₁.tokens.get a.tid with
      | none => exact .error
      | some nft =>
        dsimp only
        split
        · exact .error
        split
        · exact .error
        cases hc : checkTokenApproval s₁ now a.tid ⟨caller, a.spenderSub⟩ with
        | none => exact .none
        | some x =>
          obtain ⟨s₂, b⟩ := x
          obtain ⟨q', b', e1, h', hb⟩ := checkToken_more h hc
          rw [e1]
          dsimp only
          obtain ⟨q₂, c', e2, h₂, hb₂⟩ := checkColl_more now nft.owner ⟨caller, a.spenderSub⟩ h'
          rw [e2]
          generalize checkCollApproval s₂ now nft.owner ⟨caller, a.spenderSub⟩ = y at h₂ hb₂
          obtain ⟨s₃, c⟩ := y
          dsimp only at h₂ hb₂ ⊢
          by_cases hu : (!(nft.owner == a.from_) || (!((⟨caller, a.spenderSub⟩ : Account) == a.from_) && !b && !c)) = true
          · rw [if_pos hu]; exact .error
          have hu' : ¬ (!(nft.owner == a.from_) || (!((⟨caller, a.spenderSub⟩ : Account) == a.from_) && !b' && !c')) = true := by
            intro hx
            apply hu
            simp only [Bool.or_eq_true, Bool.and_eq_true, Bool.not_eq_true'] at hx ⊢
            refine hx.imp id fun hx => ⟨⟨hx.1.1, ?_⟩, ?_⟩
            · cases b with
              | false => rfl
              | true => rw [hb rfl] at hx; cases hx.1.2
            · cases c with
              | false => rfl
              | true => rw [hb₂ rfl] at hx; cases hx.2
          rw [if_neg hu, if_neg hu']
          obtain ⟨s₄, r, e3, e4, e5⟩ := addTx_both q₂ L s₃ { op := .xferFrom, ts := now, tid := some a.tid, from_ := some a.from_, to_ := some a.to_, memo := a.memo, createdAt := a.createdAt, spender := some ⟨caller, a.spenderSub⟩ }
          rw [e3, e4]
          cases r with
          | error e => exact .error
          | ok i =>
            simp only [Map.get_del_self, Option.isSome_none, Bool.not_false, if_true]
            rintro s₅ r e ⟨j, rfl⟩
            cases e
            rw [← e5] at h₂
            refine ⟨(q₂.1.del a.tid, q₂.2.del a.from_), rfl, rows_del h₂.1 a.tid, rows_del h₂.2.1 a.from_, fun tid m hm => ?_⟩
            rw [Map.get_del] at hm
            split at hm
            · cases hm
            · exact h₂.2.2 tid m hm

theorem revokeToken_more {q : Tables} (L : Ledger H) (s : State H) (caller : Principal) (now : Nat) (a : RevokeTokenArg)
    (h : More (tabs s) q) : Keeps Done (revokeToken L s caller now a) (revokeToken L (wa q s) caller now a) := by
  unfold revokeToken
  rw [wa_cfg, show ownerOf (wa q s) a.tid = ownerOf s a.tid from rfl, show (wa q s).tokAppr = q.1 from rfl]
  cases verifyTimingOpt s.cfg a.createdAt now with
  | some e => exact .error
  | none =>
    dsimp only
    cases ownerOf s a.tid with
    | none => exact .error
    | some owner =>
      dsimp only
      split
      · exact .error
      cases ht : s.tokAppr.get a.tid with
      | none => exact .error
      | some m =>
        obtain ⟨m', hq, hc⟩ := h.1 a.tid m ht
        rw [hq]
        dsimp only
        obtain ⟨s₄, r, e3, e4, e5⟩ := addTx_both q L s { op := .revoke, ts := now, tid := some a.tid, from_ := some ⟨caller, a.fromSub⟩, memo := a.memo, createdAt := a.createdAt, spender := a.spender }
        rw [e3, e4]
        cases r with
        | error e => exact .error
        | ok i =>
          have hid := h.2.2 a.tid m' hq
          simp only [putTokAppr, if_pos hid]
          rintro s₅ r e ⟨j, rfl⟩
          cases e
          rw [← e5] at h
          refine ⟨(q.1.set a.tid (dropSpender m' a.spender), q.2), rfl, rows_both h.1 (covers_drop hc _), h.2.1, fun tid m₁ hm => ?_⟩
          rw [Map.get_set] at hm
          split at hm
          · rename_i e
            rw [← eq_of_beq e]
            exact hid
          · exact h.2.2 tid m₁ hm

theorem revokeCollection_more {q : Tables} (L : Ledger H) (s : State H) (caller : Principal) (now : Nat) (a : RevokeCollArg)
    (h : More (tabs s) q) :
    Keeps Done (some (revokeCollection L s caller now a)) (some (revokeCollection L (wa q s) caller now a)) := by
  unfold revokeCollection
  obtain ⟨s₁, b, e1, e2, e3⟩ := guardWindow_both q s now 0
  rw [e1, e2]
  rw [← e3] at h
  clear e1 e2 e3
  cases b with
  | false => exact .error
  | true =>
    dsimp only
    simp only [Bool.not_true, Bool.false_eq_true, if_false, wa_cfg, show (wa q s₁).collAppr = q.2 from rfl]
    cases verifyTimingOpt s₁.cfg a.createdAt now with
    | some e => exact .error
    | none =>
      dsimp only
      cases ht : s₁.collAppr.get ⟨caller, none⟩ with
      | none => exact .error
      | some m =>
        obtain ⟨m', hq, hc⟩ := h.2.1 ⟨caller, none⟩ m ht
        rw [hq]
        dsimp only
        obtain ⟨s₄, r, e3, e4, e5⟩ := addTx_both q L s₁ { op := .revokeColl, ts := now, from_ := some ⟨caller, none⟩, memo := a.memo, createdAt := a.createdAt, spender := a.spender }
        rw [e3, e4]
        cases r with
        | error e => exact .error
        | ok i =>
          rintro s₅ r e ⟨j, rfl⟩
          cases e
          rw [← e5] at h
          exact ⟨(q.1, q.2.set ⟨caller, none⟩ (dropSpender m' a.spender)), rfl, h.1, rows_both h.2.1 (covers_drop hc _), h.2.2⟩

theorem runBatch_more {A : Type} {f : State H → A → Option (State H × Except TokErr Nat)}
    (h : ∀ s q a, More (tabs s) q → Keeps Done (f s a) (f (wa q s) a)) (l : List A) : ∀ (s : State H) (q : Tables), More (tabs s) q →
    Keeps (fun rs => ∀ r ∈ rs, Done r) (runBatch f s l) (runBatch f (wa q s) l) := by
  induction l with
  | nil =>
    intro s q hm s₁ r e _
    cases e
    exact ⟨q, rfl, hm⟩
  | cons a l ih =>
    intro s q hm s' rs hx hr
    simp only [runBatch] at hx ⊢
    cases h1 : f s a with
    | none => rw [h1] at hx; cases hx
    | some x =>
      obtain ⟨s₁, r⟩ := x
      rw [h1] at hx
      dsimp only at hx
      cases h2 : runBatch f s₁ l with
      | none => rw [h2] at hx; cases hx
      | some y =>
        obtain ⟨s₂, rs'⟩ := y
        rw [h2] at hx
        cases hx
        obtain ⟨q₁, e1, e2⟩ := h s q a hm s₁ r h1 (hr r (by simp))
        obtain ⟨q₂, e3, e4⟩ := ih s₁ q₁ e2 _ rs' h2 fun r hr' => hr r (by simp [hr'])
        refine ⟨q₂, ?_, e4⟩
        rw [e1]
        dsimp only
        rw [e3]

theorem ofBatch_more {q : Tables} {s : State H} {n : Nat} {x y : Option (State H × List (Except TokErr Nat))}
    (h : Keeps (fun rs => ∀ r ∈ rs, Done r) x y) (hr : AllDone n (ofBatch s x).2) :
    ∃ q', ofBatch (wa q s) y = res q' (ofBatch s x) ∧ More (tabs (ofBatch s x).1) q' := by
  obtain ⟨rs, h1, _, h3⟩ := hr
  cases x with
  | none => cases h1
  | some z =>
    obtain ⟨s₁, rs'⟩ := z
    have e : rs' = rs := by
      simp only [ofBatch, Reply.batch.injEq] at h1
      exact h1
    subst e
    obtain ⟨q', e1, e2⟩ := h s₁ rs' rfl h3
    rw [e1]
    exact ⟨q', rfl, e2⟩

theorem revokeTokens_more {q : Tables} (E : Env H) (s : State H) (caller : Principal) (now : Nat) (l : List RevokeTokenArg)
    (h : More (tabs s) q) (hr : AllDone l.length (exec E s caller now (.revokeTokens l)).2) :
    ∃ q', exec E (wa q s) caller now (.revokeTokens l) = res q' (exec E s caller now (.revokeTokens l)) ∧
      More (tabs (exec E s caller now (.revokeTokens l)).1) q' := by
  obtain ⟨rs, hr1, hr2, hr3⟩ := hr
  simp only [exec, icrc37RevokeTokens] at hr1 ⊢
  cases l with
  | nil => cases hr1
  | cons a l =>
    dsimp only at hr1 ⊢
    obtain ⟨s₁, b, e1, e2, e3⟩ := guardWindow_both q s now a.tid
    rw [e1] at hr1
    rw [e1, e2]
    rw [← e3] at h
    cases b with
    | false => cases hr1
    | true =>
      simp only [Bool.not_true, Bool.false_eq_true, if_false] at hr1 ⊢
      have ht := runBatch_more (fun s q a h => revokeToken_more (q := q) E.ledger s caller now a h)
        ((a :: l).take (maxRevoke s₁.cfg)) s₁ q h
      cases hx : runBatch (fun s a => revokeToken E.ledger s caller now a) s₁ ((a :: l).take (maxRevoke s₁.cfg)) with
      | none => rw [hx] at hr1; cases hr1
      | some y =>
        obtain ⟨s₂, rs'⟩ := y
        rw [hx] at hr1
        have e : rs' = rs := by
          simp only [Reply.batch.injEq] at hr1
          exact hr1
        subst e
        obtain ⟨q', e4, e5⟩ := ht s₂ rs' hx hr3
        rw [show runBatch (fun s a => revokeToken E.ledger s caller now a) (wa q s₁) ((a :: l).take (maxRevoke (wa q s₁).cfg))
          = _ from e4]
        exact ⟨q', rfl, e5⟩

/-! ### Messages that do not look at approvals -/

/-- What a message does not look at, it leaves alone. -/
theorem leaves {s : State H} {f : State H → State H × Reply} (h : ∀ q, f (wa q s) = res q (f s)) : tabs (f s).1 = tabs s :=
  congrArg (fun x : State H × Reply => tabs x.1) (h (tabs s))

theorem exec_wa (q : Tables) (E : Env H) (s : State H) (caller : Principal) (now : Nat) (c : Call)
    (h1 : givesApproval (.call caller now c) = false) (h2 : takesApproval (.call caller now c) = false)
    (h3 : ∀ args, c ≠ .transferFrom args) : exec E (wa q s) caller now c = res q (exec E s caller now c) := by
  cases c with
  | transfer args =>
    simp only [exec]
    rw [icrc7Transfer_wa q]
    cases icrc7Transfer E.ledger s caller now args <;> rfl
  | approveTokens args => cases h1
  | approveCollection args => cases h1
  | revokeTokens args => cases h2
  | revokeCollection args => cases h2
  | transferFrom args => exact absurd rfl (h3 args)
  | updateCollectionMetadata a =>
    simp only [exec, updateCollectionMetadata]
    rw [withGuard_wa q s caller (b := fun s => some ({ s with cfg := applyUpdate s.cfg a }, .ok .unit)) (fun s => rfl),
      ofMgmt_wa]
  | mint reqs => simp only [exec, mint_wa, ofMgmt_wa]
  | updateNftMetadata tid kvs => simp only [exec, updateNftMetadata_wa, ofMgmt_wa]
  | burn tid => simp only [exec, burnNft_wa, ofMgmt_wa]
  | initUpload path n => simp only [exec, initUpload_wa, ofStarted_wa]
  | storeChunk path => simp only [exec, storeChunk_wa, ofStarted_wa]
  | finalizeUpload path => simp only [exec, finalizeUpload_wa, ofStarted_wa]
  | cancelUpload path => simp only [exec, cancelUpload_wa, ofStarted_wa]
  | grant p x =>
    simp only [exec]
    rw [show grant (wa q s) caller p x = optRes q (grant s caller p x) from withGuard_wa q s caller fun s => rfl, ofMgmt_wa]
  | revoke p x =>
    simp only [exec]
    rw [show revoke (wa q s) caller p x = optRes q (revoke s caller p x) from withGuard_wa q s caller fun s => rfl, ofMgmt_wa]

/-- The message has nothing to do with approvals. -/
def indifferent : Msg → Bool
  | .call _ _ (.transferFrom _) => false
  | m => !givesApproval m && !takesApproval m

theorem step_wa (q : Tables) (E : Env H) (s : State H) (m : Msg) (h : indifferent m = true) :
    step E (wa q s) m = res q (step E s m) := by
  cases m with
  | call caller now c =>
    have hx : exec E (wa q s) caller now c = res q (exec E s caller now c) := by
      apply exec_wa
      · cases c <;> first | rfl | cases h
      · cases c <;> first | rfl | cases h
      · intro args e
        subst e
        cases h
    simp only [step, execCall, show (wa q s).perms = s.perms from rfl, hx]
    cases c.needs with
    | none => rfl
    | some p =>
      dsimp only
      split <;> rfl
  | resume now i a =>
    simp only [step, show (wa q s).pending = s.pending from rfl]
    cases s.pending[i]? with
    | none => rfl
    | some p =>
      have e := resumeBody_wa q E { s with pending := s.pending.eraseIdx i } now p a
      dsimp only
      rw [show resumeBody E { wa q s with pending := s.pending.eraseIdx i } now p a = _ from e]
      rfl
  | resumeTrap i =>
    simp only [step, show (wa q s).pending = s.pending from rfl]
    cases s.pending[i]? <;> rfl
  | upgrade => rfl

theorem step_more {q : Tables} (E : Env H) (s : State H) (m : Msg) (h : More (tabs s) q) (hg : givesApproval m = false)
    (hu : ApprovalsUsed m (step E s m).2) :
    ∃ q', step E (wa q s) m = res q' (step E s m) ∧ More (tabs (step E s m).1) q' := by
  by_cases hi : indifferent m = true
  · refine ⟨q, step_wa q E s m hi, ?_⟩
    rw [leaves (f := fun s => step E s m) fun q => step_wa q E s m hi]
    exact h
  · cases m with
    | call caller now c =>
      cases c with
      | transferFrom args =>
        exact ofBatch_more (runBatch_more (fun s q a h => transferFrom_more (q := q) E.ledger s caller now a h) args s q h) hu
      | revokeTokens args => exact revokeTokens_more E s caller now args h hu
      | revokeCollection args =>
        exact ofBatch_more (runBatch_more (fun s q a h => revokeCollection_more (q := q) E.ledger s caller now a h)
          (args.take (maxRevoke s.cfg)) s q h) hu
      | approveTokens args => cases hg
      | approveCollection args => cases hg
      | _ => exact absurd rfl hi
    | _ => exact absurd rfl hi

/-! ### Approvals of others -/

/-- The entry of the table. -/
def look {K : Type} [BEq K] (t : Map K (Map Account Approval)) (k : K) (x : Account) : Option Approval := (t.get k).bind (·.get x)

/-- The same entries, but for those of `p`. -/
def SameRows {K : Type} [BEq K] (p : Principal) (t q : Map K (Map Account Approval)) : Prop :=
  ∀ k x, x.owner ≠ p → look q k x = look t k x

section
variable {K : Type} [BEq K] [EquivBEq K] {p : Principal} {t q : Map K (Map Account Approval)}

theorem look_set (t : Map K (Map Account Approval)) (k k' : K) (m : Map Account Approval) (x : Account) :
    look (t.set k m) k' x = if k == k' then m.get x else look t k' x := by
  unfold look
  rw [Map.get_set]
  split <;> rfl

theorem look_del (t : Map K (Map Account Approval)) (k k' : K) (x : Account) :
    look (t.del k) k' x = if k == k' then none else look t k' x := by
  unfold look
  rw [Map.get_del]
  split <;> rfl

theorem same_del (h : SameRows p t q) (k : K) : SameRows p (t.del k) (q.del k) := by
  intro k' x hx
  rw [look_del, look_del, h k' x hx]

theorem same_drop (h : SameRows p t q) {k : K} {m m' : Map Account Approval} (ht : t.get k = some m) (hq : q.get k = some m')
    (y : Account) : SameRows p (t.set k (m.del y)) (q.set k (m'.del y)) := by
  intro k' x hx
  rw [look_set, look_set, h k' x hx]
  split
  · have e := h k x hx
    unfold look at e
    rw [ht, hq] at e
    rw [Map.get_del, Map.get_del]
    split
    · rfl
    · exact e
  · rfl

end

/-- The same approvals, but for those of `p`. -/
def SameT (p : Principal) (t q : Tables) : Prop := SameRows p t.1 q.1 ∧ SameRows p t.2 q.2

/-- The same outcome. -/
def Both {R : Type} (p : Principal) (x y : Option (State H × R)) : Prop :=
  (x = none ∧ y = none) ∨ ∃ s₁ r q', x = some (s₁, r) ∧ y = some (wa q' s₁, r) ∧ SameT p (tabs s₁) q'

theorem Both.same {R : Type} {p : Principal} {q : Tables} {s : State H} {r : R} (h : SameT p (tabs s) q) :
    Both p (some (s, r)) (some (wa q s, r)) := .inr ⟨s, r, q, rfl, rfl, h⟩

theorem checkToken_none {s : State H} {now tid : Nat} {x : Account} (h : look s.tokAppr tid x = none) :
    checkTokenApproval s now tid x = some (s, false) := by
  unfold checkTokenApproval
  unfold look at h
  cases ht : s.tokAppr.get tid with
  | none => rfl
  | some m =>
    rw [ht] at h
    dsimp only
    rw [show m.get x = none from h]

theorem checkToken_same {p : Principal} {q : Tables} {s : State H} {x : Account} (now tid : Nat) (h : SameT p (tabs s) q)
    (hx : x.owner ≠ p) : Both p (checkTokenApproval s now tid x) (checkTokenApproval (wa q s) now tid x) := by
  have e := h.1 tid x hx
  cases hl : look s.tokAppr tid x with
  | none =>
    rw [checkToken_none hl, checkToken_none (s := wa q s) (e.trans hl)]
    exact .same h
  | some a =>
    have e' : look q.1 tid x = some a := e.trans hl
    unfold look at hl e'
    unfold checkTokenApproval
    rw [show (wa q s).tokAppr = q.1 from rfl]
    cases ht : s.tokAppr.get tid with
    | none => rw [ht] at hl; cases hl
    | some m =>
      cases hq : q.1.get tid with
      | none => rw [hq] at e'; cases e'
      | some m' =>
        rw [ht] at hl
        rw [hq] at e'
        dsimp only
        rw [show m.get x = some a from hl, show m'.get x = some a from e']
        dsimp only
        cases expired a now with
        | false => exact .same h
        | true =>
          simp only [if_true, putTokAppr]
          by_cases hid : tid < U64
          · simp only [if_pos hid]
            exact .inr ⟨_, false, (q.1.set tid (m'.del x), q.2), rfl, rfl, same_drop h.1 ht hq x, h.2⟩
          · simp only [if_neg hid]
            exact .inl ⟨rfl, rfl⟩

theorem same_redo {p : Principal} {t q : Map Account (Map Account Approval)} {k : Account} {m m' : Map Account Approval} {b b' : Bool}
    (h : SameRows p (t.set k m) (q.set k m')) :
    SameRows p ((if b = true then t.del k else t).set k m) ((if b' = true then q.del k else q).set k m') := by
  intro k' x hx
  have e := h k' x hx
  unfold look at e ⊢
  rw [get_redo, get_redo]
  exact e

theorem checkColl_same {p : Principal} {q : Tables} {s : State H} {x : Account} (now : Nat) (o : Account) (h : SameT p (tabs s) q)
    (hx : x.owner ≠ p) : ∃ q', checkCollApproval (wa q s) now o x = (wa q' (checkCollApproval s now o x).1, (checkCollApproval s now o x).2) ∧
      SameT p (tabs (checkCollApproval s now o x).1) q' := by
  have e := h.2 o x hx
  unfold look at e
  unfold checkCollApproval
  rw [show (wa q s).collAppr = q.2 from rfl]
  cases ht : s.collAppr.get o with
  | none =>
    rw [show (tabs s).2.get o = none from ht] at e
    cases hq : q.2.get o with
    | none => exact ⟨q, rfl, h⟩
    | some m' =>
      rw [hq] at e
      dsimp only
      rw [show m'.get x = none from e]
      exact ⟨q, rfl, h⟩
  | some m =>
    rw [show (tabs s).2.get o = some m from ht] at e
    dsimp only
    cases hq : q.2.get o with
    | none =>
      rw [hq] at e
      dsimp only
      rw [show m.get x = none from e.symm]
      exact ⟨q, rfl, h⟩
    | some m' =>
      rw [hq] at e
      dsimp only
      rw [show m'.get x = m.get x from e]
      cases m.get x with
      | none => exact ⟨q, rfl, h⟩
      | some a =>
        dsimp only
        cases expired a now with
        | false => exact ⟨q, rfl, h⟩
        | true =>
          exact ⟨(q.1, (if (m'.del x).entries.isEmpty = true then q.2.del o else q.2).set o (m'.del x)), rfl, h.1,
            same_redo (same_drop h.2 ht hq x)⟩

theorem transferFrom_same {p : Principal} {q : Tables} (L : Ledger H) (s : State H) (caller : Principal) (now : Nat) (a : TransferFromArg)
    (h : SameT p (tabs s) q) (hp : caller ≠ p) : Both p (transferFrom L s caller now a) (transferFrom L (wa q s) caller now a) := by
  unfold transferFrom
  obtain ⟨s₁, b, e1, e2, e3⟩ := guardWindow_both q s now a.tid
  rw [e1, e2]
  rw [← e3] at h
  clear e1 e2 e3
  cases b with
  | false => exact .same h
  | true =>
    dsimp only
    simp only [Bool.not_true, Bool.false_eq_true, if_false, wa_cfg, wa_tokens]
    cases verifyTimingOpt s₁.cfg a.createdAt now with
    | some e => exact .same h
    | none =>
      dsimp only
      cases s₁.tokens.get a.tid with
      | none => exact .same h
      | some nft =>
        dsimp only
        split
        · exact .same h
        split
        · exact .same h
        rcases checkToken_same (x := ⟨caller, a.spenderSub⟩) now a.tid h hp with ⟨e1, e2⟩ | ⟨s₂, b, q', e1, e2, h'⟩
        · rw [e1, e2]
          exact .inl ⟨rfl, rfl⟩
        · rw [e1, e2]
          dsimp only
          obtain ⟨q₂, e2, h₂⟩ := checkColl_same (x := ⟨caller, a.spenderSub⟩) now nft.owner h' hp
          rw [e2]
          generalize checkCollApproval s₂ now nft.owner ⟨caller, a.spenderSub⟩ = y at h₂
          obtain ⟨s₃, c⟩ := y
          dsimp only at h₂ ⊢
          split
          · exact .same h₂
          obtain ⟨s₄, r, e3, e4, e5⟩ := addTx_both q₂ L s₃ { op := .xferFrom, ts := now, tid := some a.tid, from_ := some a.from_, to_ := some a.to_, memo := a.memo, createdAt := a.createdAt, spender := some ⟨caller, a.spenderSub⟩ }
          rw [e3, e4]
          rw [← e5] at h₂
          cases r with
          | error e => exact .same h₂
          | ok i =>
            simp only [Map.get_del_self, Option.isSome_none, Bool.not_false, if_true]
            exact .inr ⟨_, _, (q₂.1.del a.tid, q₂.2.del a.from_), rfl, rfl, same_del h₂.1 a.tid, same_del h₂.2 a.from_⟩

theorem runBatch_same {A R : Type} {p : Principal} {f : State H → A → Option (State H × R)}
    (h : ∀ s q a, SameT p (tabs s) q → Both p (f s a) (f (wa q s) a)) (l : List A) : ∀ (s : State H) (q : Tables), SameT p (tabs s) q →
    Both p (runBatch f s l) (runBatch f (wa q s) l) := by
  induction l with
  | nil => exact fun s q hm => .same hm
  | cons a l ih =>
    intro s q hm
    simp only [runBatch]
    rcases h s q a hm with ⟨e1, e2⟩ | ⟨s₁, r, q₁, e1, e2, h₁⟩
    · rw [e1, e2]
      exact .inl ⟨rfl, rfl⟩
    · rw [e1, e2]
      dsimp only
      rcases ih s₁ q₁ h₁ with ⟨e3, e4⟩ | ⟨s₂, rs, q₂, e3, e4, h₂⟩
      · rw [e3, e4]
        exact .inl ⟨rfl, rfl⟩
      · rw [e3, e4]
        exact .same h₂

theorem step_same {p : Principal} {q : Tables} (E : Env H) (s : State H) (m : Msg) (h : SameT p (tabs s) q) (hg : givesApproval m = false)
    (ht : takesApproval m = false) (hm : movesFor p m = false) :
    ∃ q', step E (wa q s) m = res q' (step E s m) ∧ SameT p (tabs (step E s m).1) q' := by
  by_cases hi : indifferent m = true
  · refine ⟨q, step_wa q E s m hi, ?_⟩
    rw [leaves (f := fun s => step E s m) fun q => step_wa q E s m hi]
    exact h
  · cases m with
    | call caller now c =>
      cases c with
      | transferFrom args =>
        have hp : caller ≠ p := by
          intro e
          subst e
          simp [movesFor] at hm
        have hb := runBatch_same (fun s q a h => transferFrom_same (q := q) E.ledger s caller now a h hp) args s q h
        show ∃ q', ofBatch (wa q s) (runBatch (fun s a => transferFrom E.ledger s caller now a) (wa q s) args) =
          res q' (ofBatch s (runBatch (fun s a => transferFrom E.ledger s caller now a) s args)) ∧
          SameT p (tabs (ofBatch s (runBatch (fun s a => transferFrom E.ledger s caller now a) s args)).1) q'
        rcases hb with ⟨e1, e2⟩ | ⟨s₁, rs, q₁, e1, e2, h₁⟩
        · rw [e1, e2]
          exact ⟨q, rfl, h⟩
        · rw [e1, e2]
          exact ⟨q₁, rfl, h₁⟩
      | revokeTokens args => cases ht
      | revokeCollection args => cases ht
      | approveTokens args => cases hg
      | approveCollection args => cases hg
      | _ => exact absurd rfl hi
    | _ => exact absurd rfl hi

end Verif.Spec.Doors
