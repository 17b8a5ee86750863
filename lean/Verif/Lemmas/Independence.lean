import Verif.Spec.Independence
import Verif.Lemmas.Windows
import Verif.Lemmas.Tokens
import Verif.Lemmas.ApprovalTables
/-!
# Lemmas for Props/Independence
-/
namespace Verif

open Spec

variable {H : Type}

/-- Two states that agree on everything about one token. -/
structure LocalRel (tid : Nat) (s t : State H) : Prop where
  cfg : t.cfg = s.cfg
  tok : t.tokens.get tid = s.tokens.get tid
  appr : t.tokAppr.get tid = s.tokAppr.get tid
  win : winOf t tid = winOf s tid

theorem LocalRel.refl (tid : Nat) (s : State H) : LocalRel tid s s := ⟨rfl, rfl, rfl, rfl⟩

theorem LocalRel.trans {tid : Nat} {s t u : State H} (h : LocalRel tid s t) (h' : LocalRel tid t u) : LocalRel tid s u :=
  ⟨h'.cfg.trans h.cfg, h'.tok.trans h.tok, h'.appr.trans h.appr, h'.win.trans h.win⟩

theorem LocalRel.symm {tid : Nat} {s t : State H} (h : LocalRel tid s t) : LocalRel tid t s :=
  ⟨h.cfg.symm, h.tok.symm, h.appr.symm, h.win.symm⟩

/-! ## Messages elsewhere -/

/-- Charging one token leaves the history of others. -/
theorem Charged.other {now tid0 tid : Nat} {s s' : State H} {ok : Bool} (h : Charged now tid0 s s' ok) (hne : tid0 ≠ tid) :
    winOf s' tid = winOf s tid := by
  unfold winOf
  rw [h.1]
  unfold guardWindow
  dsimp only
  rw [Map.get_set]
  simp [hne]

theorem runBatch_winOf {A : Type} {f : State H → A → Option (State H × Except TokErr Nat)} {key : A → Nat} {now tid : Nat}
    (hf : ∀ s a s' r, f s a = some (s', r) → Charged now (key a) s s' (okB r)) (args : List A)
    (hne : ∀ a ∈ args, key a ≠ tid) :
    ∀ {s s' : State H} {rs}, runBatch f s args = some (s', rs) → winOf s' tid = winOf s tid := by
  induction args with
  | nil => intro s s' rs h; simp [runBatch] at h; rw [h.1]
  | cons a as ih =>
    intro s s' rs h
    obtain ⟨t, r, rs', h1, h2, rfl⟩ := runBatch_cons h
    rw [ih (fun x hx => hne x (.tail _ hx)) h2, (hf s a t r h1).other (hne a (.head _))]

private theorem win_eq {s s' : State H} {tid : Nat} (h : s'.windows = s.windows) : winOf s' tid = winOf s tid := by
  unfold winOf; rw [h]

theorem step_win_elsewhere {E : Env H} {s : State H} {m : Msg} {tid : Nat} (h0 : tid ≠ 0 ∨ NoCollection m) (hno : ¬ Names tid m) :
    winOf (step E s m).1 tid = winOf s tid := by
  cases m with
  | call c now call =>
    have key : winOf (exec E s c now call).1 tid = winOf s tid := by
      have hbatch : ∀ {o : Option (State H × List (Except TokErr Nat))},
          (∀ s' rs, o = some (s', rs) → winOf s' tid = winOf s tid) → winOf (ofBatch s o).1 tid = winOf s tid := by
        intro o ho
        cases o with
        | none => rfl
        | some p => exact ho _ _ rfl
      have hmgmt : ∀ {o : Option (MgmtRes H)}, (∀ s1 r1, o = some (s1, r1) → s1.windows = s.windows) →
          winOf (ofMgmt s o).1 tid = winOf s tid := by
        intro o ho
        cases o with
        | none => rfl
        | some p => exact win_eq (ho _ _ rfl)
      have hup : ∀ {call : Call} {o : Started H}, UploadOut s c call o → winOf (ofStarted o).1 tid = winOf s tid := by
        intro call o ho
        cases ho <;> rfl
      cases call with
      | transfer args =>
        refine hbatch fun s' rs hb => ?_
        have hn : ∀ a ∈ args, a.tid ≠ tid := fun a ha h => hno ⟨a, ha, h⟩
        rcases icrc7Transfer_out hb with ⟨rfl, rfl, rfl⟩ | ⟨_, hu, ⟨_, rfl, rfl⟩ | ⟨_, hc, hb⟩⟩
        · rfl
        · rfl
        · exact runBatch_winOf (key := TransferArg.tid) (fun _ _ _ _ hf => transferNft_charged hf) _
            (fun a ha => hn a (List.mem_of_mem_take ha)) hb
      | approveTokens args =>
        refine hbatch fun s' rs hb => ?_
        exact runBatch_winOf (key := ApproveTokenArg.tid) (fun _ _ _ _ hf => approveToken_charged hf) _
          (fun a ha h => hno ⟨a, ha, h⟩) hb
      | approveCollection args =>
        refine hbatch fun s' rs hb => ?_
        exact runBatch_winOf (key := fun _ => 0) (fun _ _ _ _ hf => approveCollection_charged (Option.some.inj hf)) _
          (fun _ _ => (h0.resolve_right fun h => h).symm) hb
      | revokeCollection args =>
        refine hbatch fun s' rs hb => ?_
        exact runBatch_winOf (key := fun _ => 0) (fun _ _ _ _ hf => revokeCollection_charged (Option.some.inj hf)) _
          (fun _ _ => (h0.resolve_right fun h => h).symm) hb
      | transferFrom args =>
        refine hbatch fun s' rs hb => ?_
        exact runBatch_winOf (key := TransferFromArg.tid) (fun _ _ _ _ hf => transferFrom_charged hf) _
          (fun a ha h => hno ⟨a, ha, h⟩) hb
      | revokeTokens args =>
        cases args with
        | nil => rfl
        | cons a as =>
          have ha : a.tid ≠ tid := fun h => hno ⟨a, .head _, h⟩
          have hg : winOf (guardWindow s now a.tid).1 tid = winOf s tid :=
            (show Charged now a.tid s (guardWindow s now a.tid).1 false from ⟨rfl, by simp⟩).other ha
          have hb : ∀ (l : List RevokeTokenArg) {s s' : State H} {rs},
              runBatch (fun s a => revokeToken E.ledger s c now a) s l = some (s', rs) → s'.windows = s.windows := by
            intro l
            induction l with
            | nil => intro s s' rs h; simp [runBatch] at h; rw [h.1]
            | cons x xs ih =>
              intro s s' rs h
              obtain ⟨t, r, rs', h1, h2, rfl⟩ := runBatch_cons h
              rw [ih h2, revokeToken_windows h1]
          simp only [exec, icrc37RevokeTokens]
          generalize hgw : guardWindow s now a.tid = g at hg
          obtain ⟨s1, ok⟩ := g
          dsimp only at hg ⊢
          cases ok with
          | false => exact hg
          | true =>
            simp only [Bool.not_true, Bool.false_eq_true, if_false]
            cases hr : runBatch (fun s a => revokeToken E.ledger s c now a) s1 ((a :: as).take (maxRevoke s1.cfg)) with
            | none => rfl
            | some p =>
              obtain ⟨s2, rs⟩ := p
              exact (win_eq (hb _ hr)).trans hg
      | updateCollectionMetadata a =>
        exact hmgmt fun s1 r1 h1 => by
          rcases updateCollectionMetadata_out h1 with ⟨_, rfl, _⟩ | ⟨_, _, rfl⟩ <;> rfl
      | mint reqs =>
        exact hmgmt fun s1 r1 h1 => by
          cases mint_out h1 with
          | refused => rfl
          | cut => rfl
          | minted => rw [mintInsert_eq]
      | updateNftMetadata t kvs => exact hmgmt fun s1 r1 h1 => by cases updateNftMetadata_out h1 <;> rfl
      | burn t => exact hmgmt fun s1 r1 h1 => by cases burnNft_out h1 <;> rfl
      | initUpload path size => exact hup (initUpload_out s c path size)
      | storeChunk path => exact hup (storeChunk_out s c path)
      | finalizeUpload path => exact hup (finalizeUpload_out s c path)
      | cancelUpload path => exact hup (cancelUpload_out s c path)
      | grant p x => exact hmgmt fun s1 r1 h1 => by rcases grant_out h1 with ⟨_, rfl, _⟩ | ⟨_, _, rfl⟩ <;> rfl
      | revoke p x => exact hmgmt fun s1 r1 h1 => by rcases revoke_out h1 with ⟨_, rfl, _⟩ | ⟨_, _, rfl⟩ <;> rfl
    simp only [step, execCall]
    split
    · split
      · exact key
      · rfl
    · exact key
  | _ => exact win_eq (step_windows_other (fun _ _ _ h => by cases h))

/-- A message elsewhere leaves everything about a token as it is, unless it mints it. -/
theorem step_elsewhere_of {E : Env H} {s : State H} (hi : TokInv s) {m : Msg} {tid : Nat}
    (h0 : tid ≠ 0 ∨ NoCollection m) (hx : (∃ x, s.tokens.get tid = some x) ∨ ∀ c now reqs, m ≠ .call c now (.mint reqs))
    (hm : Elsewhere tid m) : LocalRel tid s (step E s m).1 := by
  have key : ∀ {t : State H}, Steps E m s t → TokInv t ∧ t.cfg = s.cfg ∧ t.tokens.get tid = s.tokens.get tid ∧
      t.tokAppr.get tid = s.tokAppr.get tid := by
    intro t hst
    refine Steps.induct (P := fun t => TokInv t ∧ t.cfg = s.cfg ∧ t.tokens.get tid = s.tokens.get tid ∧
      t.tokAppr.get tid = s.tokAppr.get tid) ?_ hst ⟨hi, rfl, rfl, rfl⟩
    rintro u u' ⟨hu, hc, ht, ha⟩ h
    refine ⟨tokInv_micro hu h, ?_⟩
    cases h with
    | quiet => exact ⟨hc, ht, ha⟩
    | xfer arg nft h i harg _ tok =>
      have hne : arg.tid ≠ tid := fun he => hm.1 ⟨arg, harg, he⟩
      refine ⟨hc, ?_, ha⟩
      simp only [moveToken_eq]
      rw [Map.get_set, hu.ids _ _ tok]
      simp [hne, ht]
    | xferFrom arg nft h i harg tok =>
      have hne : arg.tid ≠ tid := fun he => hm.1 ⟨arg, harg, he⟩
      refine ⟨hc, ?_, ?_⟩
      · simp only [moveToken_eq]
        rw [Map.get_set, hu.ids _ _ tok]
        simp [hne, ht]
      · simp only [Map.get_del]
        simp [hne, ha]
    | pruneTok arg harg =>
      have hne : arg.tid ≠ tid := fun he => hm.1 ⟨arg, harg, he⟩
      refine ⟨hc, ht, ?_⟩
      simp only [Map.get_set]
      simp [hne, ha]
    | pruneColl => exact ⟨hc, ht, ha⟩
    | approve arg owner h i harg =>
      have hne : arg.tid ≠ tid := fun he => hm.1 ⟨arg, harg, he⟩
      refine ⟨hc, ht, ?_⟩
      simp only [Map.get_set]
      simp [hne, ha]
    | approveColl => exact ⟨hc, ht, ha⟩
    | revokeTok arg owner h i m harg =>
      have hne : arg.tid ≠ tid := fun he => hm.1 ⟨arg, harg, he⟩
      refine ⟨hc, ht, ?_⟩
      simp only [Map.get_set]
      simp [hne, ha]
    | revokeColl => exact ⟨hc, ht, ha⟩
    | mint reqs md h =>
      rw [mintInsert_eq]
      refine ⟨hc, ?_, ha⟩
      obtain ⟨x, hx⟩ := hx.resolve_right fun h => h _ _ _ rfl
      have := hu.fresh tid x (ht.trans hx)
      rw [insTok_get, dif_neg (by omega)]
      exact ht
    | mintCut => exact ⟨hc, ht, ha⟩
    | updateMeta t kvs token =>
      have hne : t ≠ tid := fun he => hm.1 he
      refine ⟨hc, ?_, ha⟩
      simp only [Map.get_set]
      simp [hne, ht]
    | updateMetaCut => exact ⟨hc, ht, ha⟩
    | burn t token =>
      have hne : t ≠ tid := fun he => hm.1 he
      refine ⟨hc, ?_, ha⟩
      simp only [Map.get_del]
      simp [hne, ht]
    | config => exact absurd trivial hm.2
    | grant => exact ⟨hc, ht, ha⟩
    | revoke => exact ⟨hc, ht, ha⟩
    | suspend => exact ⟨hc, ht, ha⟩
    | dropUpload => exact ⟨hc, ht, ha⟩
    | resume p hp =>
      obtain ⟨a, b, c, d, he⟩ := resumeBody_eq E { u with pending := u.pending.eraseIdx _ } _ p _
      rw [he]
      exact ⟨hc, ht, ha⟩
    | resumeTrap => exact ⟨hc, ht, ha⟩
    | upgrade => exact ⟨hc, ht, ha⟩
  obtain ⟨_, h1, h2, h3⟩ := key (step_steps E s m)
  exact ⟨h1, h2, h3, step_win_elsewhere h0 hm.1⟩

/-- A message elsewhere leaves everything about an existing token as it is. -/
theorem step_elsewhere {E : Env H} {s : State H} (hi : TokInv s) {m : Msg} {tid : Nat} {x : Token}
    (hx : s.tokens.get tid = some x) (hm : Elsewhere tid m) : LocalRel tid s (step E s m).1 :=
  step_elsewhere_of hi (.inl (by have := hi.pos _ _ hx; omega)) (.inl ⟨x, hx⟩) hm

/-! ## Calls about the token -/

/-- Both results are panics, or both are the same answer and agree about the token. -/
def Both (tid : Nat) : Option (State H × Except TokErr Nat) → Option (State H × Except TokErr Nat) → Prop
  | none, none => True
  | some (s, r), some (t, r') => SameItem r r' ∧ LocalRel tid s t
  | _, _ => False

theorem guard_local {tid : Nat} {s t : State H} (h : LocalRel tid s t) (now : Nat) :
    ∃ s1 t1 ok, guardWindow s now tid = (s1, ok) ∧ guardWindow t now tid = (t1, ok) ∧ LocalRel tid s1 t1 := by
  have hw : (t.windows.get tid).getD [] = (s.windows.get tid).getD [] := h.win
  refine ⟨(guardWindow s now tid).1, (guardWindow t now tid).1, (guardWindow s now tid).2, rfl, ?_, h.cfg, h.tok, h.appr, ?_⟩
  · unfold guardWindow
    rw [hw]
  · unfold winOf guardWindow
    dsimp only
    rw [hw, Map.get_set_self, Map.get_set_self]

theorem addTx_local {L : Ledger H} (hL : TakesAll L) (s t : State H) (x : Tx) :
    ∃ hs ls i ht lt j, addTx L s x = ({ s with hid := hs, log := ls }, .ok i) ∧
      addTx L t x = ({ t with hid := ht, log := lt }, .ok j) := by
  obtain ⟨i, hi⟩ := hL s.hid x
  obtain ⟨j, hj⟩ := hL t.hid x
  exact ⟨_, _, _, _, _, _, addTx_of hi, addTx_of hj⟩

theorem transferNft_local {L : Ledger H} (hL : TakesAll L) {s t : State H} {arg : TransferArg} (h : LocalRel arg.tid s t)
    (c : Principal) (now : Nat) : Both arg.tid (transferNft L s c now arg) (transferNft L t c now arg) := by
  obtain ⟨s1, t1, ok, hs, ht, h1⟩ := guard_local h now
  unfold transferNft
  rw [hs, ht]
  dsimp only
  cases ok with
  | false => exact ⟨rfl, h1⟩
  | true =>
    simp only [Bool.not_true, Bool.false_eq_true, if_false]
    rw [h1.tok, h1.cfg]
    cases s1.tokens.get arg.tid with
    | none => exact ⟨rfl, h1⟩
    | some nft =>
      dsimp only
      cases checkMemo s1.cfg arg.memo with
      | none => trivial
      | some b =>
        cases b with
        | false => exact ⟨rfl, h1⟩
        | true =>
          dsimp only
          by_cases hc : nft.owner.owner ≠ c ∨ arg.to_.owner = anonymous ∨ (nft.owner == arg.to_) = true
          · rw [if_pos hc, if_pos hc]; exact ⟨rfl, h1⟩
          · rw [if_neg hc, if_neg hc]
            cases transferTiming s1.cfg now (arg.createdAt.getD now) with
            | none => trivial
            | some o =>
              cases o with
              | some e => exact ⟨rfl, h1⟩
              | none =>
                dsimp only
                obtain ⟨_, _, _, _, _, _, e1, e2⟩ := addTx_local hL s1 t1 (transferTx now (arg.createdAt.getD now) arg nft)
                rw [e1, e2]
                refine ⟨trivial, h1.cfg, ?_, h1.appr, h1.win⟩
                simp only [moveToken_eq]
                rw [Map.get_set, Map.get_set, h1.tok]

theorem approveToken_local {L : Ledger H} (hL : TakesAll L) {s t : State H} {arg : ApproveTokenArg}
    (h : LocalRel arg.tid s t) (c : Principal) (now : Nat) :
    Both arg.tid (approveToken L s c now arg) (approveToken L t c now arg) := by
  obtain ⟨s1, t1, ok, hs, ht, h1⟩ := guard_local h now
  unfold approveToken
  rw [hs, ht]
  dsimp only
  cases ok with
  | false => exact ⟨rfl, h1⟩
  | true =>
    simp only [Bool.not_true, Bool.false_eq_true, if_false]
    unfold ownerOf
    rw [h1.tok, h1.cfg, h1.appr]
    cases verifyTiming s1.cfg arg.info.createdAt now with
    | some e => exact ⟨rfl, h1⟩
    | none =>
      dsimp only
      cases (s1.tokens.get arg.tid).map Token.owner with
      | none => exact ⟨rfl, h1⟩
      | some o =>
        dsimp only
        by_cases c1 : (o == (⟨c, arg.info.fromSub⟩ : Account)) = false
        · rw [if_pos c1, if_pos c1]; exact ⟨rfl, h1⟩
        rw [if_neg c1, if_neg c1]
        by_cases c2 : (arg.info.spender == anonymousAccount) = true
        · rw [if_pos c2, if_pos c2]; exact ⟨rfl, h1⟩
        rw [if_neg c2, if_neg c2]
        by_cases c3 : ((s1.tokAppr.get arg.tid).any fun m => decide (maxApprovals s1.cfg ≤ m.size)) = true
        · rw [if_pos c3, if_pos c3]; exact ⟨rfl, h1⟩
        rw [if_neg c3, if_neg c3]
        obtain ⟨_, _, _, _, _, _, e1, e2⟩ := addTx_local hL s1 t1 (approveTx now c arg)
        unfold approveTx at e1 e2
        rw [e1, e2]
        dsimp only
        unfold putTokAppr
        dsimp only
        rw [h1.appr]
        by_cases hu : arg.tid < U64
        · rw [if_pos hu, if_pos hu]
          refine ⟨trivial, h1.cfg, h1.tok, ?_, h1.win⟩
          dsimp only
          rw [Map.get_set_self, Map.get_set_self]
        · rw [if_neg hu, if_neg hu]; trivial

theorem revokeToken_local {L : Ledger H} (hL : TakesAll L) {s t : State H} {arg : RevokeTokenArg}
    (h1 : LocalRel arg.tid s t) (c : Principal) (now : Nat) :
    Both arg.tid (revokeToken L s c now arg) (revokeToken L t c now arg) := by
  unfold revokeToken ownerOf
  rw [h1.tok, h1.cfg, h1.appr]
  cases verifyTimingOpt s.cfg arg.createdAt now with
  | some e => exact ⟨rfl, h1⟩
  | none =>
    dsimp only
    cases (s.tokens.get arg.tid).map Token.owner with
    | none => exact ⟨rfl, h1⟩
    | some o =>
      dsimp only
      by_cases c1 : (o == (⟨c, arg.fromSub⟩ : Account)) = false
      · rw [if_pos c1, if_pos c1]; exact ⟨rfl, h1⟩
      rw [if_neg c1, if_neg c1]
      cases s.tokAppr.get arg.tid with
      | none => exact ⟨rfl, h1⟩
      | some m =>
        dsimp only
        obtain ⟨_, _, _, _, _, _, e1, e2⟩ := addTx_local hL s t (revokeTx now c arg)
        unfold revokeTx at e1 e2
        rw [e1, e2]
        dsimp only
        unfold putTokAppr
        dsimp only
        by_cases hu : arg.tid < U64
        · rw [if_pos hu, if_pos hu]
          refine ⟨trivial, h1.cfg, h1.tok, ?_, h1.win⟩
          dsimp only
          rw [Map.get_set_self, Map.get_set_self]
        · rw [if_neg hu, if_neg hu]; trivial

/-- The same for batches. -/
def BothB (tid : Nat) : Option (State H × List (Except TokErr Nat)) → Option (State H × List (Except TokErr Nat)) → Prop
  | none, none => True
  | some (s, r), some (t, r') => SameItems r r' ∧ LocalRel tid s t
  | _, _ => False

theorem runBatch_local {A : Type} {f : State H → A → Option (State H × Except TokErr Nat)} {key : A → Nat} {tid : Nat}
    (hf : ∀ s t a, key a = tid → LocalRel tid s t → Both tid (f s a) (f t a)) (args : List A)
    (hk : ∀ a ∈ args, key a = tid) :
    ∀ {s t : State H}, LocalRel tid s t → BothB tid (runBatch f s args) (runBatch f t args) := by
  induction args with
  | nil => intro s t h; exact ⟨.nil, h⟩
  | cons a as ih =>
    intro s t h
    have h1 := hf s t a (hk a (.head _)) h
    simp only [runBatch]
    generalize f s a = o at h1
    generalize f t a = o' at h1
    cases o with
    | none => cases o' with
      | none => trivial
      | some _ => exact h1.elim
    | some p => cases o' with
      | none => exact h1.elim
      | some p' =>
        obtain ⟨s1, r⟩ := p
        obtain ⟨t1, r'⟩ := p'
        have h2 := ih (fun x hx => hk x (.tail _ hx)) h1.2
        dsimp only
        generalize runBatch f s1 as = b at h2
        generalize runBatch f t1 as = b' at h2
        cases b with
        | none => cases b' with
          | none => trivial
          | some _ => exact h2.elim
        | some q => cases b' with
          | none => exact h2.elim
          | some q' => exact ⟨.cons h1.1 h2.1, h2.2⟩

/-- A call about one token is answered alike in states that agree about it, and leaves
them in agreement. -/
theorem step_local {E : Env H} (hL : TakesAll E.ledger) {tid : Nat} {s t : State H} (h : LocalRel tid s t)
    {call : Call} (hc : OnlyAbout tid call) (c : Principal) (now : Nat) :
    SameReply (step E s (.call c now call)).2 (step E t (.call c now call)).2 ∧
    LocalRel tid (step E s (.call c now call)).1 (step E t (.call c now call)).1 := by
  have hb : ∀ {o o'}, BothB tid o o' → SameReply (ofBatch s o).2 (ofBatch t o').2 ∧
      LocalRel tid (ofBatch s o).1 (ofBatch t o').1 := by
    intro o o' ho
    cases o with
    | none => cases o' with
      | none => exact ⟨trivial, h⟩
      | some _ => exact ho.elim
    | some p => cases o' with
      | none => exact ho.elim
      | some p' => exact ho
  cases call with
  | transfer args =>
    simp only [step, execCall, Call.needs, exec]
    apply hb
    unfold icrc7Transfer
    rw [h.cfg]
    by_cases c0 : args.isEmpty = true
    · rw [if_pos c0, if_pos c0]; exact ⟨.nil, h⟩
    rw [if_neg c0, if_neg c0]
    cases toUsize? (s.cfg.maxUpdateBatch.getD defaultMaxUpdateBatch) with
    | none => trivial
    | some mx =>
      dsimp only
      by_cases c1 : (s.cfg.atomicBatch.getD false && decide (args.length > mx)) = true
      · rw [if_pos c1, if_pos c1]; exact ⟨.cons rfl .nil, h⟩
      rw [if_neg c1, if_neg c1]
      by_cases c2 : c = anonymous
      · rw [if_pos c2, if_pos c2]; exact ⟨.cons rfl .nil, h⟩
      rw [if_neg c2, if_neg c2]
      exact runBatch_local (key := TransferArg.tid) (fun s t a ha hst => by subst ha; exact transferNft_local hL hst c now) _
        (fun a ha => hc a (List.mem_of_mem_take ha)) h
  | approveTokens args =>
    simp only [step, execCall, Call.needs, exec]
    exact hb (runBatch_local (key := ApproveTokenArg.tid)
      (fun s t a ha hst => by subst ha; exact approveToken_local hL hst c now) _ hc h)
  | revokeTokens args =>
    simp only [step, execCall, Call.needs, exec]
    cases args with
    | nil => exact ⟨trivial, h⟩
    | cons a as =>
      have ha : a.tid = tid := hc a (.head _)
      simp only [icrc37RevokeTokens]
      obtain ⟨s1, t1, ok, hs, ht, h1⟩ := guard_local h now
      rw [ha, hs, ht]
      dsimp only
      cases ok with
      | false => exact ⟨rfl, h1⟩
      | true =>
        simp only [Bool.not_true, Bool.false_eq_true, if_false]
        rw [h1.cfg]
        have h2 := runBatch_local (key := RevokeTokenArg.tid) (f := fun s a => revokeToken E.ledger s c now a)
          (fun s t a ha hst => by subst ha; exact revokeToken_local hL hst c now) ((a :: as).take (maxRevoke s1.cfg))
          (fun x hx => hc x (List.mem_of_mem_take hx)) h1
        generalize runBatch (fun s a => revokeToken E.ledger s c now a) s1 ((a :: as).take (maxRevoke s1.cfg)) = b at h2
        generalize runBatch (fun s a => revokeToken E.ledger s c now a) t1 ((a :: as).take (maxRevoke s1.cfg)) = b' at h2
        cases b with
        | none => cases b' with
          | none => exact ⟨trivial, h⟩
          | some _ => exact h2.elim
        | some q => cases b' with
          | none => exact h2.elim
          | some q' => exact h2
  | _ => exact hc.elim

/-- Only `burn_nft` removes a token. -/
theorem exists_kept {E : Env H} {m : Msg} {s t : State H} {tid : Nat} (hi : TokInv s)
    (hm : ∀ c now, m ≠ .call c now (.burn tid)) (hx : ∃ x, s.tokens.get tid = some x) (h : Steps E m s t) :
    ∃ x, t.tokens.get tid = some x := by
  refine (Steps.induct (P := fun t => TokInv t ∧ ∃ x, t.tokens.get tid = some x) ?_ h ⟨hi, hx⟩).2
  rintro u u' ⟨hu, x, hx⟩ hmi
  refine ⟨tokInv_micro hu hmi, ?_⟩
  cases micro_own hu hmi with
  | same ht => exact ⟨x, by rw [ht]; exact hx⟩
  | move tid' nft to_ tx tok hid diff ht =>
    rw [ht, Map.get_set]
    split
    · exact ⟨_, rfl⟩
    · exact ⟨x, hx⟩
  | rewrite tid' t tok ht =>
    rw [ht, Map.get_set]
    split
    · exact ⟨_, rfl⟩
    · exact ⟨x, hx⟩
  | mint c now reqs hm' perm cap hcfg ht =>
    have hlt : tid < u.lastId := hu.fresh _ _ hx
    rw [ht, insTok_get]
    simp [Nat.not_le_of_lt hlt, hx]
  | burn c now tid' t hm' tok own ht =>
    by_cases he : tid' = tid
    · subst he; exact absurd hm' (hm _ _)
    · rw [ht, Map.get_del]
      simp [he, hx]

theorem run_amid {E : Env H} (hL : TakesAll E.ledger) {tid : Nat} {ms own : List Msg} (h : Amid tid ms own) :
    ∀ {s t : State H}, Reachable E s → (∃ x, s.tokens.get tid = some x) → LocalRel tid s t →
      LocalRel tid (run E s ms) (run E t own) := by
  induction h with
  | nil => intro s t _ _ h; exact h
  | @other m ms own hm _ ih =>
    intro s t hr hx h
    obtain ⟨x, hx⟩ := hx
    have h1 := step_elsewhere (E := E) hr.tokInv hx hm
    exact ih (hr.step m) ⟨x, h1.tok.trans hx⟩ (h1.symm.trans h)
  | @own c now call ms own hc _ ih =>
    intro s t hr hx h
    have h1 := (step_local (E := E) hL h hc c now).2
    refine ih (hr.step _) ?_ h1
    obtain ⟨x, hx⟩ := hx
    cases ho : Owner (step E s (.call c now call)).1 tid with
    | some o =>
      obtain ⟨y, hy, _⟩ := owner_get ho
      exact ⟨y, hy⟩
    | none =>
      exfalso
      have := exists_kept (tid := tid) hr.tokInv (m := .call c now call) (by
        rintro c' now' h
        cases h
        exact hc.elim) ⟨x, hx⟩ (step_steps E s (.call c now call))
      obtain ⟨y, hy⟩ := this
      rw [owner_of_get hy] at ho
      cases ho

/-! ## Spenders -/

/-- Agreement about one token and about collection approvals. -/
structure SpendRel (tid : Nat) (s t : State H) : Prop where
  rel : LocalRel tid s t
  coll : t.collAppr = s.collAppr

theorem checkTokenApproval_local {tid : Nat} {s t : State H} (h : SpendRel tid s t) (now : Nat) (sp : Account) :
    (checkTokenApproval s now tid sp = none ∧ checkTokenApproval t now tid sp = none) ∨
    ∃ s' t' b, checkTokenApproval s now tid sp = some (s', b) ∧ checkTokenApproval t now tid sp = some (t', b) ∧
      SpendRel tid s' t' ∧ s'.tokens = s.tokens ∧ t'.tokens = t.tokens := by
  unfold checkTokenApproval
  rw [h.rel.appr]
  cases s.tokAppr.get tid with
  | none => exact .inr ⟨s, t, false, rfl, rfl, h, rfl, rfl⟩
  | some m =>
    dsimp only
    cases m.get sp with
    | none => exact .inr ⟨s, t, false, rfl, rfl, h, rfl, rfl⟩
    | some a =>
      dsimp only
      by_cases hx : expired a now = true
      · rw [if_pos hx, if_pos hx]
        unfold putTokAppr
        by_cases hu : tid < U64
        · rw [if_pos hu, if_pos hu]
          refine .inr ⟨{ s with tokAppr := s.tokAppr.set tid (m.del sp) }, { t with tokAppr := t.tokAppr.set tid (m.del sp) },
            false, rfl, rfl, ⟨⟨h.rel.cfg, h.rel.tok, ?_, h.rel.win⟩, h.coll⟩, rfl, rfl⟩
          dsimp only
          rw [Map.get_set_self, Map.get_set_self]
        · rw [if_neg hu, if_neg hu]; exact .inl ⟨rfl, rfl⟩
      · rw [if_neg hx, if_neg hx]
        exact .inr ⟨s, t, true, rfl, rfl, h, rfl, rfl⟩

theorem checkCollApproval_local {tid : Nat} {s t : State H} (h : SpendRel tid s t) (now : Nat) (o sp : Account) :
    ∃ s' t' b, checkCollApproval s now o sp = (s', b) ∧ checkCollApproval t now o sp = (t', b) ∧ SpendRel tid s' t' := by
  unfold checkCollApproval
  rw [h.coll]
  cases s.collAppr.get o with
  | none => exact ⟨s, t, false, rfl, rfl, h⟩
  | some m =>
    dsimp only
    cases m.get sp with
    | none => exact ⟨s, t, false, rfl, rfl, h⟩
    | some a =>
      dsimp only
      by_cases hx : expired a now = true
      · rw [if_pos hx, if_pos hx]
        exact ⟨_, _, _, rfl, rfl, ⟨h.rel.cfg, h.rel.tok, h.rel.appr, h.rel.win⟩, rfl⟩
      · rw [if_neg hx, if_neg hx]
        exact ⟨s, t, true, rfl, rfl, h⟩

/-- `Both` for `SpendRel`. -/
def BothS (tid : Nat) : Option (State H × Except TokErr Nat) → Option (State H × Except TokErr Nat) → Prop
  | none, none => True
  | some (s, r), some (t, r') => SameItem r r' ∧ SpendRel tid s t
  | _, _ => False

theorem transferFrom_local {L : Ledger H} (hL : TakesAll L) {s t : State H} {arg : TransferFromArg}
    (h : SpendRel arg.tid s t) (c : Principal) (now : Nat) :
    BothS arg.tid (transferFrom L s c now arg) (transferFrom L t c now arg) := by
  obtain ⟨s1, t1, ok, hs, ht, h0⟩ := guard_local h.rel now
  have h1 : SpendRel arg.tid s1 t1 := by
    refine ⟨h0, ?_⟩
    have e1 : s1 = (guardWindow s now arg.tid).1 := by rw [hs]
    have e2 : t1 = (guardWindow t now arg.tid).1 := by rw [ht]
    rw [e1, e2]
    exact h.coll
  clear h0
  unfold transferFrom
  rw [hs, ht]
  dsimp only
  cases ok with
  | false => exact ⟨rfl, h1⟩
  | true =>
    simp only [Bool.not_true, Bool.false_eq_true, if_false]
    rw [h1.rel.tok, h1.rel.cfg]
    cases verifyTimingOpt s1.cfg arg.createdAt now with
    | some e => exact ⟨rfl, h1⟩
    | none =>
      dsimp only
      cases s1.tokens.get arg.tid with
      | none => exact ⟨rfl, h1⟩
      | some nft =>
        dsimp only
        by_cases c1 : (arg.from_ == arg.to_) = true
        · rw [if_pos c1, if_pos c1]; exact ⟨rfl, h1⟩
        rw [if_neg c1, if_neg c1]
        by_cases c2 : (arg.to_ == anonymousAccount) = true
        · rw [if_pos c2, if_pos c2]; exact ⟨rfl, h1⟩
        rw [if_neg c2, if_neg c2]
        rcases checkTokenApproval_local h1 now ⟨c, arg.spenderSub⟩ with ⟨e1, e2⟩ | ⟨s2, t2, b, e1, e2, h2, _, _⟩
        · rw [e1, e2]; trivial
        rw [e1, e2]
        dsimp only
        obtain ⟨s3, t3, b', e3, e4, h3⟩ := checkCollApproval_local h2 now nft.owner ⟨c, arg.spenderSub⟩
        rw [e3, e4]
        dsimp only
        by_cases c3 : (!(nft.owner == arg.from_) || (!((⟨c, arg.spenderSub⟩ : Account) == arg.from_) && !b && !b')) = true
        · rw [if_pos c3, if_pos c3]; exact ⟨rfl, h3⟩
        rw [if_neg c3, if_neg c3]
        obtain ⟨_, _, _, _, _, _, e5, e6⟩ := addTx_local hL s3 t3
          { op := .xferFrom, ts := now, tid := some arg.tid, from_ := some arg.from_, to_ := some arg.to_, memo := arg.memo,
            createdAt := arg.createdAt, spender := some ⟨c, arg.spenderSub⟩ }
        rw [e5, e6]
        dsimp only
        simp only [moveToken_eq, Map.get_del, beq_self_eq_true, if_true, Option.isSome_none, Bool.not_false]
        refine ⟨trivial, ⟨h3.rel.cfg, ?_, ?_, h3.rel.win⟩, ?_⟩
        · dsimp only
          rw [Map.get_set, Map.get_set, h3.rel.tok]
        · dsimp only
          rw [Map.get_del, Map.get_del]; simp
        · dsimp only
          rw [h3.coll]

theorem runBatch_spend {L : Ledger H} (hL : TakesAll L) (c : Principal) (now : Nat) {tid : Nat} (args : List TransferFromArg)
    (hk : ∀ a ∈ args, a.tid = tid) :
    ∀ {s t : State H}, SpendRel tid s t →
      match icrc37TransferFrom L s c now args, icrc37TransferFrom L t c now args with
      | none, none => True
      | some (s', r), some (t', r') => SameItems r r' ∧ SpendRel tid s' t'
      | _, _ => False := by
  unfold icrc37TransferFrom
  induction args with
  | nil => intro s t h; exact ⟨.nil, h⟩
  | cons a as ih =>
    intro s t h
    have ha := hk a (.head _)
    subst ha
    have h1 := transferFrom_local hL h c now
    simp only [runBatch]
    generalize transferFrom L s c now a = o at h1
    generalize transferFrom L t c now a = o' at h1
    cases o with
    | none => cases o' with
      | none => trivial
      | some _ => exact h1.elim
    | some p => cases o' with
      | none => exact h1.elim
      | some p' =>
        obtain ⟨s1, r⟩ := p
        obtain ⟨t1, r'⟩ := p'
        have h2 := ih (fun x hx => hk x (.tail _ hx)) h1.2
        dsimp only
        generalize runBatch (fun s a => transferFrom L s c now a) s1 as = b at h2
        generalize runBatch (fun s a => transferFrom L s c now a) t1 as = b' at h2
        cases b with
        | none => cases b' with
          | none => trivial
          | some _ => exact h2.elim
        | some q => cases b' with
          | none => exact h2.elim
          | some q' => exact ⟨.cons h1.1 h2.1, h2.2⟩

/-- A message that does not concern collection approvals leaves them. -/
theorem step_coll {E : Env H} {s : State H} (hi : TokInv s) {m : Msg} (hm : NoCollection m) :
    (step E s m).1.collAppr = s.collAppr := by
  refine (Steps.induct (P := fun t => TokInv t ∧ t.collAppr = s.collAppr) ?_ (step_steps E s m) ⟨hi, rfl⟩).2
  rintro u u' ⟨hu, hc⟩ hmi
  refine ⟨tokInv_micro hu hmi, ?_⟩
  cases micro_collAppr hu hmi with
  | same h => exact h.trans hc
  | prune => subst_vars; exact hm.elim
  | approve => subst_vars; exact hm.elim
  | revoke => subst_vars; exact hm.elim
  | moved => subst_vars; exact hm.elim

theorem run_spend {E : Env H} {tid : Nat} {ms : List Msg} :
    ∀ {s : State H}, Reachable E s → (∃ x, s.tokens.get tid = some x) → (∀ m ∈ ms, Elsewhere tid m ∧ NoCollection m) →
      SpendRel tid s (run E s ms) := by
  induction ms with
  | nil => intro s _ _ _; exact ⟨.refl _ _, rfl⟩
  | cons m ms ih =>
    rintro s hr ⟨x, hx⟩ hms
    have h1 := step_elsewhere (E := E) hr.tokInv hx (hms m (.head _)).1
    have h2 := ih (hr.step m) ⟨x, h1.tok.trans hx⟩ (fun y hy => hms y (.tail _ hy))
    exact ⟨h1.trans h2.rel, h2.coll.trans (step_coll hr.tokInv (hms m (.head _)).2)⟩

theorem step_spend {E : Env H} (hL : TakesAll E.ledger) {tid : Nat} {s t : State H} (h : SpendRel tid s t)
    {args : List TransferFromArg} (hc : ∀ a ∈ args, a.tid = tid) (c : Principal) (now : Nat) :
    SameReply (step E s (.call c now (.transferFrom args))).2 (step E t (.call c now (.transferFrom args))).2 ∧
    SpendRel tid (step E s (.call c now (.transferFrom args))).1 (step E t (.call c now (.transferFrom args))).1 := by
  simp only [step, execCall, Call.needs, exec]
  have hb := runBatch_spend hL c now args hc h
  generalize icrc37TransferFrom E.ledger s c now args = o at hb
  generalize icrc37TransferFrom E.ledger t c now args = o' at hb
  cases o with
  | none => cases o' with
    | none => exact ⟨trivial, h⟩
    | some _ => exact hb.elim
  | some p => cases o' with
    | none => exact hb.elim
    | some p' => exact hb

end Verif
