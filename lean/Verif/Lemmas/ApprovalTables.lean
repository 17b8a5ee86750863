import Verif.Lemmas.Windows
import Verif.Spec.Errors
/-!
# Approval calls: accepting branches, and invariants of the tables
-/
namespace Verif

open Spec

variable {H : Type}

theorem addTx_of {L : Ledger H} {s : State H} {t : Tx} {i : Nat} (h : (L.add s.hid t).2 = .ok i) :
    addTx L s t = ({ s with hid := (L.add s.hid t).1, log := s.log ++ [t] }, .ok i) := by
  unfold addTx
  generalize L.add s.hid t = p at h ⊢
  obtain ⟨p1, p2⟩ := p
  simp at h
  subst h
  rfl

theorem checkTokenApproval_total {s : State H} {now tid : Nat} {sp : Account} (h : tid < U64) :
    ∃ s' b, checkTokenApproval s now tid sp = some (s', b) := by
  unfold checkTokenApproval putTokAppr
  split
  · exact ⟨_, _, rfl⟩
  split
  · exact ⟨_, _, rfl⟩
  split
  · exact ⟨_, _, rfl⟩
  · exact ⟨_, _, rfl⟩

/-- The accepting branch of `transfer_from`. -/
theorem transferFrom_accepts {L : Ledger H} {s : State H} {c : Principal} {now i : Nat} {arg : TransferFromArg}
    {nft : Token} (hrate : recentCalls s now arg.tid < 5) (htime : verifyTimingOpt s.cfg arg.createdAt now = none)
    (tok : s.tokens.get arg.tid = some nft) (own : (nft.owner == arg.from_) = true)
    (diff : (arg.from_ == arg.to_) = false) (toOk : (arg.to_ == anonymousAccount) = false)
    (auth : MayMove s now arg.tid nft.owner ⟨c, arg.spenderSub⟩)
    (hk : ∀ m, s.tokAppr.get arg.tid = some m → arg.tid < 2 ^ 64)
    (hled : (L.add s.hid (transferFromTx now c arg)).2 = .ok i) :
    ∃ s', transferFrom L s c now arg = some (s', .ok i) := by
  unfold transferFrom
  have hg := guardWindow_snd s now arg.tid
  rw [decide_eq_true hrate] at hg
  rw [guardWindow_eq, hg]
  generalize (guardWindow s now arg.tid).1.windows = w
  simp only [Bool.not_true, Bool.false_eq_true, if_false, htime, tok, diff, toOk]
  obtain ⟨s2, b, hchk⟩ : ∃ s2 b, checkTokenApproval { s with windows := w } now arg.tid ⟨c, arg.spenderSub⟩ = some (s2, b) := by
    cases hm : s.tokAppr.get arg.tid with
    | none => exact ⟨_, _, by simp only [checkTokenApproval, hm]; rfl⟩
    | some m => exact checkTokenApproval_total (pow64 ▸ hk m hm)
  rw [hchk]
  dsimp only
  obtain ⟨ta, rfl, _, hb⟩ := checkTokenApproval_out hchk
  obtain ⟨ca, hs3, _, hcb⟩ := checkCollApproval_out { s with windows := w, tokAppr := ta } now nft.owner ⟨c, arg.spenderSub⟩
  rw [hs3]
  generalize (checkCollApproval { s with windows := w, tokAppr := ta } now nft.owner ⟨c, arg.spenderSub⟩).2 = b2 at hcb ⊢
  have hcond : (!(nft.owner == arg.from_) || (!((⟨c, arg.spenderSub⟩ : Account) == arg.from_) && !b && !b2)) = false := by
    rw [own]
    rcases auth with h | h | h
    · have := Account.trans_beq h own
      rw [this]; simp
    · rw [hb.2 h]; simp
    · rw [hcb.2 h]; simp
  rw [hcond]
  simp only [Bool.false_eq_true, if_false]
  have hadd := addTx_of (s := { s with windows := w, tokAppr := ta, collAppr := ca }) (t := transferFromTx now c arg) hled
  unfold transferFromTx at hadd
  rw [hadd]
  exact ⟨_, rfl⟩

theorem approveToken_accepts {L : Ledger H} {s : State H} {c : Principal} {now i : Nat} {arg : ApproveTokenArg}
    {o : Account} (hrate : recentCalls s now arg.tid < 5) (htime : verifyTiming s.cfg arg.info.createdAt now = none)
    (own : ownerOf s arg.tid = some o) (eqv : (o == ⟨c, arg.info.fromSub⟩) = true)
    (sp : (arg.info.spender == anonymousAccount) = false)
    (room : ∀ m, s.tokAppr.get arg.tid = some m → m.size < maxApprovals s.cfg) (hw : arg.tid < U64)
    (hled : (L.add s.hid (approveTx now c arg)).2 = .ok i) :
    ∃ s', approveToken L s c now arg = some (s', .ok i) := by
  unfold approveToken
  have hg := guardWindow_snd s now arg.tid
  rw [decide_eq_true hrate] at hg
  rw [guardWindow_eq, hg]
  generalize (guardWindow s now arg.tid).1.windows = w
  have own' : ownerOf { s with windows := w } arg.tid = some o := own
  have hroom : (s.tokAppr.get arg.tid).any (fun m => decide (maxApprovals s.cfg ≤ m.size)) = false := by
    cases hm : s.tokAppr.get arg.tid with
    | none => rfl
    | some m => have := room m hm; simp; omega
  simp only [Bool.not_true, Bool.false_eq_true, if_false, htime, own', sp, eqv, hroom]
  have hadd := addTx_of (s := { s with windows := w }) (t := approveTx now c arg) hled
  unfold approveTx at hadd
  simp only [Bool.true_eq_false, if_false]
  rw [hadd]
  dsimp only
  unfold putTokAppr
  rw [if_pos hw]
  exact ⟨_, rfl⟩

theorem approveCollection_accepts {L : Ledger H} {s : State H} {c : Principal} {now i : Nat} {info : ApprovalInfo}
    (hrate : recentCalls s now 0 < 5) (htime : verifyTiming s.cfg info.createdAt now = none)
    (holds : ∃ e ∈ s.tokens.entries, e.2.owner.owner = c)
    (sp : (info.spender == anonymousAccount) = false)
    (room : ∀ m, s.collAppr.get ⟨c, info.fromSub⟩ = some m → m.size < maxApprovals s.cfg)
    (hled : (L.add s.hid (approveCollTx now c info)).2 = .ok i) :
    ∃ s', approveCollection L s c now info = (s', .ok i) := by
  unfold approveCollection
  have hg := guardWindow_snd s now 0
  rw [decide_eq_true hrate] at hg
  rw [guardWindow_eq, hg]
  generalize (guardWindow s now 0).1.windows = w
  have hroom : (s.collAppr.get ⟨c, info.fromSub⟩).any (fun m => decide (maxApprovals s.cfg ≤ m.size)) = false := by
    cases hm : s.collAppr.get ⟨c, info.fromSub⟩ with
    | none => rfl
    | some m => have := room m hm; simp; omega
  have hany : (s.tokens.entries.any fun e => decide (e.2.owner.owner = c)) = true := by
    obtain ⟨e, he, hc⟩ := holds
    exact List.any_eq_true.2 ⟨e, he, by simpa using hc⟩
  simp only [Bool.not_true, Bool.false_eq_true, if_false, htime, sp, hroom, hany]
  have hadd := addTx_of (s := { s with windows := w }) (t := approveCollTx now c info) hled
  unfold approveCollTx at hadd
  rw [hadd]
  exact ⟨_, rfl⟩

/-- If a batch changes `P` from true to false, one of its items does. -/
theorem runBatch_changes {A R S : Type} {f : S → A → Option (S × R)} (P : S → Prop) (args : List A) :
    ∀ {s s' : S} {rs : List R}, runBatch f s args = some (s', rs) → P s → ¬ P s' →
      ∃ a r t t', (a, r) ∈ args.zip rs ∧ P t ∧ ¬ P t' ∧ f t a = some (t', r) := by
  induction args with
  | nil => intro s s' rs h hp hn; simp [runBatch] at h; rw [h.1] at hp; exact absurd hp hn
  | cons a as ih =>
    intro s s' rs h hp hn
    obtain ⟨t, r, rs', h1, h2, rfl⟩ := runBatch_cons h
    by_cases ht : P t
    · obtain ⟨b, r', u, u', hm, h3⟩ := ih h2 ht hn
      exact ⟨b, r', u, u', by simp [hm], h3⟩
    · exact ⟨a, r, s, t, by simp, hp, ht, h1⟩

/-- The configuration changes only in `update_collection_metadata`. -/
theorem micro_cfg {E : Env H} {m : Msg} {s s' : State H} (h : Micro E m s s') :
    s'.cfg = s.cfg ∨ ∃ c now a, m = .call c now (.updateCollectionMetadata a) ∧ s'.cfg = applyUpdate s.cfg a := by
  cases h with
  | config a perm free => exact .inr ⟨_, _, a, rfl, rfl⟩
  | mint reqs md h perm free batch cap memos hmd => rw [mintInsert_eq]; exact .inl rfl
  | @resume _ now i ans p hp =>
    obtain ⟨_, _, _, _, he⟩ := resumeBody_eq E { s with pending := s.pending.eraseIdx i } now p ans
    rw [he]; exact .inl rfl
  | _ => exact .inl rfl

/-- Keys that differ and are all present are no more than the entries. -/
theorem distinct_le_size (ks : List Account) : ∀ {m : Map Account Approval},
    ks.Pairwise (fun a b => ¬ SameAccount a b) → (∀ k ∈ ks, ∃ a, m.get k = some a) → ks.length ≤ m.size := by
  induction ks with
  | nil => intro m _ _; simp
  | cons k ks ih =>
    intro m hp hall
    obtain ⟨h1, h2⟩ := List.pairwise_cons.1 hp
    have hlt : (m.del k).size < m.size := by
      obtain ⟨a, ha⟩ := hall k (by simp)
      obtain ⟨k', hk, hmem⟩ := Map.mem_of_get ha
      unfold Map.size Map.del
      rw [← List.countP_eq_length_filter]
      rcases Nat.lt_or_ge (m.entries.countP fun e => !(e.1 == k)) m.entries.length with h | h
      · exact h
      · have := List.countP_eq_length.1 (Nat.le_antisymm List.countP_le_length h) _ hmem
        simp at this
        rw [hk] at this
        cases this
    have := ih (m := m.del k) h2 (fun x hx => by
      obtain ⟨a, ha⟩ := hall x (by simp [hx])
      refine ⟨a, ?_⟩
      rw [Map.get_del_ne]
      · exact ha
      · have := h1 x hx
        rw [sameAccount_iff] at this
        simpa using this)
    simp only [List.length_cons]
    omega

/-- The tables of approvals are well-formed: keys are different accounts and each
entry is the approval of its key. -/
structure ApprInv (s : State H) : Prop where
  tok : ∀ tid m, s.tokAppr.get tid = some m → m.NodupKeys ∧ ∀ e ∈ m.entries, (e.1 == e.2.spender) = true
  coll : ∀ o m, s.collAppr.get o = some m → m.NodupKeys ∧ ∀ e ∈ m.entries, (e.1 == e.2.spender) = true

private def Good (m : Map Account Approval) : Prop := m.NodupKeys ∧ ∀ e ∈ m.entries, (e.1 == e.2.spender) = true

private theorem good_empty : Good ∅ := ⟨Map.nodup_empty, by simp⟩

private theorem good_del {m : Map Account Approval} (h : Good m) (k : Account) : Good (m.del k) :=
  ⟨Map.nodup_del h.1 k, fun e he => h.2 e (Map.mem_entries_del.1 he).1⟩

private theorem good_drop {m : Map Account Approval} (h : Good m) (k : Option Account) : Good (dropSpender m k) := by
  cases k with
  | none => exact good_empty
  | some k => exact good_del h k

private theorem setL_spender (m : List (Account × Approval)) (k : Account) (v : Approval) (hv : (k == v.spender) = true)
    (h : ∀ e ∈ m, (e.1 == e.2.spender) = true) : ∀ e ∈ Map.setL m k v, (e.1 == e.2.spender) = true := by
  induction m with
  | nil => intro e he; simp [Map.setL] at he; subst he; exact hv
  | cons x xs ih =>
    intro e he
    unfold Map.setL at he
    split at he
    · rename_i hk
      simp at he
      rcases he with rfl | he
      · exact Account.trans_beq hk hv
      · exact h e (by simp [he])
    · simp at he
      rcases he with rfl | he
      · exact h _ (by simp)
      · exact ih (fun e he => h e (by simp [he])) e he

private theorem good_set {m : Map Account Approval} (h : Good m) {k : Account} {v : Approval}
    (hv : (k == v.spender) = true) : Good (m.set k v) :=
  ⟨Map.nodup_set h.1 k v, setL_spender _ _ _ hv h.2⟩

private theorem good_getD {K : Type} [BEq K] {t : Map K (Map Account Approval)} (h : ∀ o m, t.get o = some m → Good m) (o : K) :
    Good ((t.get o).getD ∅) := by
  cases hg : t.get o with
  | none => exact good_empty
  | some m => exact h o m hg

theorem apprInv_micro {E : Env H} {m : Msg} {s s' : State H} (hi : TokInv s) (ha : ApprInv s) (h : Micro E m s s') :
    ApprInv s' := by
  have htok : ∀ tid m, s.tokAppr.get tid = some m → Good m := ha.tok
  have hcoll : ∀ tid m, s.collAppr.get tid = some m → Good m := ha.coll
  constructor
  · show ∀ tid m, s'.tokAppr.get tid = some m → Good m
    cases micro_tokAppr hi h with
    | same he => rw [he]; exact htok
    | approve c now args arg owner hm harg own eqv sp room he =>
      intro tid m hg
      rw [he, Map.get_set] at hg
      split at hg
      · simp at hg; subst hg
        exact good_set (good_getD htok _) (by simp [mkApproval])
      · exact htok _ _ hg
    | prune c now args arg hm harg tbl a htbl ha' hexp he =>
      intro tid m hg
      rw [he, Map.get_set] at hg
      split at hg
      · simp at hg; subst hg; exact good_del (htok _ _ htbl) _
      · exact htok _ _ hg
    | revoke c now args arg owner hm harg own eqv tbl htbl he =>
      intro tid m hg
      rw [he, Map.get_set] at hg
      split at hg
      · simp at hg; subst hg; exact good_drop (htok _ _ htbl) _
      · exact htok _ _ hg
    | moved c now args arg owner hm harg own howner hto auth he =>
      intro tid m hg
      rw [he, Map.get_del] at hg
      split at hg
      · cases hg
      · exact htok _ _ hg
  · show ∀ o m, s'.collAppr.get o = some m → Good m
    cases micro_collAppr hi h with
    | same he => rw [he]; exact hcoll
    | approve c now args info hm harg sp holds room he =>
      intro tid m hg
      rw [he, Map.get_set] at hg
      split at hg
      · simp at hg; subst hg
        exact good_set (good_getD hcoll _) (by simp [mkApproval])
      · exact hcoll _ _ hg
    | prune c now args arg o hm harg own tbl a htbl ha' hexp base hbase he =>
      intro tid m hg
      rw [he, Map.get_set] at hg
      split at hg
      · simp at hg; subst hg; exact good_del (hcoll _ _ htbl) _
      · rcases hbase with rfl | rfl
        · exact hcoll _ _ hg
        · rw [Map.get_del] at hg
          split at hg
          · cases hg
          · exact hcoll _ _ hg
    | revoke c now args arg hm harg tbl htbl he =>
      intro tid m hg
      rw [he, Map.get_set] at hg
      split at hg
      · simp at hg; subst hg; exact good_drop (hcoll _ _ htbl) _
      · exact hcoll _ _ hg
    | moved c now args arg owner hm harg own howner hto auth he =>
      intro tid m hg
      rw [he, Map.get_del] at hg
      split at hg
      · cases hg
      · exact hcoll _ _ hg

theorem Reachable.apprInv {E : Env H} {s : State H} (h : Reachable E s) : ApprInv s := by
  have : TokInv s ∧ ApprInv s := by
    refine h.induct (P := fun s => TokInv s ∧ ApprInv s) ?_ ?_
    · intro v hid c a s₀ h0
      refine ⟨tokInv_init h0, ?_⟩
      rw [init_eq h0]
      exact ⟨by simp, by simp⟩
    · intro m s s' ⟨h1, h2⟩ hm
      exact ⟨tokInv_micro h1 hm, apprInv_micro h1 h2 hm⟩
  exact this.2

/-- No token approval for a pair appears without a grant naming it. -/
theorem noTokenApproval_run {E : Env H} {tid : Nat} {sp : Account} (ms : List Msg)
    (hms : ∀ m ∈ ms, ∀ c now args, m = .call c now (.approveTokens args) → ∀ arg ∈ args, arg.tid = tid →
      ¬ SameAccount arg.info.spender sp) : ∀ {s : State H}, TokInv s → (∀ a, ¬ TokenApproval s tid sp a) →
    ∀ a, ¬ TokenApproval (run E s ms) tid sp a := by
  induction ms with
  | nil => intro s _ h; exact h
  | cons m ms ih =>
    intro s hi h
    have key : TokInv (step E s m).1 ∧ ∀ a, ¬ TokenApproval (step E s m).1 tid sp a := by
      refine (step_steps E s m).induct (P := fun s => TokInv s ∧ ∀ a, ¬ TokenApproval s tid sp a) ?_ ⟨hi, h⟩
      intro t t' ⟨h1, h2⟩ hm
      refine ⟨tokInv_micro h1 hm, fun a ha => ?_⟩
      rcases (micro_tokAppr h1 hm).gain ha with h3 | ⟨c, now, args, arg, _, rfl, harg, ht, _, _, hsp, _⟩
      · exact h2 a h3
      · exact hms _ (by simp) c now args rfl arg harg ht (sameAccount_iff.2 hsp)
    exact ih (fun m hm => hms m (by simp [hm])) key.1 key.2

/-- No collection approval for a pair appears without a grant naming it. -/
theorem noCollApproval_run {E : Env H} {o sp : Account} (ms : List Msg)
    (hms : ∀ m ∈ ms, ∀ c now args, m = .call c now (.approveCollection args) → ∀ info ∈ args,
      SameAccount ⟨c, info.fromSub⟩ o → ¬ SameAccount info.spender sp) : ∀ {s : State H}, TokInv s →
    (∀ a, ¬ CollApproval s o sp a) → ∀ a, ¬ CollApproval (run E s ms) o sp a := by
  induction ms with
  | nil => intro s _ h; exact h
  | cons m ms ih =>
    intro s hi h
    have key : TokInv (step E s m).1 ∧ ∀ a, ¬ CollApproval (step E s m).1 o sp a := by
      refine (step_steps E s m).induct (P := fun s => TokInv s ∧ ∀ a, ¬ CollApproval s o sp a) ?_ ⟨hi, h⟩
      intro t t' ⟨h1, h2⟩ hm
      refine ⟨tokInv_micro h1 hm, fun a ha => ?_⟩
      rcases (micro_collAppr h1 hm).gain ha with h3 | ⟨c, now, args, info, rfl, harg, ho, _, hsp, _⟩
      · exact h2 a h3
      · exact hms _ (by simp) c now args rfl info harg (sameAccount_iff.2 ho) (sameAccount_iff.2 hsp)
    exact ih (fun m hm => hms m (by simp [hm])) key.1 key.2

/-- An approval depends on its spender only up to account equality. -/
theorem tokApproval_congr {s : State H} {tid : Nat} {sp sp' : Account} {a : Approval} (h : SameAccount sp sp')
    (ha : TokenApproval s tid sp a) : TokenApproval s tid sp' a := by
  obtain ⟨m, h1, h2⟩ := ha
  exact ⟨m, h1, by rw [← Map.get_congr _ (sameAccount_iff.1 h)]; exact h2⟩

theorem collApproval_congr {s : State H} {o o' sp sp' : Account} {a : Approval} (ho : SameAccount o o')
    (h : SameAccount sp sp') (ha : CollApproval s o sp a) : CollApproval s o' sp' a := by
  obtain ⟨m, h1, h2⟩ := ha
  exact ⟨m, by rw [← Map.get_congr _ (sameAccount_iff.1 ho)]; exact h1,
    by rw [← Map.get_congr _ (sameAccount_iff.1 h)]; exact h2⟩

/-- A `transfer_from` item that gets as far as the authorisation check drops the
expired approvals it met. -/
theorem transferFrom_drops {L : Ledger H} {s s' : State H} {c : Principal} {now : Nat} {arg : TransferFromArg} {r} {o}
    (ho : Owner s arg.tid = some o)
    (hr : r = .error .unauthorized ∨ ∃ i, r = .ok i) (h : transferFrom L s c now arg = some (s', r)) :
    (∀ a, ¬ Live a now → ¬ TokenApproval s' arg.tid ⟨c, arg.spenderSub⟩ a) ∧
    (∀ a, ¬ Live a now → ¬ CollApproval s' o ⟨c, arg.spenderSub⟩ a) := by
  obtain ⟨nft', htok', hown'⟩ := owner_get ho
  rcases hr with rfl | ⟨i, rfl⟩
  · unfold transferFrom at h
    rw [guardWindow_eq] at h
    generalize (guardWindow s now arg.tid).1.windows = w at h
    generalize (guardWindow s now arg.tid).2 = ok at h
    dsimp only at h
    split at h
    · simp at h
    split at h
    · rename_i e he
      simp at h
      rw [h.2] at he
      unfold verifyTimingOpt verifyTiming at he
      split at he
      · cases he
      · split at he
        · cases he
        · split at he <;> cases he
    split at h
    · simp at h
    rename_i nft tok
    rw [htok'] at tok
    cases tok
    subst hown'
    split at h
    · simp at h
    split at h
    · simp at h
    split at h
    · cases h
    rename_i s1 hasTok hchk
    have h1 : ∀ a, ¬ Live a now → ¬ TokenApproval s1 arg.tid ⟨c, arg.spenderSub⟩ a := by
      intro a hl ⟨m, hm, ha⟩
      unfold checkTokenApproval at hchk
      dsimp only at hchk
      split at hchk
      · rename_i hg
        simp at hchk
        rw [← hchk.1] at hm
        dsimp only at hm
        rw [hg] at hm; cases hm
      rename_i m' hg
      split at hchk
      · rename_i hg2
        simp at hchk
        rw [← hchk.1] at hm
        dsimp only at hm
        rw [hg] at hm; cases hm
        rw [hg2] at ha; cases ha
      rename_i a' hg2
      split at hchk
      · split at hchk
        · cases hchk
        · rename_i s2 hput
          unfold putTokAppr at hput
          split at hput
          · simp at hput hchk
            rw [← hchk.1, ← hput] at hm
            simp at hm
            subst hm
            simp at ha
          · cases hput
      · rename_i hexp
        simp at hchk
        rw [← hchk.1] at hm
        dsimp only at hm
        rw [hg] at hm; cases hm
        rw [hg2] at ha; cases ha
        exact hexp (expired_iff.2 hl)
    obtain ⟨ta, rfl, _, _⟩ := checkTokenApproval_out hchk
    have h2 : ∀ a, ¬ Live a now → ¬ CollApproval (checkCollApproval { s with windows := w, tokAppr := ta } now nft'.owner ⟨c, arg.spenderSub⟩).1
        nft'.owner ⟨c, arg.spenderSub⟩ a := by
      intro a hl ⟨m, hm, ha⟩
      unfold checkCollApproval at hm
      dsimp only at hm
      split at hm
      · rename_i hg
        dsimp only at hm
        rw [hg] at hm; cases hm
      rename_i m' hg
      split at hm
      · rename_i hg2
        dsimp only at hm
        rw [hg] at hm; cases hm
        rw [hg2] at ha; cases ha
      rename_i a' hg2
      split at hm
      · simp at hm
        subst hm
        simp at ha
      · rename_i hexp
        dsimp only at hm
        rw [hg] at hm; cases hm
        rw [hg2] at ha; cases ha
        exact hexp (expired_iff.2 hl)
    obtain ⟨ca, hs2, _, _⟩ := checkCollApproval_out { s with windows := w, tokAppr := ta } now nft'.owner ⟨c, arg.spenderSub⟩
    rw [hs2] at h h2
    split at h
    · simp only [Option.some.injEq, Prod.mk.injEq] at h
      obtain ⟨rfl, _⟩ := h
      exact ⟨h1, h2⟩
    · split at h
      · rename_i e _
        simp only [Option.some.injEq, Prod.mk.injEq] at h
        have := h.2
        unfold transferFromLedgerErr at this
        split at this
        · split at this <;> cases this
        · cases this
      · simp at h
  · have hout := transferFrom_out h
    clear h
    cases hout with
    | moved w nft h i tok own auth diff toOk timing add =>
      rw [htok'] at tok
      cases tok
      subst hown'
      constructor
      · rintro a _ ⟨m, hm, _⟩
        simp at hm
      · rintro a _ ⟨m, hm, _⟩
        rw [Map.get_congr _ own] at hm
        simp at hm

theorem maxApprovals_eq {s : State H} (hl : ApprovalLimit s < 2 ^ 32) :
    maxApprovals s.cfg = ApprovalLimit s := by
  rw [pow32] at hl
  unfold maxApprovals toUsizeOr
  rw [show s.cfg.maxApprovals.getD defaultMaxApprovals = ApprovalLimit s from rfl, if_pos hl]

theorem Map.spenders_of {m : Map Account Approval} (hn : m.NodupKeys) :
    m.keys.Pairwise (fun x y => ¬ SameAccount x y) ∧ ∀ sp ∈ m.keys, ∃ a, m.get sp = some a := by
  constructor
  · have := Map.nodupL_iff.1 hn
    refine this.imp fun {a b} h => ?_
    rw [sameAccount_iff, h]; simp
  · intro sp hsp
    obtain ⟨e, he, rfl⟩ := List.mem_map.1 hsp
    exact ⟨e.2, Map.get_of_mem hn he⟩

theorem tokenSpenders_of {s : State H} (ha : ApprInv s) {tid n : Nat}
    (h : (s.tokAppr.get tid).any (fun m => decide (n ≤ m.size)) = true) : TokenSpenders s tid n := by
  obtain ⟨m, hm, hsz⟩ := Option.any_eq_true _ _ |>.1 h
  obtain ⟨h1, h2⟩ := Map.spenders_of (ha.tok tid m hm).1
  refine ⟨m.keys, h1, fun sp hsp => ?_, ?_⟩
  · obtain ⟨a, ha⟩ := h2 sp hsp; exact ⟨a, m, hm, ha⟩
  · rw [Map.keys, List.length_map]; exact of_decide_eq_true hsz

theorem collSpenders_of {s : State H} (ha : ApprInv s) {o : Account} {n : Nat}
    (h : (s.collAppr.get o).any (fun m => decide (n ≤ m.size)) = true) : CollSpenders s o n := by
  obtain ⟨m, hm, hsz⟩ := Option.any_eq_true _ _ |>.1 h
  obtain ⟨h1, h2⟩ := Map.spenders_of (ha.coll o m hm).1
  refine ⟨m.keys, h1, fun sp hsp => ?_, ?_⟩
  · obtain ⟨a, ha⟩ := h2 sp hsp; exact ⟨a, m, hm, ha⟩
  · rw [Map.keys, List.length_map]; exact of_decide_eq_true hsz

theorem tokRoom_of {s : State H} (ha : ApprInv s) {tid n : Nat} (h : ¬ TokenSpenders s tid n) :
    ∀ m, s.tokAppr.get tid = some m → m.size < n := fun m hm =>
  Nat.lt_of_not_le fun hle => h (tokenSpenders_of ha (by simp [hm, hle]))

theorem collRoom_of {s : State H} (ha : ApprInv s) {o : Account} {n : Nat} (h : ¬ CollSpenders s o n) :
    ∀ m, s.collAppr.get o = some m → m.size < n := fun m hm =>
  Nat.lt_of_not_le fun hle => h (collSpenders_of ha (by simp [hm, hle]))

end Verif
