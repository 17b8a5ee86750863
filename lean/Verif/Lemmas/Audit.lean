import Verif.Spec.Audit
import Verif.Lemmas.ApprovalTables
/-!
# The approval tables and the log move together
-/
namespace Verif

open Spec

variable {H : Type}

theorem lastWord_snoc {log : List Tx} {r : Tx} {grants touches : Tx → Prop} :
    LastWord (log ++ [r]) grants touches ↔ grants r ∨ (¬ touches r ∧ LastWord log grants touches) := by
  constructor
  · rintro ⟨b, x, after, he, hg, ha⟩
    rcases List.eq_nil_or_concat after with h | ⟨l, y, h⟩
    · subst h
      have := List.append_inj' he rfl
      simp only [List.cons.injEq, and_true] at this
      exact .inl (this.2 ▸ hg)
    · rw [h] at he
      have he' : log ++ [r] = (b ++ x :: l) ++ [y] := by simpa using he
      have := List.append_inj' he' rfl
      simp only [List.cons.injEq, and_true] at this
      obtain ⟨h1, h2⟩ := this
      subst h1 h2 h
      exact .inr ⟨ha _ (by simp), b, x, l, rfl, hg, fun t ht => ha t (by simp [ht])⟩
  · rintro (hg | ⟨hn, b, x, after, he, hg, ha⟩)
    · exact ⟨log, r, [], rfl, hg, by simp⟩
    · refine ⟨b, x, after ++ [r], by simp [he], hg, ?_⟩
      intro t ht
      simp only [List.mem_append, List.mem_singleton] at ht
      rcases ht with ht | rfl
      · exact ha t ht
      · exact hn

/-- Records that neither grant nor touch change nothing. -/
theorem lastWord_idle {log l : List Tx} {grants touches : Tx → Prop} (hg : ∀ t ∈ l, ¬ grants t)
    (ht : ∀ t ∈ l, ¬ touches t) : LastWord (log ++ l) grants touches ↔ LastWord log grants touches := by
  induction l generalizing log with
  | nil => simp
  | cons x l ih =>
    have : log ++ x :: l = (log ++ [x]) ++ l := by simp
    rw [this, ih (fun t h => hg t (by simp [h])) (fun t h => ht t (by simp [h])), lastWord_snoc]
    simp [hg x (by simp), ht x (by simp)]

theorem lastWord_unique {log : List Tx} {g g' touches : Tx → Prop} {same : Prop}
    (hg : ∀ r, g r → touches r) (hg' : ∀ r, g' r → touches r) (hs : ∀ r, g r → g' r → same)
    (h : LastWord log g touches) (h' : LastWord log g' touches) : same := by
  obtain ⟨b, r, l, he, hr, hl⟩ := h
  obtain ⟨b', r', l', he', hr', hl'⟩ := h'
  rw [he'] at he
  rcases List.append_eq_append_iff.1 he with ⟨c, h1, h2⟩ | ⟨c, h1, h2⟩
  · cases c with
    | nil =>
      simp only [List.nil_append, List.cons.injEq] at h2
      obtain ⟨rfl, rfl⟩ := h2
      exact hs _ hr hr'
    | cons x c =>
      simp only [List.cons_append, List.cons.injEq] at h2
      exact absurd (hg _ hr) (hl' r (by simp [h2.2]))
  · cases c with
    | nil =>
      simp only [List.nil_append, List.cons.injEq] at h2
      obtain ⟨rfl, rfl⟩ := h2
      exact hs _ hr hr'
    | cons x c =>
      simp only [List.cons_append, List.cons.injEq] at h2
      exact absurd (hg' _ hr') (hl r' (by simp [h2.2]))

theorem grantsToken_touches {tid : Nat} {sp : Account} {a : Approval} {r : Tx} (h : GrantsToken tid sp a r) :
    TouchesToken tid sp r := by
  obtain ⟨ho, ht, hw, hs⟩ := h
  refine ⟨ht, .inl ⟨ho, fun x hx => ?_⟩⟩
  rw [hw.1] at hx
  cases hx
  exact hs

theorem grantsColl_touches {o sp : Account} {a : Approval} {r : Tx} (h : GrantsColl o sp a r) :
    TouchesColl o sp r := by
  obtain ⟨ho, hw, hf, hs⟩ := h
  refine ⟨⟨_, hw.2.1, hf⟩, .inl ⟨ho, fun x hx => ?_⟩⟩
  rw [hw.1] at hx
  cases hx
  exact hs

theorem writesDown_unique {r : Tx} {a b : Approval} (ha : WritesDown r a) (hb : WritesDown r b) : a = b := by
  obtain ⟨h1, h2, h3, h4, h5⟩ := ha
  obtain ⟨k1, k2, k3, k4, k5⟩ := hb
  rw [h1] at k1; rw [h2] at k2
  cases a; cases b
  simp_all

theorem loggedToken_unique {log : List Tx} {tid : Nat} {sp : Account} {a b : Approval}
    (ha : LoggedToken log tid sp a) (hb : LoggedToken log tid sp b) : a = b :=
  lastWord_unique (fun _ => grantsToken_touches) (fun _ => grantsToken_touches)
    (fun _ h k => writesDown_unique h.2.2.1 k.2.2.1) ha hb

theorem loggedColl_unique {log : List Tx} {o sp : Account} {a b : Approval}
    (ha : LoggedColl log o sp a) (hb : LoggedColl log o sp b) : a = b :=
  lastWord_unique (fun _ => grantsColl_touches) (fun _ => grantsColl_touches)
    (fun _ h k => writesDown_unique h.2.1 k.2.1) ha hb

/-- The token table agrees with the log, up to approvals that had expired by `T`. -/
def TokAudit (T : Nat) (s : State H) : Prop :=
  ∀ tid sp a, (TokenApproval s tid sp a → LoggedToken s.log tid sp a) ∧
    (LoggedToken s.log tid sp a → Live a T → TokenApproval s tid sp a)

/-- The same for the collection table. -/
def CollAudit (T : Nat) (s : State H) : Prop :=
  ∀ o sp a, (CollApproval s o sp a → LoggedColl s.log o sp a) ∧
    (LoggedColl s.log o sp a → Live a T → CollApproval s o sp a)

theorem tokAudit_idle {T : Nat} {s s' : State H} {l : List Tx} (h : TokAudit T s) (ht : s'.tokAppr = s.tokAppr)
    (hl : s'.log = s.log ++ l) (hn : ∀ r ∈ l, r.op ≠ .approve ∧ r.op ≠ .revoke ∧ r.op ≠ .xferFrom) :
    TokAudit T s' := by
  intro tid sp a
  rw [tokApproval_same ht]
  unfold LoggedToken
  rw [hl, lastWord_idle]
  · exact h tid sp a
  · exact fun r hr hg => (hn r hr).1 hg.1
  · rintro r hr ⟨-, hg | hg | hg⟩
    · exact (hn r hr).1 hg.1
    · exact (hn r hr).2.1 hg.1
    · exact (hn r hr).2.2 hg

theorem collAudit_idle {T : Nat} {s s' : State H} {l : List Tx} (h : CollAudit T s) (ht : s'.collAppr = s.collAppr)
    (hl : s'.log = s.log ++ l) (hn : ∀ r ∈ l, r.op ≠ .approveColl ∧ r.op ≠ .revokeColl ∧ r.op ≠ .xferFrom) :
    CollAudit T s' := by
  intro tid sp a
  rw [collApproval_same ht]
  unfold LoggedColl
  rw [hl, lastWord_idle]
  · exact h tid sp a
  · exact fun r hr hg => (hn r hr).1 hg.1
  · rintro r hr ⟨-, hg | hg | hg⟩
    · exact (hn r hr).1 hg.1
    · exact (hn r hr).2.1 hg.1
    · exact (hn r hr).2.2 hg

theorem tokAudit_same {T : Nat} {s s' : State H} (h : TokAudit T s) (ht : s'.tokAppr = s.tokAppr)
    (hl : s'.log = s.log) : TokAudit T s' :=
  tokAudit_idle (l := []) h ht (by simpa using hl) (by simp)

theorem collAudit_same {T : Nat} {s s' : State H} (h : CollAudit T s) (ht : s'.collAppr = s.collAppr)
    (hl : s'.log = s.log) : CollAudit T s' :=
  collAudit_idle (l := []) h ht (by simpa using hl) (by simp)

theorem mints_op (now n : Nat) (reqs : List MintReq) :
    ∀ r ∈ reqs.mapIdx fun k r => mintTx now (n + k) r, r.op = .mint := by
  intro r hr
  obtain ⟨i, hi, rfl⟩ := List.mem_mapIdx.1 hr
  rfl

/-- Dropping a spender from a table leaves exactly the others. -/
theorem get_dropSpender_iff {m : Map Account Approval} {w : Option Account} {sp : Account} {a : Approval} :
    (dropSpender m w).get sp = some a ↔ m.get sp = some a ∧ ∃ x, w = some x ∧ ¬ SameAccount x sp := by
  cases w with
  | none => simp [dropSpender]
  | some x =>
    simp only [dropSpender, Map.get_del, sameAccount_iff]
    by_cases h : (x == sp) = true
    · simp [h]
    · simp [h]

theorem micro_tokAudit {E : Env H} {m : Msg} {s s' : State H} {T : Nat} (hT : UpTo T [m])
    (hi : TokAudit T s) (h : Micro E m s s') : TokAudit T s' := by
  cases h with
  | xfer arg nft h i harg hc tok own toOk diff memo timing add =>
    exact tokAudit_idle (l := [_]) hi rfl (by rfl) (by simp [transferTx])
  | @xferFrom _ c now args arg nft h i harg tok own auth diff toOk timing add =>
    intro tid sp a
    rw [tokApproval_del (s := s) (k := arg.tid) rfl]
    unfold LoggedToken
    rw [show State.log _ = s.log ++ [transferFromTx now c arg] from rfl, lastWord_snoc]
    have h1 : ¬ GrantsToken tid sp a (transferFromTx now c arg) := fun h => nomatch h.1
    have h2 : TouchesToken tid sp (transferFromTx now c arg) ↔ arg.tid = tid := by
      simp [TouchesToken, transferFromTx]
    simp only [h1, h2, false_or]
    exact ⟨fun k => ⟨k.1, (hi tid sp a).1 k.2⟩, fun k hl => ⟨k.1, (hi tid sp a).2 k.2 hl⟩⟩
  | @pruneTok _ c now args arg harg tbl x htbl hx hexp =>
    intro tid sp a
    rw [tokApproval_set (s := s) (k := arg.tid) rfl]
    have hnow : now ≤ T := hT _ _ _ (List.mem_singleton_self _)
    constructor
    · rintro (⟨rfl, h⟩ | ⟨_, h⟩)
      · exact (hi _ sp a).1 ⟨tbl, htbl, get_del_some h⟩
      · exact (hi tid sp a).1 h
    · intro h hl
      have h' := (hi tid sp a).2 h hl
      by_cases ht : arg.tid = tid
      · refine .inl ⟨ht, ?_⟩
        subst ht
        obtain ⟨tbl', ht', hg⟩ := h'
        rw [htbl] at ht'; cases ht'
        rw [Map.get_del]
        split
        · rename_i he
          rw [Map.get_congr _ he, hg] at hx
          cases hx
          exact absurd (fun e he => Nat.lt_of_le_of_lt hnow (hl e he)) hexp
        · exact hg
      · exact .inr ⟨ht, h'⟩
  | @approve _ c now args arg owner h i harg own eqv sp room timing add =>
    intro tid spd a
    rw [tokApproval_set (s := s) (k := arg.tid) rfl]
    unfold LoggedToken
    rw [show State.log _ = s.log ++ [approveTx now c arg] from rfl, lastWord_snoc]
    have h1 : GrantsToken tid spd a (approveTx now c arg) ↔ arg.tid = tid ∧
        mkApproval arg.info ⟨c, arg.info.fromSub⟩ now = a ∧ SameAccount arg.info.spender spd := by
      constructor
      · rintro ⟨_, h2, h3, h4⟩
        have : a = mkApproval arg.info ⟨c, arg.info.fromSub⟩ now :=
          writesDown_unique h3 ⟨rfl, rfl, rfl, rfl, rfl⟩
        subst this
        exact ⟨Option.some.inj h2, rfl, h4⟩
      · rintro ⟨rfl, rfl, h⟩
        exact ⟨rfl, rfl, ⟨rfl, rfl, rfl, rfl, rfl⟩, h⟩
    have h2 : TouchesToken tid spd (approveTx now c arg) ↔ arg.tid = tid ∧ SameAccount arg.info.spender spd := by
      simp [TouchesToken, approveTx, About]
    rw [h1, h2]
    by_cases ht : arg.tid = tid
    · subst ht
      simp only [ne_eq, not_true, true_and, false_and, or_false, Map.get_set, sameAccount_iff]
      have hi' := hi arg.tid spd a
      unfold TokenApproval at hi'
      by_cases he : (arg.info.spender == spd) = true
      · simp only [he, if_true, Option.some.injEq, not_true, false_and, or_false, and_true]
        exact ⟨id, fun h _ => h⟩
      · simp only [he, and_false, false_or, not_false_eq_true, true_and, Bool.false_eq_true, if_false]
        cases hm : s.tokAppr.get arg.tid with
        | none =>
          rw [hm] at hi'
          refine ⟨fun h => by simp at h, fun h hl => ?_⟩
          obtain ⟨m, hm, _⟩ := hi'.2 h hl
          cases hm
        | some m =>
          rw [hm] at hi'
          refine ⟨fun h => hi'.1 ⟨m, rfl, h⟩, fun h hl => ?_⟩
          obtain ⟨m', hm', hg⟩ := hi'.2 h hl
          cases hm'
          exact hg
    · simp only [ht, false_and, false_or, ne_eq, not_false_eq_true, true_and]
      exact hi tid spd a
  | @revokeTok _ c now args arg owner h i tbl harg own eqv hm timing add =>
    intro tid spd a
    rw [tokApproval_set (s := s) (k := arg.tid) rfl]
    unfold LoggedToken
    rw [show State.log _ = s.log ++ [revokeTx now c arg] from rfl, lastWord_snoc]
    have h1 : ¬ GrantsToken tid spd a (revokeTx now c arg) := fun h => nomatch h.1
    have h2 : TouchesToken tid spd (revokeTx now c arg) ↔ arg.tid = tid ∧
        ∀ x, arg.spender = some x → SameAccount x spd := by
      simp [TouchesToken, revokeTx, About]
    rw [h2, get_dropSpender_iff]
    simp only [h1, false_or]
    by_cases ht : arg.tid = tid
    · subst ht
      simp only [true_and, ne_eq, not_true, false_and, or_false]
      have hi' := hi arg.tid spd a
      unfold TokenApproval at hi'
      rw [hm] at hi'
      constructor
      · rintro ⟨hg, x, hx, hne⟩
        exact ⟨fun h => hne (h x hx), hi'.1 ⟨tbl, rfl, hg⟩⟩
      · rintro ⟨hne, hg⟩ hl
        obtain ⟨m', hm', hg'⟩ := hi'.2 hg hl
        cases hm'
        refine ⟨hg', ?_⟩
        cases hsp : arg.spender with
        | none => exact absurd (fun x hx => by rw [hsp] at hx; cases hx) hne
        | some x => exact ⟨x, rfl, fun hs => hne fun y hy => by rw [hsp] at hy; cases hy; exact hs⟩
    · simp only [ht, false_and, false_or, ne_eq, not_false_eq_true, true_and]
      exact hi tid spd a
  | approveColl info h i harg sp holds room timing add =>
    exact tokAudit_idle (l := [_]) hi rfl (by rfl) (by simp [approveCollTx])
  | revokeColl arg h i tbl harg hm timing add =>
    exact tokAudit_idle (l := [_]) hi rfl (by rfl) (by simp [revokeCollTx])
  | mint reqs md h perm free batch cap memos hmd =>
    rw [mintInsert_eq]
    exact tokAudit_idle hi rfl rfl fun r hr => by simp [mints_op _ _ _ r hr]
  | mintCut reqs md h n perm free hn hmd =>
    exact tokAudit_idle hi rfl rfl fun r hr => by simp [mints_op _ _ _ r hr]
  | updateMeta tid kvs token md h i perm free tok hmd add =>
    exact tokAudit_idle (l := [_]) hi rfl (by rfl) (by simp [updateTx])
  | burn tid token h i free tok own add =>
    exact tokAudit_idle (l := [_]) hi rfl (by rfl) (by simp [burnTx])
  | @resume _ now i ans p hp =>
    obtain ⟨_, _, _, _, he⟩ := resumeBody_eq E { s with pending := s.pending.eraseIdx i } now p ans
    rw [he]; exact tokAudit_same hi rfl rfl
  | _ => exact tokAudit_same hi rfl rfl

theorem micro_collAudit {E : Env H} {m : Msg} {s s' : State H} {T : Nat} (hT : UpTo T [m])
    (hi : CollAudit T s) (h : Micro E m s s') : CollAudit T s' := by
  cases h with
  | xfer arg nft h i harg hc tok own toOk diff memo timing add =>
    exact collAudit_idle (l := [_]) hi rfl (by rfl) (by simp [transferTx])
  | @xferFrom _ c now args arg nft h i harg tok own auth diff toOk timing add =>
    intro o sp a
    rw [collApproval_del (s := s) (k := arg.from_) rfl]
    unfold LoggedColl
    rw [show State.log _ = s.log ++ [transferFromTx now c arg] from rfl, lastWord_snoc]
    have h1 : ¬ GrantsColl o sp a (transferFromTx now c arg) := fun h => nomatch h.1
    have h2 : TouchesColl o sp (transferFromTx now c arg) ↔ (arg.from_ == o) = true := by
      simp [TouchesColl, transferFromTx, MadeFrom, sameAccount_iff]
    simp only [h1, h2, false_or, Bool.not_eq_true]
    exact ⟨fun k => ⟨k.1, (hi o sp a).1 k.2⟩, fun k hl => ⟨k.1, (hi o sp a).2 k.2 hl⟩⟩
  | @pruneColl _ c now args arg harg nft tok tbl x htbl hx hexp base hbase =>
    intro o sp a
    have hset : ∀ o', (base.set nft.owner (tbl.del ⟨c, arg.spenderSub⟩)).get o' =
        (s.collAppr.set nft.owner (tbl.del ⟨c, arg.spenderSub⟩)).get o' := by
      intro o'
      rcases hbase with h | h <;> subst h
      · rfl
      · rw [Map.get_set, Map.get_set, Map.get_del]
        split <;> simp_all
    have hc : CollApproval { s with collAppr := base.set nft.owner (tbl.del ⟨c, arg.spenderSub⟩) } o sp a ↔
        CollApproval { s with collAppr := s.collAppr.set nft.owner (tbl.del ⟨c, arg.spenderSub⟩) } o sp a := by
      unfold CollApproval
      dsimp only
      rw [hset o]
    rw [hc, collApproval_set (s := s) (k := nft.owner) rfl]
    have hnow : now ≤ T := hT _ _ _ (List.mem_singleton_self _)
    constructor
    · rintro (⟨he, h⟩ | ⟨_, h⟩)
      · exact (hi _ sp a).1 ⟨tbl, by rw [← Map.get_congr _ he, htbl], get_del_some h⟩
      · exact (hi o sp a).1 h
    · intro h hl
      have h' := (hi o sp a).2 h hl
      by_cases ht : (nft.owner == o) = true
      · refine .inl ⟨ht, ?_⟩
        obtain ⟨tbl', ht', hg⟩ := h'
        rw [← Map.get_congr _ ht, htbl] at ht'; cases ht'
        rw [Map.get_del]
        split
        · rename_i he
          rw [Map.get_congr _ he, hg] at hx
          cases hx
          exact absurd (fun e he => Nat.lt_of_le_of_lt hnow (hl e he)) hexp
        · exact hg
      · exact .inr ⟨by simpa using ht, h'⟩
  | @approveColl _ c now args info h i harg sp holds room timing add =>
    intro o spd a
    rw [collApproval_set (s := s) (k := ⟨c, info.fromSub⟩) rfl]
    unfold LoggedColl
    rw [show State.log _ = s.log ++ [approveCollTx now c info] from rfl, lastWord_snoc]
    have h1 : GrantsColl o spd a (approveCollTx now c info) ↔ SameAccount ⟨c, info.fromSub⟩ o ∧
        mkApproval info ⟨c, info.fromSub⟩ now = a ∧ SameAccount info.spender spd := by
      constructor
      · rintro ⟨_, h3, h2, h4⟩
        have : a = mkApproval info ⟨c, info.fromSub⟩ now :=
          writesDown_unique h3 ⟨rfl, rfl, rfl, rfl, rfl⟩
        subst this
        exact ⟨h2, rfl, h4⟩
      · rintro ⟨h', rfl, h⟩
        exact ⟨rfl, ⟨rfl, rfl, rfl, rfl, rfl⟩, h', h⟩
    have h2 : TouchesColl o spd (approveCollTx now c info) ↔ SameAccount ⟨c, info.fromSub⟩ o ∧
        SameAccount info.spender spd := by
      simp [TouchesColl, approveCollTx, About, MadeFrom]
    rw [h1, h2]
    simp only [sameAccount_iff, Map.get_set]
    have hi' := hi o spd a
    unfold CollApproval at hi'
    by_cases ht : ((⟨c, info.fromSub⟩ : Account) == o) = true
    · rw [← Map.get_congr s.collAppr ht] at hi'
      simp only [ht, true_and, Bool.true_eq_false, false_and, or_false]
      by_cases he : (info.spender == spd) = true
      · simp only [he, if_true, Option.some.injEq, not_true, false_and, or_false, and_true]
        exact ⟨id, fun h _ => h⟩
      · simp only [he, and_false, false_or, not_false_eq_true, true_and, Bool.false_eq_true, if_false]
        cases hm : s.collAppr.get ⟨c, info.fromSub⟩ with
        | none =>
          rw [hm] at hi'
          refine ⟨fun h => by simp at h, fun h hl => ?_⟩
          obtain ⟨m, hm, _⟩ := hi'.2 h hl
          cases hm
        | some m =>
          rw [hm] at hi'
          refine ⟨fun h => hi'.1 ⟨m, rfl, h⟩, fun h hl => ?_⟩
          obtain ⟨m', hm', hg⟩ := hi'.2 h hl
          cases hm'
          exact hg
    · simp only [ht, Bool.false_eq_true, false_and, false_or, not_false_eq_true, true_and]
      exact hi o spd a
  | @revokeColl _ c now args arg h i tbl harg hm timing add =>
    intro o spd a
    rw [collApproval_set (s := s) (k := ⟨c, none⟩) rfl]
    unfold LoggedColl
    rw [show State.log _ = s.log ++ [revokeCollTx now c arg] from rfl, lastWord_snoc]
    have h1 : ¬ GrantsColl o spd a (revokeCollTx now c arg) := fun h => nomatch h.1
    have h2 : TouchesColl o spd (revokeCollTx now c arg) ↔ (((⟨c, none⟩ : Account) == o) = true) ∧
        ∀ x, arg.spender = some x → SameAccount x spd := by
      simp [TouchesColl, revokeCollTx, About, MadeFrom, sameAccount_iff]
    rw [h2, get_dropSpender_iff]
    simp only [h1, false_or]
    have hi' := hi o spd a
    by_cases ht : ((⟨c, none⟩ : Account) == o) = true
    · unfold CollApproval at hi'
      rw [← Map.get_congr s.collAppr ht, hm] at hi'
      simp only [ht, true_and, Bool.true_eq_false, false_and, or_false]
      constructor
      · rintro ⟨hg, x, hx, hne⟩
        exact ⟨fun h => hne (h x hx), hi'.1 ⟨tbl, rfl, hg⟩⟩
      · rintro ⟨hne, hg⟩ hl
        obtain ⟨m', hm', hg'⟩ := hi'.2 hg hl
        cases hm'
        refine ⟨hg', ?_⟩
        cases hsp : arg.spender with
        | none => exact absurd (fun x hx => by rw [hsp] at hx; cases hx) hne
        | some x => exact ⟨x, rfl, fun hs => hne fun y hy => by rw [hsp] at hy; cases hy; exact hs⟩
    · simp only [ht, Bool.false_eq_true, false_and, false_or, not_false_eq_true, true_and]
      exact hi o spd a
  | approve arg owner h i harg own eqv sp room timing add =>
    exact collAudit_idle (l := [_]) hi rfl (by rfl) (by simp [approveTx])
  | revokeTok arg owner h i tbl harg own eqv hm timing add =>
    exact collAudit_idle (l := [_]) hi rfl (by rfl) (by simp [revokeTx])
  | mint reqs md h perm free batch cap memos hmd =>
    rw [mintInsert_eq]
    exact collAudit_idle hi rfl rfl fun r hr => by simp [mints_op _ _ _ r hr]
  | mintCut reqs md h n perm free hn hmd =>
    exact collAudit_idle hi rfl rfl fun r hr => by simp [mints_op _ _ _ r hr]
  | updateMeta tid kvs token md h i perm free tok hmd add =>
    exact collAudit_idle (l := [_]) hi rfl (by rfl) (by simp [updateTx])
  | burn tid token h i free tok own add =>
    exact collAudit_idle (l := [_]) hi rfl (by rfl) (by simp [burnTx])
  | @resume _ now i ans p hp =>
    obtain ⟨_, _, _, _, he⟩ := resumeBody_eq E { s with pending := s.pending.eraseIdx i } now p ans
    rw [he]; exact collAudit_same hi rfl rfl
  | _ => exact collAudit_same hi rfl rfl

theorem run_audit {E : Env H} {T : Nat} (ms : List Msg) : ∀ {s : State H}, UpTo T ms →
    TokAudit T s ∧ CollAudit T s → TokAudit T (run E s ms) ∧ CollAudit T (run E s ms) := by
  induction ms with
  | nil => intro s _ h; exact h
  | cons m ms ih =>
    intro s hT h
    have hm : UpTo T [m] := fun c now call hc => hT c now call (by
      rw [List.mem_singleton.1 hc]; exact List.mem_cons_self)
    have hms : UpTo T ms := fun c now call hc => hT c now call (List.mem_cons_of_mem _ hc)
    exact ih hms (Steps.induct (P := fun s => TokAudit T s ∧ CollAudit T s)
      (fun _ _ hp hmic => ⟨micro_tokAudit hm hp.1 hmic, micro_collAudit hm hp.2 hmic⟩)
      (step_steps E s m) h)

theorem init_audit {validUrl : String → Bool} {hid : H} {caller : Principal} {a : InitArgs}
    {s : State H} (h : init validUrl hid caller a = some s) (T : Nat) : TokAudit T s ∧ CollAudit T s := by
  rw [init_eq h]
  have hlog : ∀ g t : Tx → Prop, ¬ LastWord [] g t := by
    rintro g t ⟨b, r, l, he, _⟩
    simp at he
  exact ⟨fun tid sp a => ⟨fun h => by obtain ⟨m, hm, _⟩ := h; simp at hm, fun h => absurd h (hlog _ _)⟩,
    fun tid sp a => ⟨fun h => by obtain ⟨m, hm, _⟩ := h; simp at hm, fun h => absurd h (hlog _ _)⟩⟩

/-- Some time is at least as late as every call of a history. -/
theorem upTo_exists (ms : List Msg) : ∃ T, UpTo T ms := by
  induction ms with
  | nil => exact ⟨0, fun _ _ _ h => nomatch h⟩
  | cons m ms ih =>
    obtain ⟨T, hT⟩ := ih
    cases m with
    | call c now call =>
      refine ⟨T + now, fun c' n' k h => ?_⟩
      rcases List.mem_cons.1 h with h | h
      · cases h; omega
      · have := hT _ _ _ h; omega
    | _ =>
      refine ⟨T, fun c' n' k h => ?_⟩
      rcases List.mem_cons.1 h with h | h
      · cases h
      · exact hT _ _ _ h

end Verif
