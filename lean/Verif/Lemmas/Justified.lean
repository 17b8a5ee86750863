import Verif.Spec.Justified
import Verif.Lemmas.Audit
import Verif.Lemmas.Replay
/-!
# The log is in order, record by record
-/
namespace Verif

open Spec

variable {H : Type}

/-- Every record of the log satisfies `J` with the log before it. -/
def Sound (J : List Tx → Tx → Prop) (log : List Tx) : Prop :=
  ∀ before r after, log = before ++ r :: after → J before r

theorem sound_append {J : List Tx → Tx → Prop} {l l' : List Tx} (h : Sound J l)
    (h' : ∀ before r after, l' = before ++ r :: after → J (l ++ before) r) : Sound J (l ++ l') := by
  intro b r a he
  rcases List.append_eq_append_iff.1 he with ⟨x, hb, hl⟩ | ⟨x, hl, hx⟩
  · rw [hb]
    exact h' x r a hl
  · cases x with
    | nil =>
      rw [List.append_nil] at hl
      rw [← hl]
      have := h' [] r a (by simpa using hx.symm)
      simpa using this
    | cons y ys =>
      rw [List.cons_append] at hx
      cases hx
      exact h b r ys hl

theorem sound_snoc {J : List Tx → Tx → Prop} {l : List Tx} {r : Tx} (h : Sound J l) (hr : J l r) : Sound J (l ++ [r]) := by
  refine sound_append h ?_
  intro b x a he
  cases b with
  | nil => cases he; simpa using hr
  | cons y ys => simp at he

theorem sound_nil {J : List Tx → Tx → Prop} : Sound J [] := by
  intro b r a h
  simp at h

/-- In order, but for repeated mints. -/
def Fitting (log : List Tx) (r : Tx) : Prop := Justified log r ∨ Remint log r

theorem sameAccount_trans {a b c : Account} (h : SameAccount a b) (h' : SameAccount b c) : SameAccount a c :=
  ⟨h.1.trans h'.1, h.2.trans h'.2⟩

theorem sameAccount_symm {a b : Account} (h : SameAccount a b) : SameAccount b a := ⟨h.1.symm, h.2.symm⟩

theorem loggedColl_congr {log : List Tx} {o o' sp : Account} {a : Approval} (h : SameAccount o o')
    (hl : LoggedColl log o sp a) : LoggedColl log o' sp a := by
  obtain ⟨b, r, l, he, hg, ht⟩ := hl
  refine ⟨b, r, l, he, ⟨hg.1, hg.2.1, sameAccount_trans hg.2.2.1 h, hg.2.2.2⟩, ?_⟩
  rintro t hm ⟨⟨x, hx, hs⟩, hop⟩
  exact ht t hm ⟨⟨x, hx, sameAccount_trans hs (sameAccount_symm h)⟩, hop⟩

/-- What the log tells about the state. -/
structure LogInv (T : Nat) (s : State H) : Prop where
  tok : TokInv s
  own : ∀ k, k < s.lastId → Owner s k = replay s.log k
  tokAudit : TokAudit T s
  collAudit : CollAudit T s
  tokGiven : ∀ tid m, s.tokAppr.get tid = some m → ∃ t ∈ s.log, t.op = .approve ∧ t.tid = some tid
  collGiven : ∀ o m, s.collAppr.get o = some m → ∃ t ∈ s.log, t.op = .approveColl ∧ MadeFrom t o
  mints : ∀ t ∈ s.log, ∀ k, t.tid = some k → s.lastId ≤ k → t.op = .mint
  sound : Sound Fitting s.log

theorem own_micro {E : Env H} {m : Msg} {s s' : State H} (hi : TokInv s)
    (hp : ∀ k, k < s.lastId → Owner s k = replay s.log k) (h : Micro E m s s') :
    ∀ k, k < s'.lastId → Owner s' k = replay s'.log k := by
  intro k hk
  have heff := micro_own hi h
  obtain ⟨txs, hlog, h1, _⟩ := heff.replays
  rw [h1 k hk, hlog, replay_append]
  by_cases hlt : k < s.lastId
  · have : ∀ (l : List Tx) (f g : Nat → Option Account), f k = g k → l.foldl applyTx f k = l.foldl applyTx g k := by
      intro l
      induction l with
      | nil => intro f g h; exact h
      | cons t ts ih =>
        intro f g h
        refine ih _ _ ?_
        obtain ⟨op, ts, tid, _⟩ := t
        cases op <;> cases tid <;> simp [applyTx, h]
    exact this _ _ _ (hp k hlt)
  · cases heff with
    | mint c now reqs hm perm cap hcfg ht hb hl hlog' =>
      rw [hlog] at hlog'
      have := List.append_cancel_left hlog'
      subst this
      rw [foldl_mints, foldl_mints, dif_pos ⟨by omega, by omega⟩, dif_pos ⟨by omega, by omega⟩]
    | same _ _ hl => omega
    | rewrite _ _ _ _ _ hl => omega
    | move _ _ _ _ _ _ _ _ _ hl => omega
    | burn _ _ _ _ _ _ _ _ _ hl => omega

/-- Existing tokens are held, as far as the log says, by their owners. -/
theorem LogInv.held {T : Nat} {s : State H} (hi : LogInv T s) {tid : Nat} {t : Token} (h : s.tokens.get tid = some t) :
    replay s.log tid = some t.owner := by
  rw [← hi.own tid (hi.tok.fresh _ _ h), Owner, h]
  rfl

/-- The records a message adds, one after the other. -/
theorem micro_records {E : Env H} {m : Msg} {s s' : State H} {T : Nat} (hi : LogInv T s) (h : Micro E m s s') :
    (∃ l, s'.log = s.log ++ l ∧ (∀ before r after, l = before ++ r :: after → Fitting (s.log ++ before) r) ∧
      ∀ t ∈ l, ∀ k, t.tid = some k → s'.lastId ≤ k → t.op = .mint) ∧ s.lastId ≤ s'.lastId := by
  have none : ∀ {s' : State H}, s'.log = s.log → s'.lastId = s.lastId →
      (∃ l, s'.log = s.log ++ l ∧ (∀ before r after, l = before ++ r :: after → Fitting (s.log ++ before) r) ∧
        ∀ t ∈ l, ∀ k, t.tid = some k → s'.lastId ≤ k → t.op = .mint) ∧ s.lastId ≤ s'.lastId := by
    intro s' h1 h2
    exact ⟨⟨[], by rw [h1]; simp, by intro b r a he; simp at he, by simp⟩, by omega⟩
  have one : ∀ {s' : State H} {x : Tx}, s'.log = s.log ++ [x] → s'.lastId = s.lastId → Justified s.log x →
      (∀ k, x.tid = some k → k < s.lastId) →
      (∃ l, s'.log = s.log ++ l ∧ (∀ before r after, l = before ++ r :: after → Fitting (s.log ++ before) r) ∧
        ∀ t ∈ l, ∀ k, t.tid = some k → s'.lastId ≤ k → t.op = .mint) ∧ s.lastId ≤ s'.lastId := by
    intro s' x h1 h2 hj ht
    refine ⟨⟨[x], h1, ?_, ?_⟩, by omega⟩
    · intro b r a he
      cases b with
      | nil => cases he; exact .inl (by simpa using hj)
      | cons y ys => simp at he
    · intro t hm k hk hle
      rw [List.mem_singleton] at hm
      subst hm
      have := ht k hk
      omega
  have mints : ∀ (reqs : List MintReq) (now : Nat) (before : List Tx) (r : Tx) (after : List Tx),
      (reqs.mapIdx fun k r => mintTx now (s.lastId + k) r) = before ++ r :: after → Fitting (s.log ++ before) r := by
    intro reqs now b r a he
    refine .inr ?_
    have hmem : r ∈ reqs.mapIdx fun k r => mintTx now (s.lastId + k) r := by rw [he]; simp
    have hop := fun x hx => mints_op now s.lastId reqs x hx
    obtain ⟨i, _, rfl⟩ := List.mem_mapIdx.1 hmem
    refine ⟨rfl, _, _, rfl, rfl, ?_⟩
    intro t ht hk
    rcases List.mem_append.1 ht with ht | ht
    · exact hi.mints t ht _ hk (by omega)
    · exact hop t (by rw [he]; exact List.mem_append_left _ ht)
  have lt : ∀ {tid : Nat} {o : Account}, ownerOf s tid = some o → tid < s.lastId ∧ replay s.log tid = some o := by
    intro tid o ho
    unfold ownerOf at ho
    cases hg : s.tokens.get tid with
    | none => simp [hg] at ho
    | some t =>
      simp [hg] at ho
      subst ho
      exact ⟨hi.tok.fresh _ _ hg, hi.held hg⟩
  cases h with
  | xfer arg nft h i harg hc tok own toOk diff memo timing add =>
    refine one rfl rfl ⟨arg.tid, nft.owner, arg.to_, rfl, rfl, rfl, ⟨_, hi.held tok, rfl, rfl⟩, ?_, toOk⟩ ?_
    · rw [sameAccount_iff, diff]; simp
    · intro k hk; cases hk; exact hi.tok.fresh _ _ tok
  | @xferFrom _ c now args arg nft h i harg tok own auth diff toOk timing add =>
    have hs : SameAccount nft.owner arg.from_ := sameAccount_iff.2 own
    refine one rfl rfl ⟨arg.tid, arg.from_, arg.to_, _, rfl, rfl, rfl, rfl, ⟨_, hi.held tok, hs⟩, ?_, ?_, ?_⟩ ?_
    · rcases auth with h1 | ⟨a, h1, hl⟩ | ⟨a, h1, hl⟩
      · exact .inl (sameAccount_trans (sameAccount_iff.2 h1) hs)
      · exact .inr (.inl ⟨a, (hi.tokAudit _ _ a).1 h1, hl⟩)
      · exact .inr (.inr ⟨a, loggedColl_congr hs ((hi.collAudit _ _ a).1 h1), hl⟩)
    · rw [sameAccount_iff, diff]; simp
    · rw [sameAccount_iff]
      show ¬ (arg.to_ == anonymousAccount) = true
      rw [toOk]; simp
    · intro k hk; cases hk; exact hi.tok.fresh _ _ tok
  | approve arg owner h i harg own eqv sp room timing add =>
    refine one rfl rfl ⟨arg.tid, _, _, rfl, rfl, rfl, ⟨_, (lt own).2, sameAccount_iff.2 eqv⟩, ?_⟩ ?_
    · rw [sameAccount_iff]
      show ¬ (arg.info.spender == anonymousAccount) = true
      rw [sp]; simp
    · intro k hk; cases hk; exact (lt own).1
  | approveColl info h i harg sp holds room timing add =>
    obtain ⟨e, he, hown⟩ := holds
    have hg : s.tokens.get e.1 = some e.2 := Map.get_of_mem hi.tok.nodup he
    refine one rfl rfl ⟨_, _, rfl, rfl, rfl, ⟨e.1, _, hi.held hg, hown⟩, ?_⟩ ?_
    · rw [sameAccount_iff]
      show ¬ (info.spender == anonymousAccount) = true
      rw [sp]; simp
    · intro k hk; cases hk
  | revokeTok arg owner h i m harg own eqv hm timing add =>
    refine one rfl rfl ⟨arg.tid, _, rfl, rfl, ⟨_, (lt own).2, sameAccount_iff.2 eqv⟩, hi.tokGiven _ _ hm⟩ ?_
    intro k hk; cases hk; exact (lt own).1
  | revokeColl arg h i m harg hm timing add =>
    refine one rfl rfl ⟨_, rfl, rfl, rfl, hi.collGiven _ _ hm⟩ ?_
    intro k hk; cases hk
  | @mint _ c now reqs md h perm free batch cap memos hmd =>
    rw [mintInsert_eq]
    refine ⟨⟨_, rfl, mints reqs now, fun t ht _ _ _ => mints_op now s.lastId reqs t ht⟩, ?_⟩
    show s.lastId ≤ s.lastId + reqs.length
    omega
  | @mintCut _ c now reqs md h n perm free hn hmd =>
    exact ⟨⟨_, rfl, mints _ now, fun t ht _ _ _ => mints_op now s.lastId _ t ht⟩, Nat.le_refl _⟩
  | updateMeta tid kvs token md h i perm free tok hmd add =>
    refine one rfl rfl ⟨tid, _, rfl, _, hi.held tok, rfl, rfl⟩ ?_
    intro k hk; cases hk; exact hi.tok.fresh _ _ tok
  | burn tid token h i free tok own add =>
    refine one rfl rfl ⟨tid, _, rfl, rfl, _, hi.held tok, rfl, rfl⟩ ?_
    intro k hk; cases hk; exact hi.tok.fresh _ _ tok
  | @resume _ now i ans p hp =>
    obtain ⟨_, _, _, _, he⟩ := resumeBody_eq E { s with pending := s.pending.eraseIdx i } now p ans
    rw [he]; exact none rfl rfl
  | _ => exact none rfl rfl

theorem micro_tokGiven {E : Env H} {m : Msg} {s s' : State H}
    (hi : ∀ tid m, s.tokAppr.get tid = some m → ∃ t ∈ s.log, t.op = .approve ∧ t.tid = some tid) (h : Micro E m s s') :
    ∀ tid m, s'.tokAppr.get tid = some m → ∃ t ∈ s'.log, t.op = .approve ∧ t.tid = some tid := by
  have same : ∀ {s' : State H} {l : List Tx}, s'.tokAppr = s.tokAppr → s'.log = s.log ++ l →
      ∀ tid m, s'.tokAppr.get tid = some m → ∃ t ∈ s'.log, t.op = .approve ∧ t.tid = some tid := by
    intro s' l h1 h2 tid m hm
    rw [h1] at hm
    obtain ⟨t, ht, hx⟩ := hi tid m hm
    exact ⟨t, by rw [h2]; exact List.mem_append_left _ ht, hx⟩
  cases h with
  | @xferFrom _ c now args arg nft h i harg tok own auth diff toOk timing add =>
    intro tid m hm
    have hm : (s.tokAppr.del arg.tid).get tid = some m := hm
    rw [Map.get_del] at hm
    split at hm
    · cases hm
    · obtain ⟨t, ht, hx⟩ := hi tid m hm
      exact ⟨t, List.mem_append_left _ ht, hx⟩
  | pruneTok arg harg tbl a htbl ha hexp =>
    intro tid m hm
    dsimp only at hm
    rw [Map.get_set] at hm
    split at hm
    · rename_i he
      have he : arg.tid = tid := by simpa using he
      exact hi tid tbl (he ▸ htbl)
    · exact hi tid m hm
  | @approve _ c now args arg owner h i harg own eqv sp room timing add =>
    intro tid m hm
    dsimp only at hm
    rw [Map.get_set] at hm
    split at hm
    · rename_i he
      have he : arg.tid = tid := by simpa using he
      exact ⟨approveTx now c arg, List.mem_append_right _ (List.mem_singleton_self _), rfl, by rw [← he]; rfl⟩
    · obtain ⟨t, ht, hx⟩ := hi tid m hm
      exact ⟨t, List.mem_append_left _ ht, hx⟩
  | revokeTok arg owner h i tbl harg own eqv htbl timing add =>
    intro tid m hm
    dsimp only at hm
    rw [Map.get_set] at hm
    split at hm
    · rename_i he
      have he : arg.tid = tid := by simpa using he
      obtain ⟨t, ht, hx⟩ := hi tid tbl (he ▸ htbl)
      exact ⟨t, List.mem_append_left _ ht, hx⟩
    · obtain ⟨t, ht, hx⟩ := hi tid m hm
      exact ⟨t, List.mem_append_left _ ht, hx⟩
  | xfer arg nft h i harg hc tok own toOk diff memo timing add => exact same (l := [_]) rfl rfl
  | approveColl info h i harg sp holds room timing add => exact same (l := [_]) rfl rfl
  | revokeColl arg h i m harg hm timing add => exact same (l := [_]) rfl rfl
  | mint reqs md h perm free batch cap memos hmd => rw [mintInsert_eq]; exact same rfl rfl
  | mintCut reqs md h n perm free hn hmd => exact same rfl rfl
  | updateMeta tid kvs token md h i perm free tok hmd add => exact same (l := [_]) rfl rfl
  | burn tid token h i free tok own add => exact same (l := [_]) rfl rfl
  | @resume _ now i ans p hp =>
    obtain ⟨_, _, _, _, he⟩ := resumeBody_eq E { s with pending := s.pending.eraseIdx i } now p ans
    rw [he]; exact same (l := []) rfl (List.append_nil _).symm
  | _ => exact same (l := []) rfl (List.append_nil _).symm

theorem micro_collGiven {E : Env H} {m : Msg} {s s' : State H}
    (hi : ∀ o m, s.collAppr.get o = some m → ∃ t ∈ s.log, t.op = .approveColl ∧ MadeFrom t o) (h : Micro E m s s') :
    ∀ o m, s'.collAppr.get o = some m → ∃ t ∈ s'.log, t.op = .approveColl ∧ MadeFrom t o := by
  have same : ∀ {s' : State H} {l : List Tx}, s'.collAppr = s.collAppr → s'.log = s.log ++ l →
      ∀ o m, s'.collAppr.get o = some m → ∃ t ∈ s'.log, t.op = .approveColl ∧ MadeFrom t o := by
    intro s' l h1 h2 o m hm
    rw [h1] at hm
    obtain ⟨t, ht, hx⟩ := hi o m hm
    exact ⟨t, by rw [h2]; exact List.mem_append_left _ ht, hx⟩
  have cong : ∀ {o o' : Account} {tbl}, (o == o') = true → s.collAppr.get o = some tbl →
      ∃ t ∈ s.log, t.op = .approveColl ∧ MadeFrom t o' := by
    intro o o' tbl he hg
    obtain ⟨t, ht, hop, x, hx, hs⟩ := hi o tbl hg
    exact ⟨t, ht, hop, x, hx, sameAccount_trans hs (sameAccount_iff.2 he)⟩
  cases h with
  | @xferFrom _ c now args arg nft h i harg tok own auth diff toOk timing add =>
    intro o m hm
    have hm : (s.collAppr.del arg.from_).get o = some m := hm
    rw [Map.get_del] at hm
    split at hm
    · cases hm
    · obtain ⟨t, ht, hx⟩ := hi o m hm
      exact ⟨t, List.mem_append_left _ ht, hx⟩
  | pruneColl arg harg nft tok tbl a htbl ha hexp base hbase =>
    intro o m hm
    dsimp only at hm
    rw [Map.get_set] at hm
    split at hm
    · rename_i he
      exact cong he htbl
    · rcases hbase with rfl | rfl
      · exact hi o m hm
      · rw [Map.get_del] at hm
        split at hm
        · cases hm
        · exact hi o m hm
  | @approveColl _ c now args info h i harg sp holds room timing add =>
    intro o m hm
    dsimp only at hm
    rw [Map.get_set] at hm
    split at hm
    · rename_i he
      exact ⟨approveCollTx now c info, List.mem_append_right _ (List.mem_singleton_self _), rfl, _, rfl, sameAccount_iff.2 he⟩
    · obtain ⟨t, ht, hx⟩ := hi o m hm
      exact ⟨t, List.mem_append_left _ ht, hx⟩
  | revokeColl arg h i tbl harg htbl timing add =>
    intro o m hm
    dsimp only at hm
    rw [Map.get_set] at hm
    split at hm
    · rename_i he
      obtain ⟨t, ht, hx⟩ := cong he htbl
      exact ⟨t, List.mem_append_left _ ht, hx⟩
    · obtain ⟨t, ht, hx⟩ := hi o m hm
      exact ⟨t, List.mem_append_left _ ht, hx⟩
  | xfer arg nft h i harg hc tok own toOk diff memo timing add => exact same (l := [_]) rfl rfl
  | approve arg owner h i harg own eqv sp room timing add => exact same (l := [_]) rfl rfl
  | revokeTok arg owner h i m harg own eqv hm timing add => exact same (l := [_]) rfl rfl
  | mint reqs md h perm free batch cap memos hmd => rw [mintInsert_eq]; exact same rfl rfl
  | mintCut reqs md h n perm free hn hmd => exact same rfl rfl
  | updateMeta tid kvs token md h i perm free tok hmd add => exact same (l := [_]) rfl rfl
  | burn tid token h i free tok own add => exact same (l := [_]) rfl rfl
  | @resume _ now i ans p hp =>
    obtain ⟨_, _, _, _, he⟩ := resumeBody_eq E { s with pending := s.pending.eraseIdx i } now p ans
    rw [he]; exact same (l := []) rfl (List.append_nil _).symm
  | _ => exact same (l := []) rfl (List.append_nil _).symm

theorem logInv_micro {E : Env H} {m : Msg} {s s' : State H} {T : Nat} (hT : UpTo T [m]) (hi : LogInv T s)
    (h : Micro E m s s') : LogInv T s' := by
  obtain ⟨⟨l, hl, hs, hm⟩, hle⟩ := micro_records hi h
  refine ⟨tokInv_micro hi.tok h, own_micro hi.tok hi.own h, micro_tokAudit hT hi.tokAudit h, micro_collAudit hT hi.collAudit h,
    micro_tokGiven hi.tokGiven h, micro_collGiven hi.collGiven h, ?_, ?_⟩
  · intro t ht k hk hlt
    rw [hl] at ht
    rcases List.mem_append.1 ht with ht | ht
    · exact hi.mints t ht k hk (by omega)
    · exact hm t ht k hk hlt
  · rw [hl]
    exact sound_append hi.sound hs

theorem logInv_init {v : String → Bool} {hid : H} {c : Principal} {a : InitArgs} {s : State H}
    (h : init v hid c a = some s) (T : Nat) : LogInv T s := by
  refine ⟨tokInv_init h, ?_, (init_audit h T).1, (init_audit h T).2, ?_, ?_, ?_, ?_⟩
  all_goals rw [init_eq h]
  · intro k hk
    simp [Owner, replay]
  · intro tid m hm
    simp at hm
  · intro o m hm
    simp at hm
  · intro t ht
    simp at ht
  · exact sound_nil

theorem logInv_run {E : Env H} {T : Nat} (ms : List Msg) : ∀ {s : State H}, UpTo T ms → LogInv T s → LogInv T (run E s ms) := by
  induction ms with
  | nil => intro s _ h; exact h
  | cons m ms ih =>
    intro s hT h
    have hm : UpTo T [m] := fun c now call hc => hT c now call (by
      rw [List.mem_singleton.1 hc]; exact List.mem_cons_self)
    have hms : UpTo T ms := fun c now call hc => hT c now call (List.mem_cons_of_mem _ hc)
    exact ih hms (Steps.induct (P := fun s => LogInv T s) (fun _ _ hp hmic => logInv_micro hm hp hmic) (step_steps E s m) h)

theorem Reachable.logInv {E : Env H} {s : State H} (hr : Reachable E s) : ∃ T, LogInv T s := by
  obtain ⟨v, hid, c, a, s₀, ms, h0, rfl⟩ := hr
  obtain ⟨T, hT⟩ := upTo_exists ms
  exact ⟨T, logInv_run ms hT (logInv_init h0 T)⟩

/-- Only mints are in order for tokens nobody holds. -/
theorem fitting_unheld {log : List Tx} {r : Tx} (hj : Fitting log r) {tid : Nat} (htid : r.tid = some tid)
    (hnone : replay log tid = none) : r.op = .mint := by
  have hnot : ∀ a, ¬ HeldBy log tid a := by
    rintro a ⟨o, ho, _⟩
    rw [hnone] at ho
    cases ho
  rcases hj with hj | hj
  · unfold Justified at hj
    split at hj
    · assumption
    · obtain ⟨k, a, b, hk, _, _, hh, _⟩ := hj
      rw [htid] at hk; cases hk; exact absurd hh (hnot _)
    · obtain ⟨k, a, b, sp, hk, _, _, _, hh, _⟩ := hj
      rw [htid] at hk; cases hk; exact absurd hh (hnot _)
    · obtain ⟨k, a, hk, _, hh⟩ := hj
      rw [htid] at hk; cases hk; exact absurd hh (hnot _)
    · obtain ⟨k, a, sp, hk, _, _, hh, _⟩ := hj
      rw [htid] at hk; cases hk; exact absurd hh (hnot _)
    · obtain ⟨a, sp, hk, _⟩ := hj
      rw [htid] at hk; cases hk
    · obtain ⟨k, a, hk, _, hh, _⟩ := hj
      rw [htid] at hk; cases hk; exact absurd hh (hnot _)
    · obtain ⟨a, hk, _⟩ := hj
      rw [htid] at hk; cases hk
    · obtain ⟨k, a, hk, hh⟩ := hj
      rw [htid] at hk; cases hk; exact absurd hh (hnot _)
  · exact hj.1

/-- Only mint calls record mints. -/
theorem micro_mints {E : Env H} {m : Msg} {s s' : State H} (h : Micro E m s s') :
    ∃ l, s'.log = s.log ++ l ∧ ∀ t ∈ l, t.op = .mint → ∃ c now reqs, m = .call c now (.mint reqs) := by
  cases h with
  | xfer arg nft h i harg hc tok own toOk diff memo timing add => exact ⟨[_], rfl, by simp [transferTx]⟩
  | xferFrom arg nft h i harg tok own auth diff toOk timing add => exact ⟨[_], rfl, by simp [transferFromTx]⟩
  | approve arg owner h i harg own eqv sp room timing add => exact ⟨[_], rfl, by simp [approveTx]⟩
  | approveColl info h i harg sp holds room timing add => exact ⟨[_], rfl, by simp [approveCollTx]⟩
  | revokeTok arg owner h i m harg own eqv hm timing add => exact ⟨[_], rfl, by simp [revokeTx]⟩
  | revokeColl arg h i m harg hm timing add => exact ⟨[_], rfl, by simp [revokeCollTx]⟩
  | mint reqs md h perm free batch cap memos hmd => rw [mintInsert_eq]; exact ⟨_, rfl, fun _ _ _ => ⟨_, _, _, rfl⟩⟩
  | mintCut reqs md h n perm free hn hmd => exact ⟨_, rfl, fun _ _ _ => ⟨_, _, _, rfl⟩⟩
  | updateMeta tid kvs token md h i perm free tok hmd add => exact ⟨[_], rfl, by simp [updateTx]⟩
  | burn tid token h i free tok own add => exact ⟨[_], rfl, by simp [burnTx]⟩
  | @resume _ now i ans p hp =>
    obtain ⟨_, _, _, _, he⟩ := resumeBody_eq E { s with pending := s.pending.eraseIdx i } now p ans
    rw [he]; exact ⟨[], (List.append_nil _).symm, by simp⟩
  | _ => exact ⟨[], (List.append_nil _).symm, by simp⟩

/-! ### times -/

theorem micro_times {E : Env H} {m : Msg} {s s' : State H} (h : Micro E m s s') :
    ∃ l, s'.log = s.log ++ l ∧ ∀ t ∈ l, ∃ c call, m = .call c t.ts call := by
  have one : ∀ {x : Tx}, (∃ c call, m = .call c x.ts call) → ∀ t ∈ [x], ∃ c call, m = .call c t.ts call := by
    intro x hx t ht
    rw [List.mem_singleton.1 ht]
    exact hx
  have many : ∀ (reqs : List MintReq) (now n : Nat) (c : Principal) (call : Call), m = .call c now call →
      ∀ t ∈ (reqs.mapIdx fun k r => mintTx now (n + k) r), ∃ c call, m = .call c t.ts call := by
    intro reqs now n c call hm t ht
    obtain ⟨i, _, rfl⟩ := List.mem_mapIdx.1 ht
    exact ⟨c, call, hm⟩
  cases h with
  | xfer arg nft h i harg hc tok own toOk diff memo timing add => exact ⟨[_], rfl, one ⟨_, _, rfl⟩⟩
  | xferFrom arg nft h i harg tok own auth diff toOk timing add => exact ⟨[_], rfl, one ⟨_, _, rfl⟩⟩
  | approve arg owner h i harg own eqv sp room timing add => exact ⟨[_], rfl, one ⟨_, _, rfl⟩⟩
  | approveColl info h i harg sp holds room timing add => exact ⟨[_], rfl, one ⟨_, _, rfl⟩⟩
  | revokeTok arg owner h i m harg own eqv hm timing add => exact ⟨[_], rfl, one ⟨_, _, rfl⟩⟩
  | revokeColl arg h i m harg hm timing add => exact ⟨[_], rfl, one ⟨_, _, rfl⟩⟩
  | mint reqs md h perm free batch cap memos hmd => rw [mintInsert_eq]; exact ⟨_, rfl, many _ _ _ _ _ rfl⟩
  | mintCut reqs md h n perm free hn hmd => exact ⟨_, rfl, many _ _ _ _ _ rfl⟩
  | updateMeta tid kvs token md h i perm free tok hmd add => exact ⟨[_], rfl, one ⟨_, _, rfl⟩⟩
  | burn tid token h i free tok own add => exact ⟨[_], rfl, one ⟨_, _, rfl⟩⟩
  | @resume _ now i ans p hp =>
    obtain ⟨_, _, _, _, he⟩ := resumeBody_eq E { s with pending := s.pending.eraseIdx i } now p ans
    rw [he]; exact ⟨[], (List.append_nil _).symm, by simp⟩
  | _ => exact ⟨[], (List.append_nil _).symm, by simp⟩

theorem step_times (E : Env H) (s : State H) (m : Msg) :
    ∃ l, (step E s m).1.log = s.log ++ l ∧ ∀ t ∈ l, ∃ c call, m = .call c t.ts call :=
  Steps.induct (P := fun x => ∃ l, x.log = s.log ++ l ∧ ∀ t ∈ l, ∃ c call, m = .call c t.ts call)
    (by
      rintro x y ⟨l, hl, ht⟩ hm
      obtain ⟨l', hl', ht'⟩ := micro_times hm
      refine ⟨l ++ l', by rw [hl', hl, List.append_assoc], fun t hx => ?_⟩
      rcases List.mem_append.1 hx with hx | hx
      · exact ht t hx
      · exact ht' t hx)
    (step_steps E s m) ⟨[], (List.append_nil _).symm, by simp⟩

/-- A list of messages is nothing, or ends with one. -/
theorem msgs_induct {P : List Msg → Prop} (h0 : P []) (h1 : ∀ ms m, P ms → P (ms ++ [m])) (ms : List Msg) : P ms := by
  have : ∀ n (l : List Msg), l.length = n → P l := by
    intro n
    induction n with
    | zero => intro l hl; rw [List.length_eq_zero_iff.1 hl]; exact h0
    | succ n ih =>
      intro l hl
      rcases List.eq_nil_or_concat l with rfl | ⟨ini, m, rfl⟩
      · exact h0
      · rw [List.concat_eq_append] at *
        exact h1 ini m (ih ini (by simpa using hl))
  exact this _ ms rfl

theorem log_upTo {E : Env H} {s : State H} (h0 : s.log = []) (ms : List Msg) :
    ∀ T, UpTo T ms → ∀ t ∈ (run E s ms).log, t.ts ≤ T := by
  induction ms using msgs_induct with
  | h0 => intro T _ t ht; rw [show run E s [] = s from rfl, h0] at ht; cases ht
  | h1 ms m ih =>
    intro T hT t ht
    rw [run_append] at ht
    obtain ⟨l, hl, hts⟩ := step_times E (run E s ms) m
    rw [show run E (run E s ms) [m] = (step E (run E s ms) m).1 from rfl, hl] at ht
    rcases List.mem_append.1 ht with ht | ht
    · exact ih T (fun c now call hc => hT c now call (List.mem_append_left _ hc)) t ht
    · obtain ⟨c, call, rfl⟩ := hts t ht
      exact hT c t.ts call (List.mem_append_right _ (List.mem_singleton_self _))

end Verif
