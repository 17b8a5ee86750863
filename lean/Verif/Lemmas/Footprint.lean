import Verif.Spec.Footprint
import Verif.Lemmas.Owners
import Verif.Lemmas.Windows
/-!
# Counting rows
-/
set_option linter.unusedSectionVars false
namespace Verif

open Spec

variable {H : Type}

theorem logCount_append (op : Op) (l l' : List Tx) : logCount op (l ++ l') = logCount op l + logCount op l' := by
  simp [logCount]

theorem logCount_single (op : Op) (t : Tx) : logCount op [t] = if t.op = op then 1 else 0 := by
  simp only [logCount, List.filter_cons, List.filter_nil]
  by_cases h : t.op = op <;> simp [h]

theorem logCount_all {op : Op} {l : List Tx} (h : ∀ t ∈ l, t.op = op) : logCount op l = l.length := by
  rw [logCount, List.filter_eq_self.2 (by intro t ht; simp [h t ht])]

theorem logCount_none {op : Op} {l : List Tx} (h : ∀ t ∈ l, t.op ≠ op) : logCount op l = 0 := by
  rw [logCount, List.filter_eq_nil_iff.2 (by intro t ht; simp [h t ht])]; rfl

theorem logCount_total (l : List Tx) :
    logCount .mint l + logCount .xfer l + logCount .xferFrom l + logCount .approve l + logCount .approveColl l ≤
      l.length := by
  induction l with
  | nil => simp [logCount]
  | cons t l ih =>
    have e : ∀ op, logCount op (t :: l) = logCount op [t] + logCount op l := fun op => logCount_append op [t] l
    simp only [e, logCount_single, List.length_cons]
    cases t.op <;> simp <;> omega

section rows
variable {K : Type} [BEq K] [EquivBEq K]

theorem rows_setL_some {l : List (K × Map Account Approval)} {k : K} {m v : Map Account Approval}
    (h : Map.getL l k = some m) :
    ((Map.setL l k v).map fun e => 1 + e.2.entries.length).sum + m.size =
      (l.map fun e => 1 + e.2.entries.length).sum + v.size := by
  induction l with
  | nil => cases h
  | cons e l ih =>
    obtain ⟨a, x⟩ := e
    by_cases ha : (a == k) = true
    · simp only [Map.getL, ha, if_true, Option.some.injEq] at h
      subst h
      simp only [Map.setL, ha, if_true, List.map_cons, List.sum_cons, Map.size]
      omega
    · simp only [Map.getL, ha] at h
      have := ih h
      simp only [Map.setL, ha, Bool.false_eq_true, if_false, List.map_cons, List.sum_cons]
      omega

theorem rows_set_some {t : Map K (Map Account Approval)} {k : K} {m : Map Account Approval} (v : Map Account Approval)
    (h : t.get k = some m) : approvalRows (t.set k v) + m.size = approvalRows t + v.size :=
  rows_setL_some h

theorem rows_set_none {t : Map K (Map Account Approval)} {k : K} (v : Map Account Approval)
    (h : t.get k = none) : approvalRows (t.set k v) = approvalRows t + (1 + v.size) := by
  simp only [approvalRows, Map.set_of_none h, List.map_append, List.sum_append]
  simp [Map.size]

theorem rows_filter (l : List (K × Map Account Approval)) (k : K) :
    ((l.filter fun e => !(e.1 == k)).map fun e => 1 + e.2.entries.length).sum ≤
      (l.map fun e => 1 + e.2.entries.length).sum := by
  induction l with
  | nil => exact Nat.le_refl _
  | cons e l ih =>
    rw [List.filter_cons]
    split <;> simp only [List.map_cons, List.sum_cons] <;> omega

theorem rows_del_le (t : Map K (Map Account Approval)) (k : K) : approvalRows (t.del k) ≤ approvalRows t :=
  rows_filter _ _

theorem rows_del_some {t : Map K (Map Account Approval)} {k : K} {m : Map Account Approval}
    (h : t.get k = some m) : approvalRows (t.del k) + (1 + m.size) ≤ approvalRows t := by
  obtain ⟨l⟩ := t
  simp only [Map.get, approvalRows, Map.del] at *
  induction l with
  | nil => cases h
  | cons e l ih =>
    obtain ⟨a, x⟩ := e
    by_cases ha : (a == k) = true
    · simp only [Map.getL, ha, if_true, Option.some.injEq] at h
      subst h
      rw [List.filter_cons_of_neg (by simp [ha])]
      have := rows_filter l k
      simp only [List.map_cons, List.sum_cons, Map.size]
      omega
    · simp only [Map.getL, ha] at h
      have := ih h
      rw [List.filter_cons_of_pos (by simp [ha])]
      simp only [List.map_cons, List.sum_cons]
      omega

end rows

theorem size_set_le' {K V : Type} [BEq K] [EquivBEq K] (m : Map K V) (k : K) (v : V) :
    (m.set k v).size ≤ m.size + 1 := by
  cases h : m.get k with
  | none => rw [Map.size_set_of_none h]; omega
  | some w => rw [Map.size_set_of_some h]; omega

theorem size_dropSpender (m : Map Account Approval) (sp : Option Account) : (dropSpender m sp).size ≤ m.size := by
  cases sp with
  | none => exact Nat.zero_le _
  | some a => exact Map.size_del_le _ _

theorem rows_approve {K : Type} [BEq K] [EquivBEq K] (t : Map K (Map Account Approval)) (k : K) (sp : Account)
    (a : Approval) : approvalRows (t.set k (((t.get k).getD ∅).set sp a)) ≤ approvalRows t + 2 := by
  cases h : t.get k with
  | none =>
    rw [rows_set_none _ h]
    have := size_set_le' (∅ : Map Account Approval) sp a
    simp only [Option.getD_none, Map.size_empty] at *
    omega
  | some m =>
    have := rows_set_some (m.set sp a) h
    have h2 := size_set_le' m sp a
    simp only [Option.getD_some]
    omega

theorem rows_less {K : Type} [BEq K] [EquivBEq K] {t : Map K (Map Account Approval)} {k : K} {m v : Map Account Approval}
    (h : t.get k = some m) (hv : v.size ≤ m.size) : approvalRows (t.set k v) ≤ approvalRows t := by
  have := rows_set_some v h
  omega

/-- The tables of approvals against the log. -/
structure Paid (s : State H) : Prop where
  tok : approvalRows s.tokAppr ≤ 2 * logCount .approve s.log
  coll : approvalRows s.collAppr ≤ 2 * logCount .approveColl s.log

theorem paid_micro {E : Env H} {m : Msg} {s s' : State H} (h : Paid s) (hm : Micro E m s s') : Paid s' := by
  obtain ⟨h1, h2⟩ := h
  have more : ∀ op txs, logCount op s.log ≤ logCount op (s.log ++ txs) := fun op txs => by
    rw [logCount_append]; exact Nat.le_add_right _ _
  have keep : ∀ txs, 2 * logCount .approve s.log ≤ 2 * logCount .approve (s.log ++ txs) ∧
      2 * logCount .approveColl s.log ≤ 2 * logCount .approveColl (s.log ++ txs) := fun txs =>
    ⟨Nat.mul_le_mul_left _ (more _ _), Nat.mul_le_mul_left _ (more _ _)⟩
  cases hm with
  | quiet | config | grant | revoke | suspend | dropUpload | upgrade | resumeTrap | updateMetaCut => exact ⟨h1, h2⟩
  | xfer => exact ⟨Nat.le_trans h1 (keep _).1, Nat.le_trans h2 (keep _).2⟩
  | xferFrom arg nft =>
    exact ⟨Nat.le_trans (rows_del_le _ _) (Nat.le_trans h1 (keep _).1),
      Nat.le_trans (rows_del_le _ _) (Nat.le_trans h2 (keep _).2)⟩
  | burn | updateMeta | mintCut => exact ⟨Nat.le_trans h1 (keep _).1, Nat.le_trans h2 (keep _).2⟩
  | mint reqs md =>
    rw [mintInsert_eq]
    exact ⟨Nat.le_trans h1 (keep _).1, Nat.le_trans h2 (keep _).2⟩
  | pruneTok arg harg m a hm ha hexp => exact ⟨Nat.le_trans (rows_less hm (Map.size_del_le _ _)) h1, h2⟩
  | pruneColl arg harg nft tok m a hm ha hexp base hbase =>
    refine ⟨h1, Nat.le_trans ?_ h2⟩
    rcases hbase with rfl | rfl
    · exact rows_less hm (Map.size_del_le _ _)
    · show approvalRows ((s.collAppr.del nft.owner).set nft.owner _) ≤ _
      rw [rows_set_none _ (Map.get_del_self _ _)]
      exact Nat.le_trans (Nat.add_le_add_left (Nat.add_le_add_left (Map.size_del_le _ _) 1) _) (rows_del_some hm)
  | approve arg =>
    refine ⟨?_, Nat.le_trans h2 (keep _).2⟩
    refine Nat.le_trans (rows_approve _ _ _ _) ?_
    show _ ≤ 2 * logCount .approve (s.log ++ [_])
    rw [logCount_append, logCount_single, if_pos (by rfl)]
    omega
  | approveColl info =>
    refine ⟨Nat.le_trans h1 (keep _).1, ?_⟩
    refine Nat.le_trans (rows_approve _ _ _ _) ?_
    show _ ≤ 2 * logCount .approveColl (s.log ++ [_])
    rw [logCount_append, logCount_single, if_pos (by rfl)]
    omega
  | revokeTok arg owner h i m harg own eqv hm =>
    exact ⟨Nat.le_trans (rows_less hm (size_dropSpender _ _)) (Nat.le_trans h1 (keep _).1), Nat.le_trans h2 (keep _).2⟩
  | revokeColl arg h i m harg hm =>
    exact ⟨Nat.le_trans h1 (keep _).1, Nat.le_trans (rows_less hm (size_dropSpender _ _)) (Nat.le_trans h2 (keep _).2)⟩
  | @resume _ now i ans p hp =>
    obtain ⟨_, _, _, _, he⟩ := resumeBody_eq E { s with pending := s.pending.eraseIdx i } now p ans
    rw [he]
    exact ⟨h1, h2⟩

theorem Reachable.paid {E : Env H} {s : State H} (h : Reachable E s) : Paid s :=
  h.induct (fun _ _ _ _ _ h0 => by rw [init_eq h0]; exact ⟨Nat.le_refl _, Nat.le_refl _⟩)
    (fun _ _ _ h hm => paid_micro h hm)

/-- Tokens and owners against the log. -/
structure Housed (s : State H) : Prop where
  own : OwnInv s
  tok : s.tokens.size ≤ logCount .mint s.log
  rows : s.byOwner.size ≤ logCount .mint s.log + logCount .xfer s.log + logCount .xferFrom s.log

theorem insOwn_size (reqs : List MintReq) : ∀ (b : Map Account (List Nat)) (tid : Nat),
    (insOwn b tid reqs).size ≤ b.size + reqs.length := by
  induction reqs with
  | nil => intro b tid; exact Nat.le_refl _
  | cons r rs ih =>
    intro b tid
    refine Nat.le_trans (ih _ _) ?_
    have := size_set_le' b r.owner ((b.get r.owner).getD [] ++ [tid])
    rw [List.length_cons]
    omega

theorem moveOwn_size {b : Map Account (List Nat)} {id : Nat} {prev to_ : Account} {l : List Nat}
    (hd : (prev == to_) = false) (h : b.get prev = some l) : (moveOwn b id prev to_).size ≤ b.size + 1 := by
  unfold moveOwn
  have hd' : (to_ == prev) = false := by
    cases h : (to_ == prev) with
    | false => rfl
    | true => rw [Account.symm_beq h] at hd; cases hd
  rw [Map.size_set_of_some (w := l) (by rw [Map.get_set_ne _ _ hd']; exact h)]
  exact size_set_le' _ _ _

theorem housed_own {m : Msg} {s s' : State H} (hi : TokInv s) (h : Housed s) (he : OwnEff m s s') : Housed s' := by
  obtain ⟨ho, h1, h2⟩ := h
  refine ⟨ownInv_own hi ho he, ?_, ?_⟩
  · cases he with
    | same ht hb hl txs hlog =>
      rw [ht, hlog, logCount_append]
      omega
    | rewrite tid t tok ht hb hl tx hlog =>
      rw [ht, hlog, logCount_append, Map.size_set_of_some tok]
      omega
    | move id t to_ tx tok hid diff ht hb hl hlog =>
      rw [ht, hlog, logCount_append, Map.size_set_of_some tok]
      omega
    | mint c now reqs hm perm cap hcfg ht hb hl hlog =>
      rw [ht, hlog, logCount_append, insTok_size _ _ _ hi.fresh, logCount_all (l := List.mapIdx _ _), List.length_mapIdx]
      · omega
      · intro t ht
        rw [List.mem_mapIdx] at ht
        obtain ⟨i, _, rfl⟩ := ht
        rfl
    | burn c now tid t hm tok own ht hb hl hlog =>
      rw [ht, hlog, logCount_append]
      have := Map.size_del_le s.tokens tid
      omega
  · cases he with
    | same ht hb hl txs hlog =>
      rw [hb, hlog]
      simp only [logCount_append]
      omega
    | rewrite tid t tok ht hb hl tx hlog =>
      rw [hb, hlog]
      simp only [logCount_append]
      omega
    | move id t to_ tx tok hid diff ht hb hl hlog htid hfrom hto why =>
      have hmem : id ∈ listOf s.byOwner t.owner := (ho.mem _ _).2 (.inl ⟨t.owner, by simp [Owner, tok], Account.beq_rfl _⟩)
      have hrow : ∃ l, s.byOwner.get t.owner = some l := by
        cases hg : s.byOwner.get t.owner with
        | some l => exact ⟨l, rfl⟩
        | none => simp [listOf, hg] at hmem
      obtain ⟨l, hl'⟩ := hrow
      have hsize := moveOwn_size (id := id) diff hl'
      rw [hb, hlog]
      simp only [logCount_append, logCount_single]
      rcases why with ⟨_, _, _, _, _, _, _, _, _, _, _, hop⟩ | ⟨_, _, _, _, _, _, _, _, _, _, _, hop⟩ <;> rw [hop] <;>
        simp <;> omega
    | mint c now reqs hm perm cap hcfg ht hb hl hlog =>
      rw [hb, hlog]
      have h3 : logCount .mint (reqs.mapIdx fun k r => mintTx now (s.lastId + k) r) = reqs.length := by
        rw [logCount_all, List.length_mapIdx]
        intro t ht
        rw [List.mem_mapIdx] at ht
        obtain ⟨i, _, rfl⟩ := ht
        rfl
      have := insOwn_size reqs s.byOwner s.lastId
      simp only [logCount_append, h3]
      omega
    | burn c now tid t hm tok own ht hb hl hlog =>
      rw [hb, hlog]
      simp only [logCount_append]
      omega

theorem Reachable.housed {E : Env H} {s : State H} (h : Reachable E s) : Housed s :=
  h.ownInduct (fun _ _ _ _ _ h0 => ⟨ownInv_init h0, by rw [init_eq h0]; exact Nat.le_refl _, by
    rw [init_eq h0]; exact Nat.le_refl _⟩) (fun _ _ _ hi h he => housed_own hi h he)

theorem windowStep_length {w : List Nat} (now : Nat) (h : w.length ≤ 5) : (windowStep w now).1.length ≤ 5 := by
  unfold windowStep
  dsimp only
  split
  · exact Nat.le_trans (List.length_filter_le _ _) h
  · rename_i hn
    have : slidingWindowCalls = 5 := rfl
    rw [List.length_append, List.length_singleton]
    omega

theorem Win.length {now k : Nat} {w w' : List Nat} (h : Win now w k w') (hw : w.length ≤ 5) : w'.length ≤ 5 := by
  induction h with
  | refl => exact hw
  | step _ ih => exact windowStep_length _ ih

theorem step_window_length {E : Env H} {s : State H} (m : Msg) (h : ∀ tid, (winOf s tid).length ≤ 5) (tid : Nat) :
    (winOf (step E s m).1 tid).length ≤ 5 := by
  by_cases hm : ∀ c now call, m ≠ .call c now call
  · unfold winOf
    rw [step_windows_other hm]
    exact h tid
  · cases m with
    | call c now call =>
      obtain ⟨k, hw, _⟩ := step_win_call (E := E) (s := s) (c := c) (now := now) (call := call) tid rfl
      exact hw.length (h tid)
    | _ => exact absurd (fun _ _ _ => by intro h; cases h) hm

theorem Reachable.windows {E : Env H} {s : State H} (h : Reachable E s) (tid : Nat) : (winOf s tid).length ≤ 5 := by
  obtain ⟨v, hid, c, a, s₀, msgs, h0, rfl⟩ := h
  have h0' : ∀ tid, (winOf s₀ tid).length ≤ 5 := by
    intro tid
    rw [init_eq h0]
    simp [winOf]
  clear h0
  induction msgs generalizing s₀ tid with
  | nil => exact h0' tid
  | cons m ms ih => exact ih tid _ (step_window_length m h0')

end Verif
