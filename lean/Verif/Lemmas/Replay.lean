import Verif.Lemmas.Approvals
/-!
# The log: growth and replay
-/
namespace Verif

open Spec

variable {H : Type}

theorem replay_append (l l' : List Tx) : replay (l ++ l') = l'.foldl applyTx (replay l) := by
  simp [replay]

theorem applyTx_other {t : Tx} {f : Nat → Option Account} {k : Nat} (h : t.tid ≠ some k) :
    applyTx f t k = f k := by
  obtain ⟨op, ts, tid, _⟩ := t
  cases tid with
  | none => cases op <;> rfl
  | some i =>
    have : k ≠ i := by intro hk; subst hk; exact h rfl
    cases op <;> simp [applyTx, this]

theorem foldl_applyTx_other (l : List Tx) : ∀ (f : Nat → Option Account) (k : Nat),
    (∀ t ∈ l, t.tid ≠ some k) → l.foldl applyTx f k = f k := by
  induction l with
  | nil => intro f k _; rfl
  | cons t ts ih =>
    intro f k h
    rw [List.foldl_cons, ih _ _ (fun t' ht => h t' (by simp [ht])), applyTx_other (h t (by simp))]

theorem applyTx_quiet {t : Tx} {f : Nat → Option Account}
    (h : t.op ≠ .xfer ∧ t.op ≠ .xferFrom ∧ t.op ≠ .burn) (hm : t.op ≠ .mint) : applyTx f t = f := by
  obtain ⟨op, ts, tid, _⟩ := t
  obtain ⟨h1, h2, h3⟩ := h
  cases op <;> simp_all [applyTx]

theorem foldl_applyTx_quiet (l : List Tx) : ∀ (f : Nat → Option Account),
    (∀ t ∈ l, t.op ≠ .xfer ∧ t.op ≠ .xferFrom ∧ t.op ≠ .burn) → (∀ t ∈ l, t.op ≠ .mint) →
    l.foldl applyTx f = f := by
  induction l with
  | nil => intro f _ _; rfl
  | cons t ts ih =>
    intro f h hm
    rw [List.foldl_cons, applyTx_quiet (h t (by simp)) (hm t (by simp))]
    exact ih _ (fun t' ht => h t' (by simp [ht])) (fun t' ht => hm t' (by simp [ht]))

/-- Replaying the transactions of a mint. -/
theorem foldl_mints (reqs : List MintReq) : ∀ (f : Nat → Option Account) (now tid k : Nat),
    (reqs.mapIdx fun i r => mintTx now (tid + i) r).foldl applyTx f k =
      if h : tid ≤ k ∧ k < tid + reqs.length then some (reqs[k - tid]'(by omega)).owner else f k := by
  induction reqs with
  | nil => intro f now tid k; simp; intro h; omega
  | cons r rs ih =>
    intro f now tid k
    rw [List.mapIdx_cons, List.foldl_cons]
    have hcongr : (fun i r => mintTx now (tid + (i + 1)) r) = (fun i r => mintTx now (tid + 1 + i) r) := by
      funext i r
      rw [Nat.add_assoc, Nat.add_comm 1 i]
    rw [hcongr, ih]
    simp only [List.length_cons]
    by_cases h0 : k = tid
    · subst h0
      rw [dif_neg (by omega), dif_pos (by omega)]
      simp [applyTx, mintTx]
    · by_cases h1 : tid + 1 ≤ k ∧ k < tid + 1 + rs.length
      · rw [dif_pos h1, dif_pos (by omega)]
        have : k - tid = (k - (tid + 1)) + 1 := by omega
        simp [this]
      · rw [dif_neg h1, dif_neg (by omega)]
        simp [applyTx, mintTx, h0]

theorem owner_insTok {s s' : State H} {t : Map Nat Token} {tid : Nat} {reqs : List MintReq}
    (ht : t = s.tokens) (h : s'.tokens = insTok t tid reqs) (k : Nat) :
    Owner s' k = if h : tid ≤ k ∧ k < tid + reqs.length then some (reqs[k - tid]'(by omega)).owner
      else Owner s k := by
  subst ht
  unfold Owner
  rw [h, insTok_get]
  split <;> simp

/-- Owners after an elementary effect: replay its transactions on top, for ids
below the counter. -/
theorem OwnEff.replays {m : Msg} {s s' : State H} (h : OwnEff m s s') :
    ∃ txs, s'.log = s.log ++ txs ∧
      (∀ tid, tid < s'.lastId → Owner s' tid = txs.foldl applyTx (Owner s) tid) ∧
      ((∀ c now reqs, m ≠ .call c now (.mint reqs)) → Owner s' = txs.foldl applyTx (Owner s)) := by
  cases h with
  | same ht hb hl txs hlog hops hmint =>
    refine ⟨txs, hlog, ?_, ?_⟩
    · intro tid htid
      have ho : Owner s' tid = Owner s tid := by simp [Owner, ht]
      rw [ho]
      rcases hmint with rfl | hq | ⟨c, now, reqs, n, hm, hn, _, rfl⟩
      · rfl
      · rw [foldl_applyTx_quiet _ _ hops hq]
      · rw [foldl_mints, dif_neg (by omega)]
    · intro hno
      have ho : Owner s' = Owner s := by funext k; simp [Owner, ht]
      rw [ho]
      rcases hmint with rfl | hq | ⟨c, now, reqs, n, hm, hn, _, rfl⟩
      · rfl
      · rw [foldl_applyTx_quiet _ _ hops hq]
      · exact absurd hm (hno _ _ _)
  | rewrite tid t tok ht hb hl tx hlog hop =>
    have : Owner s' = [tx].foldl applyTx (Owner s) := by
      rw [foldl_applyTx_quiet]
      · funext k
        unfold Owner
        rw [ht, Map.get_set]
        split
        · rename_i he; simp at he; subst he; rw [tok]
        · rfl
      · simp [hop]
      · simp [hop]
    exact ⟨_, hlog, fun k _ => by rw [this], fun _ => this⟩
  | move id t to_ tx tok hid diff ht hb hl hlog htid hfrom hto why =>
    have hop : tx.op = .xfer ∨ tx.op = .xferFrom := by
      rcases why with ⟨_, _, _, _, _, _, _, _, _, _, _, h⟩ | ⟨_, _, _, _, _, _, _, _, _, _, _, h⟩
      · exact .inl h
      · exact .inr h
    have : Owner s' = [tx].foldl applyTx (Owner s) := by
      funext k
      have happ : applyTx (Owner s) tx k = if k = id then tx.to_ else Owner s k := by
        unfold applyTx
        rw [htid]
        rcases hop with h | h <;> rw [h]
      rw [List.foldl_cons, List.foldl_nil, happ, hto]
      unfold Owner
      rw [ht, Map.get_set]
      by_cases hk : k = id
      · subst hk; simp
      · have : ¬ (id == k) = true := by simpa using fun h => hk h.symm
        rw [if_neg this, if_neg hk]
    exact ⟨_, hlog, fun k _ => by rw [this], fun _ => this⟩
  | mint c now reqs hm perm cap hcfg ht hb hl hlog =>
    refine ⟨_, hlog, ?_, fun h => absurd hm (h _ _ _)⟩
    intro tid _
    rw [owner_insTok rfl ht, foldl_mints]
  | burn c now tid t hm tok own ht hb hl hlog =>
    have : Owner s' = [burnTx now tid t].foldl applyTx (Owner s) := by
      funext k
      rw [List.foldl_cons, List.foldl_nil]
      simp only [applyTx, burnTx]
      unfold Owner
      rw [ht, Map.get_del]
      by_cases hk : k = tid
      · subst hk; simp
      · have : ¬ (tid == k) = true := by simpa using fun h => hk h.symm
        rw [if_neg this, if_neg hk]
    exact ⟨_, hlog, fun k _ => by rw [this], fun _ => this⟩

theorem OwnEff.log_grows {m : Msg} {s s' : State H} (h : OwnEff m s s') : s.log <+: s'.log := by
  cases h with
  | same _ _ _ txs hlog => rw [hlog]; exact List.prefix_append _ _
  | rewrite _ _ _ _ _ _ tx hlog => rw [hlog]; exact List.prefix_append _ _
  | move _ _ _ _ _ _ _ _ _ _ hlog => rw [hlog]; exact List.prefix_append _ _
  | mint _ _ _ _ _ _ _ _ _ _ hlog => rw [hlog]; exact List.prefix_append _ _
  | burn _ _ _ _ _ _ _ _ _ _ hlog => rw [hlog]; exact List.prefix_append _ _

theorem owner_fresh {s : State H} (hi : TokInv s) {k : Nat} (hk : s.lastId ≤ k) : Owner s k = none := by
  unfold Owner
  cases hg : s.tokens.get k with
  | none => rfl
  | some t => have := hi.fresh _ _ hg; omega

/-- Permissions change only in `grant_permission` and `revoke_permission`. -/
theorem micro_perms {E : Env H} {m : Msg} {s s' : State H} (h : Micro E m s s') :
    s'.perms = s.perms ∨ (∃ c now p x, m = .call c now (.grant p x) ∧ Holds s c .manageAuthorities ∧
        s'.perms = grantPermission s.perms p x) ∨
      (∃ c now p x, m = .call c now (.revoke p x) ∧ Holds s c .manageAuthorities ∧
        s'.perms = revokePermission s.perms p x) := by
  cases h with
  | grant p x perm free => exact .inr (.inl ⟨_, _, p, x, rfl, holds_iff.2 perm, rfl⟩)
  | revoke p x perm free => exact .inr (.inr ⟨_, _, p, x, rfl, holds_iff.2 perm, rfl⟩)
  | mint reqs md h perm free batch cap memos hmd => rw [mintInsert_eq]; exact .inl rfl
  | @resume _ now i ans p hp =>
    obtain ⟨_, _, _, _, he⟩ := resumeBody_eq E { s with pending := s.pending.eraseIdx i } now p ans
    rw [he]; exact .inl rfl
  | _ => exact .inl rfl

end Verif
