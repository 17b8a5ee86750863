import Verif.Spec.Backup
import Verif.Lemmas.Owners
import Verif.Lemmas.Rearranged
/-!
# Helpers for C125

The answers about holdings are functions of the owners and the log.
-/
namespace Verif

open Spec

variable {H H' : Type}

theorem queryBatch_agree {A B : Type} {s : State H} {s' : State H'} {f g : A → B} (h : f = g) (args : List A) :
    Agree (queryBatch s f args) (queryBatch s' g args) := by
  subst h
  intro a b ha hb
  unfold queryBatch at ha hb
  split at ha
  · cases ha
  · split at hb
    · cases hb
    · cases ha; cases hb; rfl

theorem paged_agree {s : State H} {s' : State H'} {l l' : List Nat} (h : l.Perm l') (prev : Option Nat) (n : Nat) :
    Agree (paged s l prev (some n)) (paged s' l' prev (some n)) := by
  intro a b ha hb
  unfold paged at ha hb
  split at ha
  · cases ha
  · split at hb
    · cases hb
    · cases ha; cases hb
      unfold page
      rw [sortNat_tab h]
      rfl

theorem keys_perm {s : State H} {s' : State H'} (hi : TokInv s) (hi' : TokInv s') (h : ∀ tid, Owner s tid = Owner s' tid) :
    s.tokens.keys.Perm s'.tokens.keys :=
  (List.perm_ext_iff_of_nodup (Map.nodup_keys_lawful hi.nodup) (Map.nodup_keys_lawful hi'.nodup)).2 fun tid => by
    rw [mem_keys, mem_keys]; unfold TokenExists; rw [h tid]

theorem tokenIds_perm {s : State H} {s' : State H'} (hi : TokInv s) (hi' : TokInv s') (h : ∀ tid, Owner s tid = Owner s' tid)
    (a : Account) : (tokenIdsOf s a).Perm (tokenIdsOf s' a) :=
  (List.perm_ext_iff_of_nodup (nodup_tokenIdsOf hi a) (nodup_tokenIdsOf hi' a)).2 fun tid => by
    rw [mem_tokenIdsOf hi, mem_tokenIdsOf hi', h tid]

/-- Same owners and same log: the same answers. -/
theorem sameHoldings {s : State H} {s' : State H'} (hi : TokInv s) (hi' : TokInv s') (ho : OwnInv s) (ho' : OwnInv s')
    (h : ∀ tid, Owner s tid = Owner s' tid) (hlog : s.log = s'.log) : SameHoldings s s' where
  owner_of := queryBatch_agree (funext h)
  supply := by
    have := (keys_perm hi hi' h).length_eq
    simpa [Map.keys, totalSupply, Map.size] using this
  balance_of := queryBatch_agree (funext fun a => by
    rw [balance_split hi ho, balance_split hi' ho', (tokenIds_perm hi hi' h a).length_eq, hlog])
  tokens := paged_agree (keys_perm hi hi' h)
  tokens_of a := paged_agree (tokenIds_perm hi hi' h a)

/-- The number of mints on record. -/
def mintsIn (log : List Tx) : Nat := (log.filter fun t => t.op = .mint).length

theorem mintsIn_append (l l' : List Tx) : mintsIn (l ++ l') = mintsIn l + mintsIn l' := by
  simp [mintsIn]

theorem mintsIn_none {l : List Tx} (h : ∀ t ∈ l, t.op ≠ .mint) : mintsIn l = 0 := by
  simpa [mintsIn, List.filter_eq_nil_iff] using h

theorem mintsIn_mints (reqs : List MintReq) (now k : Nat) :
    mintsIn (reqs.mapIdx fun i r => mintTx now (k + i) r) = reqs.length := by
  have h : ∀ t ∈ reqs.mapIdx fun i r => mintTx now (k + i) r, decide (t.op = .mint) = true := by
    intro t ht
    obtain ⟨i, hi, rfl⟩ := List.mem_mapIdx.1 ht
    rfl
  unfold mintsIn
  rw [List.filter_eq_self.2 h, List.length_mapIdx]

/-- A message that is no mint, or a mint not cut short, keeps the counter in step with the log. -/
theorem step_next {E : Env H} {s : State H} (hi : TokInv s) {m : Msg} (hs : s.lastId = 1 + mintsIn s.log)
    (hcut : ∀ c now reqs, m = .call c now (.mint reqs) → (step E s m).2 ≠ .mgmt (.error .storageCanisterError)) :
    (step E s m).1.lastId = 1 + mintsIn (step E s m).1.log := by
  by_cases hmint : ∃ c now reqs, m = .call c now (.mint reqs)
  · obtain ⟨c, now, reqs, rfl⟩ := hmint
    have hc := hcut c now reqs rfl
    have hgoal : ∀ s' r, step E s (.call c now (.mint reqs)) = (s', r) →
        r ≠ .mgmt (.error .storageCanisterError) → s'.lastId = 1 + mintsIn s'.log := by
      intro s' r h hr'
      simp only [step, execCall, Call.needs] at h
      split at h
      · simp only [exec] at h
        cases ho : mint E s c now reqs with
        | none => simp [ho, ofMgmt] at h; rw [← h.1]; exact hs
        | some p =>
          obtain ⟨p1, p2⟩ := p
          have hout := mint_out ho
          simp [ho, ofMgmt] at h
          obtain ⟨rfl, rfl⟩ := h
          cases hout with
          | refused e => exact hs
          | cut md h' n free hn hmd => exact absurd rfl hr'
          | minted md h' free batch cap memos hmd =>
            rw [mintInsert_eq]
            dsimp only
            rw [mintsIn_append, mintsIn_mints]
            omega
      · simp at h; rw [← h.1]; exact hs
    exact hgoal _ _ rfl hc
  · refine ((step_steps E s m).induct (P := fun t => TokInv t ∧ t.lastId = 1 + mintsIn t.log) (fun t t' ht hmic => ?_) ⟨hi, hs⟩).2
    refine ⟨tokInv_micro ht.1 hmic, ?_⟩
    have keep : ∀ {txs : List Tx}, t'.lastId = t.lastId → t'.log = t.log ++ txs → (∀ x ∈ txs, x.op ≠ .mint) →
        t'.lastId = 1 + mintsIn t'.log := by
      intro txs hl hlog hno
      rw [hl, hlog, mintsIn_append, mintsIn_none hno]
      exact ht.2
    cases micro_own ht.1 hmic with
    | same _ _ hl txs hlog hops hm =>
      refine keep hl hlog ?_
      rcases hm with rfl | h | ⟨c, now, reqs, _, h, _⟩
      · simp
      · exact h
      · exact absurd ⟨c, now, reqs, h⟩ hmint
    | rewrite _ _ _ _ _ hl tx hlog hop => exact keep hl hlog (by simp [hop])
    | move _ _ _ tx _ _ _ _ _ hl hlog _ _ _ why =>
      refine keep hl hlog ?_
      rcases why with ⟨_, _, _, _, _, _, _, _, _, _, _, hop⟩ | ⟨_, _, _, _, _, _, _, _, _, _, _, hop⟩ <;> simp [hop]
    | mint c now reqs hm => exact absurd ⟨c, now, reqs, hm⟩ hmint
    | burn _ _ _ _ _ _ _ _ _ hl hlog => exact keep hl hlog (by simp [burnTx])

end Verif
