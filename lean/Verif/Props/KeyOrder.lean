import Verif.Spec.KeyOrder
import Verif.Props.History
/-!
# The order of a metadata listing (C95)
-/
namespace Verif

open Spec

variable {H : Type}

private theorem ascending_sortKeys {l : List (String × Value)} (h : (l.map Prod.fst).Nodup) : Ascending (sortKeys l) := by
  have h1 := sortKeys_sorted l
  have h2 : (sortKeys l).Pairwise fun a b => a.1 ≠ b.1 := List.pairwise_map.1 (sortKeys_keys h)
  refine (List.Pairwise.and h1 h2).imp ?_
  rintro a b ⟨hle, hne⟩
  refine Classical.byContradiction fun hlt => hne (String.le_antisymm hle ?_)
  exact String.not_lt.1 hlt

/-- An ascending list is determined by what is in it. -/
private theorem ascending_ext {l l' : List (String × Value)} (h : Ascending l) (h' : Ascending l')
    (hm : ∀ p, p ∈ l ↔ p ∈ l') : l = l' := by
  induction l generalizing l' with
  | nil =>
    cases l' with
    | nil => rfl
    | cons q l' => exact absurd ((hm q).2 (by simp)) (by simp)
  | cons p l ih =>
    cases l' with
    | nil => exact absurd ((hm p).1 (by simp)) (by simp)
    | cons q l' =>
      obtain ⟨hp, hl⟩ := List.pairwise_cons.1 h
      obtain ⟨hq, hl'⟩ := List.pairwise_cons.1 h'
      have hpq : p = q := by
        rcases List.mem_cons.1 ((hm p).1 (by simp)) with e | e
        · exact e
        · rcases List.mem_cons.1 ((hm q).2 (by simp)) with e' | e'
          · exact e'.symm
          · exact absurd (String.lt_trans (hq p e) (hp q e')) (String.lt_irrefl _)
      subst hpq
      congr 1
      refine ih hl hl' fun x => ?_
      constructor
      · intro hx
        rcases List.mem_cons.1 ((hm x).1 (List.mem_cons_of_mem _ hx)) with e | e
        · subst e; exact absurd (hp x hx) (String.lt_irrefl _)
        · exact e
      · intro hx
        rcases List.mem_cons.1 ((hm x).2 (List.mem_cons_of_mem _ hx)) with e | e
        · subst e; exact absurd (hq x hx) (String.lt_irrefl _)
        · exact e

private theorem ascending_row {E : Env H} {s : State H} (hr : Reachable E s) (tid : Nat) :
    Ascending (sortKeys (metaRow s.mdata tid).entries) :=
  ascending_sortKeys (Map.nodup_keys_lawful (hr.rowsNodup.row tid))

private def LogAscends (log : List Tx) : Prop :=
  ∀ r ∈ log, ∀ a b, r.meta_ = some (a, b) → Ascending a ∧ Ascending b

private theorem LogAscends.append {l rs : List Tx} (h : LogAscends l) (h' : LogAscends rs) : LogAscends (l ++ rs) := by
  intro r hr
  rcases List.mem_append.1 hr with hr | hr
  · exact h r hr
  · exact h' r hr

private theorem LogAscends.one {l : List Tx} (h : LogAscends l) {r : Tx}
    (hr : ∀ a b, r.meta_ = some (a, b) → Ascending a ∧ Ascending b) : LogAscends (l ++ [r]) := by
  refine h.append fun x hx => ?_
  rw [List.mem_singleton] at hx
  rw [hx]; exact hr

private theorem LogAscends.mints {l : List Tx} (h : LogAscends l) (reqs : List MintReq) (now id : Nat) :
    LogAscends (l ++ reqs.mapIdx fun k r => mintTx now (id + k) r) := by
  refine h.append fun r hr a b hab => ?_
  obtain ⟨i, hi, rfl⟩ := List.mem_mapIdx.1 hr
  cases hab

private theorem micro_ascends {E : Env H} {m : Msg} {s s' : State H} (hn : RowsNodup s.mdata) (h : Micro E m s s')
    (hp : LogAscends s.log) : LogAscends s'.log := by
  cases h with
  | xfer => exact hp.one (by simp [transferTx])
  | xferFrom => exact hp.one (by simp [transferFromTx])
  | approve => exact hp.one (by simp [approveTx])
  | approveColl => exact hp.one (by simp [approveCollTx])
  | revokeTok => exact hp.one (by simp [revokeTx])
  | revokeColl => exact hp.one (by simp [revokeCollTx])
  | burn => exact hp.one (by simp [burnTx])
  | mint => rw [mintInsert_eq]; exact hp.mints _ _ _
  | mintCut => exact hp.mints _ _ _
  | updateMeta tid kvs token md h i perm free tok hmd =>
    refine hp.one fun a b hab => ?_
    simp only [updateTx, Option.some.injEq, Prod.mk.injEq, getAllData_eq] at hab
    obtain ⟨rfl, rfl⟩ := hab
    exact ⟨ascending_sortKeys (Map.nodup_keys_lawful (hn.row tid)),
      ascending_sortKeys (Map.nodup_keys_lawful (((replaceMetadata_spec hmd).2.2 hn).row tid))⟩
  | @resume _ now i ans p hp' =>
    obtain ⟨_, _, _, _, he⟩ := resumeBody_eq E { s with pending := s.pending.eraseIdx i } now p ans
    rw [he]; exact hp
  | _ => exact hp

private theorem micro_rows {E : Env H} {m : Msg} {s s' : State H} (hp : RowsNodup s.mdata) (hm : Micro E m s s') :
    RowsNodup s'.mdata := by
  rcases micro_mdata hm with h | ⟨_, _, _, _, h⟩ | ⟨_, _, _, _, _, _, _, h⟩
  · rwa [h]
  · exact (mintMetadata_spec _ h).2.2 hp
  · exact (replaceMetadata_spec h).2.2 hp

/-! ## C95 -/

/-- C95: a token's metadata is listed by strictly ascending key. -/
theorem C95_ascending {E : Env H} {s : State H} (hr : Reachable E s) {tid : Nat} {l : List (String × Value)}
    (hl : Shown s tid l) : Ascending l := by
  obtain ⟨_, rfl⟩ := (shown_iff hr.tokInv).1 hl
  exact ascending_row hr tid

/-- C95: what is listed depends on nothing but the content: two tokens, of the same
collection or not, at whatever times, that carry the same content are answered with the same
list, whatever the order and the repetitions of the entries they were written with. -/
theorem C95_content {H' : Type} {E : Env H} {E' : Env H'} {s : State H} {s' : State H'} (hr : Reachable E s)
    (hr' : Reachable E' s') {tid tid' : Nat} {kvs kvs' l l' : List (String × Value)}
    (hc : MetaIs s tid kvs) (hc' : MetaIs s' tid' kvs') (hs : SameContent kvs kvs')
    (hl : Shown s tid l) (hl' : Shown s' tid' l') : l = l' := by
  obtain ⟨m, hm, hk⟩ := hc
  obtain ⟨m', hm', hk'⟩ := hc'
  have e1 : m = l := Option.some.inj (hm.symm.trans hl)
  have e2 : m' = l' := Option.some.inj (hm'.symm.trans hl')
  subst e1 e2
  refine ascending_ext (C95_ascending hr hl) (C95_ascending hr' hl') ?_
  rintro ⟨k, v⟩
  rw [hk.2, hk'.2, hs k]

/-- C95: so two accepted updates with the same content leave their tokens with the same
listing. -/
theorem C95_updates {H' : Type} {E : Env H} {E' : Env H'} {s t : State H} {s' t' : State H'} (hr : Reachable E s)
    (hr' : Reachable E' s') {c c' : Principal} {now now' tid tid' : Nat} {kvs kvs' : List (String × Value)} {ok ok' : MgmtOk}
    (h : step E s (.call c now (.updateNftMetadata tid kvs)) = (t, .mgmt (.ok ok)))
    (h' : step E' s' (.call c' now' (.updateNftMetadata tid' kvs')) = (t', .mgmt (.ok ok')))
    (hs : SameContent kvs kvs') : ∃ l, Shown t tid l ∧ Shown t' tid' l := by
  have hrt : Reachable E t := by have := hr.step (.call c now (.updateNftMetadata tid kvs)); rwa [h] at this
  have hrt' : Reachable E' t' := by have := hr'.step (.call c' now' (.updateNftMetadata tid' kvs')); rwa [h'] at this
  have h1 := C35_update E hr h
  have h2 := C35_update E' hr' h'
  obtain ⟨l, hl, _⟩ := id h1
  obtain ⟨l', hl', _⟩ := id h2
  have := C95_content hrt hrt' h1 h2 hs hl hl'
  subst this
  exact ⟨l, hl, hl'⟩

/-- C95: the listings recorded in the log ascend too. -/
theorem C95_recorded {E : Env H} {s : State H} (hr : Reachable E s) {r : Tx} (hmem : r ∈ s.log)
    {a b : List (String × Value)} (h : r.meta_ = some (a, b)) : Ascending a ∧ Ascending b :=
  (hr.induct (P := fun s => RowsNodup s.mdata ∧ LogAscends s.log)
    (by
      intro v hid c a s₀ h0
      rw [init_eq h0]
      exact ⟨fun tid r h => by simp at h, fun r h => by simp at h⟩)
    (by
      rintro m s s' ⟨h1, h2⟩ hm
      exact ⟨micro_rows h1 hm, micro_ascends h1 hm h2⟩)).2 r hmem a b h

namespace Demo

/-- The content of `updMsg` in another order, without the overwritten entry. -/
def updOther : Msg := .call admin (ms 300) (.updateNftMetadata 2 [("k", .nat 6), ("j", .text "x")])

example : SameContent [("k", .nat 5), ("j", .text "x"), ("k", .nat 6)] [("k", .nat 6), ("j", .text "x")] := by
  intro k
  by_cases hk : "k" = k
  · subst hk; rfl
  · by_cases hj : "j" = k
    · subst hj; rfl
    · simp [lastValue, hk, hj]

example : ∃ t t', step env s1 updMsg = (t, .mgmt (.ok (.id 1))) ∧ step env s1 updOther = (t', .mgmt (.ok (.id 2))) ∧
    Shown t 1 [("j", .text "x"), ("k", .nat 6)] ∧ Shown t' 2 [("j", .text "x"), ("k", .nat 6)] ∧
    Reachable env s1 := ⟨_, _, rfl, rfl, rfl, rfl, s1_reach⟩

/-- The update is recorded with both listings. -/
example : ∃ r ∈ (step env s1 updMsg).1.log,
    r.meta_ = some ([("k", .nat 1)], [("j", .text "x"), ("k", .nat 6)]) := ⟨_, List.mem_of_getElem? (i := 3) rfl, rfl⟩

/-- A listing in another order does not ascend. -/
example : ¬ Ascending [("k", .nat 6), ("j", .text "x")] := by
  intro h
  exact absurd ((List.pairwise_cons.1 h).1 ("j", .text "x") (by simp)) (by decide)

end Demo

end Verif
