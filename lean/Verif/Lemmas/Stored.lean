import Verif.Lemmas.Metadata
import Verif.Lemmas.Answers
/-! # The numbers in stored and recorded metadata are within 64 bits -/
namespace Verif

open Spec

variable {H : Type}

/-- All stored values can be stored. -/
def TableOk (t : MetaTable) : Prop := ∀ tid r, t.get tid = some r → ∀ e ∈ r.entries, e.2.inRange = true

private theorem insertData_ok {t t' : MetaTable} {tid : Nat} {k : String} {v : Value} (ht : TableOk t)
    (h : insertData t tid k v = some t') : TableOk t' := by
  unfold insertData at h
  split at h
  · rename_i hv
    cases h
    intro j r hj e he
    rw [Map.get_set] at hj
    split at hj
    · cases hj
      rcases Map.mem_entries_set he with he | he
      · cases hg : t.get tid with
        | none => rw [hg] at he; cases he
        | some r => rw [hg] at he; exact ht tid r hg e he
      · rw [he.2]
        simp at hv
        exact hv.2
    · exact ht j r hj e he
  · cases h

private theorem addMetadata_ok {tid : Nat} (kvs : List (String × Value)) : ∀ {t t' : MetaTable}, TableOk t →
    addMetadata t tid kvs = some t' → TableOk t' := by
  induction kvs with
  | nil => intro t t' ht h; cases h; exact ht
  | cons kv kvs ih =>
    intro t t' ht h
    unfold addMetadata at h
    split at h
    · cases h
    · rename_i h1
      exact ih (insertData_ok ht h1) h

private theorem mintMetadata_ok (reqs : List MintReq) : ∀ {t t' : MetaTable} {tid : Nat}, TableOk t →
    mintMetadata t tid reqs = some t' → TableOk t' := by
  induction reqs with
  | nil => intro t t' tid ht h; cases h; exact ht
  | cons r rs ih =>
    intro t t' tid ht h
    unfold mintMetadata at h
    split at h
    · cases h
    · rename_i h1
      exact ih (addMetadata_ok _ ht h1) h

private theorem replaceMetadata_ok {t t' : MetaTable} {tid : Nat} {kvs : List (String × Value)} (ht : TableOk t)
    (h : replaceMetadata t tid kvs = some t') : TableOk t' := by
  refine addMetadata_ok _ (fun j r hj => ?_) h
  rw [Map.get_del] at hj
  split at hj
  · cases hj
  · exact ht j r hj

private theorem row_ok {t : MetaTable} (ht : TableOk t) (tid : Nat) {e : String × Value}
    (he : e ∈ (getAllData t tid).getD []) : Storable e.2 := by
  rw [storable_iff]
  unfold getAllData at he
  cases hg : t.get tid with
  | none => rw [hg] at he; cases he
  | some r =>
    rw [hg] at he
    exact ht tid r hg e ((sortKeys_perm _).subset he)

private def LogStored (log : List Tx) : Prop :=
  ∀ r ∈ log, ∀ a b, r.meta_ = some (a, b) → ∀ e ∈ a ++ b, Storable e.2

private theorem LogStored.append {l rs : List Tx} (h : LogStored l) (h' : LogStored rs) : LogStored (l ++ rs) := by
  intro r hr
  rcases List.mem_append.1 hr with hr | hr
  · exact h r hr
  · exact h' r hr

private theorem LogStored.one {l : List Tx} (h : LogStored l) {r : Tx}
    (hr : ∀ a b, r.meta_ = some (a, b) → ∀ e ∈ a ++ b, Storable e.2) : LogStored (l ++ [r]) := by
  refine h.append fun x hx => ?_
  rw [List.mem_singleton] at hx
  rw [hx]; exact hr

private theorem LogStored.mints {l : List Tx} (h : LogStored l) (reqs : List MintReq) (now id : Nat) :
    LogStored (l ++ reqs.mapIdx fun k r => mintTx now (id + k) r) := by
  refine h.append fun r hr a b hab => ?_
  obtain ⟨i, hi, rfl⟩ := List.mem_mapIdx.1 hr
  cases hab

private theorem micro_stored {E : Env H} {m : Msg} {s s' : State H} (h : Micro E m s s')
    (hp : TableOk s.mdata ∧ LogStored s.log) : TableOk s'.mdata ∧ LogStored s'.log := by
  constructor
  · rcases micro_mdata h with h | ⟨_, _, _, _, h⟩ | ⟨_, _, _, _, _, _, _, h⟩
    · rw [h]; exact hp.1
    · exact mintMetadata_ok _ hp.1 h
    · exact replaceMetadata_ok hp.1 h
  · have hp1 := hp.1
    replace hp := hp.2
    cases h with
    | xfer => exact hp.one (by simp [transferTx])
    | xferFrom => exact hp.one (by simp [transferFromTx])
    | approve => exact hp.one (by simp [approveTx])
    | approveColl => exact hp.one (by simp [approveCollTx])
    | revokeTok => exact hp.one (by simp [revokeTx])
    | revokeColl => exact hp.one (by simp [revokeCollTx])
    | burn => exact hp.one (by simp [burnTx])
    | mint => rw [mintInsert_eq]; exact hp.mints _ _ _
    | mintCut => exact hp.mints _ _ _
    | updateMeta tid kvs token md h i perm free tok hmd =>
      refine hp.one fun a b hab e he => ?_
      simp only [updateTx, Option.some.injEq, Prod.mk.injEq] at hab
      obtain ⟨rfl, rfl⟩ := hab
      rcases List.mem_append.1 he with he | he
      · exact row_ok hp1 tid he
      · exact row_ok (replaceMetadata_ok hp1 hmd) tid he
    | @resume _ now i ans p hp' =>
      obtain ⟨_, _, _, _, he⟩ := resumeBody_eq E { s with pending := s.pending.eraseIdx i } now p ans
      rw [he]; exact hp
    | _ => exact hp

theorem Reachable.stored {E : Env H} {s : State H} (hr : Reachable E s) :
    TableOk s.mdata ∧ ∀ r ∈ s.log, ∀ a b, r.meta_ = some (a, b) → ∀ e ∈ a ++ b, Storable e.2 :=
  hr.induct (P := fun s => TableOk s.mdata ∧ LogStored s.log)
    (by
      intro v hid c a s₀ h0
      rw [init_eq h0]
      exact ⟨fun tid r h => by simp at h, fun r hr => by cases hr⟩)
    (fun m s s' hp hm => micro_stored hm hp)

/-- What `icrc7_token_metadata` shows of a token is storable. -/
theorem Reachable.shownStored {E : Env H} {s : State H} (hr : Reachable E s) {tid : Nat} {l : List (String × Value)}
    (hl : Shown s tid l) : ∀ e ∈ l, Storable e.2 := by
  obtain ⟨_, rfl⟩ := (shown_iff hr.tokInv).1 hl
  intro e he
  rw [← getAllData_eq] at he
  exact row_ok hr.stored.1 tid he

end Verif
