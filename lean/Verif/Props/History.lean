import Verif.Spec.History
import Verif.Props.Metadata
import Verif.Props.Ownership
/-!
# The metadata versions of a token in the log (C91)
-/
namespace Verif

open Spec

variable {H : Type}

private theorem versions_append (l l' : List Tx) (tid : Nat) : versions (l ++ l') tid = versions l tid ++ versions l' tid := by
  simp [versions]

private theorem versions_nil {l : List Tx} {tid : Nat} (h : ∀ r ∈ l, r.op ≠ .updateToken ∨ r.tid ≠ some tid) :
    versions l tid = [] := by
  unfold versions
  rw [List.filterMap_eq_nil_iff]
  intro r hr
  rw [if_neg]
  rintro ⟨h1, h2⟩
  rcases h r hr with h | h
  · exact h h1
  · exact h h2

/-- Only an update of the token adds to its versions. -/
private theorem micro_versions {E : Env H} {m : Msg} {s s' : State H} (h : Micro E m s s') {tid : Nat}
    (hm : (∀ c now kvs, m ≠ .call c now (.updateNftMetadata tid kvs)) ∨ s.tokens.get tid = none) :
    versions s'.log tid = versions s.log tid := by
  have one : ∀ {r : Tx}, r.op ≠ .updateToken ∨ r.tid ≠ some tid → versions (s.log ++ [r]) tid = versions s.log tid := by
    intro r hr
    rw [versions_append, versions_nil (l := [r]) (by intro x hx; rw [List.mem_singleton] at hx; subst hx; exact hr),
      List.append_nil]
  have many : ∀ {rs : List Tx}, (∀ r ∈ rs, r.op = .mint) → versions (s.log ++ rs) tid = versions s.log tid := by
    intro rs hr
    rw [versions_append, versions_nil (l := rs) (fun x hx => .inl (by rw [hr x hx]; decide)), List.append_nil]
  have mints : ∀ (reqs : List MintReq) now, ∀ r ∈ reqs.mapIdx fun k r => mintTx now (s.lastId + k) r, r.op = .mint := by
    intro reqs now r hr
    obtain ⟨i, hi, rfl⟩ := List.mem_mapIdx.1 hr
    rfl
  cases h with
  | xfer => exact one (.inl (by simp [transferTx]))
  | xferFrom => exact one (.inl (by simp [transferFromTx]))
  | approve => exact one (.inl (by simp [approveTx]))
  | approveColl => exact one (.inl (by simp [approveCollTx]))
  | revokeTok => exact one (.inl (by simp [revokeTx]))
  | revokeColl => exact one (.inl (by simp [revokeCollTx]))
  | mint => rw [mintInsert_eq]; exact many (mints _ _)
  | mintCut => exact many (mints _ _)
  | burn => exact one (.inl (by simp [burnTx]))
  | updateMeta tid' kvs token md h i perm free tok =>
    refine one (.inr ?_)
    intro h
    cases h
    rcases hm with hm | hm
    · exact hm _ _ _ rfl
    · rw [hm] at tok; cases tok
  | @resume _ now i ans p hp =>
    obtain ⟨_, _, _, _, he⟩ := resumeBody_eq E { s with pending := s.pending.eraseIdx i } now p ans
    rw [he]; rfl
  | _ => rfl

private theorem step_versions {E : Env H} {m : Msg} (s : State H) {tid : Nat}
    (hm : ∀ c now kvs, m ≠ .call c now (.updateNftMetadata tid kvs)) :
    versions (step E s m).1.log tid = versions s.log tid :=
  Steps.induct (P := fun t => versions t.log tid = versions s.log tid)
    (fun _ _ h1 h2 => (micro_versions h2 (.inl hm)).trans h1) (step_steps E s m) rfl

/-- What one message does to the versions of a token and to what it shows. -/
private theorem step_leads {E : Env H} {s : State H} (hr : Reachable E s) {tid : Nat} (m : Msg)
    (hrec : (∃ c now kvs, m = .call c now (.updateNftMetadata tid kvs)) →
      (step E s m).2 ≠ .mgmt (.error .storageCanisterError)) :
    (versions (step E s m).1.log tid = versions s.log tid ∧
      ∀ l, Shown s tid l → Owner (step E s m).1 tid ≠ none → Shown (step E s m).1 tid l) ∨
    ∃ a b, Shown s tid a ∧ Shown (step E s m).1 tid b ∧ versions (step E s m).1.log tid = versions s.log tid ++ [(a, b)] := by
  by_cases hm : ∃ c now kvs, m = .call c now (.updateNftMetadata tid kvs)
  · have hne := hrec hm
    obtain ⟨c, now, kvs, rfl⟩ := hm
    by_cases hok : ∃ ok, (step E s (.call c now (.updateNftMetadata tid kvs))).2 = .mgmt (.ok ok)
    · obtain ⟨ok, hok⟩ := hok
      obtain ⟨_, a, b, ha, hb, hl⟩ := C61_recorded E hr (c := c) (now := now) (tid := tid) (kvs := kvs) (ok := ok)
        (s' := (step E s (.call c now (.updateNftMetadata tid kvs))).1) (by rw [← hok])
      refine .inr ⟨a, b, ha, hb, ?_⟩
      rw [hl, versions_append]
      simp [versions]
    · have := C35_refused_partial E s (c := c) (now := now) (tid := tid) (kvs := kvs)
        (fun ok h => hok ⟨ok, h⟩) hne
      rw [this]
      exact .inl ⟨rfl, fun l hl _ => hl⟩
  · have hm' : ∀ c now kvs, m ≠ .call c now (.updateNftMetadata tid kvs) := fun c now kvs h => hm ⟨c, now, kvs, h⟩
    refine .inl ⟨step_versions s hm', fun l hl ho => C35_frame E hr hm' hl ?_⟩
    cases h : Owner (step E s m).1 tid with
    | none => exact absurd h ho
    | some o => exact ⟨o, rfl⟩

/-- Ids above `lastId` are free and have no versions; ids below are not given out again. -/
private theorem steps_ids {E : Env H} {m : Msg} {s t : State H} (hi : TokInv s) (tid : Nat) (h : Steps E m s t) :
    TokInv t ∧ s.lastId ≤ t.lastId ∧ (tid < s.lastId → s.tokens.get tid = none → t.tokens.get tid = none) ∧
    (t.lastId ≤ tid → versions t.log tid = versions s.log tid) := by
  refine Steps.induct (P := fun t => TokInv t ∧ s.lastId ≤ t.lastId ∧
    (tid < s.lastId → s.tokens.get tid = none → t.tokens.get tid = none) ∧
    (t.lastId ≤ tid → versions t.log tid = versions s.log tid)) ?_ h ⟨hi, Nat.le_refl _, fun _ h => h, fun _ => rfl⟩
  rintro u u' ⟨hu, h1, h2, h3⟩ hmi
  have hle : u.lastId ≤ u'.lastId := by
    cases micro_own hu hmi with
    | same ht hb hl => rw [hl]; exact Nat.le_refl _
    | rewrite _ _ _ ht hb hl => rw [hl]; exact Nat.le_refl _
    | move _ _ _ _ _ _ _ ht hb hl => rw [hl]; exact Nat.le_refl _
    | mint _ _ _ _ _ _ _ ht hb hl => rw [hl]; omega
    | burn _ _ _ _ _ _ _ ht hb hl => rw [hl]; exact Nat.le_refl _
  have hfree : ∀ {v : State H}, TokInv v → v.lastId ≤ tid → v.tokens.get tid = none := by
    intro v hv hlt
    cases hg : v.tokens.get tid with
    | none => rfl
    | some x => have := hv.fresh _ _ hg; omega
  refine ⟨tokInv_micro hu hmi, Nat.le_trans h1 hle, ?_, ?_⟩
  · intro hlt hn
    have hn' := h2 hlt hn
    cases micro_own hu hmi with
    | same ht => rw [ht]; exact hn'
    | rewrite tid' x tok ht =>
      rw [ht, Map.get_set]
      split
      · rename_i he
        rw [beq_iff_eq] at he
        subst he
        rw [hn'] at tok; cases tok
      · exact hn'
    | move tid' nft to_ tx tok hid diff ht =>
      rw [ht, Map.get_set]
      split
      · rename_i he
        rw [beq_iff_eq] at he
        subst he
        rw [hn'] at tok; cases tok
      · exact hn'
    | mint c now reqs hm' perm cap hcfg ht =>
      rw [ht, insTok_get, dif_neg (by omega)]
      exact hn'
    | burn c now tid' t hm' tok own ht =>
      rw [ht, Map.get_del]
      split
      · rfl
      · exact hn'
  · intro hlt
    have hlt' := Nat.le_trans hle hlt
    exact (micro_versions hmi (.inr (hfree hu hlt'))).trans (h3 hlt')

private theorem fresh_versions {E : Env H} {s : State H} (hr : Reachable E s) {tid : Nat} (h : s.lastId ≤ tid) :
    versions s.log tid = [] := by
  obtain ⟨v, hid, c, a, s₀, ms, h0, rfl⟩ := hr
  have hr0 : ∀ ms', Reachable E (run E s₀ ms') := fun ms' => ⟨v, hid, c, a, s₀, ms', h0, rfl⟩
  have key : ∀ (ms : List Msg) (u : State H), Reachable E u → (u.lastId ≤ tid → versions u.log tid = []) →
      (run E u ms).lastId ≤ tid → versions (run E u ms).log tid = [] := by
    intro ms
    induction ms with
    | nil => intro u _ hu; exact hu
    | cons m ms ih =>
      intro u hru hu
      refine ih (step E u m).1 (hru.step m) fun hle => ?_
      obtain ⟨_, h1, _, h3⟩ := steps_ids hru.tokInv tid (step_steps E u m)
      rw [h3 hle]
      exact hu (Nat.le_trans h1 hle)
  refine key ms s₀ (hr0 []) (fun _ => ?_) h
  rw [init_eq h0]; rfl

private theorem shown_unique {s : State H} {tid : Nat} {l l'} (h : Shown s tid l) (h' : Shown s tid l') : l = l' := by
  unfold Shown at h h'
  rw [h] at h'
  exact Option.some.inj h'

private theorem shown_exists {s : State H} {tid : Nat} {l} (h : Shown s tid l) : ∃ o, Owner s tid = some o := by
  unfold Shown at h
  obtain ⟨t, ht, _⟩ := Option.map_eq_some_iff.1 h
  exact ⟨_, owner_of_get ht⟩

/-! ## C91 -/

/-- C91: whatever token `tid` shows at some time, the versions recorded from then on lead
from there to what it shows now, or showed last if it was burned since; with no versions
recorded it shows the same. The ledger refuses no update of the token. Missing: histories
with such refusals (`C91_violated_refused`). -/
theorem C91_versions_partial {E : Env H} {s : State H} (hr : Reachable E s) {tid : Nat} {l : List (String × Value)}
    (hl : Shown s tid l) {ms : List Msg} (hrec : UpdatesRecorded E tid s ms) :
    ∃ vs l', versions (run E s ms).log tid = versions s.log tid ++ vs ∧ Leads l vs l' ∧
      (Owner (run E s ms) tid ≠ none → Shown (run E s ms) tid l') := by
  have gone : ∀ {s : State H} (hr : Reachable E s), (∀ ms, Owner (run E s ms) tid = none) → ∀ ms, UpdatesRecorded E tid s ms →
      versions (run E s ms).log tid = versions s.log tid := by
    intro s hr hno ms
    induction ms generalizing s with
    | nil => intro _; rfl
    | cons m ms ih =>
      intro hrec
      have h1 := ih (hr.step m) (fun ms' => hno (m :: ms')) hrec.2
      rcases step_leads hr m hrec.1 with ⟨h2, _⟩ | ⟨a, b, ha, _⟩
      · exact h1.trans h2
      · obtain ⟨o, ho⟩ := shown_exists ha
        exact absurd ((hno []).symm.trans ho) (by simp)
  induction ms generalizing s l with
  | nil => exact ⟨[], l, by simp [run], rfl, fun _ => hl⟩
  | cons m ms ih =>
    rcases step_leads hr m hrec.1 with ⟨h2, h3⟩ | ⟨a, b, ha, hb, h2⟩
    · by_cases ho : Owner (step E s m).1 tid = none
      · obtain ⟨o, hos⟩ := shown_exists hl
        have hno : ∀ ms', Owner (run E (step E s m).1 ms') tid = none := fun ms' => C04_never_again hr hos [m] ms' ho
        refine ⟨[], l, ?_, rfl, fun h => absurd (hno ms) h⟩
        have := gone (hr.step m) hno ms hrec.2
        rw [List.append_nil]
        exact this.trans h2
      · obtain ⟨vs, l', h4, h5, h6⟩ := ih (hr.step m) (h3 l hl ho) hrec.2
        exact ⟨vs, l', h4.trans (by rw [h2]), h5, h6⟩
    · have := shown_unique ha hl
      subst this
      obtain ⟨vs, l', h4, h5, h6⟩ := ih (hr.step m) hb hrec.2
      exact ⟨(a, b) :: vs, l', h4.trans (by rw [h2]; simp), ⟨rfl, h5⟩, h6⟩

/-- C91: tokens that were just minted have no versions, nor has any later id. -/
theorem C91_fresh {E : Env H} {s s' : State H} (hr : Reachable E s) {c : Principal} {now first : Nat} {reqs : List MintReq}
    (h : step E s (.call c now (.mint reqs)) = (s', .mgmt (.ok (.id first)))) {tid : Nat} (hle : first ≤ tid) :
    versions s'.log tid = [] := by
  have hv : first = s.lastId := by
    obtain ⟨_, _, hv, _⟩ := mint_accepted h
    cases hv; rfl
  have h1 := step_versions (E := E) (m := .call c now (.mint reqs)) s (tid := tid) (fun _ _ _ h => nomatch h)
  rw [h] at h1
  exact h1.trans (fresh_versions hr (by omega))

/-- C91: the last version the log records for an existing token is the one it shows.
Again, the ledger refuses no update of the token. -/
theorem C91_last_partial {E : Env H} {v : String → Bool} {hid : H} {inst : Principal} {a : InitArgs}
    {s₀ : State H} (h0 : init v hid inst a = some s₀) {tid : Nat} {ms : List Msg} (hrec : UpdatesRecorded E tid s₀ ms)
    (ho : Owner (run E s₀ ms) tid ≠ none) {vs x y} (hv : versions (run E s₀ ms).log tid = vs ++ [(x, y)]) :
    Shown (run E s₀ ms) tid y := by
  have key : ∀ (ms : List Msg) (u : State H), Reachable E u → UpdatesRecorded E tid u ms →
      (Owner u tid ≠ none → ∀ vs x y, versions u.log tid = vs ++ [(x, y)] → Shown u tid y) →
      Owner (run E u ms) tid ≠ none → ∀ vs x y, versions (run E u ms).log tid = vs ++ [(x, y)] → Shown (run E u ms) tid y := by
    intro ms
    induction ms with
    | nil => intro u _ _ hu; exact hu
    | cons m ms ih =>
      intro u hru hrec hu
      refine ih (step E u m).1 (hru.step m) hrec.2 ?_
      intro ho vs x y hv
      rcases step_leads hru m hrec.1 with ⟨h2, h3⟩ | ⟨p, q, _, hq, h2⟩
      · by_cases hou : Owner u tid = none
        · exfalso
          obtain ⟨_, _, h4, _⟩ := steps_ids hru.tokInv tid (step_steps E u m)
          by_cases hlt : tid < u.lastId
          · refine ho ?_
            have : u.tokens.get tid = none := by
              cases hg : u.tokens.get tid with
              | none => rfl
              | some x => rw [owner_of_get hg] at hou; cases hou
            unfold Owner
            rw [h4 hlt this]; rfl
          · rw [h2, fresh_versions hru (Nat.le_of_not_lt hlt)] at hv
            exact absurd hv (by simp)
        · exact h3 y (hu hou vs x y (h2.symm.trans hv)) ho
      · rw [h2] at hv
        have := (List.append_inj' hv rfl).2
        cases this
        exact hq
  refine key ms s₀ ⟨v, hid, inst, a, s₀, [], h0, rfl⟩ hrec ?_ ho vs x y hv
  intro ho'
  rw [init_eq h0] at ho'
  exact absurd rfl ho'

namespace Versions

/-- Token 1 is changed, sent to bob and changed again; token 2 is changed in between. -/
def changes : List Msg :=
  [Demo.updMsg, Demo.sendMsg, .call Demo.admin (Demo.ms 300) (.updateNftMetadata 2 [("t", .text "two")]),
   .call Demo.admin (Demo.ms 400) (.updateNftMetadata 1 [("k", .nat 7)])]

/-- A ledger that refuses its fourth call only. -/
def once : Env Nat := ⟨⟨fun h _ => (h + 1, if h = 3 then .error .other else .ok h)⟩, [9], fun _ => "aaaaa-aa"⟩

end Versions

open Versions

/-- The versions of token 1 lead from what it was minted with to what it shows. -/
example : Shown Demo.s1 1 [("k", .nat 1)] ∧ UpdatesRecorded Demo.env 1 Demo.s1 changes ∧
    versions Demo.s1.log 1 = [] ∧
    versions (run Demo.env Demo.s1 changes).log 1 =
      [([("k", .nat 1)], [("j", .text "x"), ("k", .nat 6)]), ([("j", .text "x"), ("k", .nat 6)], [("k", .nat 7)])] ∧
    Shown (run Demo.env Demo.s1 changes) 1 [("k", .nat 7)] := by
  refine ⟨by rfl, ⟨fun _ h => ?_, fun _ h => ?_, fun _ h => ?_, fun _ h => ?_, trivial⟩, by rfl, by rfl, by rfl⟩ <;>
    exact nomatch h

example : ∃ s', step Demo.env Demo.s0 Demo.mintMsg = (s', .mgmt (.ok (.id 1))) ∧ UpdatesRecorded Demo.env 1 Demo.s0 [Demo.mintMsg] :=
  ⟨_, rfl, And.intro (fun h => by obtain ⟨_, _, _, h⟩ := h; exact nomatch h) trivial⟩

/-- C91 fails if the ledger refuses an update: token 1 was minted with `k = 1`, and the only
version in the log begins with the metadata of the update that was refused. -/
theorem C91_violated_refused :
    let s := run once Demo.s0 [Demo.mintMsg]
    let s' := run once s [Demo.updMsg, .call Demo.admin (Demo.ms 400) (.updateNftMetadata 1 [("k", .nat 7)])]
    Reachable once s ∧ Shown s 1 [("k", .nat 1)] ∧ versions s.log 1 = [] ∧
    versions s'.log 1 = [([("j", .text "x"), ("k", .nat 6)], [("k", .nat 7)])] :=
  ⟨⟨_, _, _, _, Demo.s0, _, Demo.s0_init, rfl⟩, by rfl, by rfl, by rfl⟩

/-- The log does not tell what a token was minted with: two mints that differ in the
metadata leave the same log. -/
theorem C91_violated_mint :
    let mint (k : Nat) : Msg := .call Demo.admin (Demo.ms 100) (.mint [{ owner := Demo.alice, metadata := [("k", .nat k)] }])
    let s := (step Demo.env Demo.s0 (mint 1)).1
    let s' := (step Demo.env Demo.s0 (mint 2)).1
    Reachable Demo.env s ∧ Reachable Demo.env s' ∧ s.log = s'.log ∧
    Shown s 1 [("k", .nat 1)] ∧ Shown s' 1 [("k", .nat 2)] :=
  ⟨Demo.reach [_], Demo.reach [_], by rfl, by rfl, by rfl⟩

end Verif
