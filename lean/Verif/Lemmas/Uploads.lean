import Verif.Lemmas.Pending
/-!
# The upload table, storage canisters and redirections
-/
namespace Verif

open Spec

variable {H : Type}

/-- What a suspended call remembers is still true. -/
def PendOk (s : State H) : Pending → Prop
  | .init _ path size subs => s.uploads.get path = none ∧ subs = s.subs ∧ size ≤ maxFileSize
  | .store _ key u => s.uploads.get key = some u ∧ u.state ≠ .finalized
  | .finalize _ key u => s.uploads.get key = some u ∧ u.state = .inProgress
  | .cancel _ key u => s.uploads.get key = some u ∧ u.state ≠ .finalized

/-- The upload table in reachable states. -/
structure UploadInv (s : State H) : Prop where
  nodup : s.uploads.NodupKeys
  path : ∀ k u, s.uploads.get k = some u → u.path = k
  subs : (s.subs.map SubCanister.id).Nodup
  store : ∀ k u, s.uploads.get k = some u → ∃ c, getSub s.subs u.canister = some c ∧ c.installed = true
  pend : ∀ p ∈ s.pending, PendOk s p

theorem uploadInv_of_eq {s s' : State H} (h : UploadInv s) (hu : s'.uploads = s.uploads) (hs : s'.subs = s.subs)
    (hp : s'.pending = s.pending ∨ s'.pending = []) : UploadInv s' := by
  refine ⟨hu ▸ h.nodup, hu ▸ h.path, hs ▸ h.subs, ?_, ?_⟩
  · rw [hu, hs]; exact h.store
  · intro p hp'
    rcases hp with e | e
    · rw [e] at hp'
      have := h.pend p hp'
      cases p <;> simpa [PendOk, hu, hs] using this
    · rw [e] at hp'; cases hp'

theorem containsPath_false {s : State H} (h : UploadInv s) {path : String}
    (hc : containsPath s.uploads path = false) : s.uploads.get path = none := by
  cases hg : s.uploads.get path with
  | none => rfl
  | some u =>
    obtain ⟨k, hk, hm⟩ := Map.mem_of_get hg
    have hp := h.path _ _ hg
    unfold containsPath at hc
    rw [List.any_eq_false] at hc
    exact absurd (by simpa using hp) (hc _ hm)

theorem containsPath_true {s : State H} (h : UploadInv s) {path : String}
    (hc : containsPath s.uploads path = true) : ∃ u, s.uploads.get path = some u := by
  unfold containsPath at hc
  rw [List.any_eq_true] at hc
  obtain ⟨⟨k, u⟩, hm, hp⟩ := hc
  have hg := Map.get_of_mem h.nodup hm
  have := h.path _ _ hg
  simp at hp
  exact ⟨u, by rw [← hp, this]; exact hg⟩

theorem getSub_mem {subs : List SubCanister} {id : Principal} {c : SubCanister} (h : getSub subs id = some c) :
    c ∈ subs ∧ c.id = id := by
  unfold getSub at h
  exact ⟨List.mem_of_find?_eq_some h, by simpa using List.find?_some h⟩

theorem getSub_of_mem {subs : List SubCanister} (hn : (subs.map SubCanister.id).Nodup) {c : SubCanister}
    (h : c ∈ subs) : getSub subs c.id = some c := by
  induction subs with
  | nil => cases h
  | cons x xs ih =>
    simp at hn
    rcases List.mem_cons.1 h with rfl | h
    · simp [getSub]
    · have hne : x.id ≠ c.id := fun he => hn.1 c h he.symm
      have := ih hn.2 h
      unfold getSub at this ⊢
      rw [List.find?_cons_of_neg (by simpa using hne)]
      exact this

/-- A storage canister without room for the file, or that does not accept it. -/
def Refuses (ans : Answer) (size : Nat) (x : SubCanister) : Prop :=
  ∀ used, ans.sizeOf x.id = some used → (used + size) % 340282366920938463463374607431768211456 ≤ maxStorageSize →
    ans.initOk x.id = false

/-- The first of a list of storage canisters that has room and accepts. -/
theorem pickStorage_some {ans : Answer} {size : Nat} {l : List SubCanister} {id : Principal}
    (h : pickStorage ans size l = some id) :
    ∃ pre c post used, l = pre ++ c :: post ∧ c.id = id ∧ ans.sizeOf id = some used ∧
      (used + size) % 340282366920938463463374607431768211456 ≤ maxStorageSize ∧ ans.initOk id = true ∧
      ∀ x ∈ pre, Refuses ans size x := by
  induction l with
  | nil => cases h
  | cons c cs ih =>
    unfold pickStorage at h
    have skip (h : pickStorage ans size cs = some id) (hc : Refuses ans size c) :
        ∃ pre x post used, c :: cs = pre ++ x :: post ∧ x.id = id ∧ ans.sizeOf id = some used ∧
          (used + size) % 340282366920938463463374607431768211456 ≤ maxStorageSize ∧ ans.initOk id = true ∧
          ∀ x ∈ pre, Refuses ans size x := by
      obtain ⟨pre, x, post, used, h1, h2, h3, h4, h5, h6⟩ := ih h
      refine ⟨c :: pre, x, post, used, by rw [h1]; rfl, h2, h3, h4, h5, ?_⟩
      intro y hy
      rcases List.mem_cons.1 hy with rfl | hy
      · exact hc
      · exact h6 y hy
    split at h
    · rename_i hs
      exact skip h (fun used hu => by rw [hs] at hu; cases hu)
    · rename_i used hs
      split at h
      · rename_i hc
        injection h with h
        simp at hc
        subst h
        exact ⟨[], c, cs, used, rfl, rfl, hs, hc.1, hc.2, fun x hx => by cases hx⟩
      · rename_i hc
        refine skip h (fun used' hu hle => ?_)
        rw [hs] at hu
        cases hu
        simp at hc
        exact hc hle

theorem pickStorage_none {ans : Answer} {size : Nat} {l : List SubCanister}
    (h : pickStorage ans size l = none) :
    ∀ x ∈ l, Refuses ans size x := by
  induction l with
  | nil => intro x hx; cases hx
  | cons c cs ih =>
    unfold pickStorage at h
    have skip (h : pickStorage ans size cs = none) (hc : Refuses ans size c) : ∀ x ∈ c :: cs, Refuses ans size x := by
      intro x hx
      rcases List.mem_cons.1 hx with rfl | hx
      · exact hc
      · exact ih h x hx
    split at h
    · rename_i hs
      exact skip h (fun used hu => by rw [hs] at hu; cases hu)
    · rename_i used hs
      split at h
      · cases h
      · rename_i hc
        refine skip h (fun used' hu hle => ?_)
        rw [hs] at hu
        cases hu
        simp at hc
        exact hc hle

/-- The outcome of placing a file keeps every known storage canister, and the
chosen one is installed. -/
theorem managerInitUpload_subs {ans : Answer} {subs subs' : List SubCanister} {size : Nat} {id : Principal}
    (hn : (subs.map SubCanister.id).Nodup) (h : managerInitUpload ans subs size = some (subs', id)) :
    (subs'.map SubCanister.id).Nodup ∧ (∃ c, getSub subs' id = some c ∧ c.installed = true) ∧
    ∀ i c, getSub subs i = some c → c.installed = true → ∃ c', getSub subs' i = some c' ∧ c'.installed = true := by
  unfold managerInitUpload at h
  split at h
  · rename_i id' hp
    simp at h
    obtain ⟨rfl, rfl⟩ := h
    obtain ⟨pre, c, post, used, hl, hid, _⟩ := pickStorage_some hp
    have hmem : c ∈ (ans.walk subs).filter (·.installed) := by rw [hl]; simp
    rw [List.mem_filter] at hmem
    have hm : c ∈ subs := (ans.walk_perm subs).mem_iff.1 hmem.1
    refine ⟨hn, ⟨c, ?_, hmem.2⟩, fun i c h h' => ⟨c, h, h'⟩⟩
    rw [← hid]
    exact getSub_of_mem hn hm
  · split at h
    · cases h
    · rename_i c hc
      split at h
      · rename_i hi
        simp at h hi
        obtain ⟨rfl, rfl⟩ := h
        have hn' : ((subs.filter (fun x => decide (x.id ≠ c.id)) ++ [c]).map SubCanister.id).Nodup := by
          rw [List.map_append, List.nodup_append]
          refine ⟨hn.sublist (List.filter_sublist.map _), by simp, ?_⟩
          intro a ha b hb
          simp at ha hb
          obtain ⟨x, ⟨_, hx⟩, rfl⟩ := ha
          rw [hb]
          exact hx
        refine ⟨by simpa using hn', ⟨c, ?_, hi.1⟩, ?_⟩
        · simpa using getSub_of_mem hn' (c := c) (by simp)
        · intro i x hx hxi
          obtain ⟨hm, hid⟩ := getSub_mem hx
          by_cases he : x.id = c.id
          · refine ⟨c, ?_, hi.1⟩
            rw [← hid, he]
            simpa using getSub_of_mem hn' (c := c) (by simp)
          · refine ⟨x, ?_, hxi⟩
            rw [← hid]
            simpa using getSub_of_mem hn' (c := x) (by simp [hm, he])
      · cases h

/-- What the arrival of an answer does, and to which upload. -/
inductive ResumeOut (E : Env H) (s : State H) (now : Nat) (ans : Answer) : Pending → State H → Prop
  | same (p : Pending) : ResumeOut E s now ans p s
  | init (c : Principal) (k : String) (size : Nat) (subs subs' : List SubCanister) (id : Principal)
      (hp : managerInitUpload ans subs size = some (subs', id)) :
      ResumeOut E s now ans (.init c k size subs)
        { s with subs := subs',
                 uploads := s.uploads.set k { initTs := now, state := .init, canister := id, path := k } }
  | store (c : Principal) (k : String) (u : Upload) (hok : ans.resp = .ok ()) :
      ResumeOut E s now ans (.store c k u) { s with uploads := s.uploads.set k { u with state := .inProgress } }
  | finalize (c : Principal) (k : String) (u : Upload) (hok : ans.resp = .ok ()) :
      ResumeOut E s now ans (.finalize c k u)
        { s with router := s.router.set (mediaPath u.path) (mediaUrl E u.canister (mediaPath u.path)),
                 redirects := s.redirects.set (mediaPath u.path) (mediaUrl E u.canister (mediaPath u.path)),
                 uploads := s.uploads.set k { u with state := .finalized } }
  | cancel (c : Principal) (k : String) (u : Upload) (hok : ans.resp = .ok ()) :
      ResumeOut E s now ans (.cancel c k u) { s with uploads := s.uploads.del k }

theorem resumeBody_out (E : Env H) (s : State H) (now : Nat) (p : Pending) (ans : Answer) :
    ResumeOut E s now ans p (resumeBody E s now p ans).1 := by
  cases p with
  | init c k size subs =>
    simp only [resumeBody]
    split
    · exact .same _
    · rename_i subs' id hp
      exact .init c k size subs subs' id hp
  | store c k u =>
    simp only [resumeBody]
    split
    · exact .same _
    · rename_i hp
      exact .store c k u hp
  | finalize c k u =>
    simp only [resumeBody]
    split
    · exact .same _
    · rename_i hp
      exact .finalize c k u hp
  | cancel c k u =>
    simp only [resumeBody]
    split
    · exact .same _
    · rename_i hp
      exact .cancel c k u hp

theorem pendOk_congr {s s' : State H} (hu : s'.uploads = s.uploads) (hs : s'.subs = s.subs) {p : Pending} :
    PendOk s' p ↔ PendOk s p := by
  cases p <;> simp [PendOk, hu, hs]

theorem uploadInv_micro {E : Env H} {m : Msg} {s s' : State H} (hi : PendInv s) (h : UploadInv s)
    (hm : Micro E m s s') : UploadInv s' := by
  cases hm with
  | mint reqs md h' perm free batch cap memos hmd => rw [mintInsert_eq]; exact uploadInv_of_eq h rfl rfl (.inl rfl)
  | @suspend _ c now call p perm free hp hcall =>
    refine ⟨h.nodup, h.path, h.subs, h.store, ?_⟩
    intro q hq
    refine (pendOk_congr (s := s) rfl rfl).2 ?_
    rcases List.mem_append.1 hq with hq | hq
    · exact h.pend q hq
    · simp at hq
      subst hq
      rcases hcall with ⟨path, size, _, hc, hsz, rfl⟩ | ⟨k, u, _, hg, hst, rfl⟩ | ⟨k, u, _, hg, hst, rfl⟩ |
        ⟨k, u, _, hg, hst, rfl⟩
      · exact ⟨containsPath_false h hc, rfl, hsz⟩
      · exact ⟨hg, hst⟩
      · exact ⟨hg, hst⟩
      · exact ⟨hg, hst⟩
  | dropUpload key u perm free hu hst hgone hcall =>
    obtain ⟨c, hc, _⟩ := h.store _ _ hu
    rw [hgone] at hc; cases hc
  | @resume _ now i ans p hp =>
    have hout := resumeBody_out E { s with pending := s.pending.eraseIdx i } now p ans
    have hok := h.pend p (List.mem_of_getElem? hp)
    have hpe : s.pending.eraseIdx i = [] := (hi.leave hp).1
    rw [hpe] at hout ⊢
    generalize (resumeBody E { s with pending := [] } now p ans).1 = t at hout
    unfold guardLeave
    cases hout with
    | same => exact uploadInv_of_eq h rfl rfl (.inr rfl)
    | init c k size subs subs' id hpl =>
      obtain ⟨hnone, rfl, hsz⟩ := hok
      obtain ⟨h1, ⟨cc, h2, h3⟩, h4⟩ := managerInitUpload_subs h.subs hpl
      refine ⟨Map.nodup_set h.nodup _ _, ?_, h1, ?_, fun q hq => by cases hq⟩
      · intro k' u' hg
        simp only [Map.get_set] at hg
        split at hg
        · rename_i hk; injection hg with hg; rw [← hg]; simpa using hk
        · exact h.path _ _ hg
      · intro k' u' hg
        simp only [Map.get_set] at hg
        split at hg
        · injection hg with hg; rw [← hg]; exact ⟨cc, h2, h3⟩
        · obtain ⟨c0, hc0, hc1⟩ := h.store _ _ hg
          exact h4 _ _ hc0 hc1
    | store c k u hok' =>
      refine ⟨Map.nodup_set h.nodup _ _, ?_, h.subs, ?_, fun q hq => by cases hq⟩
      · intro k' u' hg
        simp only [Map.get_set] at hg
        split at hg
        · rename_i hk; injection hg with hg; rw [← hg]; have := h.path _ _ hok.1; simpa [this] using hk
        · exact h.path _ _ hg
      · intro k' u' hg
        simp only [Map.get_set] at hg
        split at hg
        · injection hg with hg; rw [← hg]; exact h.store k u hok.1
        · exact h.store _ _ hg
    | finalize c k u hok' =>
      refine ⟨Map.nodup_set h.nodup _ _, ?_, h.subs, ?_, fun q hq => by cases hq⟩
      · intro k' u' hg
        simp only [Map.get_set] at hg
        split at hg
        · rename_i hk; injection hg with hg; rw [← hg]; have := h.path _ _ hok.1; simpa [this] using hk
        · exact h.path _ _ hg
      · intro k' u' hg
        simp only [Map.get_set] at hg
        split at hg
        · injection hg with hg; rw [← hg]; exact h.store k u hok.1
        · exact h.store _ _ hg
    | cancel c k u hok' =>
      refine ⟨Map.nodup_del h.nodup _, ?_, h.subs, ?_, fun q hq => by cases hq⟩
      · intro k' u' hg
        simp only [Map.get_del] at hg
        split at hg
        · cases hg
        · exact h.path _ _ hg
      · intro k' u' hg
        simp only [Map.get_del] at hg
        split at hg
        · cases hg
        · exact h.store _ _ hg
  | @resumeTrap _ i p hp =>
    refine uploadInv_of_eq h rfl rfl (.inr ?_)
    simp [guardLeave, (hi.leave hp).1]
  | upgrade => exact uploadInv_of_eq h rfl rfl (.inr rfl)
  | _ => exact uploadInv_of_eq h rfl rfl (.inl rfl)

theorem Reachable.uploadInv {E : Env H} {s : State H} (h : Reachable E s) : UploadInv s := by
  have : PendInv s ∧ UploadInv s := h.induct (P := fun s => PendInv s ∧ UploadInv s)
    (fun _ _ _ _ _ h0 => ⟨pendInv_init h0, by
      rw [init_eq h0]
      exact ⟨Map.nodup_empty, nofun, by simp, nofun, nofun⟩⟩)
    (fun _ _ _ hp hm => ⟨pendInv_micro hp.1 hm, uploadInv_micro hp.1 hp.2 hm⟩)
  exact this.2

/-- How one upload entry changes in one elementary effect. -/
inductive UploadEff (m : Msg) (s s' : State H) (k : String) : Prop
  | same (h : s'.uploads.get k = s.uploads.get k)
  | init (now i : Nat) (ans : Answer) (c : Principal) (size : Nat) (id : Principal) (hm : m = .resume now i ans)
      (hp : s.pending[i]? = some (.init c k size s.subs)) (before : s.uploads.get k = none)
      (after : s'.uploads.get k = some { initTs := now, state := .init, canister := id, path := k })
  | store (now i : Nat) (ans : Answer) (c : Principal) (u : Upload) (hm : m = .resume now i ans)
      (hp : s.pending[i]? = some (.store c k u)) (ok : ans.resp = .ok ())
      (before : s.uploads.get k = some u) (hst : u.state ≠ .finalized)
      (after : s'.uploads.get k = some { u with state := .inProgress })
  | finalize (now i : Nat) (ans : Answer) (c : Principal) (u : Upload) (hm : m = .resume now i ans)
      (hp : s.pending[i]? = some (.finalize c k u)) (ok : ans.resp = .ok ())
      (before : s.uploads.get k = some u) (hst : u.state = .inProgress)
      (after : s'.uploads.get k = some { u with state := .finalized })
  | cancel (now i : Nat) (ans : Answer) (c : Principal) (u : Upload) (hm : m = .resume now i ans)
      (hp : s.pending[i]? = some (.cancel c k u)) (ok : ans.resp = .ok ())
      (before : s.uploads.get k = some u) (hst : u.state ≠ .finalized)
      (after : s'.uploads.get k = none)

theorem micro_upload {E : Env H} {m : Msg} {s s' : State H} (h : UploadInv s)
    (hm : Micro E m s s') (k : String) : UploadEff m s s' k := by
  cases hm with
  | mint reqs md h' perm free batch cap memos hmd => rw [mintInsert_eq]; exact .same rfl
  | dropUpload key u perm free hu hst hgone hcall =>
    obtain ⟨c, hc, _⟩ := h.store _ _ hu
    rw [hgone] at hc; cases hc
  | @resume _ now i ans p hp =>
    have hout := resumeBody_out E { s with pending := s.pending.eraseIdx i } now p ans
    have hok := h.pend p (List.mem_of_getElem? hp)
    generalize (resumeBody E { s with pending := s.pending.eraseIdx i } now p ans).1 = t at hout
    unfold guardLeave
    cases hout with
    | same => exact .same rfl
    | init c k' size subs subs' id hpl =>
      obtain ⟨hnone, rfl, hsz⟩ := hok
      by_cases hk : (k' == k) = true
      · have : k' = k := by simpa using hk
        subst this
        exact .init now i ans c size id rfl hp hnone (by simp)
      · exact .same (by simp only [Map.get_set, hk]; rfl)
    | store c k' u hok' =>
      by_cases hk : (k' == k) = true
      · have : k' = k := by simpa using hk
        subst this
        exact .store now i ans c u rfl hp hok' hok.1 hok.2 (by simp)
      · exact .same (by simp only [Map.get_set, hk]; rfl)
    | finalize c k' u hok' =>
      by_cases hk : (k' == k) = true
      · have : k' = k := by simpa using hk
        subst this
        exact .finalize now i ans c u rfl hp hok' hok.1 hok.2 (by simp)
      · exact .same (by simp only [Map.get_set, hk]; rfl)
    | cancel c k' u hok' =>
      by_cases hk : (k' == k) = true
      · have : k' = k := by simpa using hk
        subst this
        exact .cancel now i ans c u rfl hp hok' hok.1 hok.2 (by simp)
      · exact .same (by simp only [Map.get_del, hk]; rfl)
  | _ => exact .same rfl

/-- The same for a whole message: at most one entry is touched, at most once. -/
theorem step_upload {E : Env H} {s : State H} (hr : Reachable E s) (m : Msg) (k : String) :
    UploadEff m s (step E s m).1 k := by
  have hinv := hr.uploadInv
  cases m with
  | resume now i ans =>
    simp only [step]
    split
    · exact .same rfl
    · rename_i p hp
      exact micro_upload hinv (.resume p hp) k
  | resumeTrap i =>
    simp only [step]
    split
    · exact .same rfl
    · exact .same rfl
  | upgrade => exact .same rfl
  | call c now call =>
    have : (step E s (.call c now call)).1.uploads.get k = s.uploads.get k :=
      ((step_steps E s (.call c now call)).induct
        (P := fun t => (PendInv t ∧ UploadInv t) ∧ t.uploads.get k = s.uploads.get k)
        (hp := ⟨⟨hr.pendInv, hinv⟩, rfl⟩)
        (hmicro := by
          rintro t t' ⟨⟨h1, h2⟩, h3⟩ hm
          refine ⟨⟨pendInv_micro h1 hm, uploadInv_micro h1 h2 hm⟩, ?_⟩
          cases micro_upload h2 hm k with
          | same h => rw [h, h3]
          | init _ _ _ _ _ _ hm' => cases hm'
          | store _ _ _ _ _ hm' => cases hm'
          | finalize _ _ _ _ _ hm' => cases hm'
          | cancel _ _ _ _ _ hm' => cases hm')).2
    exact .same this

end Verif
