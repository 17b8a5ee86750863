import Verif.Lemmas.Uploads
import Verif.Spec.Traffic
/-!
# Requests to storage canisters
-/
namespace Verif

open Spec

variable {H : Type}

theorem retryFrom_spec {α : Type} {out : Nat → Option α} : ∀ (fuel k : Nat),
    (retryFrom out fuel k).1 ≤ fuel ∧ (∀ j, j + 1 < (retryFrom out fuel k).1 → out (k + j) = none) ∧
    (∀ a, (retryFrom out fuel k).2 = some a → ∃ n, (retryFrom out fuel k).1 = n + 1 ∧ out (k + n) = some a) ∧
    ((retryFrom out fuel k).2 = none → (retryFrom out fuel k).1 = fuel ∧ ∀ j, j < fuel → out (k + j) = none) := by
  intro fuel
  induction fuel with
  | zero =>
    intro k
    refine ⟨Nat.le_refl _, ?_, ?_, ?_⟩
    · intro j hj; simp [retryFrom] at hj
    · intro a h; simp [retryFrom] at h
    · intro _; exact ⟨rfl, fun j hj => by omega⟩
  | succ fuel ih =>
    intro k
    obtain ⟨i1, i2, i3, i4⟩ := ih (k + 1)
    cases ho : out k with
    | some a =>
      have e : retryFrom out (fuel + 1) k = (1, some a) := by simp [retryFrom, ho]
      rw [e]
      refine ⟨by simp, fun j hj => by simp at hj, ?_, fun h => by cases h⟩
      intro b hb
      exact ⟨0, rfl, by rw [Nat.add_zero, ho]; exact hb⟩
    | none =>
      have e : retryFrom out (fuel + 1) k =
          ((retryFrom out fuel (k + 1)).1 + 1, (retryFrom out fuel (k + 1)).2) := by simp [retryFrom, ho]
      rw [e]
      refine ⟨by simpa using i1, ?_, ?_, ?_⟩
      · intro j hj
        simp only at hj
        cases j with
        | zero => simpa using ho
        | succ j => have := i2 j (by omega); rwa [show k + 1 + j = k + (j + 1) by omega] at this
      · intro b hb
        obtain ⟨n, h1, h2⟩ := i3 b hb
        exact ⟨n + 1, by simp [h1], by rwa [show k + 1 + n = k + (n + 1) by omega] at h2⟩
      · intro hn
        obtain ⟨h1, h2⟩ := i4 hn
        refine ⟨by simp [h1], fun j hj => ?_⟩
        cases j with
        | zero => simpa using ho
        | succ j => have := h2 j (by omega); rwa [show k + 1 + j = k + (j + 1) by omega] at this

theorem retry_attempts {α : Type} (tries : Nat) (out : Nat → Option α) : Attempts tries out (retry tries out).1 := by
  obtain ⟨h1, h2, h3, h4⟩ := retryFrom_spec (out := out) tries 0
  simp only [Nat.zero_add] at h2 h3 h4
  refine ⟨h1, h2, fun hlt => ?_⟩
  unfold retry at hlt ⊢
  cases hr : (retryFrom out tries 0).2 with
  | none => have := (h4 hr).1; omega
  | some a =>
    obtain ⟨n, e, ho⟩ := h3 a hr
    exact ⟨n, e, by rw [ho]; simp⟩

theorem retry_some {α : Type} {tries : Nat} {out : Nat → Option α} {a : α} :
    (retry tries out).2 = some a ↔ ∃ k, k < tries ∧ (∀ j, j < k → out j = none) ∧ out k = some a := by
  obtain ⟨h1, h2, h3, h4⟩ := retryFrom_spec (out := out) tries 0
  simp only [Nat.zero_add] at h2 h3 h4
  unfold retry
  constructor
  · intro h
    obtain ⟨n, e, ho⟩ := h3 a h
    exact ⟨n, by omega, fun j hj => h2 j (by omega), ho⟩
  · rintro ⟨k, hk, hn, ho⟩
    cases hr : (retryFrom out tries 0).2 with
    | none => have := (h4 hr).2 k hk; rw [ho] at this; cases this
    | some b =>
      obtain ⟨n, e, hb⟩ := h3 b hr
      have : n = k := by
        rcases Nat.lt_trichotomy n k with h | h | h
        · rw [hn n h] at hb; cases hb
        · exact h
        · have := h2 k (by omega); rw [ho] at this; cases this
      subst this
      rw [← ho, hb]

theorem retry_pos {α : Type} {tries : Nat} {out : Nat → Option α} {a : α} (h : (retry tries out).2 = some a) :
    ∃ n, (retry tries out).1 = n + 1 := by
  obtain ⟨n, e, _⟩ := (retryFrom_spec (out := out) tries 0).2.2.1 a h
  exact ⟨n, e⟩

theorem consents_iff {tries : Nat} {out : Nat → Option (Except StorageErr Unit)} :
    consents (retry tries out).2 = true ↔ Consented tries out := by
  unfold Consented
  rw [← retry_some (a := Except.ok ())]
  cases (retry tries out).2 with
  | none => simp [consents]
  | some r =>
    cases r with
    | error e => simp [consents]
    | ok u => simp [consents]

theorem answer_resp {tries : Nat} {net : Net} : (net.answer tries).resp = .ok () ↔ Consented tries net.resp := by
  rw [← consents_iff]
  simp only [Net.answer]
  cases (retry tries net.resp).2 with
  | none => simp [consents]
  | some r => cases r with
    | error e => simp [consents]
    | ok u => simp [consents]

theorem consented_pos {tries : Nat} {out : Nat → Option (Except StorageErr Unit)} (h : Consented tries out) :
    ∃ n, (retry tries out).1 = n + 1 := retry_pos (retry_some.2 h)

/-- Nothing is lost by looking at the single attempts: every summary comes from some. -/
theorem answer_onto (ans : Answer) (tries : Nat) : ∃ net : Net, (net.answer (tries + 1)) = ans := by
  obtain ⟨walk, wp, sizeOf, initOk, created, newInitOk, resp⟩ := ans
  refine ⟨⟨walk, wp, fun p _ => sizeOf p, fun p _ => if initOk p then some (.ok ()) else none, created,
    fun _ => if newInitOk then some (.ok ()) else none, fun _ => some resp⟩, ?_⟩
  have hall {α : Type} (a : Option α) : ∀ n k, (retryFrom (fun _ => a) (n + 1) k).2 = a := by
    intro n
    induction n with
    | zero => intro k; cases a <;> simp [retryFrom]
    | succ n ih =>
      intro k
      cases a with
      | none => rw [retryFrom]; exact ih _
      | some a => simp [retryFrom]
  simp only [Net.answer, retry, hall]
  congr 1
  · funext p
    cases initOk p <;> simp [consents]
  · cases newInitOk <;> simp [consents]

/-- The search for a place that ends at a canister of the table. -/
theorem place_some {tries : Nat} {net : Net} {a : UploadArgs} {size : Nat} {id : Principal} :
    ∀ (l : List SubCanister), (l.map SubCanister.id).Nodup → pickStorage (net.answer tries) size l = some id →
    (∃ c ∈ l, c.id = id) ∧ Consented tries (net.init id) ∧
    ∃ pre, placeTraffic tries net a size l = pre ++ List.replicate (retry tries (net.init id)).1 (id, .upload a) ∧
      ∀ q ∈ pre, (∃ c ∈ l, c.id = q.1) ∧
        (q.2 = .size ∨ (q.2 = .upload a ∧ q.1 ≠ id ∧ ¬ Consented tries (net.init q.1))) := by
  intro l
  induction l with
  | nil => intro _ h; cases h
  | cons c cs ih =>
    intro hn h
    rw [List.map_cons, List.nodup_cons] at hn
    unfold pickStorage at h
    have skip (h : pickStorage (net.answer tries) size cs = some id)
        (asked : List (Principal × StorageReq))
        (hasked : ∀ q ∈ asked, q = (c.id, .size) ∨ (q = (c.id, .upload a) ∧ ¬ Consented tries (net.init c.id)))
        (htr : placeTraffic tries net a size (c :: cs) = asked ++ placeTraffic tries net a size cs) :
        (∃ x ∈ c :: cs, x.id = id) ∧ Consented tries (net.init id) ∧
        ∃ pre, placeTraffic tries net a size (c :: cs) =
            pre ++ List.replicate (retry tries (net.init id)).1 (id, .upload a) ∧
          ∀ q ∈ pre, (∃ x ∈ c :: cs, x.id = q.1) ∧
            (q.2 = .size ∨ (q.2 = .upload a ∧ q.1 ≠ id ∧ ¬ Consented tries (net.init q.1))) := by
      obtain ⟨⟨x, hx, hid⟩, hc, pre, hp, hq⟩ := ih hn.2 h
      have hne : c.id ≠ id := fun he => hn.1 (by rw [he, ← hid]; exact List.mem_map_of_mem hx)
      refine ⟨⟨x, List.mem_cons_of_mem _ hx, hid⟩, hc, asked ++ pre, by rw [htr, hp, List.append_assoc], ?_⟩
      intro q hqm
      rcases List.mem_append.1 hqm with hqm | hqm
      · rcases hasked q hqm with rfl | ⟨rfl, hno⟩
        · exact ⟨⟨c, List.mem_cons_self, rfl⟩, .inl rfl⟩
        · exact ⟨⟨c, List.mem_cons_self, rfl⟩, .inr ⟨rfl, hne, hno⟩⟩
      · obtain ⟨⟨y, hy, hyq⟩, hk⟩ := hq q hqm
        exact ⟨⟨y, List.mem_cons_of_mem _ hy, hyq⟩, hk⟩
    have hrep {n : Nat} {x q : Principal × StorageReq} (hm : q ∈ List.replicate n x) : q = x :=
      (List.mem_replicate.1 hm).2
    cases hs : (retry tries (net.size c.id)).2 with
    | none =>
      rw [show (net.answer tries).sizeOf c.id = none from hs] at h
      refine skip h (List.replicate (retry tries (net.size c.id)).1 (c.id, .size)) (fun q hq => .inl (hrep hq)) ?_
      simp only [placeTraffic, hs]
    | some used =>
      rw [show (net.answer tries).sizeOf c.id = some used from hs] at h
      dsimp only at h
      by_cases hle : (used + size) % 340282366920938463463374607431768211456 ≤ maxStorageSize
      · by_cases hok : consents (retry tries (net.init c.id)).2 = true
        · have hi : (net.answer tries).initOk c.id = true := hok
          rw [if_pos (by simp [hle, hi])] at h
          obtain rfl := Option.some.inj h
          refine ⟨⟨c, List.mem_cons_self, rfl⟩, consents_iff.1 hok,
            List.replicate (retry tries (net.size c.id)).1 (c.id, .size), ?_, ?_⟩
          · simp only [placeTraffic, hs, if_pos hle, if_pos hok, List.append_nil]
          · intro q hq
            rw [hrep hq]
            exact ⟨⟨c, List.mem_cons_self, rfl⟩, .inl rfl⟩
        · have hi : (net.answer tries).initOk c.id = false := Bool.eq_false_iff.2 hok
          rw [if_neg (by simp [hi])] at h
          refine skip h (List.replicate (retry tries (net.size c.id)).1 (c.id, .size) ++
            List.replicate (retry tries (net.init c.id)).1 (c.id, .upload a)) ?_ ?_
          · intro q hq
            rcases List.mem_append.1 hq with hq | hq
            · exact .inl (hrep hq)
            · exact .inr ⟨hrep hq, fun hc => hok (consents_iff.2 hc)⟩
          · simp only [placeTraffic, hs, if_pos hle, if_neg hok, List.append_assoc]
      · rw [if_neg (by simp [hle])] at h
        refine skip h (List.replicate (retry tries (net.size c.id)).1 (c.id, .size)) (fun q hq => .inl (hrep hq)) ?_
        simp only [placeTraffic, hs, if_neg hle]

/-- The search through the table that finds nothing. -/
theorem place_none {tries : Nat} {net : Net} {a : UploadArgs} {size : Nat} :
    ∀ (l : List SubCanister), pickStorage (net.answer tries) size l = none →
    ∃ pre, placeTraffic tries net a size l = pre ++ newTraffic tries net a ∧
      ∀ q ∈ pre, (∃ c ∈ l, c.id = q.1) ∧
        (q.2 = .size ∨ (q.2 = .upload a ∧ ¬ Consented tries (net.init q.1))) := by
  intro l
  induction l with
  | nil => exact fun _ => ⟨[], rfl, fun q hq => by cases hq⟩
  | cons c cs ih =>
    intro h
    unfold pickStorage at h
    have skip (h : pickStorage (net.answer tries) size cs = none)
        (asked : List (Principal × StorageReq))
        (hasked : ∀ q ∈ asked, q = (c.id, .size) ∨ (q = (c.id, .upload a) ∧ ¬ Consented tries (net.init c.id)))
        (htr : placeTraffic tries net a size (c :: cs) = asked ++ placeTraffic tries net a size cs) :
        ∃ pre, placeTraffic tries net a size (c :: cs) = pre ++ newTraffic tries net a ∧
          ∀ q ∈ pre, (∃ x ∈ c :: cs, x.id = q.1) ∧
            (q.2 = .size ∨ (q.2 = .upload a ∧ ¬ Consented tries (net.init q.1))) := by
      obtain ⟨pre, hp, hq⟩ := ih h
      refine ⟨asked ++ pre, by rw [htr, hp, List.append_assoc], ?_⟩
      intro q hqm
      rcases List.mem_append.1 hqm with hqm | hqm
      · rcases hasked q hqm with rfl | ⟨rfl, hno⟩
        · exact ⟨⟨c, List.mem_cons_self, rfl⟩, .inl rfl⟩
        · exact ⟨⟨c, List.mem_cons_self, rfl⟩, .inr ⟨rfl, hno⟩⟩
      · obtain ⟨⟨y, hy, hyq⟩, hk⟩ := hq q hqm
        exact ⟨⟨y, List.mem_cons_of_mem _ hy, hyq⟩, hk⟩
    have hrep {n : Nat} {x q : Principal × StorageReq} (hm : q ∈ List.replicate n x) : q = x :=
      (List.mem_replicate.1 hm).2
    cases hs : (retry tries (net.size c.id)).2 with
    | none =>
      rw [show (net.answer tries).sizeOf c.id = none from hs] at h
      refine skip h (List.replicate (retry tries (net.size c.id)).1 (c.id, .size)) (fun q hq => .inl (hrep hq)) ?_
      simp only [placeTraffic, hs]
    | some used =>
      rw [show (net.answer tries).sizeOf c.id = some used from hs] at h
      dsimp only at h
      by_cases hle : (used + size) % 340282366920938463463374607431768211456 ≤ maxStorageSize
      · by_cases hok : consents (retry tries (net.init c.id)).2 = true
        · have hi : (net.answer tries).initOk c.id = true := hok
          rw [if_pos (by simp [hle, hi])] at h
          cases h
        · have hi : (net.answer tries).initOk c.id = false := Bool.eq_false_iff.2 hok
          rw [if_neg (by simp [hi])] at h
          refine skip h (List.replicate (retry tries (net.size c.id)).1 (c.id, .size) ++
            List.replicate (retry tries (net.init c.id)).1 (c.id, .upload a)) ?_ ?_
          · intro q hq
            rcases List.mem_append.1 hq with hq | hq
            · exact .inl (hrep hq)
            · exact .inr ⟨hrep hq, fun hc => hok (consents_iff.2 hc)⟩
          · simp only [placeTraffic, hs, if_pos hle, if_neg hok, List.append_assoc]
      · rw [if_neg (by simp [hle])] at h
        refine skip h (List.replicate (retry tries (net.size c.id)).1 (c.id, .size)) (fun q hq => .inl (hrep hq)) ?_
        simp only [placeTraffic, hs, if_neg hle]

/-- A suspended cancellation stems from a call. -/
theorem step_cancel_pending {E : Env H} {s : State H} {m : Msg} {c : Principal} {k : String} {u : Upload}
    (hp : Pending.cancel c k u ∈ (step E s m).1.pending) :
    Pending.cancel c k u ∈ s.pending ∨ ∃ now, m = .call c now (.cancelUpload k) := by
  have key := (step_steps E s m).induct
    (P := fun t => Pending.cancel c k u ∈ t.pending → Pending.cancel c k u ∈ s.pending ∨
      ∃ now, m = .call c now (.cancelUpload k))
    (hp := fun h => .inl h)
    (hmicro := by
      intro t t' ih hm hp'
      cases hm with
      | mint reqs md h' perm free batch cap memos hmd => rw [mintInsert_eq] at hp'; exact ih hp'
      | @suspend _ c' now call p perm free hcal hcall =>
        rcases List.mem_append.1 hp' with h | h
        · exact ih h
        · simp at h
          subst h
          rcases hcall with ⟨_, _, _, _, _, h⟩ | ⟨_, _, _, _, _, h⟩ | ⟨_, _, _, _, _, h⟩ | ⟨_, _, hc, _, _, h⟩
          · cases h
          · cases h
          · cases h
          · cases h; exact .inr ⟨now, by rw [hc]⟩
      | @resume _ now i ans p hp =>
        obtain ⟨_, _, _, _, he⟩ := resumeBody_eq E { t with pending := t.pending.eraseIdx i } now p ans
        rw [he] at hp'
        exact ih (List.mem_of_mem_eraseIdx hp')
      | @resumeTrap _ i p hp => exact ih (List.mem_of_mem_eraseIdx hp')
      | upgrade => cases hp'
      | _ => exact ih hp')
  exact key hp

end Verif
