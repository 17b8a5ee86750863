import Verif.Lemmas.Justified
import Verif.Props.Transfers
/-!
# C98: every record is justified by the records before it
-/
namespace Verif

open Spec

variable {H : Type}

/-! ## C98 The log justifies itself -/

/-- Every record is in order after the records before it, judged by those alone. Missing from
the full claim: if the ledger cut a mint short, its tokens are minted again later
(`C98_violated`). -/
theorem C98_justified_partial {E : Env H} {s : State H} (hr : Reachable E s) (before : List Tx) (r : Tx) (after : List Tx)
    (h : s.log = before ++ r :: after) : Justified before r ∨ Remint before r := by
  obtain ⟨T, hi⟩ := hr.logInv
  exact hi.sound before r after h

/-- Ids in the log have been handed out, and mints name new ones. -/
private def MintsNew (s : State H) : Prop :=
  (∀ t ∈ s.log, ∀ k, t.tid = some k → k < s.lastId) ∧
    Sound (fun b r => r.op = .mint → ∀ tid, r.tid = some tid → ∀ t ∈ b, t.tid ≠ some tid) s.log

private theorem mintsNew_step {E : Env H} {s : State H} {m : Msg} {T : Nat} (hT : UpTo T [m]) (hi : LogInv T s) (hn : MintsNew s)
    (hc : ∀ c now reqs, m = .call c now (.mint reqs) → (step E s m).2 ≠ .mgmt (.error .storageCanisterError)) :
    MintsNew (step E s m).1 := by
  by_cases hmint : ∃ c now reqs, m = .call c now (.mint reqs)
  · obtain ⟨c, now, reqs, rfl⟩ := hmint
    have hc := hc c now reqs rfl
    have hgoal : ∀ s' r, step E s (.call c now (.mint reqs)) = (s', r) →
        r ≠ .mgmt (.error .storageCanisterError) → MintsNew s' := by
      intro s' r h hr'
      simp only [step, execCall, Call.needs] at h
      split at h
      · simp only [exec] at h
        cases ho : mint E s c now reqs with
        | none => simp [ho, ofMgmt] at h; rw [← h.1]; exact hn
        | some p =>
          obtain ⟨p1, p2⟩ := p
          have hout := mint_out ho
          simp [ho, ofMgmt] at h
          obtain ⟨rfl, rfl⟩ := h
          cases hout with
          | refused e => exact hn
          | cut md h' n free hn hmd => exact absurd rfl hr'
          | minted md h' free batch cap memos hmd =>
            rw [mintInsert_eq]
            constructor
            · intro t ht k hk
              show k < s.lastId + reqs.length
              rcases List.mem_append.1 ht with ht | ht
              · have := hn.1 t ht k hk
                omega
              · obtain ⟨i, hlt, rfl⟩ := List.mem_mapIdx.1 ht
                cases hk
                omega
            · refine sound_append hn.2 ?_
              intro b r a he _ tid htid t ht hk
              have hr : r = mintTx now (s.lastId + b.length) (reqs[b.length]'(by
                  have := congrArg List.length he; simp at this; omega)) := by
                have h1 : (reqs.mapIdx fun k r => mintTx now (s.lastId + k) r)[b.length]? = some r := by rw [he]; simp
                rw [List.getElem?_mapIdx] at h1
                have h2 : b.length < reqs.length := by have := congrArg List.length he; simp at this; omega
                rw [List.getElem?_eq_getElem h2] at h1
                exact (Option.some.inj h1).symm
              rw [hr] at htid
              cases htid
              rcases List.mem_append.1 ht with ht | ht
              · have := hn.1 t ht _ hk
                omega
              · obtain ⟨i, hlt, hi⟩ := List.getElem_of_mem ht
                have h1 : (reqs.mapIdx fun k r => mintTx now (s.lastId + k) r)[i]? = some t := by
                  rw [he, List.getElem?_append_left hlt, ← hi, List.getElem?_eq_getElem hlt]
                rw [List.getElem?_mapIdx] at h1
                have h2 : i < reqs.length := by have := congrArg List.length he; simp at this; omega
                rw [List.getElem?_eq_getElem h2] at h1
                have h3 := Option.some.inj h1
                rw [← h3] at hk
                have h4 : s.lastId + i = s.lastId + b.length := Option.some.inj hk
                omega
      · simp at h; rw [← h.1]; exact hn
    exact hgoal _ _ rfl hc
  · have := (step_steps E s m).induct (P := fun t => LogInv T t ∧ MintsNew t)
      (fun t t' ht hmic => by
        refine ⟨logInv_micro hT ht.1 hmic, ?_⟩
        obtain ⟨⟨l, hl, hs, hm⟩, hle⟩ := micro_records ht.1 hmic
        obtain ⟨l', hl', hop⟩ := micro_mints hmic
        have hll : l' = l := List.append_cancel_left (hl'.symm.trans hl)
        subst hll
        have hno : ∀ x ∈ l', x.op ≠ .mint := fun x hx h => hmint (hop x hx h)
        refine ⟨?_, ?_⟩
        · intro x hx k hk
          rw [hl] at hx
          rcases List.mem_append.1 hx with hx | hx
          · have := ht.2.1 x hx k hk
            omega
          · by_cases hlt : k < t'.lastId
            · exact hlt
            · exact absurd (hm x hx k hk (by omega)) (hno x hx)
        · rw [hl]
          refine sound_append ht.2.2 ?_
          intro b r a he hmt
          exact absurd hmt (hno r (by rw [he]; simp)))
      ⟨hi, hn⟩
    exact this.2

/-- In every history in which no mint was cut short by the ledger, every record is justified. -/
theorem C98_justified_uncut_partial {E : Env H} {v : String → Bool} {hid : H} {c : Principal} {a : InitArgs} {s₀ : State H}
    (h0 : init v hid c a = some s₀) (ms : List Msg) (hcut : NoCutMint E s₀ ms) (before : List Tx) (r : Tx) (after : List Tx)
    (h : (run E s₀ ms).log = before ++ r :: after) : Justified before r := by
  obtain ⟨T, hT⟩ := upTo_exists ms
  have key : ∀ (post pre : List Msg), ms = pre ++ post → MintsNew (run E s₀ pre) → MintsNew (run E s₀ ms) := by
    intro post
    induction post with
    | nil => intro pre he hp; rw [he, List.append_nil]; exact hp
    | cons m post ih =>
      intro pre he hp
      refine ih (pre ++ [m]) (by rw [he]; simp) ?_
      rw [run_append]
      have hmem : ∀ x ∈ pre ++ [m], x ∈ ms := by
        intro x hx
        rw [he]
        rcases List.mem_append.1 hx with hx | hx
        · exact List.mem_append_left _ hx
        · exact List.mem_append_right _ (by rw [List.mem_singleton.1 hx]; exact List.mem_cons_self)
      exact mintsNew_step (fun c now call hc => hT c now call (hmem _ (List.mem_append_right _ hc)))
        (logInv_run pre (fun c now call hc => hT c now call (hmem _ (List.mem_append_left _ hc))) (logInv_init h0 T)) hp
        (hcut pre m post he)
  have hnew := key ms [] rfl (by
    show MintsNew s₀
    rw [init_eq h0]
    exact ⟨by simp, sound_nil⟩)
  rcases C98_justified_partial (E := E) ⟨v, hid, c, a, s₀, ms, h0, rfl⟩ before r after h with hj | ⟨hop, tid, to_, h1, h2, _⟩
  · exact hj
  · unfold Justified
    rw [hop]
    exact ⟨tid, to_, h1, h2, hnew.2 before r after h hop tid h1⟩

/-- The first record about a token is a mint. -/
theorem C98_begins {E : Env H} {s : State H} (hr : Reachable E s) (before : List Tx) (r : Tx) (after : List Tx)
    (h : s.log = before ++ r :: after) (tid : Nat) (htid : r.tid = some tid) (hfirst : ∀ t ∈ before, t.tid ≠ some tid) :
    r.op = .mint := by
  refine fitting_unheld (C98_justified_partial hr before r after h) htid ?_
  unfold replay
  rw [foldl_applyTx_other before _ tid hfirst]

/-- No record about a token follows its burn. -/
theorem C98_ends {E : Env H} {s : State H} (hr : Reachable E s) (before : List Tx) (r : Tx) (after : List Tx)
    (h : s.log = before ++ r :: after) (hop : r.op = .burn) (tid : Nat) (htid : r.tid = some tid) :
    ∀ t ∈ after, t.tid ≠ some tid := by
  have next : ∀ (l : List Tx) (t : Tx) (rest : List Tx), after = l ++ t :: rest → (∀ x ∈ l, x.tid ≠ some tid) → t.tid ≠ some tid := by
    intro l t rest he hl ht
    have hnone : replay (before ++ r :: l) tid = none := by
      rw [replay_append, List.foldl_cons, foldl_applyTx_other l _ tid hl]
      unfold applyTx
      simp [hop, htid]
    have hin := C98_justified_partial hr (before ++ r :: l) t rest (by rw [h, he]; simp)
    have hmint := fitting_unheld hin ht hnone
    rcases hin with hj | ⟨_, k, _, hk, _, hall⟩
    · unfold Justified at hj
      rw [hmint] at hj
      obtain ⟨k, _, hk, _, hno⟩ := hj
      rw [ht] at hk
      cases hk
      exact hno r (by simp) htid
    · rw [ht] at hk
      cases hk
      have := hall r (by simp) htid
      rw [hop] at this
      cases this
  have all : ∀ (n : Nat) (l rest : List Tx), l.length = n → after = l ++ rest → ∀ t ∈ l, t.tid ≠ some tid := by
    intro n
    induction n with
    | zero => intro l rest hl _ t ht; rw [List.length_eq_zero_iff.1 hl] at ht; cases ht
    | succ n ih =>
      intro l rest hl he
      rcases List.eq_nil_or_concat l with rfl | ⟨ini, x, rfl⟩
      · simp at hl
      · rw [List.concat_eq_append] at *
        have hini := ih ini (x :: rest) (by simpa using hl) (by rw [he]; simp)
        intro t ht
        rcases List.mem_append.1 ht with ht | ht
        · exact hini t ht
        · rw [List.mem_singleton.1 ht]
          exact next ini x rest (by rw [he]; simp) hini
  exact all _ after [] rfl (by simp)

/-- If the clock never goes back, neither do the times of the records. -/
theorem C98_times {E : Env H} {v : String → Bool} {hid : H} {c : Principal} {a : InitArgs} {s₀ : State H}
    (h0 : init v hid c a = some s₀) (ms : List Msg) (hclock : Clock ms) :
    (run E s₀ ms).log.Pairwise fun r r' => r.ts ≤ r'.ts := by
  have hnil : s₀.log = [] := by rw [init_eq h0]
  induction ms using msgs_induct with
  | h0 => rw [show run E s₀ [] = s₀ from rfl, hnil]; exact .nil
  | h1 ms m ih =>
    have ih := ih fun pre c now call post he => hclock pre c now call (post ++ [m]) (by rw [he]; simp)
    rw [run_append]
    obtain ⟨l, hl, hts⟩ := step_times E (run E s₀ ms) m
    rw [show run E (run E s₀ ms) [m] = (step E (run E s₀ ms) m).1 from rfl, hl, List.pairwise_append]
    refine ⟨ih, ?_, ?_⟩
    · refine List.pairwise_iff_forall_sublist.2 ?_
      intro x y hs
      have hx := hts x (hs.subset (by simp))
      have hy := hts y (hs.subset (by simp))
      obtain ⟨_, _, rfl⟩ := hx
      obtain ⟨_, _, he⟩ := hy
      injection he with _ he _
      omega
    · intro x hx y hy
      obtain ⟨c, call, rfl⟩ := hts y hy
      exact log_upTo hnil ms y.ts (hclock ms c y.ts call [] rfl) x hx

/-! ## Cases -/

namespace Justify

open Demo

/-- alice approves carol for token 2; carol moves it to bob; alice approves carol for the
collection, sends token 1 to bob; bob burns token 2 and sends
token 3 to carol. -/
def msgs : List Msg :=
  [mintMsg, approveMsg, .call [3] (ms 300) (.transferFrom [{ from_ := alice0, to_ := bob, tid := 2 }]),
    .call [1] (ms 400) (.approveCollection [{ spender := carol, createdAt := ms 400 }]),
    .call [1] (ms 500) (.transfer [{ to_ := bob, tid := 1 }]), .call [2] (ms 600) (.burn 2),
    .call [2] (ms 700) (.transfer [{ to_ := carol, tid := 3 }])]

theorem uncut : NoCutMint env s0 msgs := by
  intro pre m post h c now reqs hm
  cases pre with
  | nil =>
    simp only [msgs, List.nil_append, List.cons.injEq] at h
    obtain ⟨rfl, _⟩ := h
    rw [show step env (run env s0 []) mintMsg = ((step env s0 mintMsg).1, .mgmt (.ok (.id 1))) from rfl]
    simp
  | cons x pre =>
    have hmem : m ∈ pre ++ m :: post := by simp
    simp only [msgs, List.cons_append, List.cons.injEq] at h
    rw [← h.2, hm] at hmem
    simp [approveMsg] at hmem

def at_ : Msg → Nat
  | .call _ now _ => now
  | _ => 0

theorem clock : Clock msgs := by
  intro pre c now call post h c' now' call' hm
  have hp : (msgs.map at_).Pairwise (· ≤ ·) := by decide
  rw [h, List.map_append, List.pairwise_append] at hp
  exact hp.2.2 now' (List.mem_map.2 ⟨_, hm, rfl⟩) now (by simp [at_])

/-- A ledger that refuses the second transaction it is given. -/
def once : Env Nat := ⟨⟨fun h _ => if h = 1 then (h + 1, .error .other) else (h + 1, .ok h)⟩, [9], fun _ => "aaaaa-aa"⟩

end Justify

/-- All nine records of this history are justified, the delegated transfer by the approval
before it, and their times are in order. -/
example : (run Demo.env Demo.s0 Justify.msgs).log.map (·.op) =
      [.mint, .mint, .mint, .approve, .xferFrom, .approveColl, .xfer, .burn, .xfer] ∧
    (∀ before r after, (run Demo.env Demo.s0 Justify.msgs).log = before ++ r :: after → Justified before r) ∧
    (run Demo.env Demo.s0 Justify.msgs).log.Pairwise (fun r r' => r.ts ≤ r'.ts) :=
  ⟨by decide, C98_justified_uncut_partial Demo.s0_init _ Justify.uncut, C98_times Demo.s0_init _ Justify.clock⟩

/-- C98 fails as stated: the ledger cuts a mint short after its first token, and the next mint
mints that token again, for somebody else. -/
theorem C98_violated : ∃ (E : Env Nat) (s : State Nat), Reachable E s ∧ ∃ before r after, s.log = before ++ r :: after ∧
    ¬ Justified before r ∧ before.map (fun t => (t.op, t.tid, t.to_)) = [(.mint, some 1, some Demo.alice)] ∧
    (r.op, r.tid, r.to_) = (.mint, some 1, some Demo.bob) := by
  refine ⟨Justify.once, run Justify.once Demo.s0 [Demo.mintMsg, .call Demo.admin (Demo.ms 200) (.mint [{ owner := Demo.bob }])],
    ⟨_, _, _, _, _, _, Demo.s0_init, rfl⟩, _, _, [], rfl, ?_, rfl, rfl⟩
  rintro ⟨tid, to_, htid, _, hno⟩
  cases htid
  exact hno _ List.mem_cons_self rfl

/-- Token 2 begins with its mint and ends with its burn. -/
example : ∃ before r after, (run Demo.env Demo.s0 Justify.msgs).log = before ++ r :: after ∧ r.op = .burn ∧ r.tid = some 2 ∧
    after.length = 1 :=
  ⟨(run Demo.env Demo.s0 Justify.msgs).log.take 7, (run Demo.env Demo.s0 Justify.msgs).log[7]'(by decide),
    (run Demo.env Demo.s0 Justify.msgs).log.drop 8, by decide, by decide, by decide, by decide⟩

example : ∃ before r after, (run Demo.env Demo.s0 Justify.msgs).log = before ++ r :: after ∧ r.tid = some 2 ∧
    (∀ t ∈ before, t.tid ≠ some 2) ∧ after.length = 7 :=
  ⟨[_], _, _, rfl, rfl, by decide, rfl⟩

end Verif
