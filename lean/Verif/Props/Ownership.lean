import Verif.Props.Demo
import Verif.Lemmas.Replies
/-!
# C01, C03–C09: tokens and their owners
-/
namespace Verif

open Spec

variable {H : Type}

/-! ## C01 -/

private theorem ownerOf_answer {s : State H} {tid : Nat} {ans : Option Account}
    (h : icrc7OwnerOf s [tid] = some [ans]) : ans = Owner s tid := by
  unfold icrc7OwnerOf queryBatch at h
  split at h
  · cases h
  · simp at h; exact h.symm

private theorem paged_mem {s : State H} {ids : List Nat} {prev take : Option Nat} {pg : List Nat} {tid : Nat}
    (h : paged s ids prev take = some pg) (hm : tid ∈ pg) : tid ∈ ids := by
  unfold paged at h
  split at h
  · cases h
  · simp at h; subst h; exact (mem_page hm).1

private theorem paged_one {s : State H} {ids : List Nat} {tid : Nat} (hpos : 1 ≤ tid) (hm : tid ∈ ids)
    (hmax : 1 ≤ s.cfg.maxTake.getD 100) :
    ∃ prev take pg, paged s ids prev take = some pg ∧ tid ∈ pg := by
  refine ⟨some (tid - 1), some 1, page ids (tid - 1) 1, ?_, ?_⟩
  · unfold paged
    rw [if_neg]
    · rfl
    · simp [defaultMaxTake]; omega
  · rw [page_eq]
    have hmem : tid ∈ (sortNat ids).filter (fun id => decide (tid - 1 < id)) := by
      rw [List.mem_filter, mem_sortNat]
      exact ⟨hm, by simp; omega⟩
    have hsort := (sortNat_sorted ids).filter (fun id => decide (tid - 1 < id))
    have hge : ∀ x ∈ (sortNat ids).filter (fun id => decide (tid - 1 < id)), tid ≤ x := by
      intro x hx
      rw [List.mem_filter] at hx
      have := hx.2
      simp at this
      omega
    generalize (sortNat ids).filter (fun id => decide (tid - 1 < id)) = l at hmem hsort hge
    cases l with
    | nil => cases hmem
    | cons a as =>
      simp only [List.take_succ_cons, List.take_zero, List.mem_singleton]
      rcases List.mem_cons.1 hmem with h | h
      · exact h
      · have h1 := hge a (by simp)
        have h2 := (List.pairwise_cons.1 hsort).1 tid h
        omega

/-- C01: in every reachable state, an id appears on some page of `icrc7_tokens`
exactly when `icrc7_owner_of` answers with an account for it (page sizes of at
least one being allowed). -/
theorem C01_listed_iff_owned {E : Env H} {s : State H} (hr : Reachable E s)
    (hmax : 1 ≤ s.cfg.maxTake.getD 100) {tid : Nat} {ans : Option Account}
    (hq : icrc7OwnerOf s [tid] = some [ans]) :
    (∃ prev take pg, icrc7Tokens s prev take = some pg ∧ tid ∈ pg) ↔ ∃ a, ans = some a := by
  rw [ownerOf_answer hq]
  constructor
  · rintro ⟨prev, take, pg, h, hm⟩
    exact mem_keys.1 (paged_mem h hm)
  · rintro ⟨o, ho⟩
    have hk := mem_keys.2 ⟨o, ho⟩
    refine paged_one ?_ hk hmax
    cases hg : s.tokens.get tid with
    | none => simp [Owner, hg] at ho
    | some t => exact hr.tokInv.pos _ _ hg

/-- C01: an id appears on some page of `icrc7_tokens_of(a)` exactly when
`icrc7_owner_of` answers with that account. -/
theorem C01_listed_of_iff_owned {E : Env H} {s : State H} (hr : Reachable E s)
    (hmax : 1 ≤ s.cfg.maxTake.getD 100) {tid : Nat} {a : Account} {ans : Option Account}
    (hq : icrc7OwnerOf s [tid] = some [ans]) :
    (∃ prev take pg, icrc7TokensOf s a prev take = some pg ∧ tid ∈ pg) ↔
      ∃ o, ans = some o ∧ SameAccount o a := by
  rw [ownerOf_answer hq]
  constructor
  · rintro ⟨prev, take, pg, h, hm⟩
    exact (mem_tokenIdsOf hr.tokInv).1 (paged_mem h hm)
  · rintro ⟨o, ho, he⟩
    refine paged_one ?_ ((mem_tokenIdsOf hr.tokInv).2 ⟨o, ho, he⟩) hmax
    cases hg : s.tokens.get tid with
    | none => simp [Owner, hg] at ho
    | some t => exact hr.tokInv.pos _ _ hg

/-- C01: no id is listed for two different accounts. -/
theorem C01_one_owner {E : Env H} {s : State H} (hr : Reachable E s) {tid : Nat} {a b : Account}
    {prev take prev' take' : Option Nat} {pg pg' : List Nat}
    (ha : icrc7TokensOf s a prev take = some pg) (hb : icrc7TokensOf s b prev' take' = some pg')
    (hta : tid ∈ pg) (htb : tid ∈ pg') : SameAccount a b := by
  obtain ⟨o, ho, h1⟩ := (mem_tokenIdsOf hr.tokInv).1 (paged_mem ha hta)
  obtain ⟨o', ho', h2⟩ := (mem_tokenIdsOf hr.tokInv).1 (paged_mem hb htb)
  rw [ho] at ho'
  cases ho'
  exact ⟨h1.1.symm.trans h2.1, h1.2.symm.trans h2.2⟩

example : Reachable Demo.env Demo.s1 ∧ 1 ≤ Demo.s1.cfg.maxTake.getD 100 ∧
    icrc7OwnerOf Demo.s1 [2] = some [some Demo.alice] ∧
    icrc7TokensOf Demo.s1 Demo.alice0 (some 1) none = some [2] ∧
    icrc7Tokens Demo.s1 none none = some [1, 2, 3] := ⟨Demo.s1_reach, by decide, by decide, by decide, by decide⟩

/-! ## C03 -/

/-- C03: `icrc7_total_supply` is the number of existing token ids. -/
theorem C03_supply_counts {E : Env H} {s : State H} (hr : Reachable E s) : SupplyIs s (totalSupply s) :=
  ⟨s.tokens.keys, Map.nodup_keys_lawful hr.tokInv.nodup, fun _ => mem_keys, by
    simp [Map.keys, totalSupply, Map.size]⟩

/-- C03: an accepted mint of `n` requests raises the supply by exactly `n`. -/
theorem C03_mint {E : Env H} {s s' : State H} (hr : Reachable E s) {c : Principal} {now : Nat}
    {reqs : List MintReq} {v} (h : step E s (.call c now (.mint reqs)) = (s', .mgmt (.ok v))) :
    totalSupply s' = totalSupply s + reqs.length := by
  obtain ⟨md, h', _, _, _, _, _, _, _, rfl⟩ := mint_accepted h
  rw [mintInsert_eq]
  exact insTok_size _ _ _ (fun k t hk => hr.tokInv.fresh k t hk)

/-- C03: an accepted burn lowers the supply by exactly one. -/
theorem C03_burn {E : Env H} {s s' : State H} (hr : Reachable E s) {c : Principal} {now tid : Nat} {v}
    (h : step E s (.call c now (.burn tid)) = (s', .mgmt (.ok v))) :
    totalSupply s' + 1 = totalSupply s := by
  obtain ⟨t, h', tok, _, rfl⟩ := burn_accepted h
  exact Map.size_del_of_some hr.tokInv.nodup tok

private theorem ownEff_size {m : Msg} {s s' : State H} (h : OwnEff m s s') :
    totalSupply s' = totalSupply s ∨ (∃ c now reqs, m = .call c now (.mint reqs)) ∨
    (∃ c now tid, m = .call c now (.burn tid)) := by
  cases h with
  | same ht => left; simp [totalSupply, ht]
  | rewrite tid t tok ht => left; simp only [totalSupply, ht]; exact Map.size_set_of_some tok
  | move id t to_ tx tok hid diff ht => left; simp only [totalSupply, ht]; exact Map.size_set_of_some tok
  | mint c now reqs hm => exact .inr (.inl ⟨c, now, reqs, hm⟩)
  | burn c now tid t hm => exact .inr (.inr ⟨c, now, tid, hm⟩)

/-- C03: no other message changes the supply: neither any other call, accepted
or refused, nor a refused or trapped mint or burn, nor a resumption or an
upgrade. -/
theorem C03_others {E : Env H} {s s' : State H} {r : Reply} (hr : Reachable E s) {m : Msg}
    (h : step E s m = (s', r))
    (hm : ∀ c now reqs v, m = .call c now (.mint reqs) → r ≠ .mgmt (.ok v))
    (hb : ∀ c now tid v, m = .call c now (.burn tid) → r ≠ .mgmt (.ok v)) :
    totalSupply s' = totalSupply s := by
  have hs : s' = (step E s m).1 := by rw [h]
  by_cases h1 : ∃ c now reqs, m = .call c now (.mint reqs)
  · obtain ⟨c, now, reqs, rfl⟩ := h1
    simp only [step, execCall, Call.needs] at h
    split at h
    · simp only [exec] at h
      cases ho : mint E s c now reqs with
      | none => simp [ho, ofMgmt] at h; rw [← h.1]
      | some p =>
        obtain ⟨p1, p2⟩ := p
        have hout := mint_out ho
        simp [ho, ofMgmt] at h
        obtain ⟨rfl, rfl⟩ := h
        cases hout with
        | refused e => rfl
        | cut md h' n free hn hmd => rfl
        | minted => exact absurd rfl (hm _ _ _ _ rfl)
    · simp at h; rw [← h.1]
  by_cases h2 : ∃ c now tid, m = .call c now (.burn tid)
  · obtain ⟨c, now, tid, rfl⟩ := h2
    simp only [step, execCall, Call.needs, exec] at h
    cases ho : burnNft E s c now tid with
    | none => simp [ho, ofMgmt] at h; rw [← h.1]
    | some p =>
      obtain ⟨p1, p2⟩ := p
      have hout := burnNft_out ho
      simp [ho, ofMgmt] at h
      obtain ⟨rfl, rfl⟩ := h
      cases hout with
      | refused h' e => rfl
      | burned => exact absurd rfl (hb _ _ _ _ rfl)
  rw [hs]
  have key : TokInv (step E s m).1 ∧ totalSupply (step E s m).1 = totalSupply s :=
    (step_steps E s m).induct (P := fun t => TokInv t ∧ totalSupply t = totalSupply s)
      (fun t t' ht hmic => by
        refine ⟨tokInv_micro ht.1 hmic, ?_⟩
        rcases ownEff_size (micro_own ht.1 hmic) with h | h | h
        · rw [h, ht.2]
        · exact absurd h h1
        · exact absurd h h2)
      ⟨hr.tokInv, rfl⟩
  exact key.2

example : totalSupply Demo.s0 = 0 ∧ totalSupply Demo.s1 = 3 ∧
    (step Demo.env Demo.s0 Demo.mintMsg).2 = .mgmt (.ok (.id 1)) ∧
    (step Demo.env Demo.s1 Demo.burnMsg).2 = .mgmt (.ok .unit) ∧
    totalSupply (step Demo.env Demo.s1 Demo.burnMsg).1 = 2 := by
  refine ⟨rfl, rfl, rfl, rfl, rfl⟩

/-! ## C04 -/

/-- C04: an accepted mint answers the first of a run of consecutive ids, one per
request, owned by the requested accounts; none of them existed before. -/
theorem C04_mint_ids {E : Env H} {s s' : State H} (hr : Reachable E s) {c : Principal} {now : Nat}
    {reqs : List MintReq} {v} (h : step E s (.call c now (.mint reqs)) = (s', .mgmt (.ok v))) :
    ∃ first, v = .id first ∧ 1 ≤ first ∧
      (∀ i (hi : i < reqs.length), Owner s' (first + i) = some reqs[i].owner ∧ Owner s (first + i) = none) ∧
      (∀ tid, ¬ (first ≤ tid ∧ tid < first + reqs.length) → Owner s' tid = Owner s tid) := by
  obtain ⟨md, h', rfl, _, _, _, _, _, _, rfl⟩ := mint_accepted h
  refine ⟨s.lastId, rfl, hr.tokInv.start, ?_, ?_⟩
  · intro i hi
    constructor
    · rw [mintInsert_eq]
      simp only [Owner, insTok_get]
      rw [dif_pos ⟨by omega, by omega⟩]
      simp
    · cases hg : s.tokens.get (s.lastId + i) with
      | none => simp [Owner, hg]
      | some t => have := hr.tokInv.fresh _ _ hg; omega
  · intro tid ht
    rw [mintInsert_eq]
    simp only [Owner, insTok_get]
    rw [dif_neg ht]

/-- C04: ids are never reused. Whenever an id existed at some earlier point of
the history (`run E s ms₁`), burned or not, every id a later accepted mint
creates is larger. -/
theorem C04_fresh {E : Env H} {s : State H} (hr : Reachable E s) (ms : List Msg) {tid : Nat} {o : Account}
    (hex : Owner s tid = some o) {c : Principal} {now : Nat} {reqs : List MintReq} {first : Nat} {s' : State H}
    (h : step E (run E s ms) (.call c now (.mint reqs)) = (s', .mgmt (.ok (.id first)))) :
    tid < first := by
  obtain ⟨md, h', hv, _⟩ := mint_accepted h
  cases hv
  obtain ⟨t, ht, _⟩ := owner_get hex
  have := hr.tokInv.fresh _ _ ht
  have := lastId_run (E := E) hr.tokInv ms
  omega

/-- C04: the first id of a collection is 1. -/
theorem C04_start {E : Env H} {validUrl hid caller a} {s s' : State H} (hinit : init validUrl hid caller a = some s)
    {c : Principal} {now : Nat} {reqs : List MintReq} {first : Nat}
    (h : step E s (.call c now (.mint reqs)) = (s', .mgmt (.ok (.id first)))) : first = 1 := by
  obtain ⟨md, h', hv, _⟩ := mint_accepted h
  cases hv
  rw [init_eq hinit]

/-- C04/C09: an id that existed once and is gone never exists again. -/
theorem C04_never_again {E : Env H} {s : State H} (hr : Reachable E s) {tid : Nat} {o : Account}
    (hex : Owner s tid = some o) (ms ms' : List Msg) (hgone : Owner (run E s ms) tid = none) :
    Owner (run E (run E s ms) ms') tid = none := by
  obtain ⟨t, ht, _⟩ := owner_get hex
  have h1 := hr.tokInv.fresh _ _ ht
  have h2 := lastId_run (E := E) hr.tokInv ms
  have hg : (run E s ms).tokens.get tid = none := by
    unfold Owner at hgone
    cases hg : (run E s ms).tokens.get tid with
    | none => rfl
    | some t => simp [hg] at hgone
  have := run_induct (E := E) (P := fun t => TokInv t ∧ t.tokens.get tid = none ∧ tid < t.lastId)
    (fun m t t' ht hm => ⟨tokInv_micro ht.1 hm, gone_eff (micro_own ht.1 hm) ht.2⟩)
    ms' (s := run E s ms) ⟨(hr.run ms).tokInv, hg, by omega⟩
  simp [Owner, this.2.1]

/-- Burn token 3's neighbour, mint again: the new token is 4. -/
example : Owner Demo.s1 1 = some Demo.alice ∧
    Owner (run Demo.env Demo.s1 [Demo.burnMsg]) 1 = none ∧
    (step Demo.env (run Demo.env Demo.s1 [Demo.burnMsg])
      (.call Demo.admin (Demo.ms 300) (.mint [{ owner := Demo.carol }]))).2 = .mgmt (.ok (.id 4)) := by
  refine ⟨rfl, rfl, rfl⟩

/-! ## C05 -/

/-- C05: a mint that would exceed the cap changes nothing and is not accepted. -/
theorem C05_refused {E : Env H} {s : State H} {c : Principal} {now : Nat} {reqs : List MintReq}
    (hcap : Cap s < totalSupply s + reqs.length) :
    (step E s (.call c now (.mint reqs))).1 = s ∧
    ∀ v, (step E s (.call c now (.mint reqs))).2 ≠ .mgmt (.ok v) := by
  constructor
  · simp only [step, execCall, Call.needs]
    split
    · simp only [exec]
      cases ho : mint E s c now reqs with
      | none => rfl
      | some p =>
        obtain ⟨p1, p2⟩ := p
        have ho' := ho
        simp only [mint] at ho
        rcases withGuard_out ho with ⟨_, rfl, _⟩ | ⟨free, s1, hb, rfl⟩
        · rfl
        · dsimp only at hb
          have hcap' : s.tokens.size + reqs.length > s.cfg.supplyCap.getD defaultSupplyCap := hcap
          split at hb
          · simp only [Option.some.injEq, Prod.mk.injEq] at hb
            obtain ⟨rfl, rfl⟩ := hb
            simp only [ofMgmt]
            rw [guardLeave_self _ _ rfl, with_guards_nil free]
          · simp only [Option.some.injEq, Prod.mk.injEq] at hb
            obtain ⟨rfl, rfl⟩ := hb
            simp only [ofMgmt]
            rw [guardLeave_self _ _ rfl, with_guards_nil free]
    · rfl
  · intro v hv
    have h : step E s (.call c now (.mint reqs)) = ((step E s (.call c now (.mint reqs))).1, .mgmt (.ok v)) := by
      rw [← hv]
    obtain ⟨_, _, _, _, _, _, hle, _⟩ := mint_accepted h
    have : s.tokens.size + reqs.length ≤ Cap s := hle
    unfold totalSupply at hcap
    omega

/-- The history never lowers the cap in force. -/
def CapKept (E : Env H) (s : State H) (ms : List Msg) : Prop :=
  ∀ pre m post, ms = pre ++ m :: post → Cap (run E s pre) ≤ Cap (run E s (pre ++ [m]))

private theorem cap_step {E : Env H} {s : State H} (hi : TokInv s) (m : Msg) :
    totalSupply (step E s m).1 ≤ totalSupply s ∨ totalSupply (step E s m).1 ≤ Cap (step E s m).1 := by
  have key : TokInv (step E s m).1 ∧ (totalSupply (step E s m).1 ≤ totalSupply s ∨
      ((∃ c now reqs, m = .call c now (.mint reqs)) ∧ totalSupply (step E s m).1 ≤ Cap (step E s m).1)) :=
    (step_steps E s m).induct
      (P := fun t => TokInv t ∧ (totalSupply t ≤ totalSupply s ∨
        ((∃ c now reqs, m = .call c now (.mint reqs)) ∧ totalSupply t ≤ Cap t)))
      (fun t t' ht hmic => by
        refine ⟨tokInv_micro ht.1 hmic, ?_⟩
        have heff := micro_own ht.1 hmic
        by_cases hcfg : t'.cfg = t.cfg
        · have hc : Cap t' = Cap t := by simp [Cap, hcfg]
          cases heff with
          | same h => simp only [totalSupply, h, hc] at *; exact ht.2
          | rewrite k t1 tok h =>
            simp only [totalSupply, h, hc, Map.size_set_of_some tok] at *; exact ht.2
          | move k t1 to_ tx tok hid diff h =>
            simp only [totalSupply, h, hc, Map.size_set_of_some tok] at *; exact ht.2
          | mint c now reqs hm perm cap hcfg h =>
            right
            refine ⟨⟨c, now, reqs, hm⟩, ?_⟩
            rw [hc]
            simp only [totalSupply, h]
            rw [insTok_size _ _ _ (fun k v hk => ht.1.fresh k v hk)]
            exact cap
          | burn c now k t1 hm tok own h =>
            have : totalSupply t' ≤ totalSupply t := by
              simp only [totalSupply, h]; exact Map.size_del_le _ _
            rcases ht.2 with h2 | ⟨h2, h3⟩
            · left; omega
            · right; exact ⟨h2, by omega⟩
        · cases hmic with
          | config a perm free =>
            rcases ht.2 with h2 | ⟨⟨_, _, _, h2⟩, _⟩
            · left; exact h2
            · cases h2
          | @resume _ now i ans p hp =>
            exfalso; apply hcfg
            obtain ⟨_, _, _, _, he⟩ := resumeBody_eq E { t with pending := t.pending.eraseIdx i } now p ans
            rw [he]; rfl
          | mint => exfalso; apply hcfg; rw [mintInsert_eq]
          | _ => exact absurd rfl hcfg)
      ⟨hi, .inl (Nat.le_refl _)⟩
  rcases key.2 with h | ⟨_, h⟩
  · exact .inl h
  · exact .inr h

/-- C05: while the cap is not lowered, the supply never exceeds it. -/
theorem C05_bound {E : Env H} {s : State H} (hr : Reachable E s) (h0 : totalSupply s ≤ Cap s) (ms : List Msg)
    (hkept : CapKept E s ms) : totalSupply (run E s ms) ≤ Cap (run E s ms) := by
  have key : ∀ n (pre post : List Msg), pre.length = n → ms = pre ++ post →
      totalSupply (run E s pre) ≤ Cap (run E s pre) := by
    intro n
    induction n with
    | zero => intro pre post hl _; simp at hl; subst hl; exact h0
    | succ n ih =>
      intro pre post hl he
      rcases List.eq_nil_or_concat pre with rfl | ⟨ini, m, rfl⟩
      · simp at hl
      rw [List.concat_eq_append] at *
      have hle := ih ini (m :: post) (by simp at hl; exact hl) (by rw [he]; simp)
      have hk := hkept ini m post (by rw [he]; simp)
      have hstep := cap_step (E := E) (hr.run ini).tokInv m
      rw [run_append] at *
      simp only [run] at *
      omega
  exact key ms.length ms [] rfl (by simp)

/-- C05 from installation: the supply starts at 0. -/
theorem C05_bound_from_init {E : Env H} {validUrl hid caller a} {s₀ : State H}
    (hinit : init validUrl hid caller a = some s₀) (ms : List Msg)
    (hkept : CapKept E s₀ ms) : totalSupply (run E s₀ ms) ≤ Cap (run E s₀ ms) := by
  refine C05_bound ⟨validUrl, hid, caller, a, s₀, [], hinit, rfl⟩ ?_ ms hkept
  rw [init_eq hinit]
  exact Nat.zero_le _

/-- A cap of 3: the fourth token is refused, and the history keeps the cap. -/
example : ∃ s : State Nat, init (fun _ => true) 0 Demo.admin { Demo.args with supplyCap := some 3 } = some s ∧
    totalSupply (run Demo.env s [Demo.mintMsg]) = 3 ∧
    Cap (run Demo.env s [Demo.mintMsg]) < totalSupply (run Demo.env s [Demo.mintMsg]) + 1 ∧
    CapKept Demo.env s [Demo.mintMsg] := by
  refine ⟨_, rfl, rfl, by decide, ?_⟩
  intro pre m post h
  cases pre with
  | nil => simp at h; obtain ⟨rfl, rfl⟩ := h; decide
  | cons a as => simp at h

end Verif
