import Verif.Lemmas.Answers
import Verif.Props.Limits
/-!
# C89: calls are answered
-/
namespace Verif

open Spec

variable {H : Type}

/-! Helper facts. -/

private theorem trapped_exec {E : Env H} {s : State H} {c : Principal} {now : Nat} {call : Call} :
    (step E s (.call c now call)).2 = .trapped ↔
      (∀ p, call.needs = some p → Holds s c p) ∧ (exec E s c now call).2 = .trapped := by
  simp only [step, execCall]
  cases hn : call.needs with
  | none => simp
  | some p =>
    dsimp only
    by_cases hp : hasPermission s.perms c p = true
    · rw [if_pos hp]
      exact ⟨fun h => ⟨fun q hq => by cases hq; exact holds_iff.2 hp, h⟩, fun h => h.2⟩
    · rw [if_neg hp]
      exact ⟨fun h => (by cases h), fun h => absurd (holds_iff.1 (h.1 p rfl)) hp⟩

private theorem ofBatch_trapped {s : State H} {o} : (ofBatch s o).2 = .trapped ↔ o = none := by
  cases o with
  | none => simp [ofBatch]
  | some p => simp [ofBatch]

private theorem ofMgmt_trapped {s : State H} {o} : (ofMgmt s o).2 = .trapped ↔ o = none := by
  cases o with
  | none => simp [ofMgmt]
  | some p => simp [ofMgmt]

private theorem ofStarted_answers {o : Started H} : (ofStarted o).2 ≠ .trapped := by
  cases o <;> simp [ofStarted]

private theorem withGuard_none {s : State H} {c : Principal} {body} :
    withGuard s c body = none ↔ s.guards = [] ∧ body { s with guards := [c] } = none := by
  unfold withGuard
  by_cases hg : s.guards = []
  · rw [guardEnter_free hg]
    simp only [hg, true_and]
    cases body { s with guards := [c] } with
    | none => simp
    | some p => simp
  · rw [guardEnter_busy hg]
    simp [hg]

private theorem unstorable {reqs : List MintReq} :
    (¬ ∀ r ∈ reqs, ∀ e ∈ r.metadata, e.2.inRange = true) ↔ ∃ r ∈ reqs, ∃ e ∈ r.metadata, ¬ Storable e.2 := by
  simp only [storable_iff]
  simp

private theorem mint_none {E : Env H} {s : State H} {c : Principal} {now : Nat} {reqs : List MintReq} :
    mint E s c now reqs = none ↔ s.guards = [] ∧ reqs.length ≤ BatchLimit s ∧
      totalSupply s + reqs.length ≤ Cap s ∧
      (checkMemos s.cfg reqs = none ∨
        (checkMemos s.cfg reqs = some true ∧ mintMetadata s.mdata s.lastId reqs = none)) := by
  unfold mint
  rw [withGuard_none]
  refine and_congr_right fun hg => ?_
  dsimp only
  by_cases hb : reqs.length > s.cfg.maxUpdateBatch.getD 100
  · rw [if_pos hb]
    have : ¬ reqs.length ≤ BatchLimit s := Nat.not_le.2 hb
    simp [this]
  rw [if_neg hb]
  have hb' : reqs.length ≤ BatchLimit s := Nat.le_of_not_lt hb
  by_cases hc : s.tokens.size + reqs.length > s.cfg.supplyCap.getD defaultSupplyCap
  · rw [if_pos hc]
    have : ¬ totalSupply s + reqs.length ≤ Cap s := Nat.not_le.2 hc
    simp [this]
  rw [if_neg hc]
  have hc' : totalSupply s + reqs.length ≤ Cap s := Nat.le_of_not_lt hc
  simp only [hb', hc', true_and]
  cases checkMemos s.cfg reqs with
  | none => simp
  | some b =>
    cases b with
    | false => simp
    | true =>
      cases mintMetadata s.mdata s.lastId reqs with
      | none => simp
      | some md =>
        dsimp only
        rcases mintTxs E.ledger { s with guards := [c], mdata := md } now s.lastId reqs with ⟨t, b⟩
        cases b <;> simp

private theorem update_none {E : Env H} {s : State H} {c : Principal} {now tid : Nat} {kvs} :
    updateNftMetadata E s c now tid kvs = none ↔ s.guards = [] ∧
      ∃ t, s.tokens.get tid = some t ∧ replaceMetadata s.mdata t.id kvs = none := by
  unfold updateNftMetadata
  rw [withGuard_none]
  refine and_congr_right fun hg => ?_
  dsimp only
  cases s.tokens.get tid with
  | none => simp
  | some t =>
    simp only [Option.some.injEq, exists_eq_left']
    cases replaceMetadata s.mdata t.id kvs with
    | none => simp
    | some md =>
      simp only [reduceCtorEq, iff_false]
      intro h
      split at h <;> cases h

private theorem replace_none {t : MetaTable} {tid : Nat} (hid : tid < 2 ^ 64) {kvs : List (String × Value)} :
    replaceMetadata t tid kvs = none ↔ ∃ k v, lastValue kvs k = some v ∧ ¬ Storable v := by
  unfold replaceMetadata
  have h := addMetadata_isSome hid (collectMap kvs).entries (t.del tid)
  obtain ⟨c1, c2⟩ := collectMap_spec kvs
  have key : (∀ e ∈ (collectMap kvs).entries, e.2.inRange = true) ↔ ∀ k v, lastValue kvs k = some v → Storable v := by
    constructor
    · intro hall k v hv
      rw [← c2] at hv
      obtain ⟨k', hk', hm⟩ := Map.mem_of_get hv
      exact (storable_iff v).2 (hall _ hm)
    · rintro hall ⟨k, v⟩ he
      exact (storable_iff v).1 (hall k v (by rw [← c2]; exact Map.get_of_mem c1 he))
  rw [key] at h
  rw [← Option.not_isSome_iff_eq_none, h]
  simp

/-! ## The only circumstances -/

/-- C89: on every reachable state, a call that ends without an answer is one of the
cases of `NoAnswer`. In particular `icrc37_transfer_from`, both collection approval
methods, revocations of at least one token approval, burns, uploads, changes of
settings and of permissions are always answered. -/
theorem C89_traps_only {E : Env H} {s : State H} (hr : Reachable E s) {c : Principal} {now : Nat} {call : Call}
    (h : (step E s (.call c now call)).2 = .trapped) : NoAnswer s call := by
  have h := (trapped_exec.1 h).2
  have hk := hr.apprKeys
  cases call with
  | transfer args =>
    have h := ofBatch_trapped.1 h
    unfold icrc7Transfer at h
    split at h
    · cases h
    rename_i hne
    refine ⟨by simpa using hne, ?_⟩
    split at h
    · rename_i hx
      refine .inl ?_
      unfold toUsize? at hx
      split at hx
      · cases hx
      · rename_i hw; exact Nat.le_of_not_lt hw
    · split at h
      · cases h
      split at h
      · cases h
      obtain ⟨a, ha, t, ht, hn⟩ := runBatch_none (fun t => t.cfg = s.cfg) _
        (fun _ _ _ _ _ hs h => (transferNft_cfg h).trans hs) rfl h
      have ha := List.mem_of_mem_take ha
      obtain ⟨_, nft, _, hn⟩ := transferNft_none.1 hn
      have e1 : MemoLimit t = MemoLimit s := by unfold MemoLimit; rw [ht]
      have e2 : Drift t = Drift s := by unfold Drift; rw [ht]
      have e3 : Window t = Window s := by unfold Window; rw [ht]
      rw [e1, e2, e3] at hn
      rcases hn with ⟨h1, h2⟩ | ⟨_, _, _, _, h1 | h1⟩
      · exact .inr (.inl ⟨⟨a, ha, h1⟩, h2⟩)
      · exact .inr (.inr (.inr h1))
      · exact .inr (.inr (.inl h1.2))
  | approveTokens args =>
    obtain ⟨a, ha, t, ht, hn⟩ := runBatch_none (fun t => t.tokens = s.tokens) _
      (fun _ _ _ _ _ hs h => (approveToken_tokens h).trans hs) rfl (ofBatch_trapped.1 h)
    obtain ⟨h1, h2⟩ := approveToken_none hn
    refine ⟨a, ha, h1, ?_⟩
    unfold Owner at h2 ⊢
    rwa [ht] at h2
  | approveCollection args => exact absurd (ofBatch_trapped.1 h) (runBatch_total args)
  | revokeTokens args =>
    simp only [exec] at h
    split at h
    · rename_i hn
      unfold icrc37RevokeTokens at hn
      split at hn
      · rfl
      · rw [guardWindow_eq] at hn
        dsimp only at hn
        split at hn
        · cases hn
        · split at hn
          · rename_i hb
            have hk' : ∀ w, ApprKeys { s with windows := w } := fun _ => hk
            obtain ⟨a, ha, t, ht, hn⟩ := runBatch_none ApprKeys _
              (fun _ _ _ _ _ hs h => revokeToken_keys hs h) (hk' _) hb
            exact absurd hn (revokeToken_some ht)
          · cases hn
    · cases h
    · cases h
  | revokeCollection args => exact absurd (ofBatch_trapped.1 h) (runBatch_total _)
  | transferFrom args =>
    obtain ⟨a, ha, t, ht, hn⟩ := runBatch_none ApprKeys _
      (fun _ _ _ _ _ hs h => transferFrom_keys hs h) hk (ofBatch_trapped.1 h)
    exact absurd hn (transferFrom_some ht)
  | updateCollectionMetadata a =>
    have := withGuard_none.1 (ofMgmt_trapped.1 h)
    cases this.2
  | mint reqs =>
    obtain ⟨_, _, _, hm⟩ := mint_none.1 (ofMgmt_trapped.1 h)
    rcases hm with hm | ⟨_, hm⟩
    · exact .inl (checkMemos_none reqs hm)
    · by_cases hids : s.lastId + reqs.length ≤ 2 ^ 64
      · have := mintMetadata_isSome reqs (t := s.mdata) hids
        rw [hm] at this
        refine .inr (.inl (unstorable.1 fun hall => ?_))
        have := this.2 hall
        cases this
      · exact .inr (.inr (Nat.lt_of_not_le hids))
  | updateNftMetadata tid kvs =>
    obtain ⟨_, t, ht, hn⟩ := update_none.1 (ofMgmt_trapped.1 h)
    refine ⟨by simp [Owner, ht], ?_⟩
    rw [hr.tokInv.ids _ _ ht] at hn
    by_cases hid : tid < 2 ^ 64
    · exact .inl ((replace_none hid).1 hn)
    · exact .inr (Nat.le_of_not_lt hid)
  | burn tid =>
    have h := (withGuard_none.1 (ofMgmt_trapped.1 h)).2
    dsimp only at h
    split at h
    · cases h
    split at h
    · cases h
    split at h <;> cases h
  | initUpload path size => exact absurd h ofStarted_answers
  | storeChunk path => exact absurd h ofStarted_answers
  | finalizeUpload path => exact absurd h ofStarted_answers
  | cancelUpload path => exact absurd h ofStarted_answers
  | grant p x => exact absurd (withGuard_none.1 (ofMgmt_trapped.1 h)).2 (by simp)
  | revoke p x => exact absurd (withGuard_none.1 (ofMgmt_trapped.1 h)).2 (by simp)

/-- On the demo state the settings are ordinary, so a transfer, an approval or a
revocation of existing tokens has no such circumstance. -/
example : Reachable Demo.env Demo.s1 ∧ ¬ NoAnswer Demo.s1 (.transfer [{ to_ := Demo.bob, tid := 1, memo := some [1] }]) ∧
    ¬ NoAnswer Demo.s1 (.approveTokens [⟨1, { spender := Demo.bob, createdAt := 0 }⟩]) ∧
    ¬ NoAnswer Demo.s1 (.revokeTokens [{ tid := 1 }]) ∧ ¬ NoAnswer Demo.s1 (.mint [{ owner := Demo.bob }]) := by
  refine ⟨Demo.s1_reach, ?_, ?_, ?_, ?_⟩
  · rintro ⟨_, h | ⟨_, h⟩ | h | h⟩ <;> exact absurd h (by decide)
  · rintro ⟨a, ha, h, _⟩
    rw [List.mem_singleton.1 ha] at h
    exact absurd h (by decide)
  · intro h; cases h
  · rintro (⟨_, h⟩ | ⟨r, hr, e, he, _⟩ | h)
    · exact absurd h (by decide)
    · rw [List.mem_singleton.1 hr] at he; cases he
    · exact absurd h (by decide)

/-! ## The circumstances are real -/

/-- C89, one transfer: exactly when it gets no answer. A batch limit of 2³² or more
costs every transfer its answer, whoever calls and whatever is asked; a memo limit
of 2³² or more those that carry a memo; a window or drift of 2⁶⁴ or more those that
pass the other checks. -/
theorem C89_transfer_iff {E : Env H} {s : State H} {c : Principal} {now : Nat} {arg : TransferArg} :
    (step E s (.call c now (.transfer [arg]))).2 = .trapped ↔
      2 ^ 32 ≤ BatchLimit s ∨
      (1 ≤ BatchLimit s ∧ c ≠ anonymous ∧ recentCalls s now arg.tid < 5 ∧ ∃ o, Owner s arg.tid = some o ∧
        ((arg.memo ≠ none ∧ 2 ^ 32 ≤ MemoLimit s) ∨
         ((∀ m, arg.memo = some m → m.length ≤ MemoLimit s) ∧ o.owner = c ∧ arg.to_.owner ≠ anonymous ∧
           ¬ SameAccount o arg.to_ ∧
           (2 ^ 64 ≤ Drift s ∨ (arg.createdAt.getD now ≤ (now + Drift s) % 2 ^ 64 ∧ 2 ^ 64 ≤ Window s))))) := by
  have item : transferNft E.ledger s c now arg = none ↔
      recentCalls s now arg.tid < 5 ∧ ∃ o, Owner s arg.tid = some o ∧
        ((arg.memo ≠ none ∧ 2 ^ 32 ≤ MemoLimit s) ∨
         ((∀ m, arg.memo = some m → m.length ≤ MemoLimit s) ∧ o.owner = c ∧ arg.to_.owner ≠ anonymous ∧
           ¬ SameAccount o arg.to_ ∧
           (2 ^ 64 ≤ Drift s ∨ (arg.createdAt.getD now ≤ (now + Drift s) % 2 ^ 64 ∧ 2 ^ 64 ≤ Window s)))) := by
    rw [transferNft_none, guardWindow_snd]
    have memo : ¬ (arg.memo ≠ none ∧ 2 ^ 32 ≤ MemoLimit s) →
        (checkMemo s.cfg arg.memo = some true ↔ ∀ m, arg.memo = some m → m.length ≤ MemoLimit s) := by
      intro hn
      unfold checkMemo
      cases hm : arg.memo with
      | none => simp
      | some m =>
        have hw : ¬ USIZE ≤ s.cfg.maxMemo.getD defaultMaxMemo := fun h => hn ⟨by simp [hm], h⟩
        simp only [hw, if_false, Option.some.injEq, decide_eq_true_eq, forall_eq']
        exact Iff.rfl
    have same : ∀ o : Account, (o == arg.to_) = false ↔ ¬ SameAccount o arg.to_ := by
      intro o
      rw [sameAccount_iff]; simp
    refine and_congr (by simp) ?_
    by_cases hm : arg.memo ≠ none ∧ 2 ^ 32 ≤ MemoLimit s
    · constructor
      · rintro ⟨nft, hn, _⟩; exact ⟨nft.owner, by simp [Owner, hn], .inl hm⟩
      · rintro ⟨o, ho, _⟩
        obtain ⟨t, ht, rfl⟩ := owner_get ho
        exact ⟨t, ht, .inl hm⟩
    · simp only [hm, false_or]
      rw [memo hm]
      constructor
      · rintro ⟨nft, hn, h1, h2, h3, h4, h5⟩
        exact ⟨nft.owner, by simp [Owner, hn], h1, h2, h3, (same _).1 h4, h5⟩
      · rintro ⟨o, ho, h1, h2, h3, h4, h5⟩
        obtain ⟨t, ht, rfl⟩ := owner_get ho
        exact ⟨t, ht, h1, h2, h3, (same _).2 h4, h5⟩
  rw [trapped_exec]
  simp only [Call.needs, reduceCtorEq, false_implies, implies_true, true_and]
  rw [show exec E s c now (.transfer [arg]) = ofBatch s (icrc7Transfer E.ledger s c now [arg]) from rfl, ofBatch_trapped]
  unfold icrc7Transfer
  simp only [List.isEmpty_cons, Bool.false_eq_true, if_false, List.length_singleton]
  by_cases hw : 2 ^ 32 ≤ BatchLimit s
  · have : toUsize? (s.cfg.maxUpdateBatch.getD defaultMaxUpdateBatch) = none := if_neg (Nat.not_lt.2 hw)
    simp [this, hw]
  · have : toUsize? (s.cfg.maxUpdateBatch.getD defaultMaxUpdateBatch) = some (BatchLimit s) := if_pos (Nat.lt_of_not_le hw)
    simp only [this, hw, false_or]
    by_cases hb : 1 ≤ BatchLimit s
    · have h1 : ¬ 1 > BatchLimit s := Nat.not_lt.2 hb
      simp only [h1, decide_false, Bool.and_false, Bool.false_eq_true, if_false, hb, true_and]
      by_cases hc : c = anonymous
      · simp [hc]
      · simp only [hc, if_false, ne_eq, not_false_eq_true, true_and]
        rw [List.take_of_length_le (by simpa using hb), ← item]
        simp only [runBatch]
        cases transferNft E.ledger s c now arg with
        | none => simp
        | some p => simp
    · have h0 : BatchLimit s = 0 := by omega
      simp only [h0]
      split
      · simp
      · split
        · simp
        · simp [runBatch]

/-- The memo of a transfer costs its answer under a memo limit of 2³²; see also
`C41_violated_wide` and the example after `C23_unrepresentable`. A batch limit of
2³² does so for anyone, even the anonymous caller on a token that does not exist. -/
example : ∃ s : State Nat, Reachable Demo.env s ∧ BatchLimit s = 2 ^ 32 ∧ Owner s 77 = none ∧
    (step Demo.env s (.call anonymous (Demo.ms 200) (.transfer [{ to_ := Demo.bob, tid := 77 }]))).2 = .trapped :=
  ⟨_, Demo.s1_reach.run [.call Demo.admin (Demo.ms 150) (.updateCollectionMetadata { maxUpdateBatch := some (2 ^ 32) })],
    rfl, rfl, rfl⟩

/-- C89, token revocations: exactly the empty batch gets no answer. -/
theorem C89_revoke_iff {E : Env H} {s : State H} (hr : Reachable E s) {c : Principal} {now : Nat}
    {args : List RevokeTokenArg} :
    (step E s (.call c now (.revokeTokens args))).2 = .trapped ↔ args = [] :=
  ⟨fun h => C89_traps_only hr h, fun h => by subst h; rfl⟩

example : (step Demo.env Demo.s1 (.call [9] (Demo.ms 200) (.revokeTokens []))).2 = .trapped ∧
    (step Demo.env Demo.s1 (.call [9] (Demo.ms 200) (.revokeCollection []))).2 = .batch [] ∧
    (step Demo.env Demo.s1 (.call [9] (Demo.ms 200) (.revokeTokens [{ tid := 1 }]))).2 = .batch [.error .unauthorized] :=
  ⟨rfl, rfl, rfl⟩

/-- C89, mints, while ids fit 64 bits: exactly those get no answer that a permitted
caller makes while no other management call runs, within the batch limit and the
supply cap, and that carry a memo under a memo limit of 2³² or more, or, with memos
within the limit, a metadata value the store cannot hold. -/
theorem C89_mint_iff {E : Env H} {s : State H} {c : Principal} {now : Nat} {reqs : List MintReq}
    (hids : s.lastId + reqs.length ≤ 2 ^ 64) :
    (step E s (.call c now (.mint reqs))).2 = .trapped ↔
      Holds s c .minting ∧ s.guards = [] ∧ reqs.length ≤ BatchLimit s ∧ totalSupply s + reqs.length ≤ Cap s ∧
      (((∃ r ∈ reqs, r.memo ≠ none) ∧ 2 ^ 32 ≤ MemoLimit s) ∨
       ((∀ r ∈ reqs, ∀ b, r.memo = some b → b.length ≤ MemoLimit s) ∧
         ∃ r ∈ reqs, ∃ e ∈ r.metadata, ¬ Storable e.2)) := by
  rw [trapped_exec]
  have hperm : (∀ p, (Call.mint reqs).needs = some p → Holds s c p) ↔ Holds s c .minting := by
    simp [Call.needs]
  rw [hperm, show exec E s c now (.mint reqs) = ofMgmt s (mint E s c now reqs) from rfl, ofMgmt_trapped, mint_none]
  refine and_congr_right fun _ => and_congr_right fun _ => and_congr_right fun _ => and_congr_right fun _ => ?_
  have hmd : mintMetadata s.mdata s.lastId reqs = none ↔ ∃ r ∈ reqs, ∃ e ∈ r.metadata, ¬ Storable e.2 := by
    rw [← unstorable, ← mintMetadata_isSome reqs (t := s.mdata) hids]
    simp
  rw [hmd]
  by_cases hw : (∃ r ∈ reqs, r.memo ≠ none) ∧ 2 ^ 32 ≤ MemoLimit s
  · exact iff_of_true (.inl (checkMemos_wide hw.2 reqs hw.1)) (.inl hw)
  · have hn : checkMemos s.cfg reqs ≠ none := fun h => hw (checkMemos_none reqs h)
    simp only [hn, hw, false_or]
    refine and_congr_left fun _ => ?_
    by_cases hlim : MemoLimit s < 2 ^ 32
    · exact checkMemos_true hlim reqs
    · have hno : ∀ r ∈ reqs, r.memo = none := fun r hr => Classical.byContradiction fun h =>
        hw ⟨⟨r, hr, h⟩, Nat.le_of_not_lt hlim⟩
      have h1 : checkMemos s.cfg reqs = some true := checkMemos_bare reqs hno
      simp only [h1, true_iff]
      intro r hr b hb
      rw [hno r hr] at hb
      cases hb

/-- A natural of 65 bits, deep in the metadata of the second request. -/
example : Demo.s1.guards = [] ∧
    (step Demo.env Demo.s1 (.call Demo.admin (Demo.ms 200) (.mint [{ owner := Demo.bob },
      { owner := Demo.bob, metadata := [("a", .array [.map [("n", .nat (2 ^ 64))]])] }]))).2 = .trapped ∧
    (step Demo.env Demo.s1 (.call Demo.admin (Demo.ms 200) (.mint [{ owner := Demo.bob },
      { owner := Demo.bob, metadata := [("a", .array [.map [("n", .nat (2 ^ 64 - 1))]])] }]))).2 = .mgmt (.ok (.id 4)) :=
  ⟨rfl, rfl, rfl⟩

/-- C89, changes of a token's metadata, while its id fits 64 bits: exactly those get
no answer that a permitted caller makes, while no other management call runs, on a
token that exists, with a value the store cannot hold; a value given earlier for the
same key does not count. -/
theorem C89_update_iff {E : Env H} {s : State H} (hr : Reachable E s) {c : Principal} {now tid : Nat}
    {kvs : List (String × Value)} (hid : tid < 2 ^ 64) :
    (step E s (.call c now (.updateNftMetadata tid kvs))).2 = .trapped ↔
      Holds s c .updateMetadata ∧ s.guards = [] ∧ Owner s tid ≠ none ∧
      ∃ k v, lastValue kvs k = some v ∧ ¬ Storable v := by
  rw [trapped_exec]
  have hperm : (∀ p, (Call.updateNftMetadata tid kvs).needs = some p → Holds s c p) ↔ Holds s c .updateMetadata := by
    simp [Call.needs]
  rw [hperm, show exec E s c now (.updateNftMetadata tid kvs) = ofMgmt s (updateNftMetadata E s c now tid kvs) from rfl,
    ofMgmt_trapped, update_none]
  refine and_congr_right fun _ => and_congr_right fun _ => ?_
  constructor
  · rintro ⟨t, ht, hn⟩
    rw [hr.tokInv.ids _ _ ht] at hn
    exact ⟨by simp [Owner, ht], (replace_none hid).1 hn⟩
  · rintro ⟨ho, hn⟩
    cases ht : s.tokens.get tid with
    | none => simp [Owner, ht] at ho
    | some t =>
      refine ⟨t, rfl, ?_⟩
      rw [hr.tokInv.ids _ _ ht]
      exact (replace_none hid).2 hn

example : Reachable Demo.env Demo.s1 ∧ Demo.s1.guards = [] ∧
    (step Demo.env Demo.s1 (.call Demo.admin (Demo.ms 200) (.updateNftMetadata 1 [("a", .int (2 ^ 63))]))).2 = .trapped ∧
    (step Demo.env Demo.s1 (.call Demo.admin (Demo.ms 200)
      (.updateNftMetadata 1 [("a", .int (2 ^ 63)), ("a", .int (-(2 ^ 63)))]))).2 = .mgmt (.ok (.id 1)) :=
  ⟨Demo.s1_reach, rfl, rfl, rfl⟩

end Verif
