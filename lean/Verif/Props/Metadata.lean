import Verif.Lemmas.Metadata
import Verif.Props.Demo
/-!
# Minting and token metadata (C34, C35, C60, C61)
-/
namespace Verif

open Spec

variable {H : Type}

/-! ## C34: mint is all-or-nothing -/

/-- **C34**, the "all" half: an accepted mint creates exactly the requested
tokens under consecutive new ids, for the requested owners, and records one
transaction each, in order. (For the metadata see `C34_metadata_partial`.) -/
theorem C34_minted (E : Env H) {s s' : State H} (hr : Reachable E s) {c : Principal} {now : Nat}
    {reqs : List MintReq} {ok : MgmtOk} (h : step E s (.call c now (.mint reqs)) = (s', .mgmt (.ok ok))) :
    ∃ first, ok = .id first ∧
      (∀ k r, reqs[k]? = some r → Owner s (first + k) = none ∧ Owner s' (first + k) = some r.owner) ∧
      (∀ tid, (∀ k, k < reqs.length → tid ≠ first + k) → Owner s' tid = Owner s tid) ∧
      s'.log = s.log ++ reqs.mapIdx (mintRecord now first) := by
  have hi := hr.tokInv
  rcases mint_step E s c now reqs with h' | h' | ⟨t, r, h', hout⟩
  · rw [h'] at h; cases h
  · rw [h'] at h; cases h
  rw [h'] at h
  simp only [Prod.mk.injEq, Reply.mgmt.injEq] at h
  obtain ⟨rfl, rfl⟩ := h
  cases hout with
  | minted md hh free batch cap memos hmd =>
    refine ⟨s.lastId, rfl, ?_, ?_, ?_⟩
    · intro k r hk
      refine ⟨owner_fresh hi (by omega), ?_⟩
      obtain ⟨hlt, hk⟩ := List.getElem?_eq_some_iff.1 hk
      rw [mintInsert_eq]
      unfold Owner
      simp only [insTok_get]
      rw [dif_pos ⟨by omega, by omega⟩]
      simp [hk]
    · intro tid hne
      rw [mintInsert_eq]
      unfold Owner
      simp only [insTok_get]
      rw [dif_neg]
      rintro ⟨h1, h2⟩
      exact hne (tid - s.lastId) (by omega) (by omega)
    · rw [mintInsert_eq]; rfl

example : ∃ s', step Demo.env Demo.s0 Demo.mintMsg = (s', .mgmt (.ok (.id 1))) ∧
    s'.log.length = 3 ∧ Owner s' 3 = some Demo.bob := ⟨_, rfl, rfl, rfl⟩

private theorem lastValue_append (l l' : List (String × Value)) (k : String) :
    lastValue (l ++ l') k = (lastValue l' k).or (lastValue l k) := by
  induction l with
  | nil => cases h : lastValue l' k <;> simp [lastValue, h]
  | cons e l ih =>
    obtain ⟨k₀, v₀⟩ := e
    simp only [List.cons_append, lastValue, ih]
    cases lastValue l' k <;> simp

/-- **C34**, the metadata: every new token shows the values requested for it, the last
one for a repeated key, and nothing else if no metadata was stored under its id before.
Missing: ids given out again after a mint the ledger cut short, under which metadata
was left (`C35_violated_reused`); of these the keys not requested are shown too. -/
theorem C34_metadata_partial (E : Env H) {s s' : State H} (hr : Reachable E s) {c : Principal} {now : Nat}
    {reqs : List MintReq} {first : Nat} (h : step E s (.call c now (.mint reqs)) = (s', .mgmt (.ok (.id first))))
    {k : Nat} {r : MintReq} (hk : reqs[k]? = some r) :
    (∃ old, MetaIs s' (first + k) (old ++ r.metadata)) ∧
    (s.mdata.get (first + k) = none → MetaIs s' (first + k) r.metadata) := by
  have hr' : Reachable E s' := by have := hr.step (.call c now (.mint reqs)); rw [h] at this; exact this
  obtain ⟨_, hf, ho, _⟩ := C34_minted E hr h
  cases hf
  have hown := (ho k r hk).2
  rcases mint_step E s c now reqs with h' | h' | ⟨t, rr, h', hout⟩
  · rw [h'] at h; cases h
  · rw [h'] at h; cases h
  rw [h'] at h
  simp only [Prod.mk.injEq, Reply.mgmt.injEq] at h
  obtain ⟨rfl, rfl⟩ := h
  have hrow : ∀ key, (metaRow t.mdata (first + k)).get key =
      (lastValue r.metadata key).or ((metaRow s.mdata (first + k)).get key) := by
    cases hout with
    | minted md hh free batch cap memos hmd =>
      rw [mintInsert_eq]
      exact (mintMetadata_spec _ hmd).1 k r hk
  refine ⟨⟨(metaRow s.mdata (first + k)).entries, ?_⟩, fun hnone => ?_⟩
  · refine (metaIs_iff hr'.tokInv hr'.rowsNodup).2 ⟨⟨_, hown⟩, fun key => ?_⟩
    rw [hrow, lastValue_append, lastValue_of_nodup (hr.rowsNodup.row _)]
    rfl
  · refine (metaIs_iff hr'.tokInv hr'.rowsNodup).2 ⟨⟨_, hown⟩, fun key => ?_⟩
    rw [hrow]
    unfold metaRow
    rw [hnone]
    simp

example : ∃ s', step Demo.env Demo.s0 Demo.mintMsg = (s', .mgmt (.ok (.id 1))) ∧ Demo.s0.mdata.get 1 = none ∧
    Shown s' 1 [("k", .nat 1)] := ⟨_, rfl, rfl, rfl⟩

/-- **C34**, the "nothing" half as far as it holds: a mint that is not accepted
changes no owner, no balance, no approval and no supply; unless it was the
ledger that refused, it changes nothing at all. Missing: with a refusal by the
ledger, metadata and already recorded transactions stay (`C34_violated`). -/
theorem C34_refused_partial (E : Env H) (s : State H) {c : Principal} {now : Nat} {reqs : List MintReq}
    (hno : ∀ ok, (step E s (.call c now (.mint reqs))).2 ≠ .mgmt (.ok ok)) :
    let s' := (step E s (.call c now (.mint reqs))).1
    (∀ tid, Owner s' tid = Owner s tid) ∧ (∀ a, balanceOf s' a = balanceOf s a) ∧
    totalSupply s' = totalSupply s ∧ SameApprovals s s' ∧
    ((step E s (.call c now (.mint reqs))).2 ≠ .mgmt (.error .storageCanisterError) → s' = s) := by
  have same : SameApprovals s s := ⟨fun _ _ _ => .rfl, fun _ _ _ => .rfl⟩
  rcases mint_step E s c now reqs with h | h | ⟨t, r, h, hout⟩
  · rw [h]; exact ⟨fun _ => rfl, fun _ => rfl, rfl, same, fun _ => rfl⟩
  · rw [h]; exact ⟨fun _ => rfl, fun _ => rfl, rfl, same, fun _ => rfl⟩
  rw [h] at hno ⊢
  dsimp only
  cases hout with
  | refused e => exact ⟨fun _ => rfl, fun _ => rfl, rfl, same, fun _ => rfl⟩
  | cut md hh n free hn hmd memos =>
    exact ⟨fun _ => rfl, fun _ => rfl, rfl, ⟨fun _ _ _ => .rfl, fun _ _ _ => .rfl⟩, fun h => absurd rfl h⟩
  | minted => exact absurd rfl (hno _)

/-- **C34** over a ledger that does not refuse: all or nothing. -/
theorem C34_accepting_ledger_partial (E : Env H) (hL : ∀ h t, ∃ h' i, E.ledger.add h t = (h', .ok i))
    (s : State H) {c : Principal} {now : Nat} {reqs : List MintReq}
    (hno : ∀ ok, (step E s (.call c now (.mint reqs))).2 ≠ .mgmt (.ok ok)) :
    (step E s (.call c now (.mint reqs))).1 = s := by
  refine (C34_refused_partial E s hno).2.2.2.2 ?_
  intro h
  rcases mint_step E s c now reqs with h' | h' | ⟨t, r, h', _⟩
  · rw [h'] at h; cases h
  · rw [h'] at h; cases h
  rw [h'] at h
  simp only [Reply.mgmt.injEq] at h
  subst h
  simp only [step, execCall, Call.needs, exec] at h'
  split at h'
  · cases hm : mint E s c now reqs with
    | none => rw [hm] at h'; cases h'
    | some p =>
      rw [hm] at h'
      obtain ⟨t', r'⟩ := p
      simp only [ofMgmt, Prod.mk.injEq, Reply.mgmt.injEq] at h'
      obtain ⟨rfl, rfl⟩ := h'
      rcases withGuard_out hm with ⟨_, _, h⟩ | ⟨free, s1, hb, _⟩
      · cases h
      dsimp only at hb
      repeat' split at hb
      all_goals try (cases hb; done)
      rename_i htx
      have h2 := congrArg Prod.snd htx
      rw [mintTxs_accept hL] at h2
      cases h2
  · cases h'

/-- A ledger that refuses its second call only. -/
def Demo.flaky : Env Nat := ⟨⟨fun h _ => (h + 1, if h = 1 then .error .other else .ok h)⟩, [9], fun _ => "aaaaa-aa"⟩

/-- The mint of two tokens that `Demo.flaky` cuts short. -/
def Demo.cutMint : Msg := .call admin (ms 100) (.mint [{ owner := alice, metadata := [("k", .nat 1)] }, { owner := bob }])

/-- **C34 fails** when the ledger refuses in the middle of a batch: the call
answers with an error and no token exists, yet a mint of token 1 to alice stays
recorded. The next mint gives the same id to someone else and records a second
mint of it. -/
theorem C34_violated :
    let s := (step Demo.flaky Demo.s0 Demo.cutMint).1
    let s' := (step Demo.flaky s (.call Demo.admin (Demo.ms 200) (.mint [{ owner := Demo.carol }]))).1
    (step Demo.flaky Demo.s0 Demo.cutMint).2 = .mgmt (.error .storageCanisterError) ∧
    Owner s 1 = none ∧ s.log.map (fun t => (t.op, t.tid, t.to_)) = [(.mint, some 1, some Demo.alice)] ∧
    Owner s' 1 = some Demo.carol ∧
    s'.log.map (fun t => (t.op, t.tid, t.to_)) =
      [(.mint, some 1, some Demo.alice), (.mint, some 1, some Demo.carol)] := by
  refine ⟨by rfl, by rfl, by rfl, by rfl, by rfl⟩

/-! ## C60: mints within the limits are accepted -/

/-- **C60.** Exactly which mints are accepted: over a ledger that does not
refuse, those of a permitted caller, while no management call is running, within
the batch limit and the supply cap, with memos within the limit and metadata the
store can hold. Assumed: a memo limit below 2³² and ids below 2⁶⁴. -/
theorem C60_accepted (E : Env H) (hL : ∀ h t, ∃ h' i, E.ledger.add h t = (h', .ok i))
    {s : State H} (hmemo : MemoLimit s < 2 ^ 32) (c : Principal) (now : Nat) (reqs : List MintReq)
    (hids : s.lastId + reqs.length ≤ 2 ^ 64) :
    (∃ first, (step E s (.call c now (.mint reqs))).2 = .mgmt (.ok (.id first))) ↔
      Holds s c .minting ∧ s.guards = [] ∧ reqs.length ≤ BatchLimit s ∧
      totalSupply s + reqs.length ≤ Cap s ∧
      (∀ r ∈ reqs, ∀ b, r.memo = some b → b.length ≤ MemoLimit s) ∧
      (∀ r ∈ reqs, ∀ e ∈ r.metadata, e.2.inRange = true) := by
  have memos := checkMemos_true hmemo reqs
  have mdata := mintMetadata_isSome reqs (t := s.mdata) hids
  constructor
  · rintro ⟨first, h⟩
    simp only [step, execCall, Call.needs, exec] at h
    split at h
    · rename_i hperm
      cases hm : mint E s c now reqs with
      | none => rw [hm] at h; cases h
      | some p =>
        rw [hm] at h
        obtain ⟨t', r'⟩ := p
        simp only [ofMgmt, Reply.mgmt.injEq] at h
        subst h
        have hout := mint_out hm
        cases hout with
        | minted md hh free batch cap hmem hmd =>
          refine ⟨holds_iff.2 hperm, free, batch, cap, memos.1 hmem, mdata.1 (by rw [hmd]; rfl)⟩
    · cases h
  · rintro ⟨hh, hf, hb, hcap, hm, hr⟩
    obtain ⟨md, hmd⟩ := Option.isSome_iff_exists.1 (mdata.2 hr)
    have hm : checkMemos s.cfg reqs = some true := memos.2 hm
    refine ⟨s.lastId, ?_⟩
    have hacc := mintTxs_accept hL (now := now) reqs { s with guards := [c], mdata := md } s.lastId
    simp only [step, execCall, Call.needs, holds_iff.1 hh, if_true, exec, mint, withGuard, guardEnter_free hf]
    have hb' : ¬ reqs.length > s.cfg.maxUpdateBatch.getD 100 := Nat.not_lt.2 hb
    have hc' : ¬ s.tokens.size + reqs.length > s.cfg.supplyCap.getD defaultSupplyCap := Nat.not_lt.2 hcap
    rw [if_neg hb', if_neg hc']
    simp only [hm, hmd]
    rcases hx : mintTxs E.ledger { s with guards := [c], mdata := md } now s.lastId reqs with ⟨t, b⟩
    rw [hx] at hacc
    subst hacc
    simp [ofMgmt]

/-- A memo of three bytes and a metadata entry, in a collection that already has
three tokens. -/
example : (step Demo.env Demo.s1 (.call Demo.admin (Demo.ms 300)
      (.mint [{ owner := Demo.bob, memo := some [1, 2, 3], metadata := [("n", .nat 5)] }]))).2 =
        .mgmt (.ok (.id 4)) ∧
    MemoLimit Demo.s1 < 2 ^ 32 ∧ Demo.s1.lastId = 4 ∧ ∀ h t, ∃ h' i, Demo.env.ledger.add h t = (h', .ok i) :=
  ⟨by rfl, by decide, by decide, fun h _ => ⟨h + 1, h, rfl⟩⟩

/-! ## C35: metadata follows the last accepted write -/

/-- What `Shown` says is what the query answers, for every batch it answers. -/
theorem C35_query (s : State H) {ids : List Nat} {rs} (h : icrc7TokenMetadata s ids = some rs) {i tid : Nat}
    (hid : ids[i]? = some tid) (l : List (String × Value)) : rs[i]? = some (some l) ↔ Shown s tid l := by
  unfold icrc7TokenMetadata queryBatch at h
  split at h
  · cases h
  cases h
  rw [List.getElem?_map, hid]
  simp [Shown]

/-- **C35.** After an accepted update the token shows exactly the supplied map. -/
theorem C35_update (E : Env H) {s s' : State H} (hr : Reachable E s) {c : Principal} {now tid : Nat}
    {kvs : List (String × Value)} {ok : MgmtOk}
    (h : step E s (.call c now (.updateNftMetadata tid kvs)) = (s', .mgmt (.ok ok))) : MetaIs s' tid kvs := by
  have hr' : Reachable E s' := by have := hr.step (.call c now (.updateNftMetadata tid kvs)); rwa [h] at this
  rcases update_step E s c now tid kvs with h' | h' | ⟨t, r, h', hout⟩
  · rw [h'] at h; cases h
  · rw [h'] at h; cases h
  rw [h'] at h
  simp only [Prod.mk.injEq, Reply.mgmt.injEq] at h
  obtain ⟨rfl, rfl⟩ := h
  refine (metaIs_iff hr'.tokInv hr'.rowsNodup).2 ?_
  cases hout with
  | updated token md hh i free tok hmd add =>
    rw [hr.tokInv.ids _ _ tok] at hmd
    exact ⟨⟨token.owner, by simp [Owner]⟩, (replaceMetadata_spec hmd).1⟩

/-- **C61.** An accepted update is recorded with the metadata the token showed
before and the metadata it shows after. -/
theorem C61_recorded (E : Env H) {s s' : State H} (hr : Reachable E s) {c : Principal} {now tid : Nat}
    {kvs : List (String × Value)} {ok : MgmtOk}
    (h : step E s (.call c now (.updateNftMetadata tid kvs)) = (s', .mgmt (.ok ok))) :
    ok = .id tid ∧ ∃ before after, Shown s tid before ∧ Shown s' tid after ∧
      s'.log = s.log ++ [{ op := .updateToken, ts := now, tid := some tid, from_ := some ⟨c, none⟩,
                           meta_ := some (before, after), createdAt := some now }] := by
  have hr' : Reachable E s' := by have := hr.step (.call c now (.updateNftMetadata tid kvs)); rwa [h] at this
  rcases update_step E s c now tid kvs with h' | h' | ⟨t, r, h', hout⟩
  · rw [h'] at h; cases h
  · rw [h'] at h; cases h
  rw [h'] at h
  simp only [Prod.mk.injEq, Reply.mgmt.injEq] at h
  obtain ⟨rfl, rfl⟩ := h
  cases hout with
  | updated token md hh i free tok hmd add =>
    refine ⟨rfl, _, _, (shown_iff hr.tokInv).2 ⟨⟨token.owner, by simp [Owner, tok]⟩, rfl⟩,
      (shown_iff hr'.tokInv).2 ⟨⟨token.owner, by simp [Owner]⟩, rfl⟩, ?_⟩
    simp only [updateTx, getAllData_eq]

/-- The update message of the examples: key `k` twice. -/
def Demo.updMsg : Msg := .call admin (ms 200) (.updateNftMetadata 1 [("k", .nat 5), ("j", .text "x"), ("k", .nat 6)])

example : ∃ s', step Demo.env Demo.s1 Demo.updMsg = (s', .mgmt (.ok (.id 1))) ∧
    Shown s' 1 [("j", .text "x"), ("k", .nat 6)] ∧ s'.log.length = 4 := ⟨_, rfl, rfl, rfl⟩

/-- **C35.** No message except an update of the token itself changes what it
shows. -/
theorem C35_frame (E : Env H) {s : State H} (hr : Reachable E s) {m : Msg} {tid : Nat}
    (hm : ∀ c now kvs, m ≠ .call c now (.updateNftMetadata tid kvs))
    {l : List (String × Value)} (hl : Shown s tid l) (hex : ∃ o, Owner (step E s m).1 tid = some o) :
    Shown (step E s m).1 tid l := by
  have hi := hr.tokInv
  obtain ⟨⟨o, ho⟩, rfl⟩ := (shown_iff hi).1 hl
  refine (shown_iff (hr.step m).tokInv).2 ⟨hex, ?_⟩
  have hlt : tid < s.lastId := by
    obtain ⟨t, ht, _⟩ := Option.map_eq_some_iff.1 ho
    exact hi.fresh _ _ ht
  suffices h : (step E s m).1.mdata.get tid = s.mdata.get tid by
    unfold metaRow; rw [h]
  by_cases h1 : ∃ c now reqs, m = .call c now (.mint reqs)
  · obtain ⟨c, now, reqs, rfl⟩ := h1
    rcases mint_step E s c now reqs with h' | h' | ⟨t, r, h', hout⟩
    · rw [h']
    · rw [h']
    rw [h']
    cases hout with
    | refused => rfl
    | cut md hh n free hn hmd => exact (mintMetadata_spec _ hmd).2.1 _ (.inl hlt)
    | minted md hh free batch cap memos hmd =>
      rw [mintInsert_eq]
      exact (mintMetadata_spec _ hmd).2.1 _ (.inl hlt)
  by_cases h2 : ∃ c now tid' kvs, m = .call c now (.updateNftMetadata tid' kvs)
  · obtain ⟨c, now, tid', kvs, rfl⟩ := h2
    have hne : tid ≠ tid' := by rintro rfl; exact hm _ _ _ rfl
    rcases update_step E s c now tid' kvs with h' | h' | ⟨t, r, h', hout⟩
    · rw [h']
    · rw [h']
    rw [h']
    cases hout with
    | refused => rfl
    | cut token md hh free tok hmd =>
      rw [hi.ids _ _ tok] at hmd
      exact (replaceMetadata_spec hmd).2.1 _ hne
    | updated token md hh i free tok hmd add =>
      rw [hi.ids _ _ tok] at hmd
      exact (replaceMetadata_spec hmd).2.1 _ hne
  rw [(step_quiet_meta hi (fun c now reqs h => h1 ⟨c, now, reqs, h⟩)
    (fun c now tid kvs h => h2 ⟨c, now, tid, kvs, h⟩)).1]

/-- Token 1 is transferred while token 2 is updated. -/
example : Shown Demo.s1 1 [("k", .nat 1)] ∧ (∃ o, Owner (step Demo.env Demo.s1 Demo.sendMsg).1 1 = some o) :=
  ⟨by rfl, ⟨Demo.bob, by rfl⟩⟩

/-- **C35.** An update that is not accepted changes nothing at all, unless it was
the ledger that refused. Missing: `C35_violated_refused`. -/
theorem C35_refused_partial (E : Env H) (s : State H) {c : Principal} {now tid : Nat} {kvs : List (String × Value)}
    (hno : ∀ ok, (step E s (.call c now (.updateNftMetadata tid kvs))).2 ≠ .mgmt (.ok ok))
    (hl : (step E s (.call c now (.updateNftMetadata tid kvs))).2 ≠ .mgmt (.error .storageCanisterError)) :
    (step E s (.call c now (.updateNftMetadata tid kvs))).1 = s := by
  rcases update_step E s c now tid kvs with h | h | ⟨t, r, h, hout⟩
  · rw [h]
  · rw [h]
  rw [h] at hno hl ⊢
  cases hout with
  | refused => rfl
  | cut => exact absurd rfl hl
  | updated => exact absurd rfl (hno _)

/-- An update of a token that does not exist, and one without permission. -/
example : (step Demo.env Demo.s1 (.call Demo.admin (Demo.ms 200) (.updateNftMetadata 9 []))).2 =
      .mgmt (.error .tokenDoesNotExist) ∧
    (step Demo.env Demo.s1 (.call [2] (Demo.ms 200) (.updateNftMetadata 1 []))).2 = .rejected :=
  ⟨by rfl, by rfl⟩

/-- Ids not given out yet have no metadata. -/
private def MetaFresh (s : State H) : Prop := ∀ k, s.lastId ≤ k → s.mdata.get k = none

/-- One message of a history without refusals: every token that exists
afterwards either was just written, or existed before with the same row. -/
private theorem step_meta {E : Env H} {s : State H} (hr : Reachable E s) (hf : MetaFresh s) {m : Msg}
    (hno : (∃ c now call, m = .call c now call ∧
        ((∃ reqs, call = .mint reqs) ∨ ∃ tid kvs, call = .updateNftMetadata tid kvs)) →
      (step E s m).2 ≠ .mgmt (.error .storageCanisterError)) :
    MetaFresh (step E s m).1 ∧
    ∀ tid o, Owner (step E s m).1 tid = some o →
      (∃ kvs, written tid m (step E s m).2 = some kvs ∧ MetaIs (step E s m).1 tid kvs) ∨
      (written tid m (step E s m).2 = none ∧ (∃ o, Owner s tid = some o) ∧
        (step E s m).1.mdata.get tid = s.mdata.get tid) := by
  have hi := hr.tokInv
  have hlt : ∀ {tid : Nat} {o}, Owner s tid = some o → tid < s.lastId := by
    intro tid o ho
    obtain ⟨t, ht, _⟩ := Option.map_eq_some_iff.1 ho
    exact hi.fresh _ _ ht
  have hr' := hr.step m
  have is : ∀ {tid kvs}, MetaIs (step E s m).1 tid kvs ↔ _ := metaIs_iff hr'.tokInv hr'.rowsNodup
  by_cases h1 : ∃ c now reqs, m = .call c now (.mint reqs)
  · obtain ⟨c, now, reqs, rfl⟩ := h1
    have hno := hno ⟨_, _, _, rfl, .inl ⟨_, rfl⟩⟩
    rcases mint_step E s c now reqs with h' | h' | ⟨t, r, h', hout⟩
    · rw [h']; exact ⟨hf, fun tid o ho => .inr ⟨rfl, ⟨o, ho⟩, rfl⟩⟩
    · rw [h']; exact ⟨hf, fun tid o ho => .inr ⟨rfl, ⟨o, ho⟩, rfl⟩⟩
    cases hout with
    | refused e =>
      rw [h']; exact ⟨hf, fun tid o ho => .inr ⟨rfl, ⟨o, ho⟩, rfl⟩⟩
    | cut => rw [h'] at hno; exact absurd rfl hno
    | minted md hh free batch cap memos hmd =>
      obtain ⟨m1, m2, m3⟩ := mintMetadata_spec _ hmd
      rw [h'] at is ⊢
      refine ⟨?_, fun tid o ho => ?_⟩
      · intro k hk
        rw [mintInsert_eq] at hk ⊢
        dsimp only at hk ⊢
        rw [m2 k (.inr hk)]
        exact hf k (by omega)
      · by_cases hin : s.lastId ≤ tid ∧ tid < s.lastId + reqs.length
        · have hlen : tid - s.lastId < reqs.length := by omega
          left
          refine ⟨(reqs[tid - s.lastId]).metadata, ?_, ?_⟩
          · simp [written, hin.1, hlen]
          · refine is.2 ⟨⟨o, ho⟩, fun k => ?_⟩
            rw [mintInsert_eq]
            dsimp only
            have hk := m1 (tid - s.lastId) _ (List.getElem?_eq_getElem hlen) k
            rw [show s.lastId + (tid - s.lastId) = tid by omega] at hk
            rw [hk]
            simp [metaRow, hf tid hin.1]
        · right
          have ho' : Owner s tid = some o := by
            rw [mintInsert_eq] at ho
            unfold Owner at ho ⊢
            simp only [insTok_get] at ho
            rwa [dif_neg hin] at ho
          refine ⟨?_, ⟨o, ho'⟩, ?_⟩
          · simp only [written]
            rw [if_neg (by have := hlt ho'; omega)]
          · rw [mintInsert_eq]
            exact m2 tid (.inl (hlt ho'))
  by_cases h2 : ∃ c now tid' kvs, m = .call c now (.updateNftMetadata tid' kvs)
  · obtain ⟨c, now, tid', kvs, rfl⟩ := h2
    have hno := hno ⟨_, _, _, rfl, .inr ⟨_, _, rfl⟩⟩
    rcases update_step E s c now tid' kvs with h' | h' | ⟨t, r, h', hout⟩
    · rw [h']; exact ⟨hf, fun tid o ho => .inr ⟨rfl, ⟨o, ho⟩, rfl⟩⟩
    · rw [h']; exact ⟨hf, fun tid o ho => .inr ⟨rfl, ⟨o, ho⟩, rfl⟩⟩
    cases hout with
    | refused e => rw [h']; exact ⟨hf, fun tid o ho => .inr ⟨rfl, ⟨o, ho⟩, rfl⟩⟩
    | cut => rw [h'] at hno; exact absurd rfl hno
    | updated token md hh i free tok hmd add =>
      have hup := C35_update E hr h'
      rw [hi.ids _ _ tok] at hmd
      obtain ⟨r1, r2, r3⟩ := replaceMetadata_spec hmd
      rw [h']
      refine ⟨fun k hk => ?_, fun tid o ho => ?_⟩
      · dsimp only at hk ⊢
        have : tid' < s.lastId := hi.fresh _ _ tok
        rw [r2 k (by omega)]
        exact hf k hk
      · by_cases he : tid' = tid
        · subst he
          exact .inl ⟨kvs, by simp [written], hup⟩
        · refine .inr ⟨by simp [written, he], ⟨o, ?_⟩, r2 tid fun h => he h.symm⟩
          unfold Owner at ho ⊢
          rwa [Map.get_set_ne _ _ (by simpa using he)] at ho
  · obtain ⟨q1, q2, q3⟩ := step_quiet_meta (E := E) hi (fun c now reqs h => h1 ⟨c, now, reqs, h⟩)
      (fun c now tid kvs h => h2 ⟨c, now, tid, kvs, h⟩)
    refine ⟨fun k hk => by rw [q1]; exact hf k (by omega), fun tid o ho => .inr ⟨?_, ?_, by rw [q1]⟩⟩
    · unfold written
      split
      · exact absurd ⟨_, _, _, _, rfl⟩ h2
      · exact absurd ⟨_, _, _, rfl⟩ h1
      · rfl
    · cases hs : Owner s tid with
      | some o => exact ⟨o, rfl⟩
      | none => rw [q3 tid hs] at ho; cases ho

/-- **C35** for whole histories: as long as the ledger refuses no mint and no
update, every existing token shows exactly the map last written for it.
Missing: histories with such refusals (`C35_violated_refused`,
`C35_violated_reused`). -/
theorem C35_history_partial (E : Env H) {v : String → Bool} {hid : H} {inst : Principal} {a : InitArgs}
    {s₀ : State H} (h0 : init v hid inst a = some s₀) (msgs : List Msg) (hno : LedgerNeverRefused E s₀ msgs)
    {tid : Nat} {o : Account} (ho : Owner (run E s₀ msgs) tid = some o) :
    ∃ kvs, lastWritten E s₀ tid msgs = some kvs ∧ MetaIs (run E s₀ msgs) tid kvs := by
  have key : ∀ (msgs : List Msg) (s : State H), Reachable E s → MetaFresh s → LedgerNeverRefused E s msgs →
      ∀ tid o, Owner (run E s msgs) tid = some o →
      (∃ kvs, lastWritten E s tid msgs = some kvs ∧ MetaIs (run E s msgs) tid kvs) ∨
      (lastWritten E s tid msgs = none ∧ (∃ o, Owner s tid = some o) ∧
        (run E s msgs).mdata.get tid = s.mdata.get tid) := by
    intro msgs
    induction msgs with
    | nil => intro s _ _ _ tid o ho; exact .inr ⟨rfl, ⟨o, ho⟩, rfl⟩
    | cons m ms ih =>
      intro s hr hf hn tid o ho
      obtain ⟨hf', hstep⟩ := step_meta hr hf hn.1
      rcases ih _ (hr.step m) hf' hn.2 tid o ho with ⟨kvs, h1, h2⟩ | ⟨h1, ⟨o', h2⟩, h3⟩
      · exact .inl ⟨kvs, by simp [lastWritten, h1], h2⟩
      · rcases hstep tid o' h2 with ⟨kvs, w1, w2⟩ | ⟨w1, w2, w3⟩
        · left
          refine ⟨kvs, by simp [lastWritten, h1, w1], ?_⟩
          have hr1 := hr.step m
          have hr2 := hr1.run ms
          obtain ⟨_, hrow⟩ := (metaIs_iff hr1.tokInv hr1.rowsNodup).1 w2
          refine (metaIs_iff hr2.tokInv hr2.rowsNodup).2 ⟨⟨o, ho⟩, ?_⟩
          unfold metaRow at hrow ⊢
          rwa [h3]
        · exact .inr ⟨by simp [lastWritten, h1, w1], w2, h3.trans w3⟩
  have hr0 : Reachable E s₀ := ⟨v, hid, inst, a, s₀, [], h0, rfl⟩
  have hf0 : MetaFresh s₀ := by intro k _; rw [init_eq h0]; rfl
  rcases key msgs s₀ hr0 hf0 hno tid o ho with h | ⟨_, ⟨o', h⟩, _⟩
  · exact h
  · rw [init_eq h0] at h; cases h

/-- Token 1 is minted with `k = 1`, updated, sent to bob. -/
example : LedgerNeverRefused Demo.env Demo.s0 [Demo.mintMsg, Demo.updMsg, Demo.sendMsg] ∧
    Owner (run Demo.env Demo.s0 [Demo.mintMsg, Demo.updMsg, Demo.sendMsg]) 1 = some Demo.bob ∧
    lastWritten Demo.env Demo.s0 1 [Demo.mintMsg, Demo.updMsg, Demo.sendMsg] =
      some [("k", .nat 5), ("j", .text "x"), ("k", .nat 6)] := by
  refine ⟨⟨fun _ h => ?_, fun _ h => ?_, fun _ h => ?_, trivial⟩, by rfl, by rfl⟩ <;> revert h <;>
    exact fun h => nomatch h

/-- **C35 fails** for an update the ledger refuses: the caller gets an error, the
new metadata is shown, and nothing is recorded. -/
theorem C35_violated_refused :
    let E := Demo.shortEnv 3
    let s := run E Demo.s0 [Demo.mintMsg]
    let s' := (step E s Demo.updMsg).1
    (step E s Demo.updMsg).2 = .mgmt (.error .storageCanisterError) ∧
    Shown s 1 [("k", .nat 1)] ∧ Shown s' 1 [("j", .text "x"), ("k", .nat 6)] ∧ s'.log = s.log := by
  refine ⟨by rfl, by rfl, by rfl, by rfl⟩

/-- **C35 fails** for an id that is given out again after a mint the ledger cut
short: carol's token was minted without metadata and shows alice's. -/
theorem C35_violated_reused :
    let s := (step Demo.flaky Demo.s0 Demo.cutMint).1
    let r := step Demo.flaky s (.call Demo.admin (Demo.ms 200) (.mint [{ owner := Demo.carol }]))
    r.2 = .mgmt (.ok (.id 1)) ∧ Owner r.1 1 = some Demo.carol ∧ Shown r.1 1 [("k", .nat 1)] := by
  refine ⟨by rfl, by rfl, by rfl⟩

end Verif
