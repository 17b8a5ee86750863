import Verif.Spec.Errors
import Verif.Lemmas.ApprovalTables
import Verif.Lemmas.Answers
import Verif.Props.Limits
/-!
# C15–C22, C47, C56, C57: approvals
-/
namespace Verif

open Spec

variable {H : Type}

/-! ## C56, C57: authority is enough -/

/-- C56: whoever may move a token can. If the token is owned by `from`, the
calling account is the owner or holds a live approval, recipient, time and rate
are in order and the ledger accepts with index `i`, the item is answered `i` and
the token belongs to `to`. -/
theorem C56_transfer_from_succeeds {E : Env H} {s : State H} {c : Principal} {now i : Nat} {arg : TransferFromArg}
    {o : Account} (hr : Reachable E s) (hrate : recentCalls s now arg.tid < 5)
    (htime : ∀ t, arg.createdAt = some t → SaneTimes s now t ∧ InWindow37 s now t)
    (ho : Owner s arg.tid = some o) (hfrom : SameAccount o arg.from_) (hdiff : ¬ SameAccount arg.from_ arg.to_)
    (hto : ¬ SameAccount arg.to_ ⟨anonymous, none⟩)
    (hauth : MayMove s now arg.tid o ⟨c, arg.spenderSub⟩)
    (hled : (E.ledger.add s.hid (fromTx c now arg)).2 = .ok i) :
    ∃ s', step E s (.call c now (.transferFrom [arg])) = (s', .batch [.ok i]) ∧ Owner s' arg.tid = some arg.to_ := by
  obtain ⟨t, ht, rfl⟩ := owner_get ho
  rw [sameAccount_iff] at hfrom hdiff hto
  obtain ⟨s', hs'⟩ := transferFrom_accepts (L := E.ledger) hrate (verifyTimingOpt_of htime) ht hfrom
    (by simpa using hdiff) (by simpa [anonymousAccount] using hto) hauth (fun m => hr.apprKeys _ m) hled
  refine ⟨s', ?_, ?_⟩
  · simp [step, execCall, Call.needs, exec, icrc37TransferFrom, runBatch, hs', ofBatch]
  · have hout := transferFrom_out hs'
    clear hs'
    cases hout with
    | moved w nft h i tok own auth diff toOk timing add =>
      unfold Owner moveToken
      dsimp only
      rw [hr.tokInv.ids _ _ tok, Map.get_set]
      simp

/-- carol, approved by alice for token 2, meets the hypotheses. -/
example : MayMove (run Demo.env Demo.s1 [Demo.approveMsg]) (Demo.ms 300) 2 Demo.alice Demo.carol ∧
    recentCalls (run Demo.env Demo.s1 [Demo.approveMsg]) (Demo.ms 300) 2 < 5 ∧
    Owner (run Demo.env Demo.s1 [Demo.approveMsg]) 2 = some Demo.alice ∧
    (step Demo.env (run Demo.env Demo.s1 [Demo.approveMsg]) Demo.takeMsg).2 = .batch [.ok 4] :=
  ⟨.inr (.inl ⟨{ spender := Demo.carol, from_ := Demo.alice, expiresAt := none, createdAt := Demo.ms 200, memo := none }, ⟨_, rfl, rfl⟩, by intro e h; cases h⟩), by decide, rfl, rfl⟩

/-- C57: the owner of a token can approve a spender. If the calling account is
the owner, the spender is not the anonymous account, fewer approvals than the
limit are recorded for the token, time and rate are in order and the ledger
accepts with index `i`, the item is answered `i` and from then on, until the
approval expires, the spender may move the token. -/
theorem C57_approve_succeeds {E : Env H} {s : State H} {c : Principal} {now i : Nat} {arg : ApproveTokenArg}
    {o : Account} (hr : Reachable E s) (hrate : recentCalls s now arg.tid < 5)
    (htime : SaneTimes s now arg.info.createdAt) (hin : InWindow37 s now arg.info.createdAt)
    (ho : Owner s arg.tid = some o) (hown : SameAccount o ⟨c, arg.info.fromSub⟩)
    (hsp : ¬ SameAccount arg.info.spender ⟨anonymous, none⟩) (hw : arg.tid < 2 ^ 64)
    (hlim : ApprovalLimit s < 2 ^ 32)
    (hroom : ¬ TokenSpenders s arg.tid (ApprovalLimit s))
    (hled : (E.ledger.add s.hid (approvalTx c now arg)).2 = .ok i) :
    ∃ s', step E s (.call c now (.approveTokens [arg])) = (s', .batch [.ok i]) ∧ Owner s' arg.tid = some o ∧
      ∀ later, (∀ e, arg.info.expiresAt = some e → later < e) → MayMove s' later arg.tid o arg.info.spender := by
  rw [sameAccount_iff] at hown hsp
  have hmax : maxApprovals s.cfg = ApprovalLimit s := by
    unfold maxApprovals toUsizeOr
    rw [show s.cfg.maxApprovals.getD defaultMaxApprovals = ApprovalLimit s from rfl, if_pos (pow32 ▸ hlim)]
  obtain ⟨s', hs'⟩ := approveToken_accepts (L := E.ledger) hrate (verifyTiming_of htime hin) ho hown
    (by simpa [anonymousAccount] using hsp) (by rw [hmax]; exact tokRoom_of hr.apprInv hroom) (pow64 ▸ hw) hled
  refine ⟨s', ?_, ?_⟩
  · simp [step, execCall, Call.needs, exec, icrc37ApproveTokens, runBatch, hs', ofBatch]
  · have hout := approveToken_out hs'
    clear hs'
    cases hout with
    | approved w owner h i own eqv sp room timing add =>
      refine ⟨ho, fun later hl => .inr (.inl ⟨mkApproval arg.info ⟨c, arg.info.fromSub⟩ now, ⟨_, Map.get_set_self _ _ _, Map.get_set_self _ _ _⟩, hl⟩)⟩

/-- The same for a collection approval, by any principal that owns a token. -/
theorem C57_approve_collection_succeeds {E : Env H} {s : State H} {c : Principal} {now i tid : Nat} {info : ApprovalInfo}
    {o : Account} (hr : Reachable E s) (hrate : recentCalls s now 0 < 5)
    (htime : SaneTimes s now info.createdAt) (hin : InWindow37 s now info.createdAt)
    (ho : Owner s tid = some o) (hown : SameAccount o ⟨c, info.fromSub⟩)
    (hsp : ¬ SameAccount info.spender ⟨anonymous, none⟩)
    (hlim : ApprovalLimit s < 2 ^ 32)
    (hroom : ¬ CollSpenders s ⟨c, info.fromSub⟩ (ApprovalLimit s))
    (hled : (E.ledger.add s.hid (collApprovalTx c now info)).2 = .ok i) :
    ∃ s', step E s (.call c now (.approveCollection [info])) = (s', .batch [.ok i]) ∧ Owner s' tid = some o ∧
      ∀ later, (∀ e, info.expiresAt = some e → later < e) → MayMove s' later tid o info.spender := by
  rw [sameAccount_iff] at hown hsp
  have hmax : maxApprovals s.cfg = ApprovalLimit s := by
    unfold maxApprovals toUsizeOr
    rw [show s.cfg.maxApprovals.getD defaultMaxApprovals = ApprovalLimit s from rfl, if_pos (pow32 ▸ hlim)]
  obtain ⟨t, ht, rfl⟩ := owner_get ho
  have holds : ∃ e ∈ s.tokens.entries, e.2.owner.owner = c := by
    obtain ⟨k, hk, hm⟩ := Map.mem_of_get ht
    exact ⟨_, hm, (Account.beq_iff.1 hown).1⟩
  obtain ⟨s', hs'⟩ := approveCollection_accepts (L := E.ledger) hrate (verifyTiming_of htime hin) holds
    (by simpa [anonymousAccount] using hsp) (by rw [hmax]; exact collRoom_of hr.apprInv hroom) hled
  refine ⟨s', ?_, ?_⟩
  · simp [step, execCall, Call.needs, exec, icrc37ApproveCollection, runBatch, hs', ofBatch]
  · have hout := approveCollection_out hs'
    clear hs'
    cases hout with
    | approved w h i sp holds room timing add =>
      refine ⟨ho, fun later hl => .inr (.inr ⟨mkApproval info ⟨c, info.fromSub⟩ now,
        ⟨((s.collAppr.get ⟨c, info.fromSub⟩).getD ∅).set info.spender (mkApproval info ⟨c, info.fromSub⟩ now), ?_,
          Map.get_set_self _ _ _⟩, hl⟩)⟩
      dsimp only
      rw [Map.get_congr _ hown]
      exact Map.get_set_self _ _ _

example : recentCalls Demo.s1 (Demo.ms 200) 2 < 5 ∧ SaneTimes Demo.s1 (Demo.ms 200) (Demo.ms 200) ∧
    InWindow37 Demo.s1 (Demo.ms 200) (Demo.ms 200) ∧ ApprovalLimit Demo.s1 = 10 ∧ ¬ TokenSpenders Demo.s1 2 10 ∧
    (step Demo.env Demo.s1 Demo.approveMsg).2 = .batch [.ok 3] :=
  ⟨by decide, ⟨by decide, by decide⟩, ⟨by decide, by decide⟩, rfl,
    (fun ⟨sps, _, h, hl⟩ => by
      cases sps with
      | nil => simp at hl
      | cons sp _ => obtain ⟨_, _, hm, _⟩ := h sp (by simp); cases hm), rfl⟩

/-! ## C16 -/

/-- C16: approvals that are not live do not authorise. If the spender is not the
owner, and neither its token approval nor its collection approval by the owner is
live, `transfer_from` of the token is not accepted. -/
theorem C16_expired_never_authorise {E : Env H} {s s' : State H} {c : Principal} {now i : Nat} {arg : TransferFromArg}
    {o : Account} (ho : Owner s arg.tid = some o) (hno : ¬ SameAccount ⟨c, arg.spenderSub⟩ o)
    (htok : ∀ a, TokenApproval s arg.tid ⟨c, arg.spenderSub⟩ a → ∃ e, a.expiresAt = some e ∧ e ≤ now)
    (hcoll : ∀ a, CollApproval s o ⟨c, arg.spenderSub⟩ a → ∃ e, a.expiresAt = some e ∧ e ≤ now) :
    step E s (.call c now (.transferFrom [arg])) ≠ (s', .batch [.ok i]) := by
  intro h
  have hout := transferFrom_out (transferFrom_one h)
  clear h
  cases hout with
  | moved w nft h i tok own auth diff toOk timing add =>
    obtain ⟨t, ht, rfl⟩ := owner_get ho
    rw [ht] at tok; cases tok
    rcases auth with h | ⟨a, ha, hl⟩ | ⟨a, ha, hl⟩
    · exact hno (sameAccount_iff.2 h)
    · obtain ⟨e, he, hle⟩ := htok a ha
      have := hl e he
      omega
    · obtain ⟨e, he, hle⟩ := hcoll a ha
      have := hl e he
      omega

/-- C16: an item that gets to the authorisation check (it is accepted, or answered
`Unauthorized`) leaves no expired token or collection approval of that spender
behind. -/
theorem C16_expired_dropped {E : Env H} {s s' : State H} {c : Principal} {now : Nat} {arg : TransferFromArg} {r}
    {o : Account} (ho : Owner s arg.tid = some o) (hr : r = .error .unauthorized ∨ ∃ i, r = .ok i)
    (h : step E s (.call c now (.transferFrom [arg])) = (s', .batch [r])) {a : Approval} {e : Nat}
    (he : a.expiresAt = some e) (hle : e ≤ now) :
    ¬ TokenApproval s' arg.tid ⟨c, arg.spenderSub⟩ a ∧ ¬ CollApproval s' o ⟨c, arg.spenderSub⟩ a := by
  have hl : ¬ Live a now := fun hl => by have := hl e he; omega
  obtain ⟨h1, h2⟩ := transferFrom_drops ho hr (transferFrom_one h)
  exact ⟨h1 a hl, h2 a hl⟩

/-- alice lets carol move token 2 until 250 ms. -/
def shortApprove : Msg :=
  .call [1] (Demo.ms 200) (.approveTokens [{ tid := 2, info := { spender := Demo.carol, createdAt := Demo.ms 200, expiresAt := some (Demo.ms 250) } }])

example :
    (∃ a, TokenApproval (run Demo.env Demo.s1 [shortApprove]) 2 Demo.carol a ∧ a.expiresAt = some (Demo.ms 250)) ∧
    (step Demo.env (run Demo.env Demo.s1 [shortApprove]) Demo.takeMsg).2 = .batch [.error .unauthorized] ∧
    (step Demo.env (run Demo.env Demo.s1 [shortApprove]) (.call [3] (Demo.ms 249)
      (.transferFrom [{ from_ := Demo.alice, to_ := Demo.carol, tid := 2 }]))).2 = .batch [.ok 4] :=
  ⟨⟨_, ⟨_, rfl, rfl⟩, rfl⟩, rfl, rfl⟩

/-! ## C15 -/

/-- C15 for `icrc37_transfer_from`: when an item is accepted, no approval is left
on the token, and in every continuation in which nobody is approved for it
(`quiet`), nobody but the owner and spenders of a collection approval of the owner
can move it. -/
theorem C15_transfer_from_partial {E : Env H} {s s' : State H} {c c' : Principal} {now now' i j : Nat}
    {arg arg' : TransferFromArg} {o' : Account} (hr : Reachable E s)
    (h : step E s (.call c now (.transferFrom [arg])) = (s', .batch [.ok i])) (ms : List Msg)
    (quiet : ∀ m ∈ ms, ∀ c now args, m = .call c now (.approveTokens args) → ∀ a ∈ args, a.tid ≠ arg.tid)
    (ht : arg'.tid = arg.tid) (ho : Owner (run E s' ms) arg.tid = some o')
    (hno : ¬ SameAccount ⟨c', arg'.spenderSub⟩ o')
    (hcoll : ∀ a, ¬ CollApproval (run E s' ms) o' ⟨c', arg'.spenderSub⟩ a) (s'' : State H) :
    step E (run E s' ms) (.call c' now' (.transferFrom [arg'])) ≠ (s'', .batch [.ok j]) := by
  have hr' : Reachable E s' := by have := hr.step (.call c now (.transferFrom [arg])); rw [h] at this; exact this
  have hgone : ∀ a, ¬ TokenApproval s' arg.tid ⟨c', arg'.spenderSub⟩ a := by
    have hout := transferFrom_out (transferFrom_one h)
    clear h
    cases hout with
    | moved w nft h i tok own auth diff toOk timing add =>
      rintro a ⟨m, hm, _⟩
      simp at hm
  have hnone := noTokenApproval_run (E := E) ms
    (fun m hm c now args he a ha hta _ => quiet m hm c now args he a ha hta) hr'.tokInv hgone
  rw [← ht] at ho
  exact C16_expired_never_authorise ho hno (fun a ha => absurd (ht ▸ ha) (hnone a)) (fun a ha => absurd ha (hcoll a))

/-- carol and bob are approved for token 2; carol moves it to itself; bob's
approval has gone with it. -/
example :
    let s := run Demo.env Demo.s1 [Demo.approveMsg, .call [1] (Demo.ms 200)
      (.approveTokens [{ tid := 2, info := { spender := Demo.bob, createdAt := Demo.ms 200 } }]), Demo.takeMsg]
    Owner s 2 = some Demo.carol ∧
    (step Demo.env s (.call [2] (Demo.ms 300) (.transferFrom [{ from_ := Demo.carol, to_ := Demo.bob, tid := 2 }]))).2 =
      .batch [.error .unauthorized] := ⟨rfl, rfl⟩

/-- C15 for `icrc7_transfer`, as far as it holds: whoever had no approval of the token
before the batch, expired or not, is not authorised afterwards, in any continuation in
which nobody is approved for it. Missing: spenders the previous owner had approved stay
approved (`C15_violated`) until the new owner revokes. -/
theorem C15_transfer_partial {E : Env H} {s : State H} {c c' : Principal} {now now' j tid : Nat}
    {args : List TransferArg} {arg' : TransferFromArg} {o' : Account} (hr : Reachable E s) (ms : List Msg)
    (quiet : ∀ m ∈ ms, ∀ c now args, m = .call c now (.approveTokens args) → ∀ a ∈ args, a.tid ≠ tid)
    (hnone : ∀ a, ¬ TokenApproval s tid ⟨c', arg'.spenderSub⟩ a) (ht : arg'.tid = tid)
    (ho : Owner (run E s (.call c now (.transfer args) :: ms)) tid = some o')
    (hno : ¬ SameAccount ⟨c', arg'.spenderSub⟩ o')
    (hcoll : ∀ a, ¬ CollApproval (run E s (.call c now (.transfer args) :: ms)) o' ⟨c', arg'.spenderSub⟩ a) (s'' : State H) :
    step E (run E s (.call c now (.transfer args) :: ms)) (.call c' now' (.transferFrom [arg'])) ≠ (s'', .batch [.ok j]) := by
  subst ht
  have hgone := noTokenApproval_run (E := E) (.call c now (.transfer args) :: ms)
    (fun m hm c now args he a ha hta _ => by
      rcases List.mem_cons.1 hm with rfl | hm
      · cases he
      · exact quiet m hm c now args he a ha hta) hr.tokInv hnone
  exact C16_expired_never_authorise ho hno (fun a ha => absurd ha (hgone a)) (fun a ha => absurd ha (hcoll a))

/-- alice sells token 2, for which nobody is approved, to bob; carol cannot take it. -/
example :
    Owner (run Demo.env Demo.s1 [.call [1] (Demo.ms 250) (.transfer [{ to_ := Demo.bob, tid := 2 }])]) 2 = some Demo.bob ∧
    (step Demo.env (run Demo.env Demo.s1 [.call [1] (Demo.ms 250) (.transfer [{ to_ := Demo.bob, tid := 2 }])])
      (.call [3] (Demo.ms 300) (.transferFrom [{ from_ := Demo.bob, to_ := Demo.carol, tid := 2 }]))).2 =
      .batch [.error .unauthorized] := ⟨rfl, rfl⟩

/-- The full C15: in the state after a message that changed the owner of a token,
no approval of the previous owner is in force. -/
def ApprovalsEndWithOwnership (E : Env H) : Prop :=
  ∀ (s : State H) (m : Msg) (tid : Nat) (o o' : Account), Reachable E s → Owner s tid = some o →
    Owner (step E s m).1 tid = some o' → ¬ SameAccount o o' →
    ∀ now sp, ¬ SameAccount sp o' → (∀ a, ¬ CollApproval (step E s m).1 o' sp a) → ¬ MayMove (step E s m).1 now tid o' sp

/-- C15 is false: alice approves carol for token 2 and then sells it to bob with
`icrc7_transfer`; carol can still take it, and does. -/
theorem C15_violated : ¬ ApprovalsEndWithOwnership Demo.env ∧
    (let s := run Demo.env Demo.s1 [Demo.approveMsg, .call [1] (Demo.ms 250) (.transfer [{ to_ := Demo.bob, tid := 2 }])]
     Reachable Demo.env s ∧ Owner s 2 = some Demo.bob ∧
     step Demo.env s (.call [3] (Demo.ms 300) (.transferFrom [{ from_ := Demo.bob, to_ := Demo.carol, tid := 2 }])) =
       (run Demo.env s [.call [3] (Demo.ms 300) (.transferFrom [{ from_ := Demo.bob, to_ := Demo.carol, tid := 2 }])],
         .batch [.ok 5])) := by
  refine ⟨?_, ?_, rfl, rfl⟩
  · intro h
    refine h (run Demo.env Demo.s1 [Demo.approveMsg]) (.call [1] (Demo.ms 250) (.transfer [{ to_ := Demo.bob, tid := 2 }])) 2
      Demo.alice Demo.bob (Demo.s1_reach.run _) rfl rfl (by decide) (Demo.ms 300) Demo.carol (by decide) ?_ ?_
    · rintro a ⟨m, hm, _⟩
      cases hm
    · exact .inr (.inl ⟨{ spender := Demo.carol, from_ := Demo.alice, expiresAt := none, createdAt := Demo.ms 200, memo := none }, ⟨_, rfl, rfl⟩,
        by intro e he; cases he⟩)
  · exact Demo.s1_reach.run _

/-! ## C17 -/

private theorem revokeToken_gone {L : Ledger H} {s s' : State H} {c : Principal} {now i : Nat} {arg : RevokeTokenArg}
    {sp : Account} (h : revokeToken L s c now arg = some (s', .ok i))
    (hsp : arg.spender = none ∨ ∃ w, arg.spender = some w ∧ SameAccount w sp) (a : Approval) :
    ¬ TokenApproval s' arg.tid sp a := by
  have hout := revokeToken_out h
  clear h
  cases hout with
  | revoked owner h i m own eqv hm timing add =>
    rintro ⟨m', h1, h2⟩
    simp at h1
    subst h1
    rcases hsp with hs | ⟨w, hs, he⟩
    · simp [hs, dropSpender] at h2
    · rw [hs] at h2
      simp only [dropSpender, Map.get_del] at h2
      rw [if_pos (sameAccount_iff.1 he)] at h2
      cases h2

/-- After an accepted item of a revocation batch, no token approval of the pair is
recorded. -/
theorem C17_revoked {E : Env H} {s s' : State H} {c : Principal} {now i : Nat} {args : List RevokeTokenArg} {rs}
    {arg : RevokeTokenArg} {sp : Account}
    (h : step E s (.call c now (.revokeTokens args)) = (s', .batch rs)) (hit : (arg, .ok i) ∈ args.zip rs)
    (hsp : arg.spender = none ∨ ∃ w, arg.spender = some w ∧ SameAccount w sp) (a : Approval) :
    ¬ TokenApproval s' arg.tid sp a := by
  obtain ⟨a0, as, _, hb⟩ := revokeTokens_of_step h
  have hlen := runBatch_length _ hb
  have hzip : (arg, .ok i) ∈ (args.take (maxRevoke s.cfg)).zip rs := by
    have hz : ∀ (l l' : List RevokeTokenArg) (rs : List (Except TokErr Nat)), rs.length = l.length →
        (l ++ l').zip rs = l.zip rs := by
      intro l l' rs hl
      have := List.zip_append (l₁ := l) (r₁ := l') (l₂ := rs) (r₂ := []) hl.symm
      simpa using this
    have := hz (args.take (maxRevoke s.cfg)) (args.drop (maxRevoke s.cfg)) rs hlen
    rw [List.take_append_drop] at this
    rw [← this]
    exact hit
  generalize (guardWindow s now a0.tid).1 = t at hb
  generalize args.take (maxRevoke s.cfg) = l at hb hzip
  have keep : ∀ {t t' : State H} {x r}, revokeToken E.ledger t c now x = some (t', r) →
      ¬ TokenApproval t arg.tid sp a → ¬ TokenApproval t' arg.tid sp a := by
    intro t t' x r hx hn ha
    have hout := revokeToken_out hx
    clear hx
    cases hout with
    | refused h e => exact hn ha
    | revoked owner h i m own eqv hm timing add =>
      obtain ⟨m', h1, h2⟩ := ha
      rw [Map.get_set] at h1
      split at h1
      · rename_i he
        simp at he h1
        subst h1
        exact hn ⟨m, he ▸ hm, get_dropSpender h2⟩
      · exact hn ⟨m', h1, h2⟩
  have keepAll : ∀ (l : List RevokeTokenArg) {t t' : State H} {rs},
      runBatch (fun s a => revokeToken E.ledger s c now a) t l = some (t', rs) →
      ¬ TokenApproval t arg.tid sp a → ¬ TokenApproval t' arg.tid sp a := by
    intro l
    induction l with
    | nil => intro t t' rs h hn; simp [runBatch] at h; rw [← h.1]; exact hn
    | cons x xs ih =>
      intro t t' rs h hn
      obtain ⟨u, r, rs', h1, h2, rfl⟩ := runBatch_cons h
      exact ih h2 (keep h1 hn)
  clear h hlen hit
  induction l generalizing t rs with
  | nil => simp at hzip
  | cons x xs ih =>
    obtain ⟨u, r, rs', h1, h2, rfl⟩ := runBatch_cons hb
    simp at hzip
    rcases hzip with ⟨rfl, rfl⟩ | hz
    · exact keepAll xs h2 (revokeToken_gone h1 hsp a)
    · exact ih u h2 hz

/-- C17: once the owner's revocation for a spender (or for all) is accepted, the
spender cannot move the token in any later state, as long as no new token approval
for the pair is granted, the spender does not own the token and no collection
approval of the owner names the spender. -/
theorem C17_revoked_cannot_move {E : Env H} {s s' s'' : State H} {c : Principal} {now i : Nat}
    {args : List RevokeTokenArg} {rs} {arg : RevokeTokenArg} (hr : Reachable E s)
    (h : step E s (.call c now (.revokeTokens args)) = (s', .batch rs)) (hit : (arg, .ok i) ∈ args.zip rs)
    {c' : Principal} {now' j : Nat} {arg' : TransferFromArg} {o : Account}
    (hsp : arg.spender = none ∨ ∃ w, arg.spender = some w ∧ SameAccount w ⟨c', arg'.spenderSub⟩)
    (ms : List Msg)
    (hms : ∀ m ∈ ms, ∀ c now args, m = .call c now (.approveTokens args) → ∀ a ∈ args, a.tid = arg.tid →
      ¬ SameAccount a.info.spender ⟨c', arg'.spenderSub⟩)
    (ht : arg'.tid = arg.tid) (ho : Owner (run E s' ms) arg.tid = some o)
    (hno : ¬ SameAccount ⟨c', arg'.spenderSub⟩ o)
    (hcoll : ∀ a, ¬ CollApproval (run E s' ms) o ⟨c', arg'.spenderSub⟩ a) :
    step E (run E s' ms) (.call c' now' (.transferFrom [arg'])) ≠ (s'', .batch [.ok j]) := by
  have hr' : Reachable E s' := by have := hr.step (.call c now (.revokeTokens args)); rw [h] at this; exact this
  have hnone := noTokenApproval_run (E := E) ms hms hr'.tokInv (C17_revoked h hit hsp)
  rw [← ht] at ho
  exact C16_expired_never_authorise ho hno (fun a ha => absurd (ht ▸ ha) (hnone a)) (fun a ha => absurd ha (hcoll a))

/-- alice approves carol for token 2, revokes it, and carol's attempt fails. -/
def revokeMsg : Msg := .call [1] (Demo.ms 250) (.revokeTokens [{ tid := 2, spender := some Demo.carol }])
example : (step Demo.env (run Demo.env Demo.s1 [Demo.approveMsg]) revokeMsg).2 = .batch [.ok 4] ∧
    (step Demo.env (run Demo.env Demo.s1 [Demo.approveMsg, revokeMsg]) Demo.takeMsg).2 = .batch [.error .unauthorized] :=
  ⟨rfl, rfl⟩

/-! ## C18 -/

private theorem approveTokens_owner {E : Env H} {c : Principal} {now : Nat} {args : List ApproveTokenArg} {s t : State H}
    (h : Steps E (.call c now (.approveTokens args)) s t) (tid : Nat) : Owner t tid = Owner s tid := by
  refine h.induct (P := fun t => Owner t tid = Owner s tid) ?_ rfl
  intro t t' ht hm
  cases hm with
  | quiet => exact ht
  | approve => exact ht
  | suspend p perm free hp hcall => exact ht
  | dropUpload => exact ht

private theorem revokeTokens_owner {E : Env H} {c : Principal} {now : Nat} {args : List RevokeTokenArg} {s t : State H}
    (h : Steps E (.call c now (.revokeTokens args)) s t) (tid : Nat) : Owner t tid = Owner s tid := by
  refine h.induct (P := fun t => Owner t tid = Owner s tid) ?_ rfl
  intro t t' ht hm
  cases hm with
  | quiet => exact ht
  | revokeTok => exact ht
  | suspend p perm free hp hcall => exact ht
  | dropUpload => exact ht

/-- C18: a token approval that is recorded after a message and was not before was
granted by that message, an `icrc37_approve_tokens` by the token's owner, to the
spender it names. -/
theorem C18_granted_by_owner {E : Env H} {s : State H} (hr : Reachable E s) {m : Msg} {tid : Nat} {sp : Account}
    {a : Approval} (hnew : TokenApproval (step E s m).1 tid sp a) (hold : ¬ TokenApproval s tid sp a) :
    ∃ c now args arg o, m = .call c now (.approveTokens args) ∧ arg ∈ args ∧ arg.tid = tid ∧
      Owner s tid = some o ∧ SameAccount o ⟨c, arg.info.fromSub⟩ ∧ SameAccount arg.info.spender sp ∧
      a.expiresAt = arg.info.expiresAt := by
  have key : Steps E m s (step E s m).1 → (Steps E m s (step E s m).1 ∧ TokInv (step E s m).1 ∧
      (TokenApproval (step E s m).1 tid sp a → TokenApproval s tid sp a ∨
        ∃ c now args arg o, m = .call c now (.approveTokens args) ∧ arg ∈ args ∧ arg.tid = tid ∧
          Owner s tid = some o ∧ SameAccount o ⟨c, arg.info.fromSub⟩ ∧ SameAccount arg.info.spender sp ∧
          a.expiresAt = arg.info.expiresAt)) := by
    intro hst
    refine hst.induct (P := fun t => Steps E m s t ∧ TokInv t ∧ (TokenApproval t tid sp a → TokenApproval s tid sp a ∨
        ∃ c now args arg o, m = .call c now (.approveTokens args) ∧ arg ∈ args ∧ arg.tid = tid ∧
          Owner s tid = some o ∧ SameAccount o ⟨c, arg.info.fromSub⟩ ∧ SameAccount arg.info.spender sp ∧
          a.expiresAt = arg.info.expiresAt)) ?_ ⟨.refl, hr.tokInv, .inl⟩
    intro t t' ⟨h1, h2, h3⟩ hm
    refine ⟨.tail h1 hm, tokInv_micro h2 hm, fun ha => ?_⟩
    rcases (micro_tokAppr h2 hm).gain ha with h | ⟨c, now, args, arg, o, rfl, harg, ht, ho, heq, hsp, _, rfl⟩
    · exact h3 h
    · rw [approveTokens_owner h1] at ho
      exact .inr ⟨c, now, args, arg, o, rfl, harg, ht, ho, sameAccount_iff.2 heq, sameAccount_iff.2 hsp, rfl⟩
  exact ((key (step_steps E s m)).2.2 hnew).resolve_left hold

/-- C18: a token approval that a message removes (or replaces) was replaced by an
approval of the owner, revoked by the owner, removed with an accepted
`icrc37_transfer_from` item of the token, or had expired. -/
theorem C18_removed_by_owner {E : Env H} {s : State H} (hr : Reachable E s) {m : Msg} {tid : Nat} {sp : Account}
    {a : Approval} (hold : TokenApproval s tid sp a) (hgone : ¬ TokenApproval (step E s m).1 tid sp a) :
    (∃ c now args arg o, m = .call c now (.approveTokens args) ∧ arg ∈ args ∧ arg.tid = tid ∧
      Owner s tid = some o ∧ SameAccount o ⟨c, arg.info.fromSub⟩ ∧ SameAccount arg.info.spender sp) ∨
    (∃ c now args arg o, m = .call c now (.revokeTokens args) ∧ arg ∈ args ∧ arg.tid = tid ∧
      Owner s tid = some o ∧ SameAccount o ⟨c, arg.fromSub⟩ ∧
      (arg.spender = none ∨ ∃ w, arg.spender = some w ∧ SameAccount w sp)) ∨
    (∃ c now args arg rs i, m = .call c now (.transferFrom args) ∧ (step E s m).2 = .batch rs ∧
      (arg, .ok i) ∈ args.zip rs ∧ arg.tid = tid) ∨
    (∃ c now args arg, m = .call c now (.transferFrom args) ∧ arg ∈ args ∧ arg.tid = tid ∧
      SameAccount ⟨c, arg.spenderSub⟩ sp ∧ ¬ Live a now) := by
  -- the message is one of three
  have hkind : (∃ c now args, m = .call c now (.approveTokens args)) ∨ (∃ c now args, m = .call c now (.revokeTokens args)) ∨
      (∃ c now args, m = .call c now (.transferFrom args)) := by
    refine Classical.byContradiction fun hno => ?_
    simp only [not_or] at hno
    have : TokInv (step E s m).1 ∧ TokenApproval (step E s m).1 tid sp a := by
      refine (step_steps E s m).induct (P := fun t => TokInv t ∧ TokenApproval t tid sp a) ?_ ⟨hr.tokInv, hold⟩
      intro t t' ⟨h1, h2⟩ hm
      refine ⟨tokInv_micro h1 hm, Classical.byContradiction fun hn => ?_⟩
      rcases (micro_tokAppr h1 hm).loss h2 hn with ⟨c, now, args, _, _, h, _⟩ | ⟨c, now, args, _, _, h, _⟩ |
        ⟨c, now, args, _, _, h, _⟩ | ⟨c, now, args, _, h, _⟩
      · exact hno.1 ⟨c, now, args, h⟩
      · exact hno.2.1 ⟨c, now, args, h⟩
      · exact hno.2.2 ⟨c, now, args, h⟩
      · exact hno.2.2 ⟨c, now, args, h⟩
    exact hgone this.2
  rcases hkind with ⟨c, now, args, rfl⟩ | ⟨c, now, args, rfl⟩ | ⟨c, now, args, rfl⟩
  · left
    have key := (step_steps E s (.call c now (.approveTokens args))).induct
      (P := fun t => Steps E (.call c now (.approveTokens args)) s t ∧ TokInv t ∧ (TokenApproval t tid sp a ∨
        ∃ arg o, arg ∈ args ∧ arg.tid = tid ∧
          Owner s tid = some o ∧ SameAccount o ⟨c, arg.info.fromSub⟩ ∧ SameAccount arg.info.spender sp)) (by
        intro t t' ⟨h1, h2, h3⟩ hm
        refine ⟨.tail h1 hm, tokInv_micro h2 hm, ?_⟩
        rcases h3 with h3 | h3
        · by_cases hn : TokenApproval t' tid sp a
          · exact .inl hn
          · rcases (micro_tokAppr h2 hm).loss h3 hn with ⟨c, now, args, arg, o, h, harg, ht, ho, he, hsp⟩ | ⟨c, now, args, _, _, h, _⟩ |
              ⟨c, now, args, _, _, h, _⟩ | ⟨c, now, args, _, h, _⟩ <;> cases h
            rw [approveTokens_owner h1] at ho
            exact .inr ⟨arg, o, harg, ht, ho, sameAccount_iff.2 he, sameAccount_iff.2 hsp⟩
        · exact .inr h3) ⟨.refl, hr.tokInv, .inl hold⟩
    obtain ⟨arg, o, h⟩ := key.2.2.resolve_left hgone
    exact ⟨c, now, args, arg, o, rfl, h⟩
  · right; left
    have key := (step_steps E s (.call c now (.revokeTokens args))).induct
      (P := fun t => Steps E (.call c now (.revokeTokens args)) s t ∧ TokInv t ∧ (TokenApproval t tid sp a ∨
        ∃ arg o, arg ∈ args ∧ arg.tid = tid ∧
          Owner s tid = some o ∧ SameAccount o ⟨c, arg.fromSub⟩ ∧
          (arg.spender = none ∨ ∃ w, arg.spender = some w ∧ SameAccount w sp))) (by
        intro t t' ⟨h1, h2, h3⟩ hm
        refine ⟨.tail h1 hm, tokInv_micro h2 hm, ?_⟩
        rcases h3 with h3 | h3
        · by_cases hn : TokenApproval t' tid sp a
          · exact .inl hn
          · rcases (micro_tokAppr h2 hm).loss h3 hn with ⟨c, now, args, arg, o, h, _⟩ | ⟨c, now, args, arg, o, h, harg, ht, ho, he, hsp⟩ |
              ⟨c, now, args, _, _, h, _⟩ | ⟨c, now, args, _, h, _⟩ <;> cases h
            rw [revokeTokens_owner h1] at ho
            exact .inr ⟨arg, o, harg, ht, ho, sameAccount_iff.2 he,
              hsp.imp id fun ⟨w, hw, h⟩ => ⟨w, hw, sameAccount_iff.2 h⟩⟩
        · exact .inr h3) ⟨.refl, hr.tokInv, .inl hold⟩
    obtain ⟨arg, o, h⟩ := key.2.2.resolve_left hgone
    exact ⟨c, now, args, arg, o, rfl, h⟩
  · right; right
    have hst : step E s (.call c now (.transferFrom args)) = ofBatch s (icrc37TransferFrom E.ledger s c now args) := rfl
    rw [hst] at hgone ⊢
    cases hb : icrc37TransferFrom E.ledger s c now args with
    | none => rw [hb] at hgone; exact absurd hold hgone
    | some p =>
      obtain ⟨s', rs⟩ := p
      rw [hb] at hgone
      obtain ⟨arg, r, t, t', hz, hp, hn, hf⟩ := runBatch_changes (fun t => TokenApproval t tid sp a) args hb hold hgone
      have hout := transferFrom_out hf
      clear hf
      cases hout with
      | refused w h ta ca e hta hca =>
        right
        refine ⟨c, now, args, arg, rfl, (List.of_mem_zip hz).1, ?_⟩
        rcases hta with rfl | ⟨m, ap, hg, hg2, hl, rfl⟩
        · exact absurd hp hn
        · rw [tokApproval_set (s := t) (k := arg.tid) (m := m.del ⟨c, arg.spenderSub⟩) rfl] at hn
          obtain ⟨m', h1, h2⟩ := hp
          by_cases hk : arg.tid = tid
          · subst hk
            rw [hg] at h1; cases h1
            by_cases hs : ((⟨c, arg.spenderSub⟩ : Account) == sp) = true
            · rw [Map.get_congr _ hs, h2] at hg2
              cases hg2
              exact ⟨rfl, sameAccount_iff.2 hs, hl⟩
            · exact absurd (.inl ⟨rfl, by rw [Map.get_del_ne _ (by simpa using hs)]; exact h2⟩) hn
          · exact absurd (.inr ⟨hk, m', h1, h2⟩) hn
      | moved w nft h i tok own auth diff toOk timing add =>
        left
        refine ⟨c, now, args, arg, rs, i, rfl, rfl, hz, ?_⟩
        rw [tokApproval_del (s := t) (k := arg.tid) rfl] at hn
        exact Decidable.byContradiction fun hk => hn ⟨hk, hp⟩

example : (∃ a, TokenApproval (step Demo.env Demo.s1 Demo.approveMsg).1 2 Demo.carol a) ∧
    (∀ a, ¬ TokenApproval Demo.s1 2 Demo.carol a) ∧
    (∀ a, ¬ TokenApproval (step Demo.env (step Demo.env Demo.s1 Demo.approveMsg).1 Demo.takeMsg).1 2 Demo.carol a) :=
  ⟨⟨_, _, rfl, rfl⟩, (by rintro a ⟨m, hm, _⟩; cases hm), (by rintro a ⟨m, hm, _⟩; cases hm)⟩

/-! ## C19 -/

/-- C19: a collection approval of account `o` that is recorded after a message and
was not before was granted by that message, an `icrc37_approve_collection` by
`o`'s principal, which owned a token, to the spender it names. -/
theorem C19_granted_by_holder {E : Env H} {s : State H} (hr : Reachable E s) {m : Msg} {o sp : Account}
    {a : Approval} (hnew : CollApproval (step E s m).1 o sp a) (hold : ¬ CollApproval s o sp a) :
    ∃ c now args info, m = .call c now (.approveCollection args) ∧ info ∈ args ∧ c = o.owner ∧
      SameAccount ⟨c, info.fromSub⟩ o ∧ SameAccount info.spender sp ∧ a.expiresAt = info.expiresAt ∧
      ∃ tid acc, Owner s tid = some acc ∧ acc.owner = c := by
  have key := (step_steps E s m).induct
    (P := fun t => TokInv t ∧ (t.tokens = s.tokens ∨ ∀ c now args, m ≠ .call c now (.approveCollection args)) ∧
      (CollApproval t o sp a → CollApproval s o sp a ∨
        ∃ c now args info, m = .call c now (.approveCollection args) ∧ info ∈ args ∧ c = o.owner ∧
          SameAccount ⟨c, info.fromSub⟩ o ∧ SameAccount info.spender sp ∧ a.expiresAt = info.expiresAt ∧
          ∃ tid acc, Owner s tid = some acc ∧ acc.owner = c)) (by
      intro t t' ⟨h1, h2, h3⟩ hm
      refine ⟨tokInv_micro h1 hm, ?_, fun ha => ?_⟩
      · rcases h2 with h2 | h2
        · by_cases hk : ∃ c now args, m = .call c now (.approveCollection args)
          · obtain ⟨c, now, args, rfl⟩ := hk
            cases hm with
            | quiet => exact .inl h2
            | approveColl => exact .inl h2
            | suspend => exact .inl h2
            | dropUpload => exact .inl h2
          · exact .inr fun c now args h => hk ⟨c, now, args, h⟩
        · exact .inr h2
      · rcases (micro_collAppr h1 hm).gain ha with h | ⟨c, now, args, info, rfl, harg, ho, hh, hsp, _, rfl⟩
        · exact h3 h
        · right
          have ht : t.tokens = s.tokens := h2.resolve_right fun h => h c now args rfl
          refine ⟨c, now, args, info, rfl, harg, (Account.beq_iff.1 ho).1, sameAccount_iff.2 ho, sameAccount_iff.2 hsp, rfl, ?_⟩
          obtain ⟨⟨k, tk⟩, he, hc⟩ := hh
          refine ⟨k, tk.owner, ?_, hc⟩
          have := Map.get_of_mem h1.nodup he
          rw [ht] at this
          simp [Owner, this]) ⟨hr.tokInv, .inl rfl, .inl⟩
  exact (key.2.2 hnew).resolve_left hold

/-- C19: a collection approval of account `o` that a message removes (or replaces) was
replaced by an approval of `o`'s to the same spender, revoked by `o`'s principal from
its default account, removed with an accepted `icrc37_transfer_from` item out of
`o`, or had expired. -/
theorem C19_removed {E : Env H} {s : State H} (hr : Reachable E s) {m : Msg} {o sp : Account}
    {a : Approval} (hold : CollApproval s o sp a) (hgone : ¬ CollApproval (step E s m).1 o sp a) :
    (∃ c now args info, m = .call c now (.approveCollection args) ∧ info ∈ args ∧
      SameAccount ⟨c, info.fromSub⟩ o ∧ SameAccount info.spender sp) ∨
    (∃ c now args arg, m = .call c now (.revokeCollection args) ∧ arg ∈ args ∧ SameAccount ⟨c, none⟩ o ∧
      (arg.spender = none ∨ ∃ w, arg.spender = some w ∧ SameAccount w sp)) ∨
    (∃ c now args arg rs i, m = .call c now (.transferFrom args) ∧ (step E s m).2 = .batch rs ∧
      (arg, .ok i) ∈ args.zip rs ∧ SameAccount arg.from_ o) ∨
    (∃ c now args arg, m = .call c now (.transferFrom args) ∧ arg ∈ args ∧
      SameAccount ⟨c, arg.spenderSub⟩ sp ∧ ¬ Live a now) := by
  by_cases hkind : ∃ c now args, m = .call c now (.transferFrom args)
  · obtain ⟨c, now, args, rfl⟩ := hkind
    right; right
    have hst : step E s (.call c now (.transferFrom args)) = ofBatch s (icrc37TransferFrom E.ledger s c now args) := rfl
    rw [hst] at hgone ⊢
    cases hb : icrc37TransferFrom E.ledger s c now args with
    | none => rw [hb] at hgone; exact absurd hold hgone
    | some p =>
      obtain ⟨s', rs⟩ := p
      rw [hb] at hgone
      obtain ⟨arg, r, t, t', hz, hp, hn, hf⟩ := runBatch_changes (fun t => CollApproval t o sp a) args hb hold hgone
      have hout := transferFrom_out hf
      clear hf
      cases hout with
      | refused w h ta ca e hta hca =>
        right
        refine ⟨c, now, args, arg, rfl, (List.of_mem_zip hz).1, ?_⟩
        rcases hca with rfl | ⟨nft, _, hca⟩
        · exact absurd hp hn
        · rcases hca with rfl | ⟨tbl, ap, base, hg, hg2, hl, hbase, rfl⟩
          · exact absurd hp hn
          · have hset : ∀ k : Account, (base.set nft.owner (tbl.del ⟨c, arg.spenderSub⟩)).get k =
                (t.collAppr.set nft.owner (tbl.del ⟨c, arg.spenderSub⟩)).get k := by
              intro k
              rcases hbase with rfl | rfl
              · rfl
              · rw [Map.get_set, Map.get_set, Map.get_del]
                by_cases hk : (nft.owner == k) = true <;> simp [hk]
            obtain ⟨m', h1, h2⟩ := hp
            by_cases hk : (nft.owner == o) = true
            · rw [Map.get_congr _ hk, h1] at hg; cases hg
              by_cases hs : ((⟨c, arg.spenderSub⟩ : Account) == sp) = true
              · rw [Map.get_congr _ hs, h2] at hg2
                cases hg2
                exact ⟨sameAccount_iff.2 hs, hl⟩
              · refine absurd ⟨tbl.del ⟨c, arg.spenderSub⟩, ?_, ?_⟩ hn
                · change (base.set nft.owner (tbl.del ⟨c, arg.spenderSub⟩)).get o = _
                  rw [hset, Map.get_set, if_pos hk]
                · rw [Map.get_del_ne _ (by simpa using hs)]; exact h2
            · refine absurd ⟨m', ?_, h2⟩ hn
              change (base.set nft.owner (tbl.del ⟨c, arg.spenderSub⟩)).get o = _
              rw [hset, Map.get_set, if_neg hk]; exact h1
      | moved w nft h i tok own auth diff toOk timing add =>
        left
        refine ⟨c, now, args, arg, rs, i, rfl, rfl, hz, ?_⟩
        rw [collApproval_del (s := t) (k := arg.from_) rfl] at hn
        refine Classical.byContradiction fun hk => hn ⟨?_, hp⟩
        rw [sameAccount_iff] at hk
        simpa using hk
  · have key := (step_steps E s m).induct
      (P := fun t => TokInv t ∧ (CollApproval t o sp a ∨
        (∃ c now args info, m = .call c now (.approveCollection args) ∧ info ∈ args ∧
          SameAccount ⟨c, info.fromSub⟩ o ∧ SameAccount info.spender sp) ∨
        (∃ c now args arg, m = .call c now (.revokeCollection args) ∧ arg ∈ args ∧ SameAccount ⟨c, none⟩ o ∧
          (arg.spender = none ∨ ∃ w, arg.spender = some w ∧ SameAccount w sp)))) (by
        intro t t' ⟨h1, h2⟩ hm
        refine ⟨tokInv_micro h1 hm, ?_⟩
        rcases h2 with h2 | h2
        · by_cases hn : CollApproval t' o sp a
          · exact .inl hn
          · rcases (micro_collAppr h1 hm).loss h2 hn with ⟨c, now, args, info, h, hi, ho, hsp⟩ |
              ⟨c, now, args, arg, h, hi, ho, hsp⟩ | ⟨c, now, args, _, _, h, _⟩ | ⟨c, now, args, _, h, _⟩
            · exact .inr (.inl ⟨c, now, args, info, h, hi, sameAccount_iff.2 ho, sameAccount_iff.2 hsp⟩)
            · exact .inr (.inr ⟨c, now, args, arg, h, hi, sameAccount_iff.2 ho,
                hsp.imp id fun ⟨w, hw, h⟩ => ⟨w, hw, sameAccount_iff.2 h⟩⟩)
            · exact absurd ⟨c, now, args, h⟩ hkind
            · exact absurd ⟨c, now, args, h⟩ hkind
        · exact .inr h2) ⟨hr.tokInv, .inl hold⟩
    rcases key.2.resolve_left hgone with h | h
    · exact .inl h
    · exact .inr (.inl h)

/-- alice, who owns tokens, lets carol move all of them; dave, who owns none,
cannot. -/
def approveAllMsg : Msg := .call [1] (Demo.ms 200) (.approveCollection [{ spender := Demo.carol, createdAt := Demo.ms 200 }])
example : (∃ a, CollApproval (step Demo.env Demo.s1 approveAllMsg).1 Demo.alice Demo.carol a) ∧
    (∀ a, ¬ CollApproval Demo.s1 Demo.alice Demo.carol a) ∧
    (step Demo.env Demo.s1 (.call [4] (Demo.ms 200) (.approveCollection [{ spender := Demo.carol, createdAt := Demo.ms 200 }]))).2 =
      .batch [.error (.generic 1)] :=
  ⟨⟨_, _, rfl, rfl⟩, (by rintro a ⟨m, hm, _⟩; cases hm), rfl⟩

/-- alice takes the approval back. -/
example : (∃ a, CollApproval (step Demo.env Demo.s1 approveAllMsg).1 Demo.alice Demo.carol a) ∧
    ∀ a, ¬ CollApproval (run Demo.env Demo.s1 [approveAllMsg,
      .call [1] (Demo.ms 300) (.revokeCollection [{ spender := some Demo.carol }])]) Demo.alice Demo.carol a :=
  ⟨⟨_, _, rfl, rfl⟩, fun _ ⟨_, h1, h2⟩ => by cases h1; cases h2⟩

/-! ## C20 -/


private theorem maxApprovals_le' (s : State H) {M : Nat} (h : ApprovalLimit s ≤ M) : maxApprovals s.cfg ≤ M := by
  unfold maxApprovals toUsizeOr defaultMaxApprovals
  unfold ApprovalLimit at h
  split
  · exact h
  · rename_i hb
    have : (10 : Nat) ≤ s.cfg.maxApprovals.getD 10 := by
      simp only [USIZE] at hb
      omega
    omega

private structure Bounded (M : Nat) (s : State H) : Prop where
  tok : ∀ tid m, s.tokAppr.get tid = some m → m.size ≤ M
  coll : ∀ o m, s.collAppr.get o = some m → m.size ≤ M

private theorem size_drop (m : Map Account Approval) (k : Option Account) : (dropSpender m k).size ≤ m.size := by
  cases k with
  | none => simp [dropSpender]
  | some k => exact Map.size_del_le m k

private theorem size_set_le (m : Map Account Approval) (k : Account) (v : Approval) : (m.set k v).size ≤ m.size + 1 := by
  cases h : m.get k with
  | none => rw [Map.size_set_of_none h]; exact Nat.le_refl _
  | some w => rw [Map.size_set_of_some h]; omega

private theorem bounded_micro {E : Env H} {m : Msg} {s s' : State H} {M : Nat} (hM : 1 ≤ M) (hi : TokInv s)
    (hlim : maxApprovals s.cfg ≤ M ∨ ∃ c now a, m = .call c now (.updateCollectionMetadata a))
    (hb : Bounded M s) (h : Micro E m s s') : Bounded M s' := by
  constructor
  · cases micro_tokAppr hi h with
    | same he => rw [he]; exact hb.tok
    | approve c now args arg owner hm harg own eqv sp room he =>
      intro tid t hg
      rw [he, Map.get_set] at hg
      split at hg
      · simp at hg; subst hg
        refine Nat.le_trans (size_set_le _ _ _) ?_
        cases hget : s.tokAppr.get arg.tid with
        | none => simpa using hM
        | some t =>
          have := room t hget
          rcases hlim with hl | ⟨_, _, _, h⟩
          · simp; omega
          · rw [hm] at h; cases h
      · exact hb.tok _ _ hg
    | prune c now args arg hm harg tbl a htbl ha' hexp he =>
      intro tid t hg
      rw [he, Map.get_set] at hg
      split at hg
      · simp at hg; subst hg; exact Nat.le_trans (Map.size_del_le _ _) (hb.tok _ _ htbl)
      · exact hb.tok _ _ hg
    | revoke c now args arg owner hm harg own eqv tbl htbl he =>
      intro tid t hg
      rw [he, Map.get_set] at hg
      split at hg
      · simp at hg; subst hg; exact Nat.le_trans (size_drop _ _) (hb.tok _ _ htbl)
      · exact hb.tok _ _ hg
    | moved c now args arg owner hm harg own howner hto auth he =>
      intro tid t hg
      rw [he, Map.get_del] at hg
      split at hg
      · cases hg
      · exact hb.tok _ _ hg
  · cases micro_collAppr hi h with
    | same he => rw [he]; exact hb.coll
    | approve c now args info hm harg sp holds room he =>
      intro tid t hg
      rw [he, Map.get_set] at hg
      split at hg
      · simp at hg; subst hg
        refine Nat.le_trans (size_set_le _ _ _) ?_
        cases hget : s.collAppr.get ⟨c, info.fromSub⟩ with
        | none => simpa using hM
        | some t =>
          have := room t hget
          rcases hlim with hl | ⟨_, _, _, h⟩
          · simp; omega
          · rw [hm] at h; cases h
      · exact hb.coll _ _ hg
    | prune c now args arg o hm harg own tbl a htbl ha' hexp base hbase he =>
      intro tid t hg
      rw [he, Map.get_set] at hg
      split at hg
      · simp at hg; subst hg; exact Nat.le_trans (Map.size_del_le _ _) (hb.coll _ _ htbl)
      · rcases hbase with rfl | rfl
        · exact hb.coll _ _ hg
        · rw [Map.get_del] at hg
          split at hg
          · cases hg
          · exact hb.coll _ _ hg
    | revoke c now args arg hm harg tbl htbl he =>
      intro tid t hg
      rw [he, Map.get_set] at hg
      split at hg
      · simp at hg; subst hg; exact Nat.le_trans (size_drop _ _) (hb.coll _ _ htbl)
      · exact hb.coll _ _ hg
    | moved c now args arg owner hm harg own howner hto auth he =>
      intro tid t hg
      rw [he, Map.get_del] at hg
      split at hg
      · cases hg
      · exact hb.coll _ _ hg

private theorem bounded_run {E : Env H} {M : Nat} (hM : 1 ≤ M) (ms : List Msg) : ∀ {s : State H}, TokInv s → Bounded M s →
    (∀ p, p <+: ms → ApprovalLimit (run E s p) ≤ M) → Bounded M (run E s ms) := by
  induction ms with
  | nil => intro s _ hb _; exact hb
  | cons m ms ih =>
    intro s hi hb hlim
    have h0 : maxApprovals s.cfg ≤ M := maxApprovals_le' s (hlim [] (List.nil_prefix))
    have key := (step_steps E s m).induct (P := fun t => TokInv t ∧ Bounded M t ∧
      (maxApprovals t.cfg ≤ M ∨ ∃ c now a, m = .call c now (.updateCollectionMetadata a))) (by
        intro t t' ⟨h1, h2, h3⟩ hm
        refine ⟨tokInv_micro h1 hm, bounded_micro hM h1 h3 h2 hm, ?_⟩
        rcases h3 with h3 | h3
        · rcases micro_cfg hm with h | ⟨c, now, a, h, _⟩
          · exact .inl (h ▸ h3)
          · exact .inr ⟨c, now, a, h⟩
        · exact .inr h3) ⟨hi, hb, .inl h0⟩
    exact ih key.1 key.2.1 fun p hp => hlim (m :: p) (by simpa using hp)

private theorem applyUpdate_maxApprovals (c : Config) (a : UpdateCollArg) :
    (applyUpdate c a).maxApprovals = c.maxApprovals := by
  have hs : ∀ {A : Type} (o : Option A) (f : A → Config → Config) (c : Config),
      (∀ v c, (f v c).maxApprovals = c.maxApprovals) → (setIf o f c).maxApprovals = c.maxApprovals := by
    intro A o f c hf
    cases o with
    | none => rfl
    | some v => exact hf v c
  unfold applyUpdate
  dsimp only
  iterate 14 refine (hs _ _ _ ?_).trans ?_; exact fun _ _ => rfl
  rfl

/-- The limit is positive and no call changes it. -/
private theorem limit_run {E : Env H} {v : String → Bool} {hid : H} {c : Principal} {a : InitArgs} {s₀ : State H}
    (h0 : init v hid c a = some s₀) (ms : List Msg) :
    1 ≤ ApprovalLimit s₀ ∧ ApprovalLimit (run E s₀ ms) = ApprovalLimit s₀ := by
  constructor
  · unfold ApprovalLimit
    have hcfg : s₀.cfg.maxApprovals = a.maxApprovals := by rw [init_eq h0]; rfl
    have hz : a.maxApprovals ≠ some 0 := by
      intro hz
      unfold init at h0
      repeat' split at h0
      all_goals first | cases h0 | contradiction
    rw [hcfg]
    cases hm : a.maxApprovals with
    | none => decide
    | some n =>
      cases n with
      | zero => exact absurd hm hz
      | succ n => simp
  · exact run_induct (E := E) (P := fun s => ApprovalLimit s = ApprovalLimit s₀) (fun m s s' hP hm => by
      rw [← hP]
      unfold ApprovalLimit
      rcases micro_cfg hm with h | ⟨_, _, _, _, h⟩ <;> rw [h]
      rw [applyUpdate_maxApprovals]) ms rfl

/-- C20: in every reachable state, no token has approvals for more different spenders
than the limit in force. -/
theorem C20_token {E : Env H} {s : State H} (hr : Reachable E s) {tid : Nat} {sps : List Account}
    (hd : sps.Pairwise fun x y => ¬ SameAccount x y)
    (hall : ∀ sp ∈ sps, ∃ a, TokenApproval s tid sp a) : sps.length ≤ ApprovalLimit s := by
  obtain ⟨v, hid, c, a, s₀, ms, h0, rfl⟩ := hr
  have hl := limit_run (E := E) h0
  have hb := bounded_run (E := E) (hl []).1 ms (tokInv_init h0) (by rw [init_eq h0]; exact ⟨by simp, by simp⟩)
    (fun p _ => Nat.le_of_eq (hl p).2)
  rw [(hl ms).2]
  cases sps with
  | nil => simp
  | cons sp sps =>
    obtain ⟨a, m, hm, _⟩ := hall sp (by simp)
    refine Nat.le_trans (distinct_le_size (m := m) (sp :: sps) hd fun k hk => ?_) (hb.tok tid m hm)
    obtain ⟨a, m', hm', ha⟩ := hall k hk
    rw [hm] at hm'; cases hm'
    exact ⟨a, ha⟩

/-- C20 for collection approvals. -/
theorem C20_collection {E : Env H} {s : State H} (hr : Reachable E s) {o : Account} {sps : List Account}
    (hd : sps.Pairwise fun x y => ¬ SameAccount x y)
    (hall : ∀ sp ∈ sps, ∃ a, CollApproval s o sp a) : sps.length ≤ ApprovalLimit s := by
  obtain ⟨v, hid, c, a, s₀, ms, h0, rfl⟩ := hr
  have hl := limit_run (E := E) h0
  have hb := bounded_run (E := E) (hl []).1 ms (tokInv_init h0) (by rw [init_eq h0]; exact ⟨by simp, by simp⟩)
    (fun p _ => Nat.le_of_eq (hl p).2)
  rw [(hl ms).2]
  cases sps with
  | nil => simp
  | cons sp sps =>
    obtain ⟨a, m, hm, _⟩ := hall sp (by simp)
    refine Nat.le_trans (distinct_le_size (m := m) (sp :: sps) hd fun k hk => ?_) (hb.coll o m hm)
    obtain ⟨a, m', hm', ha⟩ := hall k hk
    rw [hm] at hm'; cases hm'
    exact ⟨a, ha⟩

/-- With a limit of two, the third spender is refused. -/
def cappedDemo : State Nat := (init (fun _ => true) 0 Demo.admin { Demo.args with maxApprovals := some 2 }).get rfl
def capMsgs : List Msg := [Demo.mintMsg,
  .call [1] (Demo.ms 200) (.approveTokens [{ tid := 2, info := { spender := Demo.carol, createdAt := Demo.ms 200 } }]),
  .call [1] (Demo.ms 200) (.approveTokens [{ tid := 2, info := { spender := Demo.bob, createdAt := Demo.ms 200 } }]),
  .call [1] (Demo.ms 200) (.approveTokens [{ tid := 2, info := { spender := Demo.alice1, createdAt := Demo.ms 200 } }])]
example : Reachable Demo.env (run Demo.env cappedDemo capMsgs) ∧ ApprovalLimit (run Demo.env cappedDemo capMsgs) = 2 ∧
    (∃ a, TokenApproval (run Demo.env cappedDemo capMsgs) 2 Demo.carol a) ∧
    (∃ a, TokenApproval (run Demo.env cappedDemo capMsgs) 2 Demo.bob a) ∧
    (replies Demo.env cappedDemo capMsgs).getLast? = some (.batch [.error (.generic 1)]) :=
  ⟨⟨fun _ => true, 0, Demo.admin, { Demo.args with maxApprovals := some 2 }, cappedDemo, capMsgs, rfl, rfl⟩, rfl,
    ⟨_, _, rfl, rfl⟩, ⟨_, _, rfl, rfl⟩, rfl⟩

/-! ## C21 -/

/-- C21, token part: an accepted `transfer_from` item leaves the token approvals of
all other tokens and the collection approvals of all accounts other than `from`
alone. -/
theorem C21_unrelated_partial {E : Env H} {s s' : State H} {c : Principal} {now i : Nat} {arg : TransferFromArg}
    (h : step E s (.call c now (.transferFrom [arg])) = (s', .batch [.ok i])) :
    (∀ tid sp a, tid ≠ arg.tid → (TokenApproval s' tid sp a ↔ TokenApproval s tid sp a)) ∧
    (∀ o sp a, ¬ SameAccount o arg.from_ → (CollApproval s' o sp a ↔ CollApproval s o sp a)) := by
  have hout := transferFrom_out (transferFrom_one h)
  clear h
  cases hout with
  | moved w nft h i tok own auth diff toOk timing add =>
    constructor
    · intro tid sp a hne
      rw [tokApproval_del (s := s) (k := arg.tid) rfl]
      exact ⟨fun h => h.2, fun h => ⟨fun he => hne he.symm, h⟩⟩
    · intro o sp a hne
      rw [collApproval_del (s := s) (k := arg.from_) rfl]
      rw [sameAccount_iff] at hne
      have : (arg.from_ == o) = false := by
        cases hb : (arg.from_ == o)
        · rfl
        · exact absurd (Account.symm_beq hb) hne
      exact ⟨fun h => h.2, fun h => ⟨this, h⟩⟩

/-- The full C21. -/
def UnrelatedApprovalsStay (E : Env H) : Prop :=
  ∀ (s s' : State H) (c : Principal) (now i : Nat) (arg : TransferFromArg), Reachable E s →
    step E s (.call c now (.transferFrom [arg])) = (s', .batch [.ok i]) →
    ∀ o sp a, CollApproval s o sp a → Live a now → CollApproval s' o sp a

/-- C21 is false: alice gives carol a collection approval and bob an approval of
token 2; when bob moves token 2, carol's approval of the rest of the collection is
gone. -/
theorem C21_violated : ¬ UnrelatedApprovalsStay Demo.env := by
  intro h
  let msgs : List Msg := [approveAllMsg,
    .call [1] (Demo.ms 200) (.approveTokens [{ tid := 2, info := { spender := Demo.bob, createdAt := Demo.ms 200 } }])]
  have := h (run Demo.env Demo.s1 msgs) _ [2] (Demo.ms 300) 5 { from_ := Demo.alice, to_ := Demo.bob, tid := 2 }
    (Demo.s1_reach.run _) rfl Demo.alice Demo.carol { spender := Demo.carol, from_ := Demo.alice, expiresAt := none, createdAt := Demo.ms 200, memo := none }
    ⟨_, rfl, rfl⟩ (by intro e he; cases he)
  obtain ⟨m, hm, _⟩ := this
  cases hm

example : (step Demo.env (run Demo.env Demo.s1 [Demo.approveMsg]) Demo.takeMsg).2 = .batch [.ok 4] := rfl

/-! ## C22 -/

/-- `sp` passes the authorisation check of `transfer_from` for token `tid`. -/
def Authorised (s : State H) (now tid : Nat) (sp : Account) : Prop :=
  ∃ o, Owner s tid = some o ∧ MayMove s now tid o sp

/-- C22, where collection approvals play no part: if the owner of the token has not
given the spender a live collection approval, the spender has not given one to
itself, and `from_subaccount` is the spender's, then `icrc37_is_approved` answers
true exactly for authorised spenders of existing tokens. -/
theorem C22_is_approved_partial {s : State H} {now : Nat} {arg : IsApprovedArg} {o : Account}
    (ho : Owner s arg.tid = some o) (hsub : SameAccount ⟨arg.spender.owner, arg.fromSub⟩ arg.spender)
    (hcoll : ∀ a, CollApproval s o arg.spender a → ¬ Live a now)
    (hself : ∀ a, ¬ CollApproval s arg.spender arg.spender a) :
    icrc37IsApproved s now [arg] = [true] ↔ Authorised s now arg.tid arg.spender := by
  have hc : (((s.collAppr.get arg.spender).getD ∅).entries.any fun e =>
      decide (e.1.owner = arg.spender.owner) && decide (e.1.sub = arg.spender.sub)) = false := by
    rw [Bool.eq_false_iff]
    intro hany
    obtain ⟨e, he, hk⟩ := List.any_eq_true.1 hany
    simp at hk
    have hke : e.1 = arg.spender := by
      obtain ⟨⟨k1, k2⟩, v⟩ := e
      cases hsp : arg.spender
      simp [hsp] at hk ⊢
      exact hk
    cases hg : s.collAppr.get arg.spender with
    | none => rw [hg] at he; simp at he
    | some m =>
      rw [hg] at he
      simp at he
      cases hg2 : m.get arg.spender with
      | none =>
        have := Map.get_eq_none.1 hg2 e he
        rw [hke] at this
        simp at this
      | some a => exact hself a ⟨m, hg, hg2⟩
  have hown : ownerOf s arg.tid = some o := ho
  simp only [icrc37IsApproved, List.map_cons, List.map_nil, List.cons.injEq, and_true]
  unfold isApproved
  dsimp only
  rw [hc, hown, Bool.or_false, Bool.or_eq_true]
  constructor
  · rintro (h | h)
    · exact ⟨o, ho, .inl (Account.symm_beq (Account.trans_beq h (sameAccount_iff.1 hsub)))⟩
    · refine ⟨o, ho, .inr (.inl ?_)⟩
      split at h
      · cases h
      rename_i m hm
      split at h
      · cases h
      rename_i a ha
      refine ⟨a, ⟨m, hm, ha⟩, ?_⟩
      split at h
      · rename_i e he
        intro e' he'
        rw [he] at he'; cases he'
        simpa using h
      · rename_i he
        intro e' he'
        rw [he] at he'; cases he'
  · rintro ⟨o', ho', h⟩
    rw [ho] at ho'; cases ho'
    rcases h with h | ⟨a, ⟨m, hm, ha⟩, hl⟩ | ⟨a, ha, hl⟩
    · left
      exact Account.trans_beq (Account.symm_beq h) (Account.symm_beq (sameAccount_iff.1 hsub))
    · right
      rw [hm]
      dsimp only
      rw [ha]
      dsimp only
      split
      · rename_i e he
        have := hl e he
        simpa using this
      · rfl
    · exact absurd hl (hcoll a ha)

/-- C22, what a true answer means, for any token, account and time: the account
`from_subaccount` of the spender's principal owns the token, or the spender has a
live approval of the token, or the spender has at some time given a collection
approval to itself. Missing for the full property: the last case and the stored
approvals of burned tokens authorise nothing (`C22_violated_confirmed`,
`C22_violated_burned`). -/
theorem C22_confirmed_partial {s : State H} {now : Nat} {arg : IsApprovedArg}
    (h : icrc37IsApproved s now [arg] = [true]) :
    (∃ o, Owner s arg.tid = some o ∧ SameAccount o ⟨arg.spender.owner, arg.fromSub⟩) ∨
    (∃ a, TokenApproval s arg.tid arg.spender a ∧ Live a now) ∨
    (∃ a, CollApproval s arg.spender arg.spender a) := by
  simp only [icrc37IsApproved, List.map_cons, List.map_nil, List.cons.injEq, and_true] at h
  unfold isApproved at h
  dsimp only at h
  rw [Bool.or_eq_true, Bool.or_eq_true] at h
  rcases h with (h | h) | h
  · left
    split at h
    · rename_i o ho
      exact ⟨o, ho, sameAccount_iff.2 h⟩
    · cases h
  · right; left
    split at h
    · cases h
    rename_i m hm
    split at h
    · cases h
    rename_i a ha
    refine ⟨a, ⟨m, hm, ha⟩, ?_⟩
    split at h
    · rename_i e he
      intro e' he'
      rw [he] at he'; cases he'
      simpa using h
    · rename_i he
      intro e' he'
      rw [he] at he'; cases he'
  · right; right
    obtain ⟨e, he, hk⟩ := List.any_eq_true.1 h
    simp at hk
    have hke : e.1 = arg.spender := by
      obtain ⟨⟨k1, k2⟩, v⟩ := e
      cases hsp : arg.spender
      simp [hsp] at hk ⊢
      exact hk
    cases hg : s.collAppr.get arg.spender with
    | none => rw [hg] at he; simp at he
    | some m =>
      rw [hg] at he
      simp at he
      cases hg2 : m.get arg.spender with
      | none =>
        have := Map.get_eq_none.1 hg2 e he
        rw [hke] at this
        simp at this
      | some a => exact ⟨a, m, hg, hg2⟩

/-- C22, the other direction: the owner of a token and the spenders with a live
approval of the token are confirmed, whatever else is stored. Missing for the full
property: the holders of collection approvals (`C22_violated_denied`). -/
theorem C22_complete_partial {s : State H} {now : Nat} {arg : IsApprovedArg}
    (h : (∃ o, Owner s arg.tid = some o ∧ SameAccount o ⟨arg.spender.owner, arg.fromSub⟩) ∨
      (∃ a, TokenApproval s arg.tid arg.spender a ∧ Live a now)) :
    icrc37IsApproved s now [arg] = [true] := by
  simp only [icrc37IsApproved, List.map_cons, List.map_nil, List.cons.injEq, and_true]
  unfold isApproved
  dsimp only
  rw [Bool.or_eq_true, Bool.or_eq_true]
  left
  rcases h with ⟨o, ho, h⟩ | ⟨a, ⟨m, hm, ha⟩, hl⟩
  · left
    have ho' : ownerOf s arg.tid = some o := ho
    rw [ho']
    exact sameAccount_iff.1 h
  · right
    rw [hm]
    dsimp only
    rw [ha]
    dsimp only
    split
    · rename_i e he
      have := hl e he
      simpa using this
    · rfl

example : icrc37IsApproved (run Demo.env Demo.s1 [Demo.approveMsg]) (Demo.ms 300)
    [{ spender := Demo.carol, tid := 2 }, { spender := Demo.carol, tid := 7 }, { spender := Demo.bob, tid := 3 }] =
    [true, false, true] := rfl

/-- C22 in batches: every item is answered, in order and on its own. -/
theorem C22_batch (s : State H) (now : Nat) (args : List IsApprovedArg) :
    (icrc37IsApproved s now args).length = args.length ∧
    ∀ (i : Nat) arg, args[i]? = some arg → icrc37IsApproved s now [arg] = [((icrc37IsApproved s now args)[i]?).getD false] := by
  refine ⟨by simp [icrc37IsApproved], fun i arg h => ?_⟩
  simp [icrc37IsApproved, h]

example : icrc37IsApproved (run Demo.env Demo.s1 [Demo.approveMsg]) (Demo.ms 300)
    [{ spender := Demo.carol, tid := 2 }, { spender := Demo.carol, tid := 1 }, { spender := Demo.alice, tid := 1 }] =
    [true, false, true] := rfl

/-- The full C22. -/
def IsApprovedPredicts (E : Env H) : Prop :=
  ∀ (s : State H) (now : Nat) (arg : IsApprovedArg), Reachable E s → TokenExists s arg.tid →
    (icrc37IsApproved s now [arg] = [true] ↔ Authorised s now arg.tid arg.spender)

/-- C22 is false: carol, holding a collection approval of alice, is denied by
`icrc37_is_approved`, although its `transfer_from` is accepted. -/
theorem C22_violated_denied : ¬ IsApprovedPredicts Demo.env ∧
    icrc37IsApproved (run Demo.env Demo.s1 [approveAllMsg]) (Demo.ms 300) [{ spender := Demo.carol, tid := 2 }] = [false] ∧
    (step Demo.env (run Demo.env Demo.s1 [approveAllMsg]) Demo.takeMsg).2 = .batch [.ok 4] := by
  refine ⟨?_, rfl, rfl⟩
  intro h
  have := (h (run Demo.env Demo.s1 [approveAllMsg]) (Demo.ms 300) { spender := Demo.carol, tid := 2 } (Demo.s1_reach.run _)
    ⟨_, rfl⟩).2 ⟨Demo.alice, rfl, .inr (.inr ⟨{ spender := Demo.carol, from_ := Demo.alice, expiresAt := none, createdAt := Demo.ms 200, memo := none },
      ⟨_, rfl, rfl⟩, by intro e he; cases he⟩)⟩
  cases this

/-- The other direction is false too: bob gives itself a collection approval and
from then on `icrc37_is_approved` confirms it for alice's token 2, but bob's
`transfer_from` is refused. -/
def selfApprove : Msg := .call [2] (Demo.ms 200) (.approveCollection [{ spender := Demo.bob, createdAt := Demo.ms 200 }])
theorem C22_violated_confirmed : ¬ IsApprovedPredicts Demo.env ∧
    icrc37IsApproved (run Demo.env Demo.s1 [selfApprove]) (Demo.ms 300) [{ spender := Demo.bob, tid := 2 }] = [true] ∧
    (step Demo.env (run Demo.env Demo.s1 [selfApprove])
      (.call [2] (Demo.ms 300) (.transferFrom [{ from_ := Demo.alice, to_ := Demo.bob, tid := 2 }]))).2 =
      .batch [.error .unauthorized] := by
  refine ⟨?_, rfl, rfl⟩
  intro h
  obtain ⟨o, ho, hm⟩ := (h (run Demo.env Demo.s1 [selfApprove]) (Demo.ms 300) { spender := Demo.bob, tid := 2 } (Demo.s1_reach.run _)
    ⟨_, rfl⟩).1 rfl
  cases ho
  rcases hm with hm | ⟨a, ⟨m, hm, _⟩, _⟩ | ⟨a, ⟨m, hm, _⟩, _⟩
  · cases hm
  · cases hm
  · cases hm

/-- A burned token: alice approves carol for token 2 and burns the token; carol is
still confirmed, but there is nothing left to move. -/
theorem C22_violated_burned :
    let s := run Demo.env Demo.s1 [Demo.approveMsg, .call [1] (Demo.ms 250) (.burn 2)]
    Reachable Demo.env s ∧ ¬ TokenExists s 2 ∧
    icrc37IsApproved s (Demo.ms 300) [{ spender := Demo.carol, tid := 2 }] = [true] ∧
    (step Demo.env s (.call [3] (Demo.ms 300) (.transferFrom [{ from_ := Demo.alice, to_ := Demo.carol, tid := 2 }]))).2 =
      .batch [.error .nonExistingTokenId] := by
  refine ⟨Demo.s1_reach.run _, ?_, rfl, rfl⟩
  rintro ⟨o, ho⟩
  cases ho

/-- The hypotheses of the partial theorem are met by a token approval. -/
example : icrc37IsApproved (run Demo.env Demo.s1 [Demo.approveMsg]) (Demo.ms 300) [{ spender := Demo.carol, tid := 2 }] = [true] ∧
    icrc37IsApproved (run Demo.env Demo.s1 [Demo.approveMsg]) (Demo.ms 300) [{ spender := Demo.bob, tid := 2 }] = [false] ∧
    (∀ o sp a, ¬ CollApproval (run Demo.env Demo.s1 [Demo.approveMsg]) o sp a) :=
  ⟨rfl, rfl, by rintro o sp a ⟨m, hm, _⟩; cases hm⟩

/-! ## C47 -/

/-- C47 for the default account: once a principal's revocation of a collection
approval is accepted, no collection approval of its default account for that
spender (or, if none is named, for anybody) is recorded, and without a new grant
none ever is again. -/
theorem C47_default_partial {E : Env H} {s s' : State H} {c : Principal} {now i : Nat} {arg : RevokeCollArg} {sp : Account}
    (hr : Reachable E s) (h : step E s (.call c now (.revokeCollection [arg])) = (s', .batch [.ok i]))
    (hsp : arg.spender = none ∨ ∃ w, arg.spender = some w ∧ SameAccount w sp) (ms : List Msg)
    (hms : ∀ m ∈ ms, ∀ c' now args, m = .call c' now (.approveCollection args) → ∀ info ∈ args,
      SameAccount ⟨c', info.fromSub⟩ ⟨c, none⟩ → ¬ SameAccount info.spender sp) (a : Approval) :
    ¬ CollApproval (run E s' ms) ⟨c, none⟩ sp a := by
  have hr' : Reachable E s' := by have := hr.step (.call c now (.revokeCollection [arg])); rw [h] at this; exact this
  refine noCollApproval_run (E := E) ms hms hr'.tokInv ?_ a
  have hout := revokeCollection_out (revokeColl_one h)
  clear h
  cases hout with
  | revoked w h i m hm timing add =>
    rintro a ⟨m', h1, h2⟩
    simp at h1
    subst h1
    rcases hsp with hs | ⟨w, hs, he⟩
    · simp [hs, dropSpender] at h2
    · rw [hs] at h2
      simp only [dropSpender, Map.get_del] at h2
      rw [if_pos (sameAccount_iff.1 he)] at h2
      cases h2

/-- A collection approval of an account with a subaccount is out of reach of every
revocation. -/
theorem C47_subaccount_stuck {E : Env H} {s : State H} (hr : Reachable E s) {c : Principal} {now : Nat}
    {args : List RevokeCollArg} {o sp : Account} {a : Approval} (ha : CollApproval s o sp a)
    (hsub : ¬ SameAccount o ⟨o.owner, none⟩) :
    CollApproval (step E s (.call c now (.revokeCollection args))).1 o sp a := by
  have key := (step_steps E s (.call c now (.revokeCollection args))).induct (P := fun t => TokInv t ∧ CollApproval t o sp a) (by
    intro t t' ⟨h1, h2⟩ hm
    refine ⟨tokInv_micro h1 hm, Classical.byContradiction fun hn => ?_⟩
    rcases (micro_collAppr h1 hm).loss h2 hn with ⟨_, _, _, _, h, _⟩ | ⟨c', _, _, _, h, _, he, _⟩ |
      ⟨_, _, _, _, _, h, _⟩ | ⟨_, _, _, _, h, _⟩ <;> cases h
    apply hsub
    have := Account.beq_iff.1 he
    rw [sameAccount_iff, Account.beq_iff]
    refine ⟨rfl, ?_⟩
    rw [← this.2]
    rfl) ⟨hr.tokInv, ha⟩
  exact key.2

/-- The full C47: a principal that granted a collection approval has a revocation
that takes it away. -/
def CanRevokeCollection (E : Env H) : Prop :=
  ∀ (s : State H) (o sp : Account) (a : Approval) (now : Nat), Reachable E s → CollApproval s o sp a →
    (∃ rs, (step E s (.call o.owner now (.revokeCollection [{ spender := some sp, fromSub := o.sub }]))).2 = .batch rs ∧
      ∀ r ∈ rs, ∃ i, r = .ok i) →
    ∀ a, ¬ CollApproval (step E s (.call o.owner now (.revokeCollection [{ spender := some sp, fromSub := o.sub }]))).1 o sp a

/-- Token 1 goes to a subaccount of alice, which grants a collection approval to
carol; the default account of alice grants another one to bob. -/
def subMsgs : List Msg := [
  .call [1] (Demo.ms 200) (.transfer [{ to_ := Demo.alice1, tid := 1 }]),
  .call [1] (Demo.ms 200) (.approveCollection [{ spender := Demo.carol, fromSub := some (List.replicate 32 1), createdAt := Demo.ms 200 }]),
  .call [1] (Demo.ms 200) (.approveCollection [{ spender := Demo.bob, createdAt := Demo.ms 200 }])]

/-- C47 is false: the revocation naming the subaccount is answered `Ok`, but carol's
approval is still there and carol takes the token. -/
theorem C47_violated : ¬ CanRevokeCollection Demo.env ∧
    (step Demo.env (run Demo.env (run Demo.env Demo.s1 subMsgs)
      [.call [1] (Demo.ms 300) (.revokeCollection [{ spender := some Demo.carol, fromSub := Demo.alice1.sub }])])
      (.call [3] (Demo.ms 400) (.transferFrom [{ from_ := Demo.alice1, to_ := Demo.carol, tid := 1 }]))).2 = .batch [.ok 7] := by
  refine ⟨?_, rfl⟩
  intro h
  refine h (run Demo.env Demo.s1 subMsgs) Demo.alice1 Demo.carol
    { spender := Demo.carol, from_ := Demo.alice1, expiresAt := none, createdAt := Demo.ms 200, memo := none } (Demo.ms 300) (Demo.s1_reach.run _)
    ⟨_, rfl, rfl⟩ ⟨[.ok 6], rfl, by simp⟩ { spender := Demo.carol, from_ := Demo.alice1, expiresAt := none, createdAt := Demo.ms 200, memo := none } ⟨_, rfl, rfl⟩

/-- The default account revokes bob's. -/
example : (step Demo.env (run Demo.env Demo.s1 subMsgs)
      (.call [1] (Demo.ms 300) (.revokeCollection [{ spender := some Demo.bob }]))).2 = .batch [.ok 6] ∧
    (∃ a, CollApproval (run Demo.env Demo.s1 subMsgs) Demo.alice Demo.bob a) := ⟨rfl, _, _, rfl, rfl⟩

end Verif
