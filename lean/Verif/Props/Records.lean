import Verif.Spec.Records
import Verif.Lemmas.ApprovalTables
import Verif.Lemmas.Answers
import Verif.Lemmas.Windows
import Verif.Props.Demo
/-!
# C64 – C66: what accepted items record and store
-/
namespace Verif

open Spec

variable {H : Type}

/-! ## C64 -/

private theorem batch_log {A : Type} {f : State H → A → Option (State H × Except TokErr Nat)} (rec : A → Tx)
    (hf : ∀ s a s' r, f s a = some (s', r) →
      (∀ i, r = .ok i → s'.log = s.log ++ [rec a]) ∧ (∀ e, r = .error e → s'.log = s.log)) (args : List A) :
    ∀ {s s' : State H} {rs}, runBatch f s args = some (s', rs) → s'.log = s.log ++ (accepted args rs).map rec := by
  induction args with
  | nil => intro s s' rs h; simp [runBatch] at h; simp [accepted, h.1]
  | cons a as ih =>
    intro s s' rs h
    obtain ⟨t, r, rs', h1, h2, rfl⟩ := runBatch_cons h
    rw [ih h2]
    cases r with
    | ok i => rw [(hf _ _ _ _ h1).1 i rfl]; simp [accepted]
    | error e => rw [(hf _ _ _ _ h1).2 e rfl]; simp [accepted]

private theorem accepted_take {A : Type} (args : List A) (rs : List (Except TokErr Nat)) (n : Nat)
    (h : rs.length = (args.take n).length) : accepted (args.take n) rs = accepted args rs := by
  unfold accepted
  have : args.zip rs = (args.take n).zip rs := by
    have hz := List.zip_append (l₁ := args.take n) (r₁ := args.drop n) (l₂ := rs) (r₂ := []) h.symm
    simpa using hz
  rw [this]

/-- C64 for `icrc37_transfer_from`: the call appends to the log exactly one record
per accepted item, in order, saying what the item asked. -/
theorem C64_transfer_from {E : Env H} {s s' : State H} {c : Principal} {now : Nat} {args : List TransferFromArg} {rs}
    (h : step E s (.call c now (.transferFrom args)) = (s', .batch rs)) :
    s'.log = s.log ++ (accepted args rs).map (fromTx c now) := by
  simp only [step, execCall, Call.needs, exec] at h
  refine batch_log (fromTx c now) ?_ args (batch_of_ofBatch h)
  intro s a s' r hf
  cases transferFrom_out hf with
  | refused => exact ⟨fun _ h => (nomatch h), fun _ _ => rfl⟩
  | moved => exact ⟨fun _ _ => rfl, fun _ h => (nomatch h)⟩

/-- C64 for `icrc37_approve_tokens`. -/
theorem C64_approve_tokens {E : Env H} {s s' : State H} {c : Principal} {now : Nat} {args : List ApproveTokenArg} {rs}
    (h : step E s (.call c now (.approveTokens args)) = (s', .batch rs)) :
    s'.log = s.log ++ (accepted args rs).map (approvalTx c now) := by
  simp only [step, execCall, Call.needs, exec] at h
  refine batch_log (approvalTx c now) ?_ args (batch_of_ofBatch h)
  intro s a s' r hf
  cases approveToken_out hf with
  | refused => exact ⟨fun _ h => (nomatch h), fun _ _ => rfl⟩
  | approved => exact ⟨fun _ _ => rfl, fun _ h => (nomatch h)⟩

/-- C64 for `icrc37_approve_collection`. -/
theorem C64_approve_collection {E : Env H} {s s' : State H} {c : Principal} {now : Nat} {args : List ApprovalInfo} {rs}
    (h : step E s (.call c now (.approveCollection args)) = (s', .batch rs)) :
    s'.log = s.log ++ (accepted args rs).map (collApprovalTx c now) := by
  simp only [step, execCall, Call.needs, exec] at h
  refine batch_log (collApprovalTx c now) ?_ args (batch_of_ofBatch h)
  intro s a s' r hf
  cases approveCollection_out (Option.some.inj hf) with
  | refused => exact ⟨fun _ h => (nomatch h), fun _ _ => rfl⟩
  | approved => exact ⟨fun _ _ => rfl, fun _ h => (nomatch h)⟩

/-- C64 for `icrc37_revoke_token_approvals`. -/
theorem C64_revoke_tokens {E : Env H} {s s' : State H} {c : Principal} {now : Nat} {args : List RevokeTokenArg} {rs}
    (h : step E s (.call c now (.revokeTokens args)) = (s', .batch rs)) :
    s'.log = s.log ++ (accepted args rs).map (revocationTx c now) := by
  obtain ⟨a, as, he, hb⟩ := revokeTokens_of_step h
  rw [← accepted_take args rs (maxRevoke s.cfg) (runBatch_length _ hb)]
  have := batch_log (revocationTx c now) (by
    intro s a s' r hf
    cases revokeToken_out hf with
    | refused => exact ⟨fun _ h => (nomatch h), fun _ _ => rfl⟩
    | revoked => exact ⟨fun _ _ => rfl, fun _ h => (nomatch h)⟩) _ hb
  rw [this, guardWindow_eq]

/-- C64 for `icrc37_revoke_collection_approvals`. -/
theorem C64_revoke_collection {E : Env H} {s s' : State H} {c : Principal} {now : Nat} {args : List RevokeCollArg} {rs}
    (h : step E s (.call c now (.revokeCollection args)) = (s', .batch rs)) :
    s'.log = s.log ++ (accepted args rs).map (collRevocationTx c now) := by
  simp only [step, execCall, Call.needs, exec, icrc37RevokeCollection] at h
  have hb := batch_of_ofBatch h
  rw [← accepted_take args rs (maxRevoke s.cfg) (runBatch_length _ hb)]
  refine batch_log (collRevocationTx c now) ?_ _ hb
  intro s a s' r hf
  cases revokeCollection_out (Option.some.inj hf) with
  | refused => exact ⟨fun _ h => (nomatch h), fun _ _ => rfl⟩
  | revoked => exact ⟨fun _ _ => rfl, fun _ h => (nomatch h)⟩

/-- C64 for one item of `icrc7_transfer` (batches are sequences of such calls, C25):
an accepted item is recorded with the owner it was taken from, under the index the
ledger gave; or the ledger knew the transaction already, the answer is the index of
the earlier one and nothing is recorded. -/
theorem C64_transfer {E : Env H} {s s' : State H} {c : Principal} {now i : Nat} {arg : TransferArg}
    (h : step E s (.call c now (.transfer [arg])) = (s', .batch [.ok i])) :
    ∃ o, Owner s arg.tid = some o ∧
      (((E.ledger.add s.hid (xferTx now arg o)).2 = .ok i ∧ s'.log = s.log ++ [xferTx now arg o]) ∨
       ((E.ledger.add s.hid (xferTx now arg o)).2 = .error (.duplicate i) ∧ s'.log = s.log)) := by
  rcases transfer_one h with ⟨e, _, h2⟩ | ⟨_, hf⟩
  · cases h2
  cases transferNft_out hf with
  | duplicate w nft h d tok add =>
    exact ⟨nft.owner, owner_of_get tok, .inr ⟨by
      rw [show xferTx now arg nft.owner = transferTx now (arg.createdAt.getD now) arg nft from rfl, add], rfl⟩⟩
  | moved w nft h i tok own toOk diff memo timing add =>
    exact ⟨nft.owner, owner_of_get tok, .inl ⟨by
      rw [show xferTx now arg nft.owner = transferTx now (arg.createdAt.getD now) arg nft from rfl, add], rfl⟩⟩

private theorem transfer_log {L : Ledger H} {c : Principal} {now : Nat} (args : List TransferArg) :
    ∀ {s s' : State H} {rs}, runBatch (fun s a => transferNft L s c now a) s args = some (s', rs) →
    ∃ done : List (TransferArg × Account), (done.map Prod.fst).Sublist (accepted args rs) ∧ (∀ p ∈ done, p.2.owner = c) ∧
      s'.log = s.log ++ done.map (fun p => xferTx now p.1 p.2) ∧
      ((∀ h t d, (L.add h t).2 ≠ .error (.duplicate d)) → done.map Prod.fst = accepted args rs) := by
  induction args with
  | nil =>
    intro s s' rs h
    simp [runBatch] at h
    exact ⟨[], by simp, by simp, by simp [h.1], fun _ => by simp [accepted]⟩
  | cons a as ih =>
    intro s s' rs h
    obtain ⟨t, r, rs', h1, h2, rfl⟩ := runBatch_cons h
    obtain ⟨done, hs, hc, hl, hd⟩ := ih h2
    cases transferNft_out h1 with
    | refused w h e => exact ⟨done, by simpa [accepted] using hs, hc, hl, fun hn => by simpa [accepted] using hd hn⟩
    | duplicate w nft h d tok add =>
      refine ⟨done, ?_, hc, hl, fun hn => absurd (by rw [add]) (hn s.hid (transferTx now (a.createdAt.getD now) a nft) d)⟩
      have : accepted (a :: as) (.ok d :: rs') = a :: accepted as rs' := by simp [accepted]
      rw [this]
      exact hs.cons _
    | moved w nft h i tok own toOk diff memo timing add =>
      have ha : accepted (a :: as) (.ok i :: rs') = a :: accepted as rs' := by simp [accepted]
      refine ⟨(a, nft.owner) :: done, ?_, ?_, ?_, fun hn => ?_⟩
      · rw [ha]
        exact hs.cons_cons _
      · intro p hp
        rcases List.mem_cons.1 hp with rfl | hp
        · exact own
        · exact hc p hp
      · rw [hl]
        simp [moveToken, xferTx, transferTx]
      · rw [ha, List.map_cons, hd hn]

/-- C64 for `icrc7_transfer`: the call appends, in the order of the items, one record
for each of some of the accepted items, saying what the item asked and that the token
came from an account of the caller. The items left out are those the ledger knew
already; over a ledger that never says so no accepted item is left out. -/
theorem C64_transfer_batch {E : Env H} {s s' : State H} {c : Principal} {now : Nat} {args : List TransferArg} {rs}
    (h : step E s (.call c now (.transfer args)) = (s', .batch rs)) :
    ∃ done : List (TransferArg × Account), (done.map Prod.fst).Sublist (accepted args rs) ∧ (∀ p ∈ done, p.2.owner = c) ∧
      s'.log = s.log ++ done.map (fun p => xferTx now p.1 p.2) ∧
      ((∀ h t d, (E.ledger.add h t).2 ≠ .error (.duplicate d)) → done.map Prod.fst = accepted args rs) := by
  simp only [step, execCall, Call.needs, exec] at h
  rcases icrc7Transfer_out (batch_of_ofBatch h) with ⟨rfl, rfl, rfl⟩ | ⟨_, _, ⟨_, rfl, rfl⟩ | ⟨_, _, hb⟩⟩
  · exact ⟨[], by simp, by simp, by simp, fun _ => by simp [accepted]⟩
  · refine ⟨[], by simp, by simp, by simp, fun _ => ?_⟩
    cases args <;> simp [accepted]
  · rw [← accepted_take args rs _ (runBatch_length _ hb)]
    exact transfer_log _ hb

/-- Two transfers of alice's, the first one of a token that is not hers: one record. -/
example : ∃ s', step Demo.env Demo.s1 (.call [1] (Demo.ms 200) (.transfer [{ to_ := Demo.carol, tid := 3 }, { to_ := Demo.bob, tid := 2 }])) =
      (s', .batch [.error .invalidRecipient, .ok 3]) ∧
    s'.log = Demo.s1.log ++ [xferTx (Demo.ms 200) { to_ := Demo.bob, tid := 2 } Demo.alice] ∧
    ∀ h t d, (Demo.env.ledger.add h t).2 ≠ .error (.duplicate d) :=
  ⟨_, rfl, rfl, fun _ _ _ h => nomatch h⟩

/-- A refused item of `icrc7_transfer` records nothing. -/
theorem C64_transfer_refused {E : Env H} {s s' : State H} {c : Principal} {now : Nat} {arg : TransferArg} {e}
    (h : step E s (.call c now (.transfer [arg])) = (s', .batch [.error e])) : s'.log = s.log := by
  rcases transfer_one h with ⟨e, rfl, _⟩ | ⟨_, hf⟩
  · rfl
  cases transferNft_out hf with
  | refused => rfl

/-- C64 for `burn_nft`. -/
theorem C64_burn {E : Env H} {s s' : State H} {c : Principal} {now tid : Nat} {v}
    (h : step E s (.call c now (.burn tid)) = (s', .mgmt (.ok v))) :
    ∃ o, Owner s tid = some o ∧ s'.log = s.log ++ [burnRecord now tid o] := by
  obtain ⟨t, h', tok, _, hs⟩ := burn_accepted h
  exact ⟨t.owner, owner_of_get tok, by rw [hs]; rfl⟩

/-- The index an accepted ICRC-37 item is answered with is the one the ledger gave
to its record. -/
theorem C64_index {E : Env H} {s s' : State H} {c : Principal} {now i : Nat} :
    (∀ arg, step E s (.call c now (.transferFrom [arg])) = (s', .batch [.ok i]) →
      (E.ledger.add s.hid (fromTx c now arg)).2 = .ok i) ∧
    (∀ arg, step E s (.call c now (.approveTokens [arg])) = (s', .batch [.ok i]) →
      (E.ledger.add s.hid (approvalTx c now arg)).2 = .ok i) ∧
    (∀ info, step E s (.call c now (.approveCollection [info])) = (s', .batch [.ok i]) →
      (E.ledger.add s.hid (collApprovalTx c now info)).2 = .ok i) ∧
    (∀ arg, step E s (.call c now (.revokeTokens [arg])) = (s', .batch [.ok i]) →
      (E.ledger.add s.hid (revocationTx c now arg)).2 = .ok i) ∧
    (∀ arg, step E s (.call c now (.revokeCollection [arg])) = (s', .batch [.ok i]) →
      (E.ledger.add s.hid (collRevocationTx c now arg)).2 = .ok i) := by
  refine ⟨fun arg h => ?_, fun arg h => ?_, fun arg h => ?_, fun arg h => ?_, fun arg h => ?_⟩
  · cases transferFrom_out (transferFrom_one h) with
    | moved _ _ _ _ _ _ _ _ _ _ add => exact congrArg Prod.snd add
  · cases approveToken_out (approve_one h) with
    | approved _ _ _ _ _ _ _ _ _ add => exact congrArg Prod.snd add
  · cases approveCollection_out (approveColl_one h) with
    | approved _ _ _ _ _ _ _ add => exact congrArg Prod.snd add
  · have h1 := revoke_one h
    rw [guardWindow_eq] at h1
    cases revokeToken_out h1 with
    | revoked _ _ _ _ _ _ _ _ add => exact congrArg Prod.snd add
  · cases revokeCollection_out (revokeColl_one h) with
    | revoked _ _ _ _ _ _ add => exact congrArg Prod.snd add

/-- No other message records anything: not the answers from storage canisters, not
an upgrade, and not the management calls about uploads, permissions and the
collection's settings. -/
theorem C64_no_other {E : Env H} {s : State H} {m : Msg} (hm : ∀ c now call, m = .call c now call → canRecord call = false) :
    (step E s m).1.log = s.log := by
  refine (step_steps E s m).induct (P := fun t => t.log = s.log) ?_ rfl
  intro t t' ht h
  cases h with
  | @resume _ now i ans p hp =>
    obtain ⟨_, _, _, _, he⟩ := resumeBody_eq E { t with pending := t.pending.eraseIdx i } now p ans
    rw [he]; exact ht
  | resumeTrap => exact ht
  | upgrade => exact ht
  | quiet | config | grant | revoke | suspend | dropUpload | updateMetaCut => exact ht
  | _ => have := hm _ _ _ rfl; cases this

/-- In one batch of bob's and alice's tokens, alice's item is recorded and the other not. -/
example : ∃ s', step Demo.env Demo.s1 (.call [1] (Demo.ms 200) (.approveTokens [
      { tid := 3, info := { spender := Demo.carol, createdAt := Demo.ms 200 } },
      { tid := 2, info := { spender := Demo.carol, createdAt := Demo.ms 200, memo := some [5] } }])) =
      (s', .batch [.error .unauthorized, .ok 3]) ∧
    s'.log = Demo.s1.log ++ [
      { op := .approve, ts := Demo.ms 200, tid := some 2, from_ := some ⟨[1], none⟩, memo := some [5],
        createdAt := some (Demo.ms 200), spender := some Demo.carol }] := ⟨_, rfl, rfl⟩

/-! ## C65 -/

/-- C65: an accepted item of `icrc37_approve_tokens` stores exactly the approval it
asks for, for the named token and spender, made out by the calling account; every
other approval, every collection approval and every owner stays as it was. The
spender is not the anonymous account. Missing: the stored creation time is that of the
call, not the one given (`C65_violated`). -/
theorem C65_approve_tokens_partial {E : Env H} {s s' : State H} {c : Principal} {now i : Nat} {arg : ApproveTokenArg}
    (h : step E s (.call c now (.approveTokens [arg])) = (s', .batch [.ok i])) :
    ¬ SameAccount arg.info.spender ⟨anonymous, none⟩ ∧
    (∀ tid sp a, TokenApproval s' tid sp a ↔
      if tid = arg.tid ∧ SameAccount arg.info.spender sp then a = granted arg.info ⟨c, arg.info.fromSub⟩ now
      else TokenApproval s tid sp a) ∧
    (∀ o sp a, CollApproval s' o sp a ↔ CollApproval s o sp a) ∧ (∀ tid, Owner s' tid = Owner s tid) := by
  cases approveToken_out (approve_one h) with
  | approved w owner h i own eqv sp room timing add =>
    refine ⟨by rw [sameAccount_iff]; simpa [anonymousAccount] using sp, fun tid x a => ?_, fun _ _ _ => .rfl, fun _ => rfl⟩
    rw [tokApproval_set (s := s) (k := arg.tid) rfl, Map.get_set]
    simp only [sameAccount_iff]
    by_cases ht : arg.tid = tid
    · subst ht
      by_cases hx : (arg.info.spender == x) = true
      · simp only [hx, true_and, if_true, and_self, ne_eq, not_true, false_and, or_false, Option.some.injEq]
        exact ⟨fun h => h.symm, fun h => h.symm⟩
      · simp only [hx, true_and, ne_eq, not_true, false_and, or_false, Bool.false_eq_true, if_false, TokenApproval]
        cases s.tokAppr.get arg.tid with
        | none => simp
        | some m => simp
    · simp [ht, Ne.symm ht]

/-- The same for `icrc37_approve_collection`. -/
theorem C65_approve_collection_partial {E : Env H} {s s' : State H} {c : Principal} {now i : Nat} {info : ApprovalInfo}
    (h : step E s (.call c now (.approveCollection [info])) = (s', .batch [.ok i])) :
    ¬ SameAccount info.spender ⟨anonymous, none⟩ ∧
    (∀ o sp a, CollApproval s' o sp a ↔
      if SameAccount ⟨c, info.fromSub⟩ o ∧ SameAccount info.spender sp then a = granted info ⟨c, info.fromSub⟩ now
      else CollApproval s o sp a) ∧
    (∀ tid sp a, TokenApproval s' tid sp a ↔ TokenApproval s tid sp a) ∧ (∀ tid, Owner s' tid = Owner s tid) := by
  cases approveCollection_out (approveColl_one h) with
  | approved w h i sp holds room timing add =>
    refine ⟨by rw [sameAccount_iff]; simpa [anonymousAccount] using sp, fun o x a => ?_, fun _ _ _ => .rfl, fun _ => rfl⟩
    rw [collApproval_set (s := s) (k := ⟨c, info.fromSub⟩) rfl, Map.get_set]
    simp only [sameAccount_iff]
    by_cases ho : ((⟨c, info.fromSub⟩ : Account) == o) = true
    · by_cases hx : (info.spender == x) = true
      · simp only [hx, ho, true_and, if_true, and_self, Bool.true_eq_false, false_and, or_false, Option.some.injEq]
        exact ⟨fun h => h.symm, fun h => h.symm⟩
      · simp only [hx, ho, true_and, Bool.true_eq_false, false_and, or_false, Bool.false_eq_true, if_false, and_false, CollApproval,
          ← Map.get_congr s.collAppr ho]
        cases s.collAppr.get ⟨c, info.fromSub⟩ with
        | none => simp
        | some m => simp
    · simp [ho]

private theorem lastWith_cons {A : Type} {p : A → Prop} {x y : A} {l : List A} :
    LastWith p (x :: l) y ↔ LastWith p l y ∨ (p x ∧ y = x ∧ ∀ z ∈ l, ¬ p z) := by
  constructor
  · rintro ⟨before, after, h, hp, hn⟩
    cases before with
    | nil => cases h; exact .inr ⟨hp, rfl, hn⟩
    | cons b before => cases h; exact .inl ⟨before, after, rfl, hp, hn⟩
  · rintro (⟨before, after, rfl, hp, hn⟩ | ⟨hp, rfl, hn⟩)
    · exact ⟨x :: before, after, rfl, hp, hn⟩
    · exact ⟨[], l, rfl, hp, hn⟩

private theorem lastWith_prop {A : Type} {p : A → Prop} {y : A} {l : List A} (h : LastWith p l y) : y ∈ l ∧ p y := by
  obtain ⟨before, after, rfl, hp, _⟩ := h
  exact ⟨by simp, hp⟩

private theorem batch_last {A : Type} {p : A → Prop} {x : A} {l : List A} {g : A → Prop} {Q Q' : Prop} [Decidable (p x)]
    (hQ : Q' ↔ if p x then g x else Q) :
    ((∃ y, LastWith p l y ∧ g y) ∨ (Q' ∧ ∀ y ∈ l, ¬ p y)) ↔
      ((∃ y, LastWith p (x :: l) y ∧ g y) ∨ (Q ∧ ∀ y ∈ x :: l, ¬ p y)) := by
  simp only [lastWith_cons, List.mem_cons, forall_eq_or_imp]
  rw [hQ]
  by_cases hp : p x
  · simp only [hp, if_true, true_and, not_true, false_and, and_false, or_false]
    constructor
    · rintro (⟨y, h1, h2⟩ | ⟨h1, h2⟩)
      · exact ⟨y, .inl h1, h2⟩
      · exact ⟨x, .inr ⟨rfl, h2⟩, h1⟩
    · rintro ⟨y, h1 | ⟨rfl, h1⟩, h2⟩
      · exact .inl ⟨y, h1, h2⟩
      · exact .inr ⟨h2, h1⟩
  · simp [hp]

/-- C65 for whole batches of `icrc37_approve_tokens`: of the accepted items for a token
and a spender the last one is stored; without one, what was recorded stays. Nothing
else changes. -/
theorem C65_approve_tokens_batch_partial {E : Env H} {s s' : State H} {c : Principal} {now : Nat} {args : List ApproveTokenArg} {rs}
    (h : step E s (.call c now (.approveTokens args)) = (s', .batch rs)) :
    (∀ tid sp a, TokenApproval s' tid sp a ↔
      (∃ x, LastWith (fun x => x.tid = tid ∧ SameAccount x.info.spender sp) (accepted args rs) x ∧
        a = granted x.info ⟨c, x.info.fromSub⟩ now) ∨
      (TokenApproval s tid sp a ∧ ∀ x ∈ accepted args rs, ¬ (x.tid = tid ∧ SameAccount x.info.spender sp))) ∧
    (∀ o sp a, CollApproval s' o sp a ↔ CollApproval s o sp a) ∧ (∀ tid, Owner s' tid = Owner s tid) := by
  simp only [step, execCall, Call.needs, exec, icrc37ApproveTokens] at h
  have hb := batch_of_ofBatch h
  clear h
  induction args generalizing s rs with
  | nil =>
    simp [runBatch] at hb; obtain ⟨rfl, rfl⟩ := hb
    refine ⟨fun tid sp a => ⟨fun h => .inr ⟨h, fun _ h => nomatch h⟩, ?_⟩, fun _ _ _ => .rfl, fun _ => rfl⟩
    rintro (⟨x, hx, _⟩ | ⟨h, _⟩)
    · cases (lastWith_prop hx).1
    · exact h
  | cons x xs ih =>
    obtain ⟨u, r, rs', h1, h2, rfl⟩ := runBatch_cons hb
    obtain ⟨i1, i2, i3⟩ := ih h2
    have h3 : step E s (.call c now (.approveTokens [x])) = (u, .batch [r]) := by
      simp [step, execCall, Call.needs, exec, icrc37ApproveTokens, runBatch, h1, ofBatch]
    cases r with
    | error e =>
      cases approveToken_out h1 with
      | refused w hh => exact ⟨i1, i2, i3⟩
    | ok i =>
      obtain ⟨_, j1, j2, j3⟩ := C65_approve_tokens_partial h3
      refine ⟨fun tid sp a => ?_, fun o sp a => (i2 o sp a).trans (j2 o sp a), fun tid => (i3 tid).trans (j3 tid)⟩
      rw [i1]
      refine batch_last (p := fun x : ApproveTokenArg => x.tid = tid ∧ SameAccount x.info.spender sp)
        (g := fun x => a = granted x.info ⟨c, x.info.fromSub⟩ now) ?_
      rw [j1]
      by_cases ht : x.tid = tid
      · simp [ht]
      · simp [ht, Ne.symm ht]

/-- The same for `icrc37_approve_collection`. -/
theorem C65_approve_collection_batch_partial {E : Env H} {s s' : State H} {c : Principal} {now : Nat} {args : List ApprovalInfo} {rs}
    (h : step E s (.call c now (.approveCollection args)) = (s', .batch rs)) :
    (∀ o sp a, CollApproval s' o sp a ↔
      (∃ x, LastWith (fun x => SameAccount ⟨c, x.fromSub⟩ o ∧ SameAccount x.spender sp) (accepted args rs) x ∧
        a = granted x ⟨c, x.fromSub⟩ now) ∨
      (CollApproval s o sp a ∧ ∀ x ∈ accepted args rs, ¬ (SameAccount ⟨c, x.fromSub⟩ o ∧ SameAccount x.spender sp))) ∧
    (∀ tid sp a, TokenApproval s' tid sp a ↔ TokenApproval s tid sp a) ∧ (∀ tid, Owner s' tid = Owner s tid) := by
  simp only [step, execCall, Call.needs, exec, icrc37ApproveCollection] at h
  have hb := batch_of_ofBatch h
  clear h
  induction args generalizing s rs with
  | nil =>
    simp [runBatch] at hb; obtain ⟨rfl, rfl⟩ := hb
    refine ⟨fun tid sp a => ⟨fun h => .inr ⟨h, fun _ h => nomatch h⟩, ?_⟩, fun _ _ _ => .rfl, fun _ => rfl⟩
    rintro (⟨x, hx, _⟩ | ⟨h, _⟩)
    · cases (lastWith_prop hx).1
    · exact h
  | cons x xs ih =>
    obtain ⟨u, r, rs', h1, h2, rfl⟩ := runBatch_cons hb
    obtain ⟨i1, i2, i3⟩ := ih h2
    have h3 : step E s (.call c now (.approveCollection [x])) = (u, .batch [r]) := by
      simp [step, execCall, Call.needs, exec, icrc37ApproveCollection, runBatch, Option.some.inj h1, ofBatch]
    cases r with
    | error e =>
      cases approveCollection_out (Option.some.inj h1) with
      | refused w hh => exact ⟨i1, i2, i3⟩
    | ok i =>
      obtain ⟨_, j1, j2, j3⟩ := C65_approve_collection_partial h3
      refine ⟨fun o sp a => ?_, fun tid sp a => (i2 tid sp a).trans (j2 tid sp a), fun tid => (i3 tid).trans (j3 tid)⟩
      rw [i1]
      exact batch_last (p := fun x : ApprovalInfo => SameAccount ⟨c, x.fromSub⟩ o ∧ SameAccount x.spender sp)
        (g := fun x => a = granted x ⟨c, x.fromSub⟩ now) (j1 o sp a)

/-- Two items for the same token and spender: the second one is what counts. -/
example : ∃ s', step Demo.env Demo.s1 (.call [1] (Demo.ms 200) (.approveTokens [
      { tid := 2, info := { spender := Demo.carol, createdAt := Demo.ms 200, memo := some [5] } },
      { tid := 2, info := { spender := Demo.carol, createdAt := Demo.ms 200, memo := some [6] } }])) = (s', .batch [.ok 3, .ok 4]) ∧
    TokenApproval s' 2 Demo.carol ⟨Demo.carol, ⟨[1], none⟩, none, Demo.ms 200, some [6]⟩ := ⟨_, rfl, ⟨_, rfl, rfl⟩⟩

private theorem get_drop {m : Map Account Approval} {w : Option Account} {sp : Account} {a : Approval} :
    (dropSpender m w).get sp = some a ↔ m.get sp = some a ∧ ¬ Revokes w sp := by
  cases w with
  | none => simp [dropSpender, Revokes]
  | some x =>
    simp only [dropSpender, Map.get_del, Revokes, reduceCtorEq, false_or, Option.some.injEq, exists_eq_left', sameAccount_iff]
    by_cases h : (x == sp) = true <;> simp [h]

private theorem maxRevoke_eq {s : State H} (hl : RevokeLimit s < 2 ^ 32) : maxRevoke s.cfg = RevokeLimit s := by
  rw [pow32] at hl
  unfold maxRevoke toUsizeOr
  rw [show s.cfg.maxRevoke.getD defaultMaxApprovals = RevokeLimit s from rfl, if_pos hl]

/-- C65: the accepted items of `icrc37_revoke_token_approvals` remove exactly the named
approvals of their tokens, or all of the token's where no spender is named. At most
as many items as the configured maximum are looked at. -/
theorem C65_revoke_tokens {E : Env H} {s s' : State H} {c : Principal} {now : Nat} {args : List RevokeTokenArg} {rs}
    (h : step E s (.call c now (.revokeTokens args)) = (s', .batch rs)) :
    (∀ tid sp a, TokenApproval s' tid sp a ↔
      TokenApproval s tid sp a ∧ ¬ ∃ arg ∈ accepted args rs, arg.tid = tid ∧ Revokes arg.spender sp) ∧
    (∀ o sp a, CollApproval s' o sp a ↔ CollApproval s o sp a) ∧ (∀ tid, Owner s' tid = Owner s tid) ∧
    (RevokeLimit s < 2 ^ 32 → rs.length = min args.length (RevokeLimit s)) := by
  obtain ⟨a0, as, _, hb⟩ := revokeTokens_of_step h
  have hlen := runBatch_length _ hb
  rw [← accepted_take args rs (maxRevoke s.cfg) hlen]
  rw [guardWindow_eq] at hb
  have key : ∀ (l : List RevokeTokenArg) {t t' : State H} {rs}, runBatch (fun s a => revokeToken E.ledger s c now a) t l = some (t', rs) →
      (∀ tid sp a, TokenApproval t' tid sp a ↔
        TokenApproval t tid sp a ∧ ¬ ∃ arg ∈ accepted l rs, arg.tid = tid ∧ Revokes arg.spender sp) ∧
      (∀ o sp a, CollApproval t' o sp a ↔ CollApproval t o sp a) ∧ (∀ tid, Owner t' tid = Owner t tid) := by
    intro l
    induction l with
    | nil => intro t t' rs h; simp [runBatch] at h; obtain ⟨rfl, rfl⟩ := h; simp [accepted]
    | cons x xs ih =>
      intro t t' rs h
      obtain ⟨u, r, rs', h1, h2, rfl⟩ := runBatch_cons h
      obtain ⟨i1, i2, i3⟩ := ih h2
      cases revokeToken_out h1 with
      | refused hh e =>
        refine ⟨fun tid sp a => ?_, i2, i3⟩
        rw [i1]
        exact .rfl
      | revoked owner hh i m own eqv hm timing add =>
        refine ⟨fun tid sp a => ?_, i2, i3⟩
        have hacc : accepted (x :: xs) (.ok i :: rs') = x :: accepted xs rs' := rfl
        rw [i1, hacc, tokApproval_set (s := t) (k := x.tid) rfl, get_drop]
        simp only [List.mem_cons, exists_eq_or_imp, not_or]
        by_cases ht : x.tid = tid
        · subst ht
          simp only [TokenApproval, hm, true_and, ne_eq, not_true, false_and, or_false, Option.some.injEq, exists_eq_left', and_assoc]
        · simp [ht]
  obtain ⟨k1, k2, k3⟩ := key _ hb
  refine ⟨k1, k2, k3, fun hl => ?_⟩
  rw [hlen, List.length_take, maxRevoke_eq hl, Nat.min_comm]

/-- The same for `icrc37_revoke_collection_approvals`, for the caller's default account. -/
theorem C65_revoke_collection {E : Env H} {s s' : State H} {c : Principal} {now : Nat} {args : List RevokeCollArg} {rs}
    (h : step E s (.call c now (.revokeCollection args)) = (s', .batch rs)) :
    (∀ o sp a, CollApproval s' o sp a ↔
      CollApproval s o sp a ∧ ¬ (SameAccount ⟨c, none⟩ o ∧ ∃ arg ∈ accepted args rs, Revokes arg.spender sp)) ∧
    (∀ tid sp a, TokenApproval s' tid sp a ↔ TokenApproval s tid sp a) ∧ (∀ tid, Owner s' tid = Owner s tid) ∧
    (RevokeLimit s < 2 ^ 32 → rs.length = min args.length (RevokeLimit s)) := by
  simp only [step, execCall, Call.needs, exec, icrc37RevokeCollection] at h
  have hb := batch_of_ofBatch h
  have hlen := runBatch_length _ hb
  rw [← accepted_take args rs (maxRevoke s.cfg) hlen]
  have key : ∀ (l : List RevokeCollArg) {t t' : State H} {rs}, runBatch (fun s a => some (revokeCollection E.ledger s c now a)) t l = some (t', rs) →
      (∀ o sp a, CollApproval t' o sp a ↔
        CollApproval t o sp a ∧ ¬ (SameAccount ⟨c, none⟩ o ∧ ∃ arg ∈ accepted l rs, Revokes arg.spender sp)) ∧
      (∀ tid sp a, TokenApproval t' tid sp a ↔ TokenApproval t tid sp a) ∧ (∀ tid, Owner t' tid = Owner t tid) := by
    intro l
    induction l with
    | nil => intro t t' rs h; simp [runBatch] at h; obtain ⟨rfl, rfl⟩ := h; simp [accepted]
    | cons x xs ih =>
      intro t t' rs h
      obtain ⟨u, r, rs', h1, h2, rfl⟩ := runBatch_cons h
      obtain ⟨i1, i2, i3⟩ := ih h2
      cases revokeCollection_out (Option.some.inj h1) with
      | refused w hh e =>
        refine ⟨fun o sp a => ?_, i2, i3⟩
        rw [i1]
        exact .rfl
      | revoked w hh i m hm timing add =>
        refine ⟨fun o sp a => ?_, i2, i3⟩
        have hacc : accepted (x :: xs) (.ok i :: rs') = x :: accepted xs rs' := rfl
        rw [i1, hacc, collApproval_set (s := t) (k := ⟨c, none⟩) rfl, get_drop, sameAccount_iff]
        simp only [List.mem_cons, exists_eq_or_imp]
        by_cases ho : ((⟨c, none⟩ : Account) == o) = true
        · rw [Map.get_congr _ ho] at hm
          simp only [CollApproval, hm, ho, true_and, Bool.true_eq_false, false_and, or_false, Option.some.injEq, exists_eq_left', not_or, and_assoc]
        · simp [ho]
  obtain ⟨k1, k2, k3⟩ := key _ hb
  refine ⟨k1, k2, k3, fun hl => ?_⟩
  rw [hlen, List.length_take, maxRevoke_eq hl, Nat.min_comm]

/-- The full C65 also wants the creation time the caller gave. -/
def KeepsCreationTime (E : Env H) : Prop :=
  ∀ (s s' : State H) c now i arg, Reachable E s → step E s (.call c now (.approveTokens [arg])) = (s', .batch [.ok i]) →
    ∀ a, TokenApproval s' arg.tid arg.info.spender a → a.createdAt = arg.info.createdAt

/-- C65 is false of the creation time: the stored (and listed) time is that of the
call, not the one the caller gave. -/
theorem C65_violated : ¬ KeepsCreationTime Demo.env := by
  intro h
  have := h Demo.s1 _ [1] (Demo.ms 200) 3 { tid := 2, info := { spender := Demo.carol, createdAt := Demo.ms 190 } }
    Demo.s1_reach rfl _ ⟨_, rfl, rfl⟩
  revert this
  decide

example : (step Demo.env Demo.s1 (.call [1] (Demo.ms 200) (.approveTokens
    [{ tid := 2, info := { spender := Demo.carol, createdAt := Demo.ms 190 } }]))).2 = .batch [.ok 3] := rfl

/-! ## C66 -/

private theorem maxRevoke_pos {s : State H} (h : 1 ≤ RevokeLimit s) : ∃ n, maxRevoke s.cfg = n + 1 := by
  unfold maxRevoke toUsizeOr
  have h' : 1 ≤ s.cfg.maxRevoke.getD defaultMaxApprovals := h
  split
  · exact ⟨s.cfg.maxRevoke.getD defaultMaxApprovals - 1, by omega⟩
  · exact ⟨9, rfl⟩

/-- C66: the owner of a token can revoke. If the calling account is the owner, some
approval of the token is recorded, time and rate are in order and the ledger accepts
with index `i`, the item is answered `i`. What it then removes is `C65_revoke_tokens`. -/
theorem C66_revoke_succeeds {E : Env H} {s : State H} {c : Principal} {now i : Nat} {arg : RevokeTokenArg} {o sp : Account}
    {a : Approval} (hr : Reachable E s) (hrate : recentCalls s now arg.tid < 5) (hlim : 1 ≤ RevokeLimit s)
    (htime : ∀ t, arg.createdAt = some t → SaneTimes s now t ∧ InWindow37 s now t)
    (ho : Owner s arg.tid = some o) (hown : SameAccount o ⟨c, arg.fromSub⟩) (ha : TokenApproval s arg.tid sp a)
    (hled : (E.ledger.add s.hid (revocationTx c now arg)).2 = .ok i) :
    ∃ s', step E s (.call c now (.revokeTokens [arg])) = (s', .batch [.ok i]) := by
  rw [sameAccount_iff] at hown
  obtain ⟨m, hm, _⟩ := ha
  have hw := hr.apprKeys _ m hm
  rw [pow64] at hw
  obtain ⟨n, hn⟩ := maxRevoke_pos hlim
  have hg := guardWindow_snd s now arg.tid
  rw [decide_eq_true hrate] at hg
  have htm : verifyTimingOpt s.cfg arg.createdAt now = none := verifyTimingOpt_of htime
  simp only [step, execCall, Call.needs, exec, icrc37RevokeTokens]
  rw [guardWindow_eq, hg]
  generalize (guardWindow s now arg.tid).1.windows = w
  have ho' : ownerOf { s with windows := w } arg.tid = some o := ho
  have hadd := addTx_of (s := { s with windows := w }) (t := revocationTx c now arg) hled
  unfold revocationTx at hadd
  simp only [Bool.not_true, Bool.false_eq_true, if_false, hn, List.take_succ_cons, List.take_nil, runBatch, revokeToken, htm, ho', hown,
    hm, Bool.true_eq_false, hadd, putTokAppr, hw, if_true]
  exact ⟨_, rfl⟩

/-- The same for collection approvals, for the caller's default account. -/
theorem C66_revoke_collection_succeeds {E : Env H} {s : State H} {c : Principal} {now i : Nat} {arg : RevokeCollArg} {sp : Account}
    {a : Approval} (hrate : recentCalls s now 0 < 5) (hlim : 1 ≤ RevokeLimit s)
    (htime : ∀ t, arg.createdAt = some t → SaneTimes s now t ∧ InWindow37 s now t)
    (ha : CollApproval s ⟨c, none⟩ sp a) (hled : (E.ledger.add s.hid (collRevocationTx c now arg)).2 = .ok i) :
    ∃ s', step E s (.call c now (.revokeCollection [arg])) = (s', .batch [.ok i]) := by
  obtain ⟨m, hm, _⟩ := ha
  obtain ⟨n, hn⟩ := maxRevoke_pos hlim
  have hg := guardWindow_snd s now 0
  rw [decide_eq_true hrate] at hg
  have htm : verifyTimingOpt s.cfg arg.createdAt now = none := verifyTimingOpt_of htime
  simp only [step, execCall, Call.needs, exec, icrc37RevokeCollection, hn, List.take_succ_cons, List.take_nil, runBatch, revokeCollection]
  rw [guardWindow_eq, hg]
  generalize (guardWindow s now 0).1.windows = w
  have hadd := addTx_of (s := { s with windows := w }) (t := collRevocationTx c now arg) hled
  unfold collRevocationTx at hadd
  simp only [Bool.not_true, Bool.false_eq_true, if_false, htm, hm, hadd]
  exact ⟨_, rfl⟩

/-- Alice approved carol for token 2 and revokes it. -/
example : ∃ s', step Demo.env (run Demo.env Demo.s1 [Demo.approveMsg]) (.call [1] (Demo.ms 300) (.revokeTokens [{ tid := 2, spender := some Demo.carol }])) =
    (s', .batch [.ok 4]) := by
  refine C66_revoke_succeeds (o := Demo.alice) (sp := Demo.carol) (Demo.reach [Demo.mintMsg, Demo.approveMsg]) (by decide) (by decide) (by simp) rfl (by decide) ⟨_, rfl, rfl⟩ rfl

end Verif
