import Verif.Props.Ownership
import Verif.Lemmas.Replay
/-!
# C06–C09, C12: how ownership changes, and the log
-/
namespace Verif

open Spec

variable {H : Type}

/-- What an elementary effect of message `m` can have to do with a change of
owner of `tid`. -/
private theorem owner_micro {E : Env H} {m : Msg} {s s' : State H} {tid : Nat} (hi : TokInv s)
    (h : Micro E m s s') (hne : Owner s' tid ≠ Owner s tid) :
    (∃ c now reqs, m = .call c now (.mint reqs) ∧ Holds s c .minting ∧ Owner s tid = none) ∨
    (∃ c now args arg o, m = .call c now (.transfer args) ∧ arg ∈ args ∧ arg.tid = tid ∧
      Owner s tid = some o ∧ o.owner = c ∧ arg.to_.owner ≠ anonymous) ∨
    (∃ c now o, m = .call c now (.burn tid) ∧ Owner s tid = some o ∧ o.owner = c) ∨
    (∃ c now args arg o, m = .call c now (.transferFrom args) ∧ arg ∈ args ∧ arg.tid = tid ∧
      Owner s tid = some o ∧ SameAccount o arg.from_ ∧ MayMove s now tid o ⟨c, arg.spenderSub⟩) := by
  cases micro_own hi h with
  | same ht => exact absurd (by simp [Owner, ht]) hne
  | rewrite k t tok ht =>
    refine absurd ?_ hne
    unfold Owner
    rw [ht, Map.get_set]
    split
    · rename_i he; simp at he; subst he; rw [tok]
    · rfl
  | move id t to_ tx tok hid diff ht hb hl hlog htid hfrom hto why =>
    by_cases hk : tid = id
    · subst hk
      rcases why with ⟨c, now, args, arg, hm, harg, h1, h2, h3, h4, h5, h6⟩ |
        ⟨c, now, args, arg, hm, harg, h1, h2, h3, h4, h5, h6⟩
      · exact .inr (.inl ⟨c, now, args, arg, t.owner, hm, harg, h1, owner_of_get tok, h3, h2 ▸ h5⟩)
      · exact .inr (.inr (.inr ⟨c, now, args, arg, t.owner, hm, harg, h1, owner_of_get tok,
          sameAccount_iff.2 h3, h4⟩))
    · refine absurd ?_ hne
      unfold Owner
      rw [ht, Map.get_set, if_neg (by simpa using fun h => hk h.symm)]
  | mint c now reqs hm perm cap hcfg ht hb hl hlog =>
    left
    refine ⟨c, now, reqs, hm, holds_iff.2 perm, ?_⟩
    rw [owner_insTok rfl ht] at hne
    split at hne
    · exact owner_fresh hi (by omega)
    · exact absurd rfl hne
  | burn c now k t hm tok own ht hb hl hlog =>
    by_cases hk : tid = k
    · subst hk
      exact .inr (.inr (.inl ⟨c, now, t.owner, hm, owner_of_get tok, own.symm⟩))
    · refine absurd ?_ hne
      unfold Owner
      rw [ht, Map.get_del, if_neg (by simpa using fun h => hk h.symm)]

/-- The complete list of ways in which a message can change the owner of `tid`
(the English C08), in terms of the state before the message. -/
def MayChange (s : State H) (m : Msg) (tid : Nat) : Prop :=
  (∃ c now reqs, m = .call c now (.mint reqs) ∧ Holds s c .minting ∧ Owner s tid = none) ∨
  (∃ c now args arg o, m = .call c now (.transfer args) ∧ arg ∈ args ∧ arg.tid = tid ∧
    Owner s tid = some o ∧ o.owner = c) ∨
  (∃ c now o, m = .call c now (.burn tid) ∧ Owner s tid = some o ∧ o.owner = c) ∨
  (∃ c now args arg o, m = .call c now (.transferFrom args) ∧ arg ∈ args ∧ arg.tid = tid ∧
    Owner s tid = some o ∧ SameAccount o arg.from_ ∧ MayMove s now tid o ⟨c, arg.spenderSub⟩)

private theorem owner_steps {E : Env H} {m : Msg} {s t : State H} {tid : Nat} (hi : TokInv s)
    (h : Steps E m s t) (hne : Owner t tid ≠ Owner s tid) : MayChange s m tid := by
  have key : (Steps E m s t ∧ TokInv t ∧ (t.perms = s.perms ∨ ∀ c now reqs, m ≠ .call c now (.mint reqs))) ∧
      (Owner t tid = Owner s tid ∨ MayChange s m tid) := by
    refine h.induct (P := fun t => (Steps E m s t ∧ TokInv t ∧
      (t.perms = s.perms ∨ ∀ c now reqs, m ≠ .call c now (.mint reqs))) ∧
      (Owner t tid = Owner s tid ∨ MayChange s m tid)) ?_ ⟨⟨.refl, hi, .inl rfl⟩, .inl rfl⟩
    intro t t' ⟨⟨h1, h2, h3⟩, h4⟩ hm
    refine ⟨⟨.tail h1 hm, tokInv_micro h2 hm, ?_⟩, ?_⟩
    · rcases h3 with h3 | h3
      · rcases micro_perms hm with h | ⟨_, _, _, _, rfl, _⟩ | ⟨_, _, _, _, rfl, _⟩
        · exact .inl (h.trans h3)
        · exact .inr (by intro _ _ _ h; cases h)
        · exact .inr (by intro _ _ _ h; cases h)
      · exact .inr h3
    · rcases h4 with h4 | h4
      · by_cases hc : Owner t' tid = Owner t tid
        · exact .inl (hc.trans h4)
        · right
          rcases owner_micro h2 hm hc with ⟨c, now, reqs, hm', hp, ho⟩ |
            ⟨c, now, args, arg, o, hm', harg, h5, h6, h7, h8⟩ | ⟨c, now, o, hm', h6, h7⟩ |
            ⟨c, now, args, arg, o, hm', harg, h5, h6, h7, h8⟩
          · left
            refine ⟨c, now, reqs, hm', ?_, h4 ▸ ho⟩
            rcases h3 with h3 | h3
            · unfold Holds at hp ⊢; rw [h3] at hp; exact hp
            · exact absurd hm' (h3 _ _ _)
          · exact .inr (.inl ⟨c, now, args, arg, o, hm', harg, h5, h4 ▸ h6, h7⟩)
          · exact .inr (.inr (.inl ⟨c, now, o, hm', h4 ▸ h6, h7⟩))
          · subst hm'
            exact .inr (.inr (.inr ⟨c, now, args, arg, o, rfl, harg, h5, h4 ▸ h6, h7, mayMove_shrinks hi h1 h8⟩))
      · exact .inr h4
  exact key.2.resolve_left hne

/-! ## C08 -/

/-- C08: if a message changes the owner of a token, it is a mint of a new token
by a holder of the Minting permission, an `icrc7_transfer` or `burn_nft` by the
owner's principal, or an `icrc37_transfer_from` out of the owner's account by an
account with a live authority — all judged in the state before the message. -/
theorem C08_owner_change {E : Env H} {s : State H} (hr : Reachable E s) (m : Msg) {tid : Nat}
    (hne : Owner (step E s m).1 tid ≠ Owner s tid) : MayChange s m tid :=
  owner_steps hr.tokInv (step_steps E s m) hne

/-- C08: a message that answers with an error, a rejection or a trap — unless it
is a batch, whose items are answered one by one — leaves every owner alone. -/
theorem C08_failed {E : Env H} {s s' : State H} (hr : Reachable E s) {m : Msg} {r : Reply}
    (h : step E s m = (s', r))
    (hfail : r = .rejected ∨ r = .trapped ∨ (∃ e, r = .mgmt (.error e)) ∨ (∃ e, r = .batchErr e)) (tid : Nat) :
    Owner s' tid = Owner s tid := by
  by_cases hne : Owner s' tid = Owner s tid
  · exact hne
  exfalso
  have hs : s' = (step E s m).1 := by rw [h]
  rw [hs] at hne
  rcases C08_owner_change hr m hne with ⟨c, now, reqs, rfl, _⟩ | ⟨c, now, args, _, _, rfl, _⟩ |
    ⟨c, now, _, rfl, _⟩ | ⟨c, now, args, _, _, rfl, _⟩
  · rw [← hs] at hne
    simp only [step, execCall, Call.needs] at h
    split at h
    · simp only [exec] at h
      cases ho : mint E s c now reqs with
      | none => simp [ho, ofMgmt] at h; rw [← h.1] at hne; exact hne rfl
      | some p =>
        obtain ⟨p1, p2⟩ := p
        have hout := mint_out ho
        simp [ho, ofMgmt] at h
        obtain ⟨rfl, rfl⟩ := h
        cases hout with
        | refused e => exact hne rfl
        | cut md h' n free hn hmd => exact hne rfl
        | minted => rcases hfail with h | h | ⟨e, h⟩ | ⟨e, h⟩ <;> cases h
    · simp at h; rw [← h.1] at hne; exact hne rfl
  · rw [← hs] at hne
    simp only [step, execCall, Call.needs, exec] at h
    cases ho : icrc7Transfer E.ledger s c now args with
    | none => simp [ho, ofBatch] at h; rw [← h.1] at hne; exact hne rfl
    | some p =>
      simp [ho, ofBatch] at h
      obtain ⟨_, rfl⟩ := h
      rcases hfail with h | h | ⟨e, h⟩ | ⟨e, h⟩ <;> cases h
  · rw [← hs] at hne
    simp only [step, execCall, Call.needs, exec] at h
    cases ho : burnNft E s c now tid with
    | none => simp [ho, ofMgmt] at h; rw [← h.1] at hne; exact hne rfl
    | some p =>
      obtain ⟨p1, p2⟩ := p
      have hout := burnNft_out ho
      simp [ho, ofMgmt] at h
      obtain ⟨rfl, rfl⟩ := h
      cases hout with
      | refused h' e => exact hne rfl
      | burned => rcases hfail with h | h | ⟨e, h⟩ | ⟨e, h⟩ <;> cases h
  · rw [← hs] at hne
    simp only [step, execCall, Call.needs, exec] at h
    cases ho : icrc37TransferFrom E.ledger s c now args with
    | none => simp [ho, ofBatch] at h; rw [← h.1] at hne; exact hne rfl
    | some p =>
      simp [ho, ofBatch] at h
      obtain ⟨_, rfl⟩ := h
      rcases hfail with h | h | ⟨e, h⟩ | ⟨e, h⟩ <;> cases h

/-- All four ways occur. -/
example :
    Owner (step Demo.env Demo.s0 Demo.mintMsg).1 1 ≠ Owner Demo.s0 1 ∧
    Owner (step Demo.env Demo.s1 Demo.sendMsg).1 1 ≠ Owner Demo.s1 1 ∧
    Owner (step Demo.env Demo.s1 Demo.burnMsg).1 1 ≠ Owner Demo.s1 1 ∧
    Owner (step Demo.env (run Demo.env Demo.s1 [Demo.approveMsg]) Demo.takeMsg).1 2 ≠
      Owner (run Demo.env Demo.s1 [Demo.approveMsg]) 2 := by decide

/-- A failed message. -/
example : (step Demo.env Demo.s1 (.call [3] (Demo.ms 200) (.burn 1))).2 = .mgmt (.error .notTokenOwner) := rfl

/-! ## C06 -/

/-- C06: if an `icrc7_transfer` call changes the owner of a token, the caller is
the principal of the account that owned it before. With `C25_transfer_singles`
(a batch is the sequence of its one-item calls) this is also the statement about
every item of a batch. -/
theorem C06_holder_only {E : Env H} {s : State H} (hr : Reachable E s) {c : Principal} {now : Nat}
    {args : List TransferArg} {tid : Nat}
    (hne : Owner (step E s (.call c now (.transfer args))).1 tid ≠ Owner s tid) :
    ∃ o, Owner s tid = some o ∧ o.owner = c := by
  rcases C08_owner_change hr _ hne with ⟨_, _, _, h, _⟩ | ⟨_, _, _, _, o, h, _, _, h1, h2⟩ |
    ⟨_, _, _, h, _⟩ | ⟨_, _, _, _, _, h, _⟩ <;> cases h
  exact ⟨o, h1, h2⟩

example : Owner (step Demo.env Demo.s1 (.call [1] (Demo.ms 200) (.transfer [{ to_ := Demo.bob, tid := 1 }]))).1 1
    = some Demo.bob := rfl
/-- Nobody else's call moves it. -/
example : Owner (step Demo.env Demo.s1 (.call [2] (Demo.ms 200) (.transfer [{ to_ := Demo.bob, tid := 1 }]))).1 1
    = some Demo.alice := rfl

/-! ## C07 -/

/-- C07: if an `icrc37_transfer_from` call changes the owner of a token, some
item names this token and its owner's account as `from`, and the calling account
was that owner or held a live token approval or a live collection approval of
the owner. -/
theorem C07_live_authority {E : Env H} {s : State H} (hr : Reachable E s) {c : Principal} {now : Nat}
    {args : List TransferFromArg} {tid : Nat}
    (hne : Owner (step E s (.call c now (.transferFrom args))).1 tid ≠ Owner s tid) :
    ∃ arg ∈ args, arg.tid = tid ∧ ∃ o, Owner s tid = some o ∧ SameAccount o arg.from_ ∧
      MayMove s now tid o ⟨c, arg.spenderSub⟩ := by
  rcases C08_owner_change hr _ hne with ⟨_, _, _, h, _⟩ | ⟨_, _, _, _, _, h, _⟩ |
    ⟨_, _, _, h, _⟩ | ⟨_, _, _, arg, o, h, h1, h2, h3, h4, h5⟩ <;> cases h
  exact ⟨arg, h1, h2, o, h3, h4, h5⟩

/-- Through a token approval, through a collection approval, as owner; and not
without. -/
example :
    Owner (run Demo.env Demo.s1 [Demo.approveMsg, Demo.takeMsg]) 2 = some Demo.carol ∧
    Owner (run Demo.env Demo.s1 [.call [1] (Demo.ms 200)
      (.approveCollection [{ spender := Demo.carol, createdAt := Demo.ms 200 }]), Demo.takeMsg]) 2 = some Demo.carol ∧
    Owner (run Demo.env Demo.s1 [.call [1] (Demo.ms 200)
      (.transferFrom [{ from_ := Demo.alice, to_ := Demo.carol, tid := 2 }])]) 2 = some Demo.carol ∧
    Owner (run Demo.env Demo.s1 [Demo.takeMsg]) 2 = some Demo.alice := by decide

/-! ## C09 -/

/-- C09: `burn_nft` removes a token only for the principal of its owner, and it
removes no other token. -/
theorem C09_owner_only {E : Env H} {s : State H} (hr : Reachable E s) {c : Principal} {now tid k : Nat}
    (hne : Owner (step E s (.call c now (.burn tid))).1 k ≠ Owner s k) :
    k = tid ∧ ∃ o, Owner s k = some o ∧ o.owner = c := by
  rcases C08_owner_change hr _ hne with ⟨_, _, _, h, _⟩ | ⟨_, _, _, _, _, h, _⟩ |
    ⟨_, _, o, h, h1, h2⟩ | ⟨_, _, _, _, _, h, _⟩ <;> cases h
  exact ⟨rfl, o, h1, h2⟩

/-- C09: after an accepted burn the id has no owner in any later state. -/
theorem C09_final {E : Env H} {s s' : State H} (hr : Reachable E s) {c : Principal} {now tid : Nat} {v}
    (h : step E s (.call c now (.burn tid)) = (s', .mgmt (.ok v))) (ms : List Msg) :
    Owner (run E s' ms) tid = none := by
  obtain ⟨t, h', tok, _, hs⟩ := burn_accepted h
  have h1 : run E s [.call c now (.burn tid)] = s' := by simp [run, h]
  have := C04_never_again hr (owner_of_get tok) [.call c now (.burn tid)] ms
  rw [h1] at this
  apply this
  subst hs
  simp [Owner]

example : (step Demo.env Demo.s1 Demo.burnMsg).2 = .mgmt (.ok .unit) := rfl

/-! ## C12 -/

/-- C12: no message removes or rewrites a recorded transaction. -/
theorem C12_append_only {E : Env H} {s : State H} (hr : Reachable E s) (ms : List Msg) :
    s.log <+: (run E s ms).log := by
  have := run_induct (E := E) (P := fun t => TokInv t ∧ s.log <+: t.log)
    (fun m t t' ht hm => ⟨tokInv_micro ht.1 hm, ht.2.trans (micro_own ht.1 hm).log_grows⟩)
    ms (s := s) ⟨hr.tokInv, List.prefix_rfl⟩
  exact this.2

/-- C12, the part that holds without restriction: in every reachable state, the
owner of every id that a mint has ever handed out is what replaying the log says.
(`s.lastId` is the id the next mint answers with, see `C04_mint_ids`.)
Missing from the full claim: replaying also yields owners for ids at or above
`s.lastId` if a mint was cut short by the ledger (`C12_violated`). -/
theorem C12_replay_partial {E : Env H} {s : State H} (hr : Reachable E s) {tid : Nat} (htid : tid < s.lastId) :
    Owner s tid = replay s.log tid := by
  have key : ∀ k, k < s.lastId → Owner s k = replay s.log k :=
    hr.ownInduct (P := fun s => ∀ k, k < s.lastId → Owner s k = replay s.log k)
      (by
        intro v hid c a s h k hk
        rw [init_eq h]
        simp [Owner, replay])
      (by
        intro m s s' hi hp heff k hk
        obtain ⟨txs, hlog, h1, _⟩ := heff.replays
        rw [h1 k hk, hlog, replay_append]
        by_cases hlt : k < s.lastId
        · -- below the old counter both sides agree
          have : ∀ (l : List Tx) (f g : Nat → Option Account), f k = g k →
              l.foldl applyTx f k = l.foldl applyTx g k := by
            intro l
            induction l with
            | nil => intro f g h; exact h
            | cons t ts ih =>
              intro f g h
              refine ih _ _ ?_
              obtain ⟨op, ts, tid, _⟩ := t
              cases op <;> cases tid <;> simp [applyTx, h]
          exact this _ _ _ (hp k hlt)
        · cases heff with
          | mint c now reqs hm perm cap hcfg ht hb hl hlog' =>
            rw [hlog] at hlog'
            have := List.append_cancel_left hlog'
            subst this
            rw [foldl_mints, foldl_mints, dif_pos ⟨by omega, by omega⟩, dif_pos ⟨by omega, by omega⟩]
          | same _ _ hl => omega
          | rewrite _ _ _ _ _ hl => omega
          | move _ _ _ _ _ _ _ _ _ hl => omega
          | burn _ _ _ _ _ _ _ _ _ hl => omega)
  exact key tid htid

/-- No mint of the history was cut short by the ledger. -/
def NoCutMint (E : Env H) (s : State H) (ms : List Msg) : Prop :=
  ∀ pre m post, ms = pre ++ m :: post → ∀ c now reqs, m = .call c now (.mint reqs) →
    (step E (run E s pre) m).2 ≠ .mgmt (.error .storageCanisterError)

/-- C12 for every history in which no mint was cut short by the ledger:
replaying the log gives exactly the current owners, of all ids. -/
theorem C12_replay_uncut_partial {E : Env H} {validUrl hid caller a} {s₀ : State H}
    (hinit : init validUrl hid caller a = some s₀) (ms : List Msg) (hcut : NoCutMint E s₀ ms) (tid : Nat) :
    Owner (run E s₀ ms) tid = replay (run E s₀ ms).log tid := by
  have hr0 : Reachable E s₀ := ⟨validUrl, hid, caller, a, s₀, [], hinit, rfl⟩
  have key : ∀ n (pre post : List Msg), pre.length = n → ms = pre ++ post →
      Owner (run E s₀ pre) = replay (run E s₀ pre).log := by
    intro n
    induction n with
    | zero =>
      intro pre post hl _
      simp at hl
      subst hl
      simp only [run]
      rw [init_eq hinit]
      funext k
      simp [Owner, replay]
    | succ n ih =>
      intro pre post hl he
      rcases List.eq_nil_or_concat pre with rfl | ⟨ini, m, rfl⟩
      · simp at hl
      rw [List.concat_eq_append] at *
      have hp := ih ini (m :: post) (by simp at hl; exact hl) (by rw [he]; simp)
      have hc := hcut ini m post (by rw [he]; simp)
      have hr := hr0.run ini
      rw [run_append]
      simp only [run]
      generalize run E s₀ ini = s at hp hc hr ⊢
      by_cases hmint : ∃ c now reqs, m = .call c now (.mint reqs)
      · obtain ⟨c, now, reqs, rfl⟩ := hmint
        have hc := hc c now reqs rfl
        have hgoal : ∀ s' r, step E s (.call c now (.mint reqs)) = (s', r) →
            r ≠ .mgmt (.error .storageCanisterError) → Owner s' = replay s'.log := by
          intro s' r h hr'
          simp only [step, execCall, Call.needs] at h
          split at h
          · simp only [exec] at h
            cases ho : mint E s c now reqs with
            | none => simp [ho, ofMgmt] at h; rw [← h.1]; exact hp
            | some p =>
              obtain ⟨p1, p2⟩ := p
              have hout := mint_out ho
              simp [ho, ofMgmt] at h
              obtain ⟨rfl, rfl⟩ := h
              cases hout with
              | refused e => exact hp
              | cut md h' n free hn hmd => exact absurd rfl hr'
              | minted md h' free batch cap memos hmd =>
                funext k
                rw [mintInsert_eq]
                dsimp only
                rw [replay_append, foldl_mints, ← hp]
                exact owner_insTok rfl rfl k
          · simp at h; rw [← h.1]; exact hp
        exact hgoal _ _ rfl hc
      · have := (step_steps E s m).induct (P := fun t => TokInv t ∧ Owner t = replay t.log)
          (fun t t' ht hmic => by
            refine ⟨tokInv_micro ht.1 hmic, ?_⟩
            obtain ⟨txs, hlog, _, h2⟩ := (micro_own ht.1 hmic).replays
            rw [h2 (fun c now reqs h => hmint ⟨c, now, reqs, h⟩), hlog, replay_append, ht.2])
          ⟨hr.tokInv, hp⟩
        exact this.2
  rw [key ms.length ms [] rfl (by simp)]

/-- A history with a mint, a transfer, a delegated transfer and a burn. -/
example : NoCutMint Demo.env Demo.s0 [Demo.mintMsg, Demo.sendMsg] ∧
    (run Demo.env Demo.s0 [Demo.mintMsg, Demo.sendMsg]).log.length = 4 ∧
    replay (run Demo.env Demo.s0 [Demo.mintMsg, Demo.sendMsg]).log 1 = some Demo.bob := by
  refine ⟨?_, rfl, rfl⟩
  intro pre m post h c now reqs hm
  rcases pre with _ | ⟨a, _ | ⟨b, l⟩⟩
  · simp at h; obtain ⟨rfl, rfl⟩ := h; rw [show step Demo.env (run Demo.env Demo.s0 []) Demo.mintMsg =
      ((step Demo.env Demo.s0 Demo.mintMsg).1, .mgmt (.ok (.id 1))) from rfl]; simp
  · simp at h; obtain ⟨rfl, rfl, rfl⟩ := h; cases hm
  · simp at h

/-- C12 fails as stated: if the ledger refuses in the middle of a mint, the log
says that token 1 belongs to alice, and no token exists. -/
theorem C12_violated : ∃ (E : Env Nat) (s : State Nat), Reachable E s ∧
    replay s.log 1 = some Demo.alice ∧ Owner s 1 = none ∧ totalSupply s = 0 :=
  ⟨Demo.shortEnv 1, run (Demo.shortEnv 1) Demo.s0 [Demo.mintMsg], Demo.reachShort 1 _, rfl, rfl, rfl⟩

end Verif
