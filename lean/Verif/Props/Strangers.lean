import Verif.Lemmas.Strangers
import Verif.Lemmas.Replay
import Verif.Props.Admin
import Verif.Props.Limits
/-!
# C78 to C80: what outsiders can do
-/
namespace Verif

open Spec

variable {H : Type}

/-! ## C78 -/

/-- C78: a call by a principal without standing is refused in full, and changes
nothing but the rate limiter's table: owners, metadata, approvals, permissions,
settings, uploads, the transaction log and the ledger are what they were. -/
theorem C78_refused {E : Env H} {s : State H} (hr : Reachable E s) {c : Principal} (hs : Stranger s c)
    (now : Nat) (call : Call) :
    Refused (step E s (.call c now call)).2 ∧ ∃ w, (step E s (.call c now call)).1 = { s with windows := w } := by
  obtain ⟨h1, h2⟩ := stranger_step (E := E) now call hr.tokInv.nodup hs
  exact ⟨h2, h1⟩

/-- C78, over histories: whatever any number of strangers call, in any order, all of
it is refused and nothing but the rate limiter's table changes. -/
theorem C78_history {E : Env H} (msgs : List Msg) : ∀ {s : State H}, Reachable E s → ByStrangers s msgs →
    (∀ r ∈ replies E s msgs, Refused r) ∧ ∃ w, run E s msgs = { s with windows := w } := by
  induction msgs with
  | nil => intro s _ _; exact ⟨by simp [replies], s.windows, rfl⟩
  | cons m ms ih =>
    intro s hr hb
    obtain ⟨c, now, call, rfl, hs⟩ := hb m (by simp)
    obtain ⟨h1, w, h2⟩ := C78_refused hr hs now call
    have hr' := hr.step (.call c now call)
    rw [h2] at hr'
    obtain ⟨h3, w', h4⟩ := ih (s := { s with windows := w }) hr' (by
      intro m hm
      obtain ⟨c', now', call', he, hs'⟩ := hb m (by simp [hm])
      exact ⟨c', now', call', he, hs'.win w⟩)
    refine ⟨?_, w', ?_⟩
    · intro r hr0
      change r ∈ (step E s (.call c now call)).2 :: replies E (step E s (.call c now call)).1 ms at hr0
      rcases List.mem_cons.1 hr0 with rfl | hr0
      · exact h1
      · rw [h2] at hr0; exact h3 r hr0
    · change run E (step E s (.call c now call)).1 ms = _
      rw [h2, h4]

/-- C78: no query of anybody's can tell that strangers called. -/
theorem C78_invisible {E : Env H} (msgs : List Msg) {s : State H} (hr : Reachable E s) (hb : ByStrangers s msgs) :
    SameAnswers s (run E s msgs) ∧ (run E s msgs).log = s.log ∧ (run E s msgs).hid = s.hid := by
  obtain ⟨_, w, h⟩ := C78_history msgs hr hb
  rw [h]
  refine ⟨?_, rfl, rfl⟩
  constructor <;> (intros; rfl)

theorem demo_stranger : Stranger Demo.s1 [5] := by
  have htok : ∀ tid o, Owner Demo.s1 tid = some o → o.owner ≠ [5] := by
    intro tid o h
    obtain ⟨t, ht, rfl⟩ := owner_get h
    obtain ⟨k, _, hm⟩ := Map.mem_of_get ht
    have key : ∀ e ∈ Demo.s1.tokens.entries, e.2.owner.owner ≠ [5] := by decide
    exact key _ hm
  refine ⟨htok, ?_, ?_, ?_, rfl⟩
  · intro x h
    rw [holds_iff] at h
    revert h
    cases x <;> decide
  · rintro tid sp a ⟨m, hm, _⟩
    cases (show Demo.s1.tokAppr.get tid = none from rfl).symm.trans hm
  · rintro o sp a ⟨m, hm, _⟩
    cases (show Demo.s1.collAppr.get o = none from rfl).symm.trans hm

/-- A stranger tries to take, approve, burn, mint and grant in a collection with
three tokens. -/
def Demo.intrusion : List Msg :=
  [.call [5] (Demo.ms 200) (.transfer [{ to_ := ⟨[5], none⟩, tid := 1 }]),
   .call [5] (Demo.ms 201) (.transferFrom [{ from_ := Demo.alice, to_ := ⟨[5], none⟩, tid := 1 }]),
   .call [5] (Demo.ms 202) (.approveTokens [{ tid := 1, info := { spender := ⟨[5], none⟩, createdAt := Demo.ms 202 } }]),
   .call [5] (Demo.ms 203) (.burn 1),
   .call [5] (Demo.ms 204) (.mint [{ owner := ⟨[5], none⟩ }]),
   .call [5] (Demo.ms 205) (.grant [5] .minting)]

theorem Demo.intrusion_strangers : ByStrangers Demo.s1 Demo.intrusion := by
  intro m hm
  simp only [Demo.intrusion, List.mem_cons, List.not_mem_nil, or_false] at hm
  rcases hm with rfl | rfl | rfl | rfl | rfl | rfl <;> exact ⟨_, _, _, rfl, demo_stranger⟩

example : ByStrangers Demo.s1 Demo.intrusion ∧ (run Demo.env Demo.s1 Demo.intrusion).windows.size = 1 ∧
    Owner (run Demo.env Demo.s1 Demo.intrusion) 1 = some Demo.alice := ⟨Demo.intrusion_strangers, rfl, rfl⟩

/-! ## C79 -/

/-- C79: when nobody holds the permission to manage authorities, nobody ever gains or
loses any permission again. -/
theorem C79_frozen {E : Env H} {s : State H} (h : ¬ Managed s) (msgs : List Msg) (p : Principal) (x : Permission) :
    Holds (run E s msgs) p x ↔ Holds s p x := by
  have key : (run E s msgs).perms = s.perms := by
    refine run_induct (E := E) (P := fun t => t.perms = s.perms) ?_ msgs rfl
    intro m t t' ht hm
    have hno : ∀ c, ¬ Holds t c .manageAuthorities := by
      intro c hc
      refine h ⟨c, ?_⟩
      unfold Holds at hc ⊢
      rwa [ht] at hc
    rcases micro_perms hm with he | ⟨c, _, _, _, _, hh, _⟩ | ⟨c, _, _, _, _, hh, _⟩
    · rw [he, ht]
    · exact absurd hh (hno c)
    · exact absurd hh (hno c)
  unfold Holds
  rw [key]

/-- C79, the part that holds: a collection that somebody can administer stays so
except through one kind of call: a holder of the permission revokes it from the last
holder. -/
theorem C79_kept_partial {E : Env H} {s : State H} (h : Managed s) (m : Msg) (hno : ¬ Managed (step E s m).1) :
    ∃ c now p, m = .call c now (.revoke p .manageAuthorities) ∧ Holds s c .manageAuthorities ∧
      ∀ q, Holds s q .manageAuthorities → q = p := by
  obtain ⟨q, hq⟩ := h
  obtain ⟨c, now, he, hc⟩ := C30_lost E s m hq (fun hh => hno ⟨q, hh⟩)
  refine ⟨c, now, q, he, hc, ?_⟩
  intro q' hq'
  obtain ⟨c', now', he', _⟩ := C30_lost E s m hq' (fun hh => hno ⟨q', hh⟩)
  rw [he] at he'
  injection he' with _ _ h3
  injection h3 with h4
  exact h4.symm

/-- C79 fails: the only authority revokes its own permission, is told `Ok`, and from
then on no history gives anybody the permission again. -/
theorem C79_violated : ∃ (s : State Nat) (c : Principal) (now : Nat), Reachable Demo.env s ∧ Managed s ∧
    (step Demo.env s (.call c now (.revoke c .manageAuthorities))).2 = .mgmt (.ok .unit) ∧
    ∀ msgs, ¬ Managed (run Demo.env (step Demo.env s (.call c now (.revoke c .manageAuthorities))).1 msgs) := by
  refine ⟨Demo.s1, Demo.admin, Demo.ms 200, Demo.s1_reach, ⟨Demo.admin, holds_iff.2 (by decide)⟩, rfl, ?_⟩
  have hno : ¬ Managed (step Demo.env Demo.s1 (.call Demo.admin (Demo.ms 200) (.revoke Demo.admin .manageAuthorities))).1 := by
    rintro ⟨p, l, hl, hx⟩
    obtain ⟨k, _, hm⟩ := Map.mem_of_get hl
    have key : ∀ e ∈ (step Demo.env Demo.s1 (.call Demo.admin (Demo.ms 200)
        (.revoke Demo.admin .manageAuthorities))).1.perms.entries, Permission.manageAuthorities ∉ e.2 := by decide
    exact key _ hm hx
  rintro msgs ⟨p, hp⟩
  exact hno ⟨p, (C79_frozen hno msgs p _).1 hp⟩

/-- C79 fails from the start, too: an installation without permissions and outside
test mode is accepted, and nobody can ever administer it. -/
theorem C79_unmanaged_install {E : Env H} {v : String → Bool} {hid : H} {c : Principal} {a : InitArgs} {s₀ : State H}
    (h0 : init v hid c a = some s₀) (ht : a.testMode = false) (hp : a.perms = ∅) (msgs : List Msg) (p : Principal)
    (x : Permission) : ¬ Holds (run E s₀ msgs) p x := by
  have hno : ∀ p x, ¬ Holds s₀ p x := by
    rintro p x ⟨l, hl, _⟩
    rw [init_eq h0] at hl
    simp [ht, hp] at hl
  intro h
  exact hno p x ((C79_frozen (fun ⟨q, hq⟩ => hno q _ hq) msgs p x).1 h)

/-- A second authority keeps the collection administrable when the first one leaves;
an installation without permissions exists. -/
example : Managed (run Demo.env Demo.s1
      [.call Demo.admin (Demo.ms 200) (.grant [2] .manageAuthorities),
       .call Demo.admin (Demo.ms 201) (.revoke Demo.admin .manageAuthorities)]) ∧
    (init (fun _ => true) 0 Demo.admin {}).isSome = true :=
  ⟨⟨[2], holds_iff.2 (by decide)⟩, rfl⟩

/-! ## C80 -/

/-- C80, the part that holds: strangers hold up the holder of a token only by calls
on that very token. If the calls remembered for the token and the strangers' calls on
it in the last 60 ms are together fewer than five, the holder's transfer goes through
as if nobody had called (see C55 for the other conditions). -/
theorem C80_holder_moves_partial {E : Env H} {s : State H} (hr : Reachable E s) {msgs : List Msg}
    (hb : ByStrangers s msgs) {c : Principal} {now i : Nat} {arg : TransferArg} {o : Account}
    (hquiet : recentCalls s now arg.tid + ((askedTimes arg.tid msgs).countP fun t => decide (now - t < 60000000)) < 5)
    (hs : SaneLimits s now) (hbl : 1 ≤ BatchLimit s) (hc : c ≠ anonymous)
    (ho : Owner s arg.tid = some o) (hown : o.owner = c)
    (hto : arg.to_.owner ≠ anonymous) (hdiff : ¬ SameAccount o arg.to_)
    (hmemo : ∀ m, arg.memo = some m → m.length ≤ MemoLimit s)
    (htime : InWindow s now (arg.createdAt.getD now))
    (hled : (E.ledger.add s.hid (xferTx now arg o)).2 = .ok i) :
    ∃ s', step E (run E s msgs) (.call c now (.transfer [arg])) = (s', .batch [.ok i]) ∧
      Owner s' arg.tid = some arg.to_ ∧ s'.log = s.log ++ [xferTx now arg o] := by
  have hrate : recentCalls (run E s msgs) now arg.tid < 5 := by
    have h := ((winOf_run (E := E) (tid := arg.tid) (s := s) msgs (List.Sublist.refl _)).filter
      fun t => decide (now - t < 60000000)).length_le
    rw [List.filter_append, List.length_append] at h
    rw [List.countP_eq_length_filter] at hquiet
    exact Nat.lt_of_le_of_lt h hquiet
  have hr' : Reachable E (run E s msgs) := hr.run msgs
  obtain ⟨_, w, he⟩ := C78_history msgs hr hb
  rw [he] at hr' hrate ⊢
  exact C55_transfer_succeeds (s := { s with windows := w }) hr' ⟨hs.1, hs.2, hs.3, hs.4⟩ hbl hc hrate ho hown hto
    hdiff hmemo htime hled

/-- C80 fails, on every collection: one message of a stranger (who may be the
anonymous principal) with five refused items that name the token keeps the holder
from moving it for 60 ms. -/
theorem C80_violated {E : Env H} {s : State H} (hr : Reachable E s) {x : Principal} (hx : Stranger s x)
    {t now : Nat} {arg : TransferArg} (info : ApprovalInfo) {c : Principal}
    (hfree : recentCalls s t arg.tid = 0) (hnow : now < t + 60000000)
    (hs : SaneLimits s now) (hbl : 1 ≤ BatchLimit s) (hc : c ≠ anonymous) :
    let flood := Msg.call x t (.approveTokens (List.replicate 5 { tid := arg.tid, info := info }))
    Refused (step E s flood).2 ∧
    ∃ s' e, step E (step E s flood).1 (.call c now (.transfer [arg])) = (s', .batch [.error e]) := by
  intro flood
  have hne := hr.tokInv.nodup
  obtain ⟨hrf, w, hw⟩ := C78_refused hr hx t (.approveTokens (List.replicate 5 { tid := arg.tid, info := info }))
  refine ⟨hrf, ?_⟩
  have hst : (step E s flood).1.windows.get arg.tid = some (List.replicate 5 t) := by
    have hg : ∀ s' : State H, Stranger s' x → Stranger (guardWindow s' t arg.tid).1 x := fun s' h => h.win _
    have one : ∀ s' : State H, Stranger s' x → ∃ e, approveToken E.ledger s' x t { tid := arg.tid, info := info } =
        some ((guardWindow s' t arg.tid).1, .error e) := fun s' h => stranger_approve_charged h
    obtain ⟨e1, h1⟩ := one _ hx
    obtain ⟨e2, h2⟩ := one _ (hg _ hx)
    obtain ⟨e3, h3⟩ := one _ (hg _ (hg _ hx))
    obtain ⟨e4, h4⟩ := one _ (hg _ (hg _ (hg _ hx)))
    obtain ⟨e5, h5⟩ := one _ (hg _ (hg _ (hg _ (hg _ hx))))
    have hfive := fiveCharges hfree
    have : (step E s flood).1 = (guardWindow (guardWindow (guardWindow (guardWindow (guardWindow s t arg.tid).1
        t arg.tid).1 t arg.tid).1 t arg.tid).1 t arg.tid).1 := by
      simp only [flood, step, execCall, Call.needs, exec, icrc37ApproveTokens, List.replicate, runBatch,
        h1, h2, h3, h4, h5, ofBatch]
    rw [this]
    exact hfive
  have h5 := recent_of_five hst hnow
  change (step E s flood).1 = _ at hw
  rw [hw] at h5 ⊢
  exact C24_refused (s := { s with windows := w }) ⟨hs.1, hs.2, hs.3, hs.4⟩ hbl hc (by omega)

/-- C80 fails for collection approvals, all of which share one allowance: one message
of a stranger with five refused items keeps everybody from granting or revoking
collection approvals for 60 ms. -/
theorem C80_collection_violated {E : Env H} {s : State H} (hr : Reachable E s) {x : Principal} (hx : Stranger s x)
    {t now : Nat} (info info' : ApprovalInfo) (arg : RevokeCollArg) {c : Principal}
    (hfree : recentCalls s t 0 = 0) (hnow : now < t + 60000000) (hlim : 1 ≤ maxRevoke s.cfg) :
    Refused (step E s (.call x t (.approveCollection (List.replicate 5 info)))).2 ∧
    (∃ s' e, step E (step E s (.call x t (.approveCollection (List.replicate 5 info)))).1
      (.call c now (.approveCollection [info'])) = (s', .batch [.error e])) ∧
    ∃ s' e, step E (step E s (.call x t (.approveCollection (List.replicate 5 info)))).1
      (.call c now (.revokeCollection [arg])) = (s', .batch [.error e]) := by
  have key : ∀ r : State H × Reply, (Refused r.2 ∧ ∃ w, r.1 = { s with windows := w }) →
      r.1.windows.get 0 = some (List.replicate 5 t) →
      Refused r.2 ∧ (∃ s' e, step E r.1 (.call c now (.approveCollection [info'])) = (s', .batch [.error e])) ∧
        ∃ s' e, step E r.1 (.call c now (.revokeCollection [arg])) = (s', .batch [.error e]) := by
    intro r hr hst
    have h5 : 5 ≤ recentCalls r.1 now 0 := Nat.le_of_eq (recent_of_five hst hnow).symm
    have hlim' : 1 ≤ maxRevoke r.1.cfg := by
      obtain ⟨_, w, hw⟩ := hr
      rw [hw]; exact hlim
    exact ⟨hr.1, full_approveColl h5, full_revokeColl h5 hlim'⟩
  exact key _ (C78_refused hr hx t _) (flood_coll (E := E) info hr.tokInv.nodup hx hfree)

/-- The collection of the demonstration meets the hypotheses. -/
example : Stranger Demo.s1 [5] ∧ recentCalls Demo.s1 (Demo.ms 200) 1 = 0 ∧
    recentCalls Demo.s1 (Demo.ms 200) 0 = 0 ∧ 1 ≤ maxRevoke Demo.s1.cfg ∧ SaneLimits Demo.s1 (Demo.ms 201) ∧
    1 ≤ BatchLimit Demo.s1 :=
  ⟨demo_stranger, rfl, rfl, by decide, ⟨by decide, by decide, by decide, by decide⟩, by decide⟩

/-- The limiter's table has an entry for every id anybody ever named, existing or
not. After one message naming `n` ids, sent by anybody to a collection without
tokens, it has `n` entries. -/
theorem C80_growth_violated (n : Nat) : ∃ (s : State Nat), Reachable Demo.env s ∧ totalSupply s = 0 ∧
    limiterEntries s = n := by
  have hs : Stranger Demo.s0 [5] := by
    refine ⟨?_, ?_, ?_, ?_, rfl⟩
    · intro tid o h
      cases (show Owner Demo.s0 tid = none from rfl).symm.trans h
    · intro x h
      rw [holds_iff] at h
      revert h
      cases x <;> decide
    · rintro tid sp a ⟨m, hm, _⟩
      cases (show Demo.s0.tokAppr.get tid = none from rfl).symm.trans hm
    · rintro o sp a ⟨m, hm, _⟩
      cases (show Demo.s0.collAppr.get o = none from rfl).symm.trans hm
  have key : ∀ n, ∃ (msgs : List Msg) (w : Map Nat (List Nat)), run Demo.env Demo.s0 msgs = { Demo.s0 with windows := w } ∧
      w.size = n ∧ ∀ k, n ≤ k → w.get k = none := by
    intro n
    induction n with
    | zero => exact ⟨[], ∅, rfl, rfl, fun _ _ => rfl⟩
    | succ n ih =>
      obtain ⟨msgs, w, h1, h2, h3⟩ := ih
      let a : ApproveTokenArg := { tid := n, info := { spender := Demo.bob, createdAt := 0 } }
      obtain ⟨e, he⟩ := stranger_approve_charged (L := Demo.env.ledger) (now := 0) (arg := a) (hs.win w)
      refine ⟨msgs ++ [.call [5] 0 (.approveTokens [a])], w.set n (windowStep ((w.get n).getD []) 0).1, ?_, ?_, ?_⟩
      · rw [run_append, h1]
        simp only [run, step, execCall, Call.needs, exec, icrc37ApproveTokens, runBatch, he]
        rfl
      · rw [Map.size_set_of_none (h3 n (Nat.le_refl n)), h2]
      · intro k hk
        rw [Map.get_set_ne _ _ (by simp; omega)]
        exact h3 k (by omega)
  obtain ⟨msgs, w, h1, h2, _⟩ := key n
  exact ⟨_, Demo.reach msgs, by rw [h1]; rfl, by rw [h1]; exact h2⟩

end Verif
