import Verif.Props.Commands
import Verif.Props.Metadata
import Verif.Props.Web
/-!
# C81–C83 Commands of the client, from the command line to the collection
-/
namespace Verif

open Spec

variable {H : Type}

/-! ## C81 -/

theorem ledgerNeverRefused_snoc {E : Env H} {m : Msg} : ∀ {ms : List Msg} {s : State H}, LedgerNeverRefused E s ms →
    (step E (run E s ms) m).2 ≠ .mgmt (.error .storageCanisterError) → LedgerNeverRefused E s (ms ++ [m])
  | [], _, _, h => ⟨fun _ => h, trivial⟩
  | _ :: ms, _, h, h' => ⟨h.1, ledgerNeverRefused_snoc (ms := ms) h.2 h'⟩

theorem lastWritten_snoc {E : Env H} {m : Msg} {tid : Nat} {kvs : List (String × Value)} : ∀ {ms : List Msg} {s : State H},
    written tid m (step E (run E s ms) m).2 = some kvs → lastWritten E s tid (ms ++ [m]) = some kvs
  | [], _, h => h
  | m' :: ms, s, h => by
    have := lastWritten_snoc (ms := ms) (s := (step E s m').1) h
    simp [lastWritten, this]

theorem runMint_some {E : Env H} {c : Principal} {now : Nat} {lost : Bool} {s s' : State H} {q : Option (List MintReq)}
    {tid : Nat} (h : runMint E c now lost s q = (s', some tid)) :
    lost = false ∧ ∃ reqs, q = some reqs ∧ step E s (.call c now (.mint reqs)) = (s', .mgmt (.ok (.id tid))) := by
  unfold runMint at h
  split at h
  · cases h
  · rename_i reqs
    split at h
    · rename_i t _ hs
      cases lost
      · simp only [Bool.false_eq_true, if_false, Prod.mk.injEq, Option.some.injEq] at h
        obtain ⟨rfl, rfl⟩ := h
        exact ⟨rfl, reqs, rfl, hs⟩
      · simp at h
    · cases h

theorem parseSubaccount_of {text : Option String} {account : Option Subaccount} :
    parseSubaccount text = some account ↔ SubaccountOf text account := by
  unfold parseSubaccount SubaccountOf
  cases text with
  | none => simp [eq_comm]
  | some t =>
    cases hd : hexDecode t.toList with
    | none =>
      simp only [hd, reduceCtorEq, false_iff]
      rintro ⟨b, _, ht, _⟩
      rw [hexDecode_iff.2 ht] at hd
      cases hd
    | some b =>
      simp only [hd]
      have hb := hexDecode_iff.1 hd
      by_cases hl : b.length = 32
      · simp only [hl, ne_eq, not_true_eq_false, if_false, Option.some.injEq]
        constructor
        · rintro rfl; exact ⟨b, hl, hb, rfl⟩
        · rintro ⟨b', _, h2, rfl⟩
          have := hexDecode_iff.2 h2
          rw [hd] at this
          exact this
      · simp only [ne_eq, hl, not_false_iff, if_true, reduceCtorEq, false_iff]
        rintro ⟨b', h1, h2, _⟩
        have := hexDecode_iff.2 h2
        rw [hd] at this
        exact hl (Option.some.inj this ▸ h1)

theorem mintCommand_some {principalOf : String → Option Principal} {owner name : String} {memo sub url : Option String}
    {dialog : Option (List (String × Value))} {entries : List String} {reqs : List MintReq}
    (h : mintCommand principalOf owner name memo sub url dialog entries = some reqs) :
    ∃ p account, principalOf owner = some p ∧ SubaccountOf sub account ∧
      reqs = [{ owner := ⟨p, account⟩, memo := memo.map utf8, metadata := askedMetadata url dialog entries }] := by
  unfold mintCommand at h
  split at h
  · cases h
  · rename_i p hp
    split at h
    · cases h
    · rename_i account ha
      refine ⟨p, account, hp, parseSubaccount_of.1 ha, ?_⟩
      rw [← Option.some.inj h]
      cases url with
      | some u => rfl
      | none => cases dialog <;> rfl

/-- **C81**, the part that holds: when the mint command prints an id, the id was unused
before; now it is a token that belongs to the account given and shows exactly the metadata
given, one record of the mint with the memo given was added to the log, and nothing
happened to other tokens. The history before may be any in which the ledger refused no
mint or metadata update (otherwise see `C35_violated_reused`). -/
theorem C81_minted_partial (E : Env H) {v : String → Bool} {hid : H} {inst : Principal} {a : InitArgs} {s₀ s' : State H}
    (h0 : init v hid inst a = some s₀) {msgs : List Msg} (hno : LedgerNeverRefused E s₀ msgs)
    {c : Principal} {now : Nat} {lost : Bool} {principalOf : String → Option Principal} {owner name : String}
    {memo sub url : Option String} {dialog : Option (List (String × Value))} {entries : List String} {tid : Nat}
    (h : runMint E c now lost (run E s₀ msgs) (mintCommand principalOf owner name memo sub url dialog entries) =
      (s', some tid)) :
    Owner (run E s₀ msgs) tid = none ∧
    (∃ p account, principalOf owner = some p ∧ SubaccountOf sub account ∧ Owner s' tid = some ⟨p, account⟩ ∧
      s'.log = (run E s₀ msgs).log ++ [mintRecord now tid 0 { owner := ⟨p, account⟩, memo := memo.map utf8 }]) ∧
    MetaIs s' tid (askedMetadata url dialog entries) ∧
    ∀ other, other ≠ tid → Owner s' other = Owner (run E s₀ msgs) other := by
  obtain ⟨_, reqs, hreqs, hstep⟩ := runMint_some h
  obtain ⟨p, account, hp, hsub, rfl⟩ := mintCommand_some hreqs
  generalize hr' : ({ owner := ⟨p, account⟩, memo := memo.map utf8, metadata := askedMetadata url dialog entries } :
    MintReq) = r at hstep
  have hr : Reachable E (run E s₀ msgs) := ⟨v, hid, inst, a, s₀, msgs, h0, rfl⟩
  obtain ⟨first, hid', h1, h2, h3⟩ := C34_minted E hr hstep
  obtain rfl : tid = first := by injection hid'
  have hrun : run E s₀ (msgs ++ [.call c now (.mint [r])]) = s' := by
    rw [run_append]
    exact congrArg Prod.fst hstep
  obtain ⟨hn, ho⟩ := h1 0 r rfl
  refine ⟨hn, ⟨p, account, hp, hsub, ?_, ?_⟩, ?_, ?_⟩
  · rw [← hr'] at ho; exact ho
  · rw [h3, ← hr']; rfl
  · have hno' := ledgerNeverRefused_snoc (m := .call c now (.mint [r])) hno (by rw [hstep]; simp)
    obtain ⟨kvs, hk, hm⟩ := C35_history_partial E h0 _ hno' (tid := tid) (o := r.owner) (by rw [hrun]; exact ho)
    have hl := lastWritten_snoc (E := E) (ms := msgs) (s := s₀) (m := .call c now (.mint [r])) (tid := tid)
      (kvs := r.metadata) (by rw [hstep]; simp [written])
    rw [hl] at hk
    rw [hrun, ← Option.some.inj hk, ← hr'] at hm
    exact hm
  · intro other hne
    exact h2 other (fun k hk => by simp at hk; subst hk; simpa using hne)

/-- **C81.** The command reports an error without any reply being lost: then no token
came to be. -/
theorem C81_failed (E : Env H) {s s' : State H} {c : Principal} {now : Nat} {q : Option (List MintReq)}
    (h : runMint E c now false s q = (s', none)) (tid : Nat) : Owner s' tid = Owner s tid := by
  unfold runMint at h
  split at h
  · cases h; rfl
  · rename_i reqs
    rcases mint_step E s c now reqs with h' | h' | ⟨t, r, h', hout⟩
    · rw [h'] at h; cases h; rfl
    · rw [h'] at h; cases h; rfl
    · rw [h'] at h
      cases hout with
      | refused e _ => cases h; rfl
      | cut => cases h; rfl
      | minted => simp at h

/-- **C81.** The command succeeds if the caller may mint, no management call is running,
there is room for one more token, and memo and metadata are within the limits; the ledger
does not refuse. -/
theorem C81_succeeds (E : Env H) (hL : ∀ h t, ∃ h' i, E.ledger.add h t = (h', .ok i)) {s : State H}
    (hmemo : MemoLimit s < 2 ^ 32) {c : Principal} {now : Nat} {r : MintReq} (hids : s.lastId < 2 ^ 64)
    (hh : Holds s c .minting) (hf : s.guards = []) (hb : 1 ≤ BatchLimit s) (hcap : totalSupply s + 1 ≤ Cap s)
    (hm : ∀ b, r.memo = some b → b.length ≤ MemoLimit s) (hv : ∀ e ∈ r.metadata, e.2.inRange = true) :
    ∃ tid, (runMint E c now false s (some [r])).2 = some tid := by
  obtain ⟨tid, h⟩ := (C60_accepted E hL hmemo c now [r] (by simp only [List.length_singleton]; omega)).2
    ⟨hh, hf, hb, hcap, by simpa using hm, by simpa using hv⟩
  refine ⟨tid, ?_⟩
  simp only [runMint]
  cases hs : step E s (.call c now (.mint [r])) with
  | mk t o =>
    rw [hs] at h
    obtain rfl : o = _ := h
    rfl

/-- **C81 fails** when the reply is lost: the command reports an error, the user runs it
again, and two tokens were minted: nothing recognises the repetition. -/
theorem C81_violated_lost : ∃ (s s' s'' : State Nat) (q : Option (List MintReq)) (tid : Nat), Reachable Demo.env s ∧
    q = mintCommand (fun _ => some [3]) "carol" "n" none none none none [] ∧
    runMint Demo.env Demo.admin (Demo.ms 200) true s q = (s', none) ∧
    runMint Demo.env Demo.admin (Demo.ms 201) false s' q = (s'', some tid) ∧
    totalSupply s'' = totalSupply s + 2 :=
  ⟨Demo.s1, _, _, some [{ owner := ⟨[3], none⟩ }], _, Demo.s1_reach, rfl, rfl, rfl, rfl⟩

/-- Somebody mints with an address. -/
example : LedgerNeverRefused Demo.env Demo.s0 [Demo.mintMsg] ∧
    let r := runMint Demo.env Demo.admin (Demo.ms 200) false (run Demo.env Demo.s0 [Demo.mintMsg])
      (mintCommand (fun _ => some [3]) "carol" "n" none none (some "https://a/b") none [])
    r.2 = some 4 ∧ Owner r.1 4 = some ⟨[3], none⟩ := by
  refine ⟨⟨fun _ h => ?_, trivial⟩, by rfl, by rfl⟩
  revert h
  exact fun h => nomatch h

example : (runMint Demo.env [9] (Demo.ms 200) false Demo.s1 (some [{ owner := Demo.carol }])).2 = none := rfl

/-! ## C82 -/

theorem authority_call (E : Env H) (s : State H) (c : Principal) (now : Nat) {call : Call} {p : Principal} {x : Permission}
    (hc : call = .grant p x ∨ call = .revoke p x) :
    (step E s (.call c now call)).2 = .mgmt (.ok .unit) ∨
    (step E s (.call c now call)).1 = s ∧ ∀ o, (step E s (.call c now call)).2 ≠ .mgmt (.ok o) := by
  by_cases hh : Holds s c .manageAuthorities
  · by_cases hf : s.guards = []
    · obtain ⟨h1, h2⟩ := C31_accepted E s (c := c) (p := p) (now := now) (x := x) hh hf
      rcases hc with rfl | rfl
      · exact .inl h1
      · exact .inl h2
    · refine .inr ?_
      rcases hc with rfl | rfl <;>
      · simp only [step, execCall, Call.needs, holds_iff.1 hh, if_true]
        rw [exec_busy hf rfl]
        exact ⟨rfl, fun _ h => nomatch h⟩
  · refine .inr ?_
    rcases hc with rfl | rfl <;>
    · rw [C29_rejected E s rfl hh]
      exact ⟨rfl, fun _ h => nomatch h⟩

/-- **C82.** When `permissions grant` reports success, the principal named holds the
permission named, in whatever spelling, and no other permission changed. When it reports
an error with no reply lost, nothing changed. -/
theorem C82_grant (E : Env H) {principalOf : String → Option Principal} {s s' : State H} {c : Principal} {now : Nat}
    {lost : Bool} {p x : String} {out : Option (List String)}
    (h : runPermissions principalOf E c now lost s (.grant p x) = (s', out)) :
    (∀ lines, out = some lines → ∃ q y, principalOf p = some q ∧ x.toList.map Char.toLower ∈ spellings y ∧
      Holds s' q y ∧ ∀ q' y', (q', y') ≠ (q, y) → (Holds s' q' y' ↔ Holds s q' y')) ∧
    (out = none → lost = false → s' = s) := by
  unfold runPermissions at h
  cases hp : principalOf p with
  | none => simp only [hp] at h; cases h; exact ⟨(fun _ h => nomatch h), fun _ _ => rfl⟩
  | some q =>
    cases hx : parsePermission x with
    | none => simp only [hp, hx] at h; cases h; exact ⟨(fun _ h => nomatch h), fun _ _ => rfl⟩
    | some y =>
      simp only [hp, hx] at h
      cases hs : step E s (.call c now (.grant q y)) with
      | mk t r =>
        rcases authority_call E s c now (call := .grant q y) (.inl rfl) with h' | ⟨h1, h2⟩
        · rw [hs] at h'
          obtain rfl : r = _ := h'
          simp only [hs, Prod.mk.injEq] at h
          obtain ⟨rfl, rfl⟩ := h
          obtain ⟨g1, g2, _⟩ := C31_granted E s t hs
          refine ⟨fun _ _ => ⟨q, y, rfl, C53_exact.1 hx, g1, g2⟩, ?_⟩
          intro ho hl
          simp [hl] at ho
        · rw [hs] at h1 h2
          simp only [hs] at h
          cases h
          exact ⟨(fun _ h => nomatch h), fun _ _ => h1⟩

/-- **C82.** When `permissions revoke` reports success, the principal named no longer
holds the permission named, and no other permission changed. When it reports an error with
no reply lost, nothing changed. -/
theorem C82_revoke (E : Env H) {principalOf : String → Option Principal} {s s' : State H} {c : Principal} {now : Nat}
    {lost : Bool} {p x : String} {out : Option (List String)}
    (h : runPermissions principalOf E c now lost s (.revoke p x) = (s', out)) :
    (∀ lines, out = some lines → ∃ q y, principalOf p = some q ∧ x.toList.map Char.toLower ∈ spellings y ∧
      ¬ Holds s' q y ∧ ∀ q' y', (q', y') ≠ (q, y) → (Holds s' q' y' ↔ Holds s q' y')) ∧
    (out = none → lost = false → s' = s) := by
  unfold runPermissions at h
  cases hp : principalOf p with
  | none => simp only [hp] at h; cases h; exact ⟨(fun _ h => nomatch h), fun _ _ => rfl⟩
  | some q =>
    cases hx : parsePermission x with
    | none => simp only [hp, hx] at h; cases h; exact ⟨(fun _ h => nomatch h), fun _ _ => rfl⟩
    | some y =>
      simp only [hp, hx] at h
      cases hs : step E s (.call c now (.revoke q y)) with
      | mk t r =>
        rcases authority_call E s c now (call := .revoke q y) (.inr rfl) with h' | ⟨h1, h2⟩
        · rw [hs] at h'
          obtain rfl : r = _ := h'
          simp only [hs, Prod.mk.injEq] at h
          obtain ⟨rfl, rfl⟩ := h
          obtain ⟨g1, g2, _⟩ := C31_revoked E s t hs
          refine ⟨fun _ _ => ⟨q, y, rfl, C53_exact.1 hx, g1, g2⟩, ?_⟩
          intro ho hl
          simp [hl] at ho
        · rw [hs] at h1 h2
          simp only [hs] at h
          cases h
          exact ⟨(fun _ h => nomatch h), fun _ _ => h1⟩

/-- **C82.** The two commands succeed for an authority while no management call is
running, if principal and permission can be read and the reply arrives. -/
theorem C82_accepted (E : Env H) {principalOf : String → Option Principal} {s : State H} {c : Principal} (now : Nat)
    {p x : String} {q : Principal} {y : Permission} (hh : Holds s c .manageAuthorities) (hf : s.guards = [])
    (hp : principalOf p = some q) (hx : x.toList.map Char.toLower ∈ spellings y) :
    (runPermissions principalOf E c now false s (.grant p x)).2 = some ["Permission granted successfully"] ∧
    (runPermissions principalOf E c now false s (.revoke p x)).2 = some ["Permission revoked successfully"] := by
  obtain ⟨h1, h2⟩ := C31_accepted E s (c := c) (p := q) (now := now) (x := y) hh hf
  simp only [runPermissions, hp, C53_exact.2 hx]
  constructor
  · cases hs : step E s (.call c now (.grant q y)) with
    | mk t r =>
      rw [hs] at h1
      obtain rfl : r = _ := h1
      rfl
  · cases hs : step E s (.call c now (.revoke q y)) with
    | mk t r =>
      rw [hs] at h2
      obtain rfl : r = _ := h2
      rfl

/-- The lines printed for permissions show exactly the permissions. -/
theorem permissionLines_mem (l : List Permission) (y : Permission) :
    "- " ++ permissionLabel y ∈ permissionLines l ↔ y ∈ l := by
  unfold permissionLines
  split
  · rename_i h
    rw [List.isEmpty_iff.1 h]
    cases y <;> decide
  · rw [List.mem_cons, List.mem_map]
    constructor
    · rintro (h | ⟨y', hm, h⟩)
      · exfalso; revert h; cases y <;> decide
      · have : permissionLabel y' = permissionLabel y := by
          have := congrArg String.toList h
          simp only [String.toList_append, List.append_cancel_left_eq] at this
          exact String.toList_inj.1 this
        rw [← C53_distinct this]; exact hm
    · intro h; exact .inr ⟨y, h, rfl⟩

/-- **C82.** What `permissions list` prints are exactly the permissions of the principal
named, each as a word the other subcommands understand, or "No permissions" if there are
none; only an authority gets to see them. Neither `list` nor `has` changes anything. -/
theorem C82_list_partial (E : Env H) {principalOf : String → Option Principal} {s s' : State H} {c : Principal} {now : Nat}
    {lost : Bool} {p : String} {lines : List String}
    (h : runPermissions principalOf E c now lost s (.list p) = (s', some lines)) :
    s' = s ∧ Holds s c .manageAuthorities ∧ ∃ q, principalOf p = some q ∧
      (∀ y, "- " ++ permissionLabel y ∈ lines ↔ Holds s q y) ∧
      (lines = ["No permissions"] ↔ ∀ y, ¬ Holds s q y) ∧
      (lines = "Permissions:" :: lines.tail ∧ (∀ l ∈ lines.tail, ∃ y, l = "- " ++ permissionLabel y) ∨
        lines = ["No permissions"]) := by
  unfold runPermissions at h
  cases hp : principalOf p with
  | none => simp only [hp] at h; cases h
  | some q =>
    simp only [hp] at h
    have hh : Holds s c .manageAuthorities := by
      refine Classical.byContradiction fun hno => ?_
      rw [((C67_refused s c).2 hno).2.1 q] at h
      cases h
    obtain ⟨⟨answer, ha, hmem⟩, _⟩ := C67_permissions hh q
    rw [ha] at h
    cases answer with
    | none => cases h
    | some l =>
      cases lost
      · simp only [Bool.false_eq_true, if_false, Prod.mk.injEq, Option.some.injEq] at h
        obtain ⟨rfl, rfl⟩ := h
        refine ⟨rfl, hh, q, rfl, fun y => by rw [permissionLines_mem]; exact hmem y, ?_⟩
        cases l with
        | nil => exact ⟨⟨fun _ y hy => by simpa using (hmem y).2 hy, fun _ => rfl⟩, .inr rfl⟩
        | cons z l =>
          refine ⟨⟨fun hl => ?_, fun hno => absurd ((hmem z).1 (by simp)) (hno z)⟩, .inl ⟨rfl, fun x hx => ?_⟩⟩
          · simp [permissionLines] at hl
          · obtain ⟨y, _, rfl⟩ := List.mem_map.1 hx
            exact ⟨y, rfl⟩
      · simp at h

/-- **C82.** What `permissions has` prints is the truth; only an authority gets an answer,
and if the reply arrives and the arguments can be read, it gets one. -/
theorem C82_has (E : Env H) {principalOf : String → Option Principal} {s : State H} {c : Principal} (now : Nat)
    {p x : String} {q : Principal} {y : Permission} (hp : principalOf p = some q)
    (hx : x.toList.map Char.toLower ∈ spellings y) :
    (Holds s c .manageAuthorities → Holds s q y →
      runPermissions principalOf E c now false s (.has p x) = (s, some ["true"])) ∧
    (Holds s c .manageAuthorities → ¬ Holds s q y →
      runPermissions principalOf E c now false s (.has p x) = (s, some ["false"])) ∧
    (¬ Holds s c .manageAuthorities → runPermissions principalOf E c now false s (.has p x) = (s, none)) := by
  simp only [runPermissions, hp, C53_exact.2 hx]
  refine ⟨fun hh hy => ?_, fun hh hy => ?_, fun hh => ?_⟩
  · obtain ⟨_, hb⟩ := C67_permissions hh q
    obtain ⟨b, h1, h2⟩ := hb y
    rw [h1, h2.2 hy]; rfl
  · obtain ⟨_, hb⟩ := C67_permissions hh q
    obtain ⟨b, h1, h2⟩ := hb y
    rw [h1]
    cases b
    · rfl
    · exact absurd (h2.1 rfl) hy
  · rw [((C67_refused s c).2 hh).2.2 q y]

/-- **C82 fails** for `list` of a principal who never was granted anything: the authority
asking gets an error instead of "No permissions", which a principal whose permissions were
all revoked gets. -/
theorem C82_violated_unknown : ∃ (s : State Nat) (p q : Principal), Reachable Demo.env s ∧
    Holds s Demo.admin .manageAuthorities ∧ (∀ y, ¬ Holds s p y) ∧ (∀ y, ¬ Holds s q y) ∧
    (runPermissions (fun _ => some p) Demo.env Demo.admin (Demo.ms 300) false s (.list "p")).2 = none ∧
    (runPermissions (fun _ => some q) Demo.env Demo.admin (Demo.ms 300) false s (.list "q")).2 =
      some ["No permissions"] := by
  refine ⟨run Demo.env Demo.s1 [Demo.grantMsg, .call Demo.admin (Demo.ms 300) (.revoke [2] .minting)], [9], [2],
    Demo.s1_reach.run _, holds_iff.2 (by decide), ?_, ?_, rfl, rfl⟩
  · intro y h
    have := holds_iff.1 h
    revert this
    cases y <;> decide
  · intro y h
    have := holds_iff.1 h
    revert this
    cases y <;> decide

/-- The admin grants with the label in upper case, lists and asks. -/
example : ∃ (s' : State Nat), runPermissions (fun _ => some [2]) Demo.env Demo.admin (Demo.ms 200) false Demo.s1
      (.grant "bob" "MINTING") = (s', some ["Permission granted successfully"]) ∧
    runPermissions (fun _ => some [2]) Demo.env Demo.admin (Demo.ms 200) false s' (.list "bob") =
      (s', some ["Permissions:", "- minting"]) ∧
    "MINTING".toList.map Char.toLower ∈ spellings .minting ∧ Demo.s1.guards = [] ∧
    Holds Demo.s1 Demo.admin .manageAuthorities :=
  ⟨_, rfl, rfl, by decide, rfl, holds_iff.2 (by decide)⟩

/-! ## C75, C83 -/

theorem serveCall_run (E : Env H) (s : State H) (c : Principal) (now now' : Nat) (ans : Answer) (call : ClientCall) :
    ∃ msgs, (serveCall E c now now' ans s call).1 = run E s msgs := by
  unfold serveCall
  cases hs : step E s (.call c now call.toCall) with
  | mk t r =>
    have h1 : run E s [.call c now call.toCall] = t := congrArg Prod.fst hs
    cases r with
    | suspended =>
      simp only
      cases hs' : step E t (.resume now' (t.pending.length - 1) ans) with
      | mk t' r' =>
        have h2 : run E s [.call c now call.toCall, .resume now' (t.pending.length - 1) ans] = t' := by
          change (step E (step E s (.call c now call.toCall)).1 (.resume now' (t.pending.length - 1) ans)).1 = t'
          rw [hs, hs']
        cases r' <;> exact ⟨_, h2.symm⟩
    | _ => exact ⟨_, h1.symm⟩

theorem sendAll_run {E : Env H} {c : Principal} {rounds : Nat → Round} : ∀ (cs : List ClientCall) (w : State H × Nat),
    ∃ msgs, (sendAll (collServe E c rounds) w cs).1.1 = run E w.1 msgs := by
  intro cs
  induction cs with
  | nil => exact fun w => ⟨[], rfl⟩
  | cons a cs ih =>
    intro w
    obtain ⟨m1, h1⟩ := serveCall_run E (run E w.1 (rounds w.2).before) c (rounds w.2).now (rounds w.2).now'
      (rounds w.2).ans a
    have h1 : (collServe E c rounds w a).1.1 = run E w.1 ((rounds w.2).before ++ m1) := by
      rw [run_append]; exact h1
    rw [sendAll_cons]
    split
    · obtain ⟨m2, h2⟩ := ih (collServe E c rounds w a).1
      exact ⟨_, by rw [h2, h1, ← run_append]⟩
    · exact ⟨_, h1⟩

/-- **C75.** A file that is complete is never replaced: whoever uploads to its path is told
that it failed, and the file stays where it is. -/
theorem C75_no_overwrite (E : Env H) {s : State H} (hr : Reachable E s) {c : Principal} {rounds : Nat → Round}
    {hash : Blob → String} {urlOf : String → Option String} {chunk : Nat} {read : Nat → Nat} {file : Blob}
    {path : String} {u : Upload} (hu : s.uploads.get path = some u) (hf : u.state = .finalized) :
    (uploadFile (collServe E c rounds) hash urlOf chunk read file path (s, 0)).2.2 = none ∧
    (uploadFile (collServe E c rounds) hash urlOf chunk read file path (s, 0)).1.1.uploads.get path = some u := by
  unfold uploadFile
  obtain ⟨ms, hms⟩ := sendAll_run (E := E) (c := c) (rounds := rounds) (.init path file.length chunk (hash file) ::
    ((uploadChunks chunk read file).getD []).map fun x => ClientCall.store path x.1 x.2) (s, 0)
  generalize sendAll (collServe E c rounds) (s, 0) (.init path file.length chunk (hash file) ::
    ((uploadChunks chunk read file).getD []).map fun x => ClientCall.store path x.1 x.2) = y at hms ⊢
  obtain ⟨w, l, b⟩ := y
  have hw : w.1 = run E s ms := hms
  have hstay : ∀ ms, (run E s ms).uploads.get path = some u := C33_finalized_forever E s hr hu hf
  cases b with
  | false => exact ⟨rfl, by simp only; rw [hw]; exact hstay _⟩
  | true =>
    simp only
    split
    · exact ⟨rfl, by simp only; rw [hw]; exact hstay _⟩
    · have hbefore : run E w.1 (rounds w.2).before = run E s (ms ++ (rounds w.2).before) := by rw [run_append, hw]
      constructor
      · unfold Outcome.url
        split
        · rename_i v heq
          obtain ⟨-, -, h3⟩ := serve_finalize_url (path := path) ((hw ▸ hr.run ms : Reachable E w.1).run _) heq
          rw [hbefore] at h3
          simp [uploadState, hstay, hf] at h3
        · rfl
      · obtain ⟨m2, h2⟩ := serveCall_run E (run E w.1 (rounds w.2).before) c (rounds w.2).now (rounds w.2).now'
          (rounds w.2).ans (.finalize path)
        have : (collServe E c rounds w (.finalize path)).1.1 = run E s (ms ++ (rounds w.2).before ++ m2) := by
          rw [run_append, ← hbefore]; exact h2
        simp only
        rw [this]
        exact hstay _

theorem uploadFile_reach {E : Env H} {s : State H} (hr : Reachable E s) {c : Principal} {rounds : Nat → Round}
    {hash : Blob → String} {urlOf : String → Option String} {chunk : Nat} {read : Nat → Nat} {file : Blob} {path : String} :
    Reachable E (uploadFile (collServe E c rounds) hash urlOf chunk read file path (s, 0)).1.1 := by
  have hreach := sendAll_reach (c := c) (rounds := rounds) (.init path file.length chunk (hash file) ::
    ((uploadChunks chunk read file).getD []).map fun x => ClientCall.store path x.1 x.2) (s, 0) hr
  unfold uploadFile
  split
  · rename_i heq; rw [heq] at hreach; exact hreach
  · rename_i heq
    rw [heq] at hreach
    split
    · exact hreach
    · exact serveCall_reach (hreach.run _) _ _ _ _ _

/-- **C75**, the part that holds: the address reported is the collection's address of the
path, and the collection sends whoever asks for it on to the file in its storage canister,
always the same one, whatever happens afterwards, unless the path is one of the three
reserved ones or another finished upload is served under the same path. Missing: these
two cases (`C51_violated_*`). -/
theorem C75_served_partial (E : Env H) {s s' : State H} (hr : Reachable E s) {c : Principal} {rounds : Nat → Round}
    {hash : Blob → String} {urlOf : String → Option String} {chunk : Nat} {read : Nat → Nat} {file : Blob}
    {path : String} {n : Nat} {calls : List (ClientCall × Outcome)} {url : String}
    (h : uploadFile (collServe E c rounds) hash urlOf chunk read file path (s, 0) = ((s', n), calls, some url))
    (hres : servedPath path ≠ "/logs" ∧ servedPath path ≠ "/traces" ∧ servedPath path ≠ "/metrics") :
    urlOf (rawUrl E E.self (servedPath path)) = some url ∧
    ∃ storage, ∀ msgs,
      (∀ path' u', (run E s' msgs).uploads.get path' = some u' → u'.state = .finalized →
        servedPath path' = servedPath path → path' = path) →
      httpRequest (run E s' msgs) (servedPath path) = .redirect (rawUrl E storage (servedPath path)) := by
  have hr' : Reachable E s' := by
    have := uploadFile_reach (c := c) (rounds := rounds) (hash := hash) (urlOf := urlOf) (chunk := chunk) (read := read)
      (file := file) (path := path) hr
    rwa [h] at this
  obtain ⟨hst, hurl⟩ := C75_finalized E hr h
  refine ⟨hurl, ?_⟩
  unfold uploadState at hst
  cases hu : s'.uploads.get path with
  | none => rw [hu] at hst; cases hst
  | some u =>
    rw [hu] at hst
    have hf : u.state = .finalized := by simpa using hst
    exact ⟨u.canister, fun msgs huniq =>
      C51_redirected_partial E _ (hr'.run msgs) (C33_finalized_forever E s' hr' hu hf msgs) hf hres huniq⟩

/-- **C83**, the part that holds: if `upload-metadata` reports an address, the document is
a valid one, and the collection has it complete under its hash and sends whoever asks for
the address on to its storage canister, for good, unless somebody finishes an upload to
the same path without the slash (missing: this case, see `C51_violated_*`). What the
storage canister holds is outside the model. -/
theorem C83_published_partial (E : Env H) {s s' : State H} (hr : Reachable E s) {c : Principal} {rounds : Nat → Round}
    {hash : Blob → String} {urlOf : String → Option String} {parse : Blob → Option Json} {chunk : Nat} {read : Nat → Nat}
    {file : Blob} {n : Nat} {calls : List (ClientCall × Outcome)} {url : String}
    (h : uploadMetadata (collServe E c rounds) hash urlOf parse chunk read file (s, 0) = ((s', n), calls, some url)) :
    (∃ j, parse file = some j ∧ GoodMetadata j) ∧
    uploadState s' ("/" ++ hash file ++ ".json") = some .finalized ∧
    urlOf (rawUrl E E.self ("/" ++ hash file ++ ".json")) = some url ∧
    ∃ storage, ∀ msgs, uploadState (run E s' msgs) (hash file ++ ".json") ≠ some .finalized →
      httpRequest (run E s' msgs) ("/" ++ hash file ++ ".json") =
        .redirect (rawUrl E storage ("/" ++ hash file ++ ".json")) := by
  unfold uploadMetadata at h
  split at h
  · cases h
  rename_i j hj
  split at h
  · cases h
  rename_i hv
  have hsp : servedPath ("/" ++ hash file ++ ".json") = "/" ++ hash file ++ ".json" := by
    simp [servedPath, String.toList_append]
  have hlast : ("/" ++ hash file ++ ".json").toList.getLast? = some 'n' := by
    rw [String.toList_append, List.getLast?_append]; rfl
  obtain ⟨h1, storage, h2⟩ := C75_served_partial E hr h (by
    rw [hsp]
    refine ⟨?_, ?_, ?_⟩ <;> (intro he; rw [he] at hlast; revert hlast; decide))
  rw [hsp] at h1 h2
  refine ⟨⟨j, hj, C54_exact.1 hv⟩, (C75_finalized E hr h).1, h1, storage, fun msgs hno => h2 msgs ?_⟩
  intro path' u' hu' hf' hs'
  unfold servedPath at hs'
  split at hs'
  · exact hs'
  · refine absurd ?_ hno
    have : path' = hash file ++ ".json" := by
      have := congrArg String.toList hs'
      simp only [String.toList_append, List.append_assoc, List.append_cancel_left_eq] at this
      exact String.toList_inj.1 (by rw [String.toList_append]; exact this)
    rw [← this]
    simp [uploadState, hu', hf']

/-- A document is published, three bytes in chunks of two, and cannot be published again. -/
example : ∃ (s' : State Nat) (n : Nat) (calls : _) (u : Upload),
    uploadMetadata (collServe Demo.env Demo.admin (Demo.rounds 200)) (fun _ => "00ff") some
      (fun _ => some (.obj [("name", .str "n"), ("description", .str "d")])) 2 (fun _ => 2) [1, 2, 3] (Demo.s1, 0) =
      ((s', n), calls, some (rawUrl Demo.env Demo.env.self "/00ff.json")) ∧
    Reachable Demo.env s' ∧ s'.uploads.get "/00ff.json" = some u ∧ u.state = .finalized := by
  obtain ⟨s', n, calls, h, h2, -⟩ := C75_completes Demo.env Demo.s1_reach (c := Demo.admin) (rounds := Demo.rounds 200)
    (fun _ => ⟨rfl, rfl, rfl, _, rfl, rfl⟩) (holds_iff.2 (by decide)) (by decide) (fun _ => "00ff") (urlOf := some) (chunk := 2)
    (by decide) (by decide) (fun _ => 2) (file := [1, 2, 3]) (by decide) (by decide) (path := "/00ff.json") (by decide) rfl
  have hr' : Reachable Demo.env s' := by
    have := uploadFile_reach (c := Demo.admin) (rounds := Demo.rounds 200) (hash := fun _ => "00ff") (urlOf := some)
      (chunk := 2) (read := fun _ => 2) (file := [1, 2, 3]) (path := "/00ff.json") Demo.s1_reach
    rwa [h] at this
  unfold uploadState at h2
  cases hu : s'.uploads.get "/00ff.json" with
  | none => rw [hu] at h2; cases h2
  | some u =>
    rw [hu] at h2
    refine ⟨s', n, calls, u, ?_, hr', hu, by simpa using h2⟩
    unfold uploadMetadata
    dsimp only
    rw [show validateMetadata (.obj [("name", .str "n"), ("description", .str "d")]) = .ok () from by rfl]
    exact h

end Verif
