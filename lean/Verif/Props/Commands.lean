import Verif.Lemmas.Commands
import Verif.Props.Client
import Verif.Props.Uploads
import Verif.Props.Reads
/-!
# C74–C77 The commands of the client
-/
namespace Verif

open Spec

variable {H : Type}

/-! ## C74 Attributes given on the command line -/

theorem parseAttribute_text {shown : List Char → Option String} {a : String × String × Option String}
    (ht : ':' ∉ a.1.toList) (hv : ':' ∉ a.2.1.toList) (hd : ∀ d, a.2.2 = some d → ':' ∉ d.toList) :
    parseAttribute shown (attributeText a) = some (a.1, attributeValue shown a.2.1.toList, a.2.2) := by
  obtain ⟨t, v, d⟩ := a
  unfold parseAttribute attributeText
  simp only at ht hv hd ⊢
  rw [String.toList_ofList, List.append_assoc, List.cons_append, splitAt_first ht]
  cases d with
  | none => rw [List.append_nil, splitAt_none hv]; simp
  | some d => rw [splitAt_first hv, splitAt_none (hd d rfl)]; simp

theorem attributeValue_shown {shown : List Char → Option String} {v : String}
    (hfin : Decimal v.toList → (shown v.toList).isSome) (hno : ¬ InfinityOrNaN v.toList) :
    ShownAs shown v (attributeValue shown v.toList) := by
  unfold attributeValue
  by_cases h : Decimal v.toList
  · obtain ⟨t, ht⟩ := Option.isSome_iff_exists.1 (hfin h)
    rw [floatJson_number h ht]
    exact .inl ⟨h, t, ht, rfl⟩
  · rw [floatJson_text h hno]
    exact .inr ⟨h, by simp⟩

theorem createAttribute_fields (a : String × Json × Option String) : ∃ kvs, createAttribute a = .obj kvs ∧
    HasField kvs "trait_type" (.str a.1) ∧ HasField kvs "value" a.2.1 ∧
    ∀ x, HasField kvs "display_type" x ↔ ∃ d, a.2.2 = some d ∧ x = .str d := by
  obtain ⟨t, j, d⟩ := a
  refine ⟨_, rfl, ?_⟩
  unfold HasField
  cases d with
  | none =>
    refine ⟨rfl, rfl, fun x => ⟨fun h => ?_, fun ⟨d, h, _⟩ => ?_⟩⟩
    · cases h
    · cases h
  | some d =>
    refine ⟨rfl, rfl, fun x => ⟨fun h => ⟨d, rfl, (Option.some.inj h).symm⟩, ?_⟩⟩
    rintro ⟨d', h, rfl⟩
    cases h; rfl

theorem createMetadata_describes {shown : List Char → Option String} (w : Wish)
    (hnum : ∀ a ∈ w.attributes, (Decimal a.2.1.toList → (shown a.2.1.toList).isSome) ∧ ¬ InfinityOrNaN a.2.1.toList) :
    ∃ kvs, createMetadata w.name w.description w.image w.external
        (w.attributes.map fun a => (a.1, attributeValue shown a.2.1.toList, a.2.2)) = .obj kvs ∧
      validateMetadata (.obj kvs) = .ok () ∧ Describes shown w kvs := by
  obtain ⟨name, description, image, external, as⟩ := w
  simp only at hnum ⊢
  obtain ⟨hval, kvs, hk, h1, h2, h3, h4, h5⟩ := C54_created name description image external
    (as.map fun a => (a.1, attributeValue shown a.2.1.toList, a.2.2))
  rw [hk] at hval
  refine ⟨kvs, hk, hval, h1, h2, h3, h4, ?_, ?_⟩
  · rintro rfl v hv
    exact ((h5 v).1 hv).1 rfl
  · intro hne
    have hne' : as.map (fun a => (a.1, attributeValue shown a.2.1.toList, a.2.2)) ≠ [] := fun h => hne (List.map_eq_nil_iff.1 h)
    refine ⟨(as.map fun a => (a.1, attributeValue shown a.2.1.toList, a.2.2)).map createAttribute, (h5 _).2 ⟨hne', rfl⟩,
      by rw [List.length_map, List.length_map], ?_⟩
    intro i a ha
    obtain ⟨kv, hkv, f1, f2, f3⟩ := createAttribute_fields (a.1, attributeValue shown a.2.1.toList, a.2.2)
    have hm := List.mem_of_getElem? ha
    have hget : ((as.map fun a => (a.1, attributeValue shown a.2.1.toList, a.2.2)).map createAttribute)[i]? = some (.obj kv) := by
      rw [List.getElem?_map, List.getElem?_map, ha, Option.map_some, Option.map_some, hkv]
    have hsh := attributeValue_shown (hnum a hm).1 (hnum a hm).2
    exact ⟨kv, attributeValue shown a.2.1.toList, hget, f1, f2, hsh, f3⟩

/-- **C74**, the part that holds: with a name and a description, the document written is
well formed, has the fields given, and one attribute per entry `trait:value` or
`trait:value:display`, in order: a decimal number becomes a number, anything else stays
text. Missing: traits, values and display types that contain a colon
(`C74_violated_colon`), entries without a colon (`C74_violated_dropped`), the words for
infinity and NaN (`C74_violated_null`) and numbers beyond the range of doubles. -/
theorem C74_document_partial (shown : List Char → Option String) (w : Wish)
    (hcolon : ∀ a ∈ w.attributes, ':' ∉ a.1.toList ∧ ':' ∉ a.2.1.toList ∧ ∀ d, a.2.2 = some d → ':' ∉ d.toList)
    (hnum : ∀ a ∈ w.attributes, (Decimal a.2.1.toList → (shown a.2.1.toList).isSome) ∧ ¬ InfinityOrNaN a.2.1.toList) :
    ∃ kvs, createCommand shown (some w.name) (some w.description) w.image w.external (w.attributes.map attributeText) =
        .ok (.obj kvs) ∧
      GoodMetadata (.obj kvs) ∧ Describes shown w kvs := by
  have hread : (w.attributes.map attributeText).filterMap (parseAttribute shown) =
      w.attributes.map fun a => (a.1, attributeValue shown a.2.1.toList, a.2.2) := by
    clear hnum
    generalize w.attributes = as at hcolon
    induction as with
    | nil => rfl
    | cons a as ih =>
      obtain ⟨h1, h2, h3⟩ := hcolon a List.mem_cons_self
      rw [List.map_cons, List.filterMap_cons, parseAttribute_text h1 h2 h3]
      simp only [List.map_cons]
      rw [ih fun b hb => hcolon b (List.mem_cons_of_mem _ hb)]
  obtain ⟨kvs, hk, hval, hd⟩ := createMetadata_describes (shown := shown) w hnum
  refine ⟨kvs, ?_, C54_exact.1 hval, hd⟩
  unfold createCommand
  simp only [hread, hk, hval]

/-- Two attributes, one with a display type, one with a text value. -/
example : ∃ kvs l, createCommand (fun l => some (String.ofList l)) (some "a") (some "b") none none
      ["level:5:number", "eyes:dark blue"] = .ok (.obj kvs) ∧
    HasField kvs "attributes" (.arr l) ∧ l.length = 2 := by
  obtain ⟨kvs, h, -, -, -, -, -, -, h7⟩ := C74_document_partial (fun l => some (String.ofList l))
    ⟨"a", "b", none, none, [("level", "5", some "number"), ("eyes", "dark blue", none)]⟩ (by decide)
    (by
      intro a ha
      simp only [List.mem_cons, List.not_mem_nil, or_false] at ha
      rcases ha with rfl | rfl
      · exact ⟨fun _ => rfl, fun h => absurd (special_iff.2 h) (by decide)⟩
      · exact ⟨fun _ => rfl, fun h => absurd (special_iff.2 h) (by decide)⟩)
  obtain ⟨l, hl, hn, -⟩ := h7 (by decide)
  exact ⟨kvs, l, h, hl, hn⟩

/-- **C74.** Without a name, or without a description, nothing is written. -/
theorem C74_required (shown : List Char → Option String) (x : String) (image external : Option String) (as : List String) :
    (∃ e, createCommand shown none (some x) image external as = .error e) ∧
    (∃ e, createCommand shown (some x) none image external as = .error e) := ⟨⟨_, rfl⟩, ⟨_, rfl⟩⟩

example : ∃ e, createCommand (fun _ => none) (some "a") none none none [] = .error e := (C74_required _ _ _ _ _).2

/-- **C74 is violated** for values with a colon: the value ends at the colon and the next
part is taken for the display type. -/
theorem C74_violated_colon {shown : List Char → Option String} {t v d : String} (ht : ':' ∉ t.toList)
    (hv : ':' ∉ v.toList) (hd : ':' ∉ d.toList) :
    parseAttribute shown (String.ofList (t.toList ++ ':' :: (v.toList ++ ':' :: d.toList))) =
      some (t, attributeValue shown v.toList, some d) := by
  have h := parseAttribute_text (shown := shown) (a := (t, v, some d)) ht hv (by rintro _ ⟨⟩; exact hd)
  rw [← h]
  unfold attributeText
  simp

/-- An address as value: the scheme is the value, the rest the display type. -/
example : parseAttribute (fun _ => none) "link:https://origyn.com" = some ("link", .str "https", some "//origyn.com") := by
  have h := C74_violated_colon (shown := fun _ => none) (t := "link") (v := "https") (d := "//origyn.com")
    (by decide) (by decide) (by decide)
  have hv : attributeValue (fun _ => none) "https".toList = .str "https" := by
    unfold attributeValue
    rw [floatJson_text (fun h => absurd (isDecimal_iff.2 h) (by decide)) (fun h => absurd (special_iff.2 h) (by decide))]
    simp
  rw [hv] at h
  exact h

/-- **C74 is violated** for entries without a colon: they are passed over without an
error. -/
theorem C74_violated_dropped {shown : List Char → Option String} {e : String} (h : ':' ∉ e.toList)
    (name description image external : Option String) (as as' : List String) :
    createCommand shown name description image external (as ++ e :: as') =
      createCommand shown name description image external (as ++ as') := by
  have : parseAttribute shown e = none := by unfold parseAttribute; rw [splitAt_none h]
  unfold createCommand
  simp [List.filterMap_append, this]

example : createCommand (fun _ => none) (some "a") (some "b") none none ["level=5"] =
    createCommand (fun _ => none) (some "a") (some "b") none none [] :=
  C74_violated_dropped (e := "level=5") (by decide) _ _ _ _ [] []

/-- **C74 is violated** for the words for infinity and NaN: the value is lost, the
attribute gets `null`. -/
theorem C74_violated_null {shown : List Char → Option String} {v : List Char} (h : InfinityOrNaN v) :
    attributeValue shown v = .null := by
  unfold attributeValue floatJson
  rw [if_pos (special_iff.2 h)]

/-- A trait with the value "Infinity". -/
example : parseAttribute (fun _ => none) "stone:Infinity" = some ("stone", .null, none) := by
  have h := parseAttribute_text (shown := fun _ => none) (a := ("stone", "Infinity", none)) (by decide) (by decide)
    (by intro d h; cases h)
  rw [C74_violated_null (special_iff.1 (by decide))] at h
  exact h

/-! ## C75 The upload command -/

theorem sendAll_cons {W : Type} (serve : W → ClientCall → W × Outcome) (w : W) (c : ClientCall) (cs : List ClientCall) :
    sendAll serve w (c :: cs) =
      if (serve w c).2.passes then
        ((sendAll serve (serve w c).1 cs).1, (c, (serve w c).2) :: (sendAll serve (serve w c).1 cs).2.1,
          (sendAll serve (serve w c).1 cs).2.2)
      else ((serve w c).1, [(c, (serve w c).2)], false) := rfl

theorem sendAll_log {W : Type} {serve : W → ClientCall → W × Outcome} : ∀ (cs : List ClientCall) (w : W),
    (sendAll serve w cs).2.1.map Prod.fst <+: cs ∧
    ((sendAll serve w cs).2.2 = true → (sendAll serve w cs).2.1.map Prod.fst = cs ∧
      ∀ e ∈ (sendAll serve w cs).2.1, e.2 ≠ .failed) := by
  intro cs
  induction cs with
  | nil => exact fun w => ⟨List.prefix_rfl, fun _ => ⟨rfl, by intro e he; cases he⟩⟩
  | cons c cs ih =>
    intro w
    obtain ⟨ih1, ih2⟩ := ih (serve w c).1
    rw [sendAll_cons]
    split
    · simp only
      refine ⟨by simpa using ih1, fun h => ?_⟩
      obtain ⟨h1, h2⟩ := ih2 h
      refine ⟨by simpa using h1, ?_⟩
      rintro e (_ | ⟨_, he⟩)
      · rename_i hp; intro hf; simp only at hf; rw [hf] at hp; cases hp
      · exact h2 e he
    · simp

/-- **C75**, what the code guarantees in any environment: if the command reports an
address, it made all calls in order — the initialisation with size and hash, every chunk,
the finalization —, each was answered, and the finalization with consent and that
address. Missing: that the initialisation and the chunks were accepted
(`C75_violated_refused`). -/
theorem C75_answered_partial {W : Type} {serve : W → ClientCall → W × Outcome} {hash : Blob → String}
    {urlOf : String → Option String} {chunk : Nat} {read : Nat → Nat} {file : Blob} {path : String} {w w' : W}
    {calls : List (ClientCall × Outcome)} {url : String}
    (h : uploadFile serve hash urlOf chunk read file path w = (w', calls, some url)) :
    (∃ sent, uploadChunks chunk read file = some sent ∧
      calls.map Prod.fst = .init path file.length chunk (hash file) ::
        (sent.map fun c => ClientCall.store path c.1 c.2) ++ [.finalize path]) ∧
    (∀ e ∈ calls, e.2 ≠ .failed) ∧
    ∃ u, calls.getLast? = some (.finalize path, .reply (.ok (.url u))) ∧ urlOf u = some url := by
  unfold uploadFile at h
  have hlog := sendAll_log (serve := serve) (.init path file.length chunk (hash file) ::
    ((uploadChunks chunk read file).getD []).map fun c => ClientCall.store path c.1 c.2) w
  split at h
  · cases h
  · rename_i w₁ l hs
    rw [hs] at hlog
    obtain ⟨h1, h2⟩ := hlog.2 rfl
    split at h
    · cases h
    · rename_i hc
      have hsent : ∃ sent, uploadChunks chunk read file = some sent := ⟨_, by unfold uploadChunks; rw [if_neg hc]⟩
      obtain ⟨sent, hsent⟩ := hsent
      injection h with hw h
      injection h with hl hu
      subst hl
      simp only [hsent, Option.getD_some] at h1
      have hout : ∃ u, (serve w₁ (.finalize path)).2 = .reply (.ok (.url u)) ∧ urlOf u = some url := by
        unfold Outcome.url at hu
        split at hu
        · rename_i u heq; exact ⟨u, heq, hu⟩
        · cases hu
      obtain ⟨u, hu1, hu2⟩ := hout
      refine ⟨⟨sent, hsent, by simp [h1]⟩, ?_, u, by simp [hu1], hu2⟩
      intro e he
      rcases List.mem_append.1 he with he | he
      · exact h2 e he
      · rw [List.mem_singleton.1 he, hu1]; intro h; cases h

theorem serveCall_reach {E : Env H} {s : State H} (hr : Reachable E s) (c : Principal) (now now' : Nat) (ans : Answer)
    (call : ClientCall) : Reachable E (serveCall E c now now' ans s call).1 := by
  unfold serveCall
  have h1 := hr.step (.call c now call.toCall)
  split
  · rename_i s₁ heq
    rw [heq] at h1
    have h2 := h1.step (.resume now' (s₁.pending.length - 1) ans)
    split
    · rename_i heq'; rw [heq'] at h2; exact h2
    · rename_i heq'; rw [heq'] at h2; exact h2
  · rename_i heq; rw [heq] at h1; exact h1
  · rename_i heq; rw [heq] at h1; exact h1

theorem sendAll_reach {E : Env H} {c : Principal} {rounds : Nat → Round} : ∀ (cs : List ClientCall) (w : State H × Nat),
    Reachable E w.1 → Reachable E (sendAll (collServe E c rounds) w cs).1.1 := by
  intro cs
  induction cs with
  | nil => exact fun w h => h
  | cons a cs ih =>
    intro w hw
    have h1 : Reachable E (collServe E c rounds w a).1.1 := serveCall_reach (hw.run _) _ _ _ _ _
    rw [sendAll_cons]
    split
    · exact ih _ h1
    · exact h1

/-- Finalizing at the collection, if it is answered with an address. -/
theorem serve_finalize_url {E : Env H} {s : State H} (hr : Reachable E s) {c : Principal} {now now' : Nat} {ans : Answer}
    {path u : String} (h : (serveCall E c now now' ans s (.finalize path)).2 = .reply (.ok (.url u))) :
    u = rawUrl E E.self (servedPath path) ∧
    uploadState (serveCall E c now now' ans s (.finalize path)).1 path = some .finalized ∧
    uploadState s path = some .inProgress := by
  have hr1 := hr.step (.call c now (.finalizeUpload path))
  revert h
  unfold serveCall
  simp only [ClientCall.toCall]
  by_cases hp : hasPermission s.perms c .updateUploads = true
  case neg => simp [step, execCall, Call.needs, hp]
  cases hg : guardEnter s c with
  | none => simp [step, execCall, Call.needs, hp, exec, finalizeUpload, withGuardAsync, hg, ofStarted]
  | some s₁ =>
    have hup : s₁.uploads = s.uploads ∧ s₁.subs = s.subs ∧ s₁.pending = s.pending := by
      unfold guardEnter at hg
      split at hg
      · cases hg
      · cases hg; exact ⟨rfl, rfl, rfl⟩
    cases hu : s.uploads.get path with
    | none =>
      simp [step, execCall, Call.needs, hp, exec, finalizeUpload, withGuardAsync, hg, ofStarted, hup.1, hu]
    | some x =>
      obtain ⟨sc, hsc, hin⟩ := hr.uploadInv.store _ _ hu
      cases hst : x.state with
      | init =>
        simp [step, execCall, Call.needs, hp, exec, finalizeUpload, withGuardAsync, hg, ofStarted, hup.1, hu, hst]
      | finalized =>
        simp [step, execCall, Call.needs, hp, exec, finalizeUpload, withGuardAsync, hg, ofStarted, hup.1, hu, hst]
      | inProgress =>
        have hstep : step E s (.call c now (.finalizeUpload path)) =
            ({ s₁ with pending := s₁.pending ++ [.finalize c path x] }, .suspended) := by
          simp [step, execCall, Call.needs, hp, exec, finalizeUpload, withGuardAsync, hg, ofStarted, hup, hu, hst,
            callStorage, hsc, hin]
        rw [hstep] at hr1 ⊢
        simp only [List.length_append, List.length_singleton, Nat.add_sub_cancel]
        intro h
        have hpend : ({ s₁ with pending := s₁.pending ++ [.finalize c path x] } : State H).pending[s₁.pending.length]? =
            some (.finalize c path x) := by simp
        have := @C51_returned H E _ hr1 s₁.pending.length c path x hpend now' ans
        generalize hst' : step E { s₁ with pending := s₁.pending ++ [.finalize c path x] }
          (.resume now' s₁.pending.length ans) = y at h this ⊢
        obtain ⟨s₂, rep⟩ := y
        cases rep with
        | mgmt r =>
          simp only at h
          injection h with h
          subst h
          obtain ⟨e1, e2⟩ := this rfl
          injection e1 with e1
          exact ⟨e1, by simp only [uploadState]; rw [e2]; rfl, by simp [uploadState, hu, hst]⟩
        | _ => simp at h

/-- **C75.** If the command reports an address, whatever else the collection handled
before each of its calls and whatever the storage canisters answered, the collection then
lists the path as finalized, and the address is the one of the path on the collection. -/
theorem C75_finalized (E : Env H) {s s' : State H} (hr : Reachable E s) {c : Principal} {rounds : Nat → Round}
    {hash : Blob → String} {urlOf : String → Option String} {chunk : Nat} {read : Nat → Nat} {file : Blob}
    {path : String} {n : Nat} {calls : List (ClientCall × Outcome)} {url : String}
    (h : uploadFile (collServe E c rounds) hash urlOf chunk read file path (s, 0) = ((s', n), calls, some url)) :
    uploadState s' path = some .finalized ∧ urlOf (rawUrl E E.self (servedPath path)) = some url := by
  unfold uploadFile at h
  have hreach := sendAll_reach (c := c) (rounds := rounds) (.init path file.length chunk (hash file) ::
    ((uploadChunks chunk read file).getD []).map fun x => ClientCall.store path x.1 x.2) (s, 0) hr
  split at h
  · cases h
  · rename_i w₁ l hs
    rw [hs] at hreach
    split at h
    · cases h
    · injection h with hw h
      injection h with _ hu
      have hs' : (collServe E c rounds w₁ (.finalize path)).1.1 = s' := congrArg Prod.fst hw
      unfold Outcome.url at hu
      split at hu
      · rename_i u heq
        obtain ⟨h1, h2, _⟩ := serve_finalize_url (hreach.run _) heq
        rw [← hs']
        exact ⟨h2, by rw [← h1]; exact hu⟩
      · cases hu

/-- Nobody else is working on the collection, and the storage canisters consent. -/
def Demo.rounds (t : Nat) (k : Nat) : Round :=
  { now := Demo.ms (t + 2 * k), now' := Demo.ms (t + 2 * k + 1),
    ans := { created := some { id := [5], installed := true }, newInitOk := true } }

theorem serve_init {E : Env H} {s : State H} (hr : Reachable E s) {c : Principal} (now now' : Nat) {ans : Answer}
    {path : String} {size : Nat} (chunk : Nat) (hash : String) (hperm : Holds s c .updateUploads) (hf : s.guards = [])
    (hfree : uploadState s path = none) (hsz : size ≤ 2147483648) {x : SubCanister} (hc : ans.created = some x)
    (hi : x.installed = true) (hok : ans.newInitOk = true) :
    ∃ s', serveCall E c now now' ans s (.init path size chunk hash) = (s', .reply (.ok .unit)) ∧ s'.guards = [] ∧
      s'.perms = s.perms ∧ uploadState s' path = some .init := by
  have hp := holds_iff.1 hperm
  have hpe : s.pending = [] := by
    rcases hr.pendInv.pend with h | ⟨q, _, hg⟩
    · exact h
    · rw [hf] at hg; cases hg
  have hcp : containsPath s.uploads path = false := by
    cases hcp : containsPath s.uploads path with
    | false => rfl
    | true =>
      simp only [containsPath, List.any_eq_true, decide_eq_true_eq] at hcp
      obtain ⟨e, he, hpath⟩ := hcp
      have hg := Map.get_of_mem hr.uploadInv.nodup he
      rw [hr.uploadInv.path _ _ hg] at hpath
      subst hpath
      simp [uploadState, hg] at hfree
  have hsz' : ¬ size > maxFileSize := by
    have : maxFileSize = 2147483648 := by decide
    omega
  have hm : ∃ subs' id, managerInitUpload ans s.subs size = some (subs', id) := by
    unfold managerInitUpload
    split
    · exact ⟨_, _, rfl⟩
    · simp [hc, hi, hok]
  obtain ⟨subs', id, hm⟩ := hm
  simp [serveCall, ClientCall.toCall, step, execCall, Call.needs, hp, exec, initUpload, withGuardAsync,
    guardEnter_free hf, hcp, hsz', ofStarted, hpe, resumeBody, hm, guardLeave, uploadState, Pending.caller]

theorem serve_store {E : Env H} {s : State H} (hr : Reachable E s) {c : Principal} (now now' : Nat) {ans : Answer}
    {path : String} (id : Nat) (data : Blob) (hperm : Holds s c .updateUploads) (hf : s.guards = [])
    (hst : uploadState s path = some .init ∨ uploadState s path = some .inProgress) (hok : ans.resp = .ok ()) :
    ∃ s', serveCall E c now now' ans s (.store path id data) = (s', .reply (.ok .unit)) ∧ s'.guards = [] ∧
      s'.perms = s.perms ∧ uploadState s' path = some .inProgress := by
  have hp := holds_iff.1 hperm
  have hpe : s.pending = [] := by
    rcases hr.pendInv.pend with h | ⟨q, _, hg⟩
    · exact h
    · rw [hf] at hg; cases hg
  have : ∃ u, s.uploads.get path = some u ∧ (u.state = .init ∨ u.state = .inProgress) := by
    simp [uploadState] at hst
    rcases hst with ⟨u, hu, hst⟩ | ⟨u, hu, hst⟩
    · exact ⟨u, hu, .inl hst⟩
    · exact ⟨u, hu, .inr hst⟩
  obtain ⟨u, hu, hst⟩ := this
  obtain ⟨sc, hsc, hin⟩ := hr.uploadInv.store _ _ hu
  rcases hst with hst | hst <;>
    simp [serveCall, ClientCall.toCall, step, execCall, Call.needs, hp, exec, storeChunk, withGuardAsync,
      guardEnter_free hf, hu, hst, callStorage, hsc, hin, ofStarted, hpe, resumeBody, hok, guardLeave, uploadState, Pending.caller]

theorem serve_finalize {E : Env H} {s : State H} (hr : Reachable E s) {c : Principal} (now now' : Nat) {ans : Answer}
    {path : String} (hperm : Holds s c .updateUploads) (hf : s.guards = [])
    (hst : uploadState s path = some .inProgress) (hok : ans.resp = .ok ()) :
    ∃ s' u, serveCall E c now now' ans s (.finalize path) = (s', .reply (.ok (.url u))) := by
  have hp := holds_iff.1 hperm
  have hpe : s.pending = [] := by
    rcases hr.pendInv.pend with h | ⟨q, _, hg⟩
    · exact h
    · rw [hf] at hg; cases hg
  simp [uploadState] at hst
  obtain ⟨u, hu, hst⟩ := hst
  obtain ⟨sc, hsc, hin⟩ := hr.uploadInv.store _ _ hu
  simp [serveCall, ClientCall.toCall, step, execCall, Call.needs, hp, exec, finalizeUpload, withGuardAsync,
      guardEnter_free hf, hu, hst, callStorage, hsc, hin, ofStarted, hpe, resumeBody, hok, guardLeave]

theorem send_chunks {E : Env H} {c : Principal} {rounds : Nat → Round} {path : String}
    (hrounds : ∀ k, (rounds k).before = [] ∧ (rounds k).ans.resp = .ok ()) : ∀ (l : List (Nat × Blob)) (w : State H × Nat),
    Reachable E w.1 → Holds w.1 c .updateUploads → w.1.guards = [] →
    (uploadState w.1 path = some .init ∨ uploadState w.1 path = some .inProgress) →
    ∃ w' log, sendAll (collServe E c rounds) w (l.map fun x => .store path x.1 x.2) = (w', log, true) ∧
      Reachable E w'.1 ∧ Holds w'.1 c .updateUploads ∧ w'.1.guards = [] ∧ (∀ e ∈ log, Accepted e.2) ∧
      (if l = [] then w' = w else uploadState w'.1 path = some .inProgress) := by
  intro l
  induction l with
  | nil => exact fun w h1 h2 h3 h4 => ⟨w, [], rfl, h1, h2, h3, fun e he => (by cases he), rfl⟩
  | cons x l ih =>
    intro w h1 h2 h3 h4
    obtain ⟨hb, hok⟩ := hrounds w.2
    obtain ⟨s', e1, e2, e3, e4⟩ := serve_store (E := E) h1 (c := c) (rounds w.2).now (rounds w.2).now'
      (ans := (rounds w.2).ans) (path := path) x.1 x.2 h2 h3 h4 hok
    have hc : collServe E c rounds w (.store path x.1 x.2) = ((s', w.2 + 1), .reply (.ok .unit)) := by
      unfold collServe
      simp [hb, run, e1]
    have hr' : Reachable E s' := by
      have := serveCall_reach h1 c (rounds w.2).now (rounds w.2).now' (rounds w.2).ans (.store path x.1 x.2)
      rw [e1] at this; exact this
    have hp' : Holds s' c .updateUploads := by rw [holds_iff, e3]; exact holds_iff.1 h2
    obtain ⟨w', log, i1, i2, i3, i4, i5, i6⟩ := ih (s', w.2 + 1) hr' hp' e2 (.inr e4)
    refine ⟨w', (.store path x.1 x.2, .reply (.ok .unit)) :: log, ?_, i2, i3, i4, ?_, ?_⟩
    · rw [List.map_cons, sendAll_cons, hc]
      simp only [Outcome.passes, if_true, i1]
    · rintro e (_ | ⟨_, he⟩)
      · trivial
      · exact i5 e he
    · rw [if_neg (by simp)]
      split at i6
      · rw [i6]; exact e4
      · exact i6

/-- **C75.** A permitted user who uploads a file that is not empty and of at most 2 GiB
to a free path, with nobody else working on the collection and storage canisters that
consent, succeeds: every step is accepted and the address reported. -/
theorem C75_completes (E : Env H) {s : State H} (hr : Reachable E s) {c : Principal} {rounds : Nat → Round}
    (hrounds : ∀ k, (rounds k).before = [] ∧ (rounds k).ans.resp = .ok () ∧ (rounds k).ans.newInitOk = true ∧
      ∃ x, (rounds k).ans.created = some x ∧ x.installed = true)
    (hperm : Holds s c .updateUploads) (hf : s.guards = []) (hash : Blob → String) {urlOf : String → Option String}
    {chunk : Nat} (hchunk : 1 ≤ chunk) (hmax : chunk < 2 ^ 63) (read : Nat → Nat) {file : Blob} (hfile : file ≠ [])
    (hsize : file.length ≤ 2147483648) {path : String} (hfree : uploadState s path = none) {url : String}
    (hurl : urlOf (rawUrl E E.self (servedPath path)) = some url) :
    ∃ s' n calls, uploadFile (collServe E c rounds) hash urlOf chunk read file path (s, 0) = ((s', n), calls, some url) ∧
      uploadState s' path = some .finalized ∧ ∀ e ∈ calls, Accepted e.2 := by
  obtain ⟨hb, -, hn, x, hx, hi⟩ := hrounds 0
  obtain ⟨s₁, e1, e2, e3, e4⟩ := serve_init (E := E) hr (c := c) (rounds 0).now (rounds 0).now' (ans := (rounds 0).ans)
    (path := path) (size := file.length) chunk (hash file) hperm hf hfree hsize hx hi hn
  have hc : collServe E c rounds (s, 0) (.init path file.length chunk (hash file)) = ((s₁, 1), .reply (.ok .unit)) := by
    unfold collServe
    simp [hb, run, e1]
  have hr1 : Reachable E s₁ := by
    have := serveCall_reach hr c (rounds 0).now (rounds 0).now' (rounds 0).ans (.init path file.length chunk (hash file))
    rw [e1] at this; exact this
  have hp1 : Holds s₁ c .updateUploads := by rw [holds_iff, e3]; exact holds_iff.1 hperm
  obtain ⟨sent, hsent⟩ : ∃ sent, uploadChunks chunk read file = some sent :=
    ⟨_, by unfold uploadChunks; rw [if_neg (by omega)]⟩
  have hne : sent ≠ [] := by
    unfold uploadChunks at hsent
    rw [if_neg (by omega), upload_count (by omega) (by omega)] at hsent
    obtain rfl := Option.some.inj hsent
    have hpos : 0 < file.length := List.length_pos_iff.2 hfile
    have hcount : 0 < (file.length + chunk - 1) / chunk := Nat.div_pos (by omega) (by omega)
    obtain ⟨m, hm⟩ := Nat.exists_eq_succ_of_ne_zero (Nat.ne_of_gt hcount)
    rw [hm]
    unfold chunkLoop
    simp only
    rw [if_neg (by omega)]
    simp
  obtain ⟨w', log, i1, i2, i3, i4, i5, i6⟩ := send_chunks (E := E) (c := c) (path := path) (rounds := rounds)
    (fun k => ⟨(hrounds k).1, (hrounds k).2.1⟩) sent (s₁, 1) hr1 hp1 e2 (.inl e4)
  rw [if_neg hne] at i6
  obtain ⟨hb', hok', -⟩ := hrounds w'.2
  obtain ⟨s₂, u, f1⟩ := serve_finalize (E := E) i2 (c := c) (rounds w'.2).now (rounds w'.2).now' (ans := (rounds w'.2).ans)
    (path := path) i3 i4 i6 hok'
  obtain ⟨hu1, hu2, _⟩ := serve_finalize_url i2 (c := c) (now := (rounds w'.2).now) (now' := (rounds w'.2).now')
    (ans := (rounds w'.2).ans) (path := path) (u := u) (by rw [f1])
  rw [f1] at hu2
  have hfin : collServe E c rounds w' (.finalize path) = ((s₂, w'.2 + 1), .reply (.ok (.url u))) := by
    unfold collServe
    simp [hb', run, f1]
  refine ⟨s₂, w'.2 + 1, ((.init path file.length chunk (hash file), .reply (.ok .unit)) :: log) ++
    [(.finalize path, .reply (.ok (.url u)))], ?_, hu2, ?_⟩
  · unfold uploadFile
    simp only [hsent, Option.getD_some, sendAll_cons, hc, Outcome.passes, if_true, i1]
    rw [if_neg (by omega)]
    simp only [hfin, Outcome.url]
    rw [hu1, hurl]
  · intro e he
    rcases List.mem_append.1 he with he | he
    · rcases List.mem_cons.1 he with rfl | he
      · trivial
      · exact i5 e he
    · rw [List.mem_singleton.1 he]; trivial

/-- Three bytes in chunks of two. -/
example : ∃ s' n calls, uploadFile (collServe Demo.env Demo.admin (Demo.rounds 200)) (fun _ => "") some 2 (fun _ => 2) [1, 2, 3]
    "/a.png" (Demo.s1, 0) = ((s', n), calls, some (rawUrl Demo.env Demo.env.self (servedPath "/a.png"))) ∧
    uploadState s' "/a.png" = some .finalized ∧ ∀ e ∈ calls, Accepted e.2 :=
  C75_completes Demo.env Demo.s1_reach (fun _ => ⟨rfl, rfl, rfl, _, rfl, rfl⟩) (holds_iff.2 (by decide)) (by decide)
    (fun _ => "") (by decide) (by decide) (fun _ => 2) (by decide) (by decide) (by decide) rfl

/-- The hypotheses of the two theorems on successful uploads are met by it. -/
example : ∃ (s' : State Nat) (calls : _), uploadState s' "/a.png" = some .finalized ∧
    (uploadFile (collServe Demo.env Demo.admin (Demo.rounds 200)) (fun _ => "") some 2 (fun _ => 2) [1, 2, 3] "/a.png"
      (Demo.s1, 0)).2.1 = calls ∧ calls.length = 4 ∧ ∀ e ∈ calls, e.2 ≠ .failed := by
  obtain ⟨s', n, calls, h, -⟩ := C75_completes Demo.env Demo.s1_reach (c := Demo.admin) (rounds := Demo.rounds 200)
    (fun _ => ⟨rfl, rfl, rfl, _, rfl, rfl⟩) (holds_iff.2 (by decide)) (by decide) (fun _ => "") (urlOf := some) (chunk := 2)
    (by decide) (by decide) (fun _ => 2) (file := [1, 2, 3]) (by decide) (by decide) (path := "/a.png") (by decide) rfl
  obtain ⟨⟨sent, hs, hc⟩, hf, -⟩ := C75_answered_partial h
  have hs' : uploadChunks 2 (fun _ => 2) [1, 2, 3] = some [(0, [1, 2]), (1, [3])] := by decide
  rw [hs'] at hs
  obtain rfl := Option.some.inj hs
  refine ⟨s', calls, (C75_finalized Demo.env Demo.s1_reach h).1, by rw [h], ?_, hf⟩
  have := congrArg List.length hc
  simpa using this

/-- The storage canister refuses every chunk. -/
def Demo.refusing (k : Nat) : Round :=
  { now := Demo.ms (300 + 2 * k), now' := Demo.ms (301 + 2 * k),
    ans := { resp := if k = 3 then .ok () else .error .other } }

/-- **C75 is violated**: the collection refuses the initialisation, because an upload to
that path was begun before, the storage canister refuses both chunks, and yet the command
goes on, finalizes the other upload and reports success. -/
theorem C75_violated_refused : ∃ (s : State Nat) (o₀ o₁ o₂ o₃ : Outcome) (url : String), Reachable Demo.env s ∧
    (uploadFile (collServe Demo.env Demo.admin Demo.refusing) (fun _ => "") some 2 (fun _ => 2) [1, 2, 3] "/a.png" (s, 0)).2 =
      ([(.init "/a.png" 3 2 "", o₀), (.store "/a.png" 0 [1, 2], o₁), (.store "/a.png" 1 [3], o₂),
        (.finalize "/a.png", o₃)], some url) ∧
    o₀ = .reply (.error .fileAlreadyExists) ∧ o₁ = .reply (.error .storageCanisterError) ∧
    o₂ = .reply (.error .storageCanisterError) ∧ ¬ Accepted o₀ ∧ ¬ Accepted o₁ ∧ ¬ Accepted o₂ :=
  ⟨Demo.sPart, _, _, _, _, _, Demo.sPart_reach, rfl, rfl, rfl, rfl, id, id, id⟩

/-- **C75 is violated** for empty files: no chunk is sent, so the upload is never started
and its finalization refused; the path stays taken. -/
theorem C75_violated_empty : ∃ s', (uploadFile (collServe Demo.env Demo.admin (Demo.rounds 200)) (fun _ => "") some 2
      (fun _ => 2) [] "/a.png" (Demo.s1, 0)) =
      ((s', 2), [(.init "/a.png" 0 2 "", .reply (.ok .unit)), (.finalize "/a.png", .reply (.error .uploadNotStarted))], none) ∧
    uploadState s' "/a.png" = some .init := ⟨_, rfl, by decide⟩

/-! ## C76 The dialogues -/

/-- A text for the examples: it says itself, and also with a line end after it. -/
theorem typed_line {x : String} (h1 : ∀ c ∈ x.toList.head?, ¬ Blank c)
    (h2 : ∀ c ∈ x.toList.getLast?, ¬ Blank c) : Typed x (x ++ "\n") :=
  ⟨[], ['\n'], by rw [String.toList_append]; rfl, by simp, by simp; decide, h1, h2⟩

/-- **C76**, the part that holds: if the user answers the questions with what they wish
for, with or without white space around their answers, repeating a yes, a no or a choice
until it is understood, the document written is well formed and says what they wished for.
Missing: the words for infinity and NaN, numbers beyond the range of doubles (as in C74)
and input that ends before the questions do (`C76_violated_end`). -/
theorem C76_document_partial (shown : List Char → Option String) (w : Wish) {ls : List String} (h : WishLines w ls)
    (hnum : ∀ a ∈ w.attributes, (Decimal a.2.1.toList → (shown a.2.1.toList).isSome) ∧ ¬ InfinityOrNaN a.2.1.toList)
    (rest : List String) :
    ∃ kvs, createDialog shown (ls ++ rest) = some (.ok (.obj kvs)) ∧ GoodMetadata (.obj kvs) ∧ Describes shown w kvs := by
  obtain ⟨kvs, hk, hval, hd⟩ := createMetadata_describes (shown := shown) w hnum
  refine ⟨kvs, ?_, C54_exact.1 hval, hd⟩
  obtain ⟨ln, ld, li, le, tail, rfl, ⟨hn1, hn2⟩, ⟨hd1, hd2⟩, him, hex, ht⟩ := h
  unfold createDialog
  simp only [List.cons_append, promptInput, trim_typed hn1, trim_typed hd1, hn2, hd2, if_false, promptOptional_typed him,
    promptOptional_typed hex]
  rcases ht with ⟨ha, hno⟩ | ⟨yes, as, rfl, hyes, ha⟩
  · rw [promptBool_answers hno]
    simp only [Bool.false_eq_true, if_false]
    rw [ha, List.map_nil] at hk
    rw [hk, hval]
  · rw [List.append_assoc, promptBool_answers hyes]
    simp only [if_true]
    rw [dialogAttributes_lines ha hnum _ (by
      have := attributeLines_length ha
      rw [List.length_append]; omega)]
    simp only [Option.map_some]
    rw [hk, hval]

/-- Someone answers the questions for a document with one attribute, stumbling a little. -/
example : ∃ kvs, createDialog (fun l => some (String.ofList l))
      ["Ring\n", "A ring\n", "\n", "\n", "sure\n", " Yes\n", "karat\n", "18\n", "9\n", "\n", "n\n"] = some (.ok (.obj kvs)) ∧
    HasField kvs "name" (.str "Ring") := by
  have h5 : Decimal "18".toList := isDecimal_iff.1 (by decide)
  obtain ⟨kvs, h, -, hd⟩ := C76_document_partial (fun l => some (String.ofList l))
    ⟨"Ring", "A ring", none, none, [("karat", "18", none)]⟩
    (ls := ["Ring\n", "A ring\n", "\n", "\n", "sure\n", " Yes\n", "karat\n", "18\n", "9\n", "\n", "n\n"])
    ⟨_, _, _, _, _, rfl, ⟨typed_line (by decide) (by decide), by decide⟩, ⟨typed_line (by decide) (by decide), by decide⟩,
      typed_line (x := "") (by decide) (by decide), typed_line (x := "") (by decide) (by decide),
      .inr ⟨["sure\n", " Yes\n"], _, rfl,
        .again (x := "sure") (by decide) (typed_line (by decide) (by decide))
          (.yes (x := "Yes") (by decide) ⟨[' '], ['\n'], rfl, by decide, by decide, by decide, by decide⟩),
        .last (t := "karat") (v := "18") (ls := ["9\n", "\n"]) (ln := ["n\n"])
          ⟨typed_line (by decide) (by decide), by decide⟩ (typed_line (by decide) (by decide))
          (.inl ⟨h5, .again (x := "9") (by decide) (typed_line (by decide) (by decide))
            (.skip (typed_line (x := "") (by decide) (by decide)))⟩)
          (.no (x := "n") (by decide) (typed_line (by decide) (by decide)))⟩⟩
    (by
      intro a ha
      obtain rfl := List.mem_singleton.1 ha
      exact ⟨fun _ => rfl, fun h => special_not_decimal h h5⟩) []
  exact ⟨kvs, h, hd.1⟩

/-- **C76.** Entering metadata for a token gives the entries as they were entered: text,
numbers, integers and bytes. -/
theorem C76_entries {b64 : String → Option Blob} {kvs : List (String × Value)} {ls : List String}
    (h : EntryLines b64 true kvs ls) (rest : List String) : mintDialog b64 (ls ++ rest) = some (some kvs) := by
  refine (dialogEntries_lines h rest _ ?_).trans rfl
  have := entryLines_length h
  rw [List.length_append]; omega

example : mintDialog (fun _ => none) ["size\n", "2\n", "+012\n", "Y\n", "note\n", "1\n", "a: b\n", "n\n"] =
    some (some [("size", .nat 12), ("note", .text "a: b")]) :=
  C76_entries (.more (k := "size") (ls := ["2\n", "+012\n"]) (ly := ["Y\n"]) ⟨typed_line (by decide) (by decide), by decide⟩
    (.nat (x := "+012") (typed_line (by decide) (by decide)) (typed_line (by decide) (by decide))
      ⟨['+'], "012".toList, by decide, .inr rfl, fun c hc => (show ∀ c ∈ "012".toList, c.isDigit = true by decide) c hc,
        by decide, by decide⟩ (by decide))
    (.yes (x := "Y") (by decide) (typed_line (by decide) (by decide)))
    (.last (k := "note") (ls := ["1\n", "a: b\n"]) (ln := ["n\n"]) ⟨typed_line (by decide) (by decide), by decide⟩
      (.text (k := "1") (by decide) (typed_line (by decide) (by decide)) (typed_line (by decide) (by decide)))
      (.no (x := "n") (by decide) (typed_line (by decide) (by decide))))) []

/-- **C76.** If a value cannot be read as what it is said to be, nothing is minted,
whatever was entered before. -/
theorem C76_unreadable {b64 : String → Option Blob} {kvs : List (String × Value)} {ls : List String} {k lk : String}
    (h : EntryLines b64 false kvs ls) (hk : Typed k lk ∧ k ≠ "") {bad : List String} (hb : BadValueLines b64 bad)
    (rest : List String) : mintDialog b64 (ls ++ (lk :: (bad ++ rest))) = some none := by
  have hl := entryLines_length h
  unfold mintDialog
  rw [dialogEntries_lines h _ _ (by rw [List.length_append]; omega)]
  obtain ⟨fuel, hf⟩ : ∃ fuel, (ls ++ (lk :: (bad ++ rest))).length - kvs.length = fuel + 1 :=
    ⟨(ls ++ (lk :: (bad ++ rest))).length - kvs.length - 1, by simp; omega⟩
  rw [hf]
  unfold dialogEntries
  simp only [promptInput, trim_typed hk.1, hk.2, if_false, dialogValue_bad hb]
  rfl

example : mintDialog (fun _ => none) ["size\n", "2\n", "-1\n", "n\n"] = some none :=
  C76_unreadable (ls := []) (k := "size") (bad := ["2\n", "-1\n"]) .open ⟨typed_line (by decide) (by decide), by decide⟩
    (.nat (x := "-1") (typed_line (by decide) (by decide)) (typed_line (by decide) (by decide)) fun ⟨n, hn, hr⟩ => by
      have := parseU64_iff.2 ⟨hn, hr⟩
      revert this
      rw [show parseU64 "-1".toList = none from by decide]
      exact fun h => nomatch h) ["n\n"]

/-- **C76.** Without a name, or without a description, nothing is written: neither if the
line is left empty nor if the input ends there. Input that ends where a key is asked for
gives the entries so far. -/
theorem C76_required (shown : List Char → Option String) {name ln l : String} (hn : Typed name ln ∧ name ≠ "")
    (hl : Typed "" l) (rest : List String) :
    (∃ e, createDialog shown (l :: rest) = some (.error e)) ∧ (∃ e, createDialog shown (ln :: l :: rest) = some (.error e)) ∧
    (∃ e, createDialog shown [] = some (.error e)) ∧ (∃ e, createDialog shown [ln] = some (.error e)) ∧
    ∀ {b64 : String → Option Blob} {kvs : List (String × Value)} {ls : List String}, EntryLines b64 false kvs ls →
      mintDialog b64 ls = some (some kvs) := by
  refine ⟨?_, ?_, ⟨_, rfl⟩, ?_, ?_⟩
  · unfold createDialog
    simp only [promptInput, trim_typed hl, if_true]
    exact ⟨_, rfl⟩
  · unfold createDialog
    simp only [promptInput, trim_typed hn.1, hn.2, if_false, trim_typed hl, if_true]
    exact ⟨_, rfl⟩
  · unfold createDialog
    simp only [promptInput, trim_typed hn.1, hn.2, if_false, if_true]
    exact ⟨_, rfl⟩
  · intro b64 kvs ls h
    have := dialogEntries_lines h [] ls.length (entryLines_length h)
    rw [List.append_nil] at this
    unfold mintDialog
    rw [this]
    cases ls.length - kvs.length <;> simp [dialogEntries, promptInput]

example : ∃ e, createDialog (fun _ => none) ["Ring\n"] = some (.error e) :=
  (C76_required _ (name := "Ring") (l := "") ⟨typed_line (by decide) (by decide), by decide⟩
    (typed_self (by decide) (by decide)) []).2.2.2.1

/-- **C76 is violated** at the end of the input: if it comes before the question whether
to add attributes, that question is asked forever and nothing is written. -/
theorem C76_violated_end (shown : List Char → Option String) {name description ln ld : String} (hn : Typed name ln ∧ name ≠ "")
    (hd : Typed description ld ∧ description ≠ "") {ls : List String} (h : ls.length ≤ 2) :
    createDialog shown (ln :: ld :: ls) = none := by
  unfold createDialog
  simp only [promptInput, trim_typed hn.1, hn.2, if_false, trim_typed hd.1, hd.2]
  match ls, h with
  | [], _ => rfl
  | [_], _ => rfl
  | [_, _], _ => rfl

example : createDialog (fun _ => none) ["Ring\n", "A ring\n", "https://origyn.com/1.png\n"] = none :=
  C76_violated_end _ (name := "Ring") (description := "A ring") ⟨typed_line (by decide) (by decide), by decide⟩
    ⟨typed_line (by decide) (by decide), by decide⟩ (by decide)

/-! ## C77 The mint command -/

/-- **C77**, the part that holds: the request names the owner and the subaccount given,
the bytes of the memo, and the metadata given: the address under `icrc97:metadata`, or the
entries of the dialogue, or the entries of the command line. Missing: the token name
(`C77_violated_name`), entries given together with an address or a dialogue
(`C77_violated_ignored`). -/
theorem C77_request_partial {principalOf : String → Option Principal} {owner : String} {p : Principal}
    (hp : principalOf owner = some p) (name : String) (memo : Option String) {sub : Option String} {account : Option Subaccount}
    (hsub : match sub with
      | none => account = none
      | some t => ∃ b, b.length = 32 ∧ t.toList.map Char.toLower = hexText b ∧ account = some b) (entries : List String) :
    (∀ url dialog, mintCommand principalOf owner name memo sub (some url) dialog entries =
      some [{ owner := ⟨p, account⟩, memo := memo.map utf8, metadata := [("icrc97:metadata", .array [.text url])] }]) ∧
    (∀ l, mintCommand principalOf owner name memo sub none (some l) entries =
      some [{ owner := ⟨p, account⟩, memo := memo.map utf8, metadata := l }]) ∧
    mintCommand principalOf owner name memo sub none none entries =
      some [{ owner := ⟨p, account⟩, memo := memo.map utf8, metadata := parseEntries entries }] := by
  have hs : parseSubaccount sub = some account := by
    cases sub with
    | none => rw [hsub]; rfl
    | some t =>
      obtain ⟨b, hb, ht, rfl⟩ := hsub
      unfold parseSubaccount
      simp only [hexDecode_iff.2 ht]
      rw [if_neg (by omega)]
  unfold mintCommand
  simp only [hp, hs]
  exact ⟨fun _ _ => rfl, fun _ => trivial, trivial⟩

/-- A mint to a subaccount, given in capitals. -/
example : mintCommand (fun _ => some [1]) "o" "n" (some "hi") (some (String.ofList (List.replicate 64 'A'))) none none [] =
    some [{ owner := ⟨[1], some (List.replicate 32 0xAA)⟩, memo := some (utf8 "hi"), metadata := [] }] :=
  (C77_request_partial (principalOf := fun _ => some [1]) rfl "n" (some "hi")
    (sub := some (String.ofList (List.replicate 64 'A'))) (account := some (List.replicate 32 0xAA))
    ⟨_, rfl, by rw [String.toList_ofList]; decide, rfl⟩ []).2.2

/-- **C77.** A subaccount that is not the hexadecimal text of 32 bytes, or an owner that is
no principal, is refused. -/
theorem C77_refused (principalOf : String → Option Principal) (owner name : String) (memo url : Option String)
    (dialog : Option (List (String × Value))) (entries : List String) :
    (∀ sub, principalOf owner = none → mintCommand principalOf owner name memo sub url dialog entries = none) ∧
    (∀ t : String, (∀ b : Blob, b.length = 32 → t.toList.map Char.toLower ≠ hexText b) →
      mintCommand principalOf owner name memo (some t) url dialog entries = none) := by
  constructor
  · intro sub h
    unfold mintCommand
    simp only [h]
  · intro t h
    have hs : parseSubaccount (some t) = none := by
      unfold parseSubaccount
      simp only
      split
      · rfl
      · rename_i b hb
        rw [if_pos]
        exact fun hl => h b hl (hexDecode_iff.1 hb)
    unfold mintCommand
    simp only [hs]
    split <;> rfl

example : mintCommand (fun _ => some [1]) "o" "n" none (some "abc") none none [] = none := by
  refine (C77_refused (fun _ => some [1]) "o" "n" none none none []).2 "abc" fun b hb h => ?_
  have := congrArg List.length h
  rw [hexText_length, List.length_map, hb] at this
  revert this
  decide

/-- **C77 is violated** for the name: the command demands one, but the request does not
depend on it. -/
theorem C77_violated_name (principalOf : String → Option Principal) (owner name name' : String) (memo sub url : Option String)
    (dialog : Option (List (String × Value))) (entries : List String) :
    mintCommand principalOf owner name memo sub url dialog entries =
      mintCommand principalOf owner name' memo sub url dialog entries := rfl

/-- A token minted under a name has no metadata at all. -/
example : mintCommand (fun _ => some [1]) "o" "Mona Lisa" none none none none [] =
    some [{ owner := ⟨[1], none⟩, memo := none, metadata := [] }] :=
  (C77_violated_name _ _ "Mona Lisa" "" _ _ _ _ _).trans rfl

/-- **C77 is violated** for entries given together with an address or a dialogue: they are
ignored without an error. -/
theorem C77_violated_ignored (principalOf : String → Option Principal) (owner name : String) (memo sub : Option String)
    (entries : List String) :
    (∀ url dialog, mintCommand principalOf owner name memo sub (some url) dialog entries =
      mintCommand principalOf owner name memo sub (some url) none []) ∧
    (∀ l, mintCommand principalOf owner name memo sub none (some l) entries =
      mintCommand principalOf owner name memo sub none (some l) []) := ⟨fun _ _ => rfl, fun _ => rfl⟩

example : mintCommand (fun _ => some [1]) "o" "n" none none (some "https://origyn.com") none ["artist:L"] =
    some [{ owner := ⟨[1], none⟩, memo := none, metadata := [("icrc97:metadata", .array [.text "https://origyn.com"])] }] :=
  ((C77_violated_ignored _ _ _ _ _ _).1 _ _).trans rfl

/-! ## C62 Metadata given on the command line -/

private theorem standsFor_guess (v : String) : StandsFor v (guessValue v.toList) := by
  unfold guessValue
  cases hn : parseU64 v.toList with
  | some n => exact .inl ⟨n, (parseU64_iff.1 hn).1, (parseU64_iff.1 hn).2, rfl⟩
  | none =>
    have hn' : ¬ ∃ n, Natural v n ∧ n < 2 ^ 64 := fun ⟨n, h⟩ => by
      rw [parseU64_iff.2 h] at hn; cases hn
    cases hz : parseI64 v.toList with
    | some z =>
      have := parseI64_iff.1 hz
      exact .inr (.inl ⟨hn', z, this.1, this.2.1, this.2.2, rfl⟩)
    | none =>
      refine .inr (.inr ⟨hn', fun ⟨z, h⟩ => ?_, ?_⟩)
      · rw [parseI64_iff.2 h] at hz; cases hz
      · simp

/-- C62: entries `KEY:VALUE` without further colons are all kept, in order, each with its
key and with what its value stands for. Missing: values containing a colon, entries
without one. -/
theorem C62_entries_partial (kvs : List (String × String)) (h : ∀ e ∈ kvs, ':' ∉ e.1.toList ∧ ':' ∉ e.2.toList) :
    (parseEntries (kvs.map fun e => e.1 ++ ":" ++ e.2)).map Prod.fst = kvs.map Prod.fst ∧
    ∀ (i : Nat) e x, kvs[i]? = some e → (parseEntries (kvs.map fun e => e.1 ++ ":" ++ e.2))[i]? = some x → StandsFor e.2 x.2 := by
  have key : parseEntries (kvs.map fun e => e.1 ++ ":" ++ e.2) = kvs.map fun e => (e.1, guessValue e.2.toList) := by
    induction kvs with
    | nil => rfl
    | cons e kvs ih =>
      have he := h e List.mem_cons_self
      have hp : parseEntry (e.1 ++ ":" ++ e.2) = some (e.1, guessValue e.2.toList) := by
        have := parseEntry_colon he.1 he.2
        rwa [show String.ofList (e.1.toList ++ ':' :: e.2.toList) = e.1 ++ ":" ++ e.2 by
          rw [← String.toList_inj]; simp, String.ofList_toList] at this
      unfold parseEntries at ih ⊢
      rw [List.map_cons, List.filterMap_cons, hp]
      simp only [List.map_cons]
      rw [ih fun e' he' => h e' (List.mem_cons_of_mem _ he')]
  rw [key]
  refine ⟨by simp, fun i e x he hx => ?_⟩
  rw [List.getElem?_map, he] at hx
  cases hx
  exact standsFor_guess e.2

/-- Signs and leading zeros do not matter: `+007` is the number 7; `-0` is an integer and
`1e3` a text. -/
example : StandsFor "+007" (.nat 7) ∧ StandsFor "-0" (.int 0) ∧ StandsFor "1e3" (.text "1e3") ∧
    ((parseEntries ["a:+007", "b:-0", "c:1e3"]).map Prod.fst = ["a", "b", "c"]) :=
  ⟨by have := standsFor_guess "+007"; exact this, by have := standsFor_guess "-0"; exact this,
   by have := standsFor_guess "1e3"; exact this, (C62_entries_partial [("a", "+007"), ("b", "-0"), ("c", "1e3")] (by decide)).1⟩

end Verif
