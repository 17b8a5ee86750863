import Verif.Spec.Certify
import Verif.Props.Web
/-!
# The tip certificate and the web pages (C86)
-/
namespace Verif
open Spec

variable {H : Type}

private theorem certStep_data (E : Env H) (s : State H) (c : Cert) {e : CertEvent} (h : ¬ CertifiesPages s e)
    (ht : e ≠ .certifyTip) : (certStep E s c e).data = c.data := by
  cases e with
  | certifyTip => exact absurd rfl ht
  | msg m =>
    cases m with
    | upgrade =>
      simp only [certStep]
      rw [if_pos]
      simpa [CertifiesPages] using h
    | call cl now call => simp only [certStep, addsRedirection]; rfl
    | resume now i ans =>
      have h' : ¬ addsRedirection s (.resume now i ans) = true := h
      simp only [certStep]
      rw [if_neg h']
    | resumeTrap i => simp only [certStep, addsRedirection]; rfl

private theorem certStep_pages (E : Env H) (s : State H) (c : Cert) {e : CertEvent} (h : CertifiesPages s e) :
    ∃ t, (certStep E s c e).data = .pages t := by
  cases e with
  | certifyTip => exact h.elim
  | msg m =>
    cases m with
    | upgrade =>
      simp only [certStep]
      rw [if_neg (by simpa [CertifiesPages] using h)]
      exact ⟨_, rfl⟩
    | call cl now call => exact absurd h (by simp [CertifiesPages, addsRedirection])
    | resume now i ans =>
      have h' : addsRedirection s (.resume now i ans) = true := h
      simp only [certStep]
      rw [if_pos h']
      exact ⟨_, rfl⟩
    | resumeTrap i => exact absurd h (by simp [CertifiesPages, addsRedirection])

/-- **C86 is violated**: the tip certificate and the pages never verify at the same time,
whatever the library does. -/
theorem C86_violated_exclusive (s : State H) (c : Cert) (path : String) :
    ¬ (TipVerifies s c ∧ PageVerifies s c path) := by
  rintro ⟨h1, t, h2, _⟩
  rw [h1] at h2
  cases h2

private theorem tip_stays (E : Env H) : ∀ (es : List CertEvent) (s : State H) (c : Cert), NoPages E s es →
    (∃ l, c.data = .tip l) → ∃ l, (certRun E s c es).2.data = .tip l := by
  intro es
  induction es with
  | nil => intro s c _ h; exact h
  | cons e es ih =>
    intro s c hn h
    refine ih _ _ hn.2 ?_
    cases e with
    | certifyTip => exact ⟨_, rfl⟩
    | msg m =>
      rw [certStep_data E s c hn.1 (fun h => by cases h)]
      exact h

/-- **C86 is violated** for pages: once the library has certified its tip, no page
verifies, until the next upload is finalized (or the canister, with redirections, is
upgraded). -/
theorem C86_violated_pages (E : Env H) (s : State H) (c : Cert) (es : List CertEvent) (h : NoPages E s es)
    (path : String) :
    ¬ PageVerifies (certRun E s c (.certifyTip :: es)).1 (certRun E s c (.certifyTip :: es)).2 path := by
  rintro ⟨t, ht, _⟩
  obtain ⟨l, hl⟩ := tip_stays E es s (certStep E s c .certifyTip) h ⟨_, rfl⟩
  have : (certRun E s c (.certifyTip :: es)).2.data = .tip l := hl
  rw [this] at ht
  cases ht

private theorem pages_stay (E : Env H) : ∀ (es : List CertEvent) (s : State H) (c : Cert), .certifyTip ∉ es →
    (∃ t, c.data = .pages t) → ∃ t, (certRun E s c es).2.data = .pages t := by
  intro es
  induction es with
  | nil => intro s c _ h; exact h
  | cons e es ih =>
    intro s c hn h
    rw [List.mem_cons, not_or] at hn
    refine ih _ _ hn.2 ?_
    by_cases hp : CertifiesPages s e
    · exact certStep_pages E s c hp
    · rw [certStep_data E s c hp (fun he => hn.1 he.symm)]
      exact h

/-- **C86 is violated** for the tip: after an upload is finalized its certificate does not
verify, until the library stores the root of its tree again, whatever else happens. -/
theorem C86_violated_tip (E : Env H) (s : State H) (c : Cert) {e : CertEvent} (he : CertifiesPages s e)
    (es : List CertEvent) (h : .certifyTip ∉ es) :
    ¬ TipVerifies (certRun E s c (e :: es)).1 (certRun E s c (e :: es)).2 := by
  intro ht
  obtain ⟨t, hl⟩ := pages_stay E es (eventStep E s e) (certStep E s c e) h (certStep_pages E s c he)
  have : (certRun E s c (e :: es)).2.data = .pages t := hl
  rw [ht] at this
  cases this

/-- **C86**, the part that holds for the tip: once certified it verifies, as long as no
block is added and no upload is finalized. Missing: `C86_violated_tip`. -/
theorem C86_tip_partial (E : Env H) (s : State H) (c : Cert) (es : List CertEvent) (hp : NoPages E s es)
    (hb : NoBlocks E s es) :
    TipVerifies (certRun E s c (.certifyTip :: es)).1 (certRun E s c (.certifyTip :: es)).2 := by
  have key : ∀ (es : List CertEvent) (s : State H) (c : Cert), NoPages E s es → NoBlocks E s es → TipVerifies s c →
      TipVerifies (certRun E s c es).1 (certRun E s c es).2 := by
    intro es
    induction es with
    | nil => intro s c _ _ h; exact h
    | cons e es ih =>
      intro s c hp hb h
      refine ih _ _ hp.2 hb.2 ?_
      cases e with
      | certifyTip => exact rfl
      | msg m =>
        unfold TipVerifies
        rw [certStep_data E s c hp.1 (fun h => by cases h), hb.1]
        exact h
  exact key es s _ hp hb rfl

private theorem certRun_web (E : Env H) : ∀ (es : List CertEvent) (s : State H) (c : Cert) (w : Web),
    .certifyTip ∉ es → c.skips = w.skips → c.data = .pages w.certified →
    (certRun E s c es).1 = run E s (messages es) ∧
    (certRun E s c es).2.skips = (webRun E s w (messages es)).skips ∧
    (certRun E s c es).2.data = .pages (webRun E s w (messages es)).certified := by
  intro es
  induction es with
  | nil => intro s c w _ h1 h2; exact ⟨rfl, h1, h2⟩
  | cons e es ih =>
    intro s c w hn h1 h2
    rw [List.mem_cons, not_or] at hn
    cases e with
    | certifyTip => exact absurd rfl hn.1
    | msg m =>
      refine ih (step E s m).1 (certStep E s c (.msg m)) (webStep E s w m) hn.2 ?_ ?_
      · cases m <;> simp only [certStep, webStep] <;> split <;> simp [h1]
      · cases m <;> simp only [certStep, webStep] <;> split <;> simp [h1, h2]

/-- **C86**, the part that holds for pages: as long as the library stores nothing in
certified data, redirections verify (C69). Missing: `C86_violated_pages`. -/
theorem C86_redirects_partial (E : Env H) {v : String → Bool} {hid : H} {p : Principal} {a : InitArgs} {s₀ : State H}
    (h0 : init v hid p a = some s₀) (es : List CertEvent) (hn : .certifyTip ∉ es) {path url : String}
    (hreq : httpRequest (certRun E s₀ certInit es).1 path = .redirect url) :
    PageVerifies (certRun E s₀ certInit es).1 (certRun E s₀ certInit es).2 path := by
  obtain ⟨h1, h2, h3⟩ := certRun_web E es s₀ certInit webInit hn rfl rfl
  refine ⟨_, h3, ?_⟩
  rw [h1] at hreq ⊢
  have := C69_redirects E ⟨v, hid, p, a, s₀, messages es, h0, rfl, rfl⟩ hreq
  rw [h2]
  exact this

/-- The history of an upload, its events. -/
def Demo.pngEvents : List CertEvent := Demo.pngMsgs.map .msg

/-- After the upload the picture verifies and the tip does not; when the library certifies
its tip it is the other way round. -/
example : PageVerifies (certRun Demo.env Demo.s0 certInit Demo.pngEvents).1
      (certRun Demo.env Demo.s0 certInit Demo.pngEvents).2 "/a.png" ∧
    TipVerifies (certRun Demo.env (certRun Demo.env Demo.s0 certInit Demo.pngEvents).1
      (certRun Demo.env Demo.s0 certInit Demo.pngEvents).2 [.certifyTip]).1
      (certRun Demo.env (certRun Demo.env Demo.s0 certInit Demo.pngEvents).1
      (certRun Demo.env Demo.s0 certInit Demo.pngEvents).2 [.certifyTip]).2 ∧
    ¬ PageVerifies (certRun Demo.env (certRun Demo.env Demo.s0 certInit Demo.pngEvents).1
      (certRun Demo.env Demo.s0 certInit Demo.pngEvents).2 [.certifyTip]).1
      (certRun Demo.env (certRun Demo.env Demo.s0 certInit Demo.pngEvents).1
      (certRun Demo.env Demo.s0 certInit Demo.pngEvents).2 [.certifyTip]).2 "/a.png" :=
  ⟨C86_redirects_partial Demo.env Demo.s0_init Demo.pngEvents
      (by simp [Demo.pngEvents]) (path := "/a.png") (url := "https://aaaaa-aa.raw.icp0.io/a.png") (by decide),
    C86_tip_partial Demo.env _ _ [] trivial trivial, C86_violated_pages Demo.env _ _ [] trivial _⟩

/-- The state in which the upload waits for the last answer. -/
def Demo.sWaits : State Nat := run Demo.env Demo.s0 (Demo.pngMsgs.take 6)

/-- The last message of the upload. -/
def Demo.lastMsg : Msg := .resume (Demo.ms 205) 0 {}

theorem Demo.lastMsg_pages : addsRedirection Demo.sWaits Demo.lastMsg = true := by decide

/-- The last message of the upload stores the root of the page tree: the tip that verified
before it does not verify after it, nor after a further mint. -/
example : Reachable Demo.env Demo.sWaits ∧
    TipVerifies (certRun Demo.env Demo.sWaits certInit [.certifyTip]).1
      (certRun Demo.env Demo.sWaits certInit [.certifyTip]).2 ∧
    ∀ c, ¬ TipVerifies (certRun Demo.env Demo.sWaits c [.msg Demo.lastMsg, .msg Demo.mintMsg]).1
      (certRun Demo.env Demo.sWaits c [.msg Demo.lastMsg, .msg Demo.mintMsg]).2 :=
  ⟨⟨fun _ => true, 0, Demo.admin, Demo.args, Demo.s0, _, Demo.s0_init, rfl⟩,
    C86_tip_partial Demo.env _ _ [] trivial trivial,
    fun c => C86_violated_tip Demo.env Demo.sWaits c (e := .msg Demo.lastMsg) Demo.lastMsg_pages [.msg Demo.mintMsg]
      (by simp)⟩

end Verif
