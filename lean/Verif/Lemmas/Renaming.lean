import Verif.Lemmas.Change
import Verif.Spec.Renaming
/-!
# Renaming principals: helper lemmas
-/
namespace Verif.Spec.Renaming
open Change

variable {H : Type}

theorem account_back (r : Renaming) (a : Account) : r.symm.account (r.account a) = a := by
  obtain ⟨p, b⟩ := a
  rw [account, account, r.symm.kept, r.kept]
  exact congrArg (fun q => (⟨q, b⟩ : Account)) (r.back_to p)

theorem tx_back (r : Renaming) (t : Tx) : r.symm.tx (r.tx t) = t := by
  have h : r.symm.account ∘ r.account = id := funext fun a => r.account_back a
  simp [tx, Option.map_map, h]

theorem ledgers (r : Renaming) (L : Ledger H) : r.Ledgers L (r.ledger L) := fun h t => by
  show L.add h (r.symm.tx (r.tx t)) = _
  rw [tx_back]

theorem worlds (r : Renaming) (E : Env H) : r.Worlds E (r.env E) :=
  ⟨r.ledgers E.ledger, rfl, fun p => congrArg E.text (r.back_to p)⟩

theorem respell_inj (r : Renaming) (a b : Option Subaccount) (h : r.respell a = r.respell b) : a = b := by
  rwa [r.kept, r.kept] at h

theorem account_fixed (r : Renaming) {a : Account} (h : r.to a.owner = a.owner) : r.account a = a := by
  obtain ⟨p, b⟩ := a
  rw [account, r.kept]
  exact congrArg (fun q => (⟨q, b⟩ : Account)) h

theorem approvals_fixed (r : Renaming) (m : Map Account Approval)
    (h : ∀ e ∈ m.entries, r.to e.1.owner = e.1.owner ∧ r.to e.2.spender.owner = e.2.spender.owner ∧
      r.to e.2.from_.owner = e.2.from_.owner) : r.approvals m = m :=
  map_fixed m fun e he => ⟨r.account_fixed (h e he).1, by
    simp only [approval, r.account_fixed (h e he).2.1, r.account_fixed (h e he).2.2]⟩

theorem option_fixed (r : Renaming) {o : Option Account} (h : ∀ a, o = some a → r.to a.owner = a.owner) :
    o.map r.account = o := by
  cases o with
  | none => rfl
  | some a => simp only [Option.map_some, r.account_fixed (h a rfl)]

/-- Two people the collection does not know change places: nothing changes. -/
theorem state_fixed (r : Renaming) {a b : Principal} (hr : ∀ p, p ≠ a → p ≠ b → r.to p = p) {s : State H}
    (ha : Absent s a) (hb : Absent s b) : r.state s = s := by
  have e1 : map r.to id s.perms = s.perms :=
    map_fixed _ fun e he => ⟨hr _ (ha.perms e he) (hb.perms e he), rfl⟩
  have e2 : map id r.token s.tokens = s.tokens :=
    map_fixed _ fun e he => ⟨rfl, by
      simp only [token, r.account_fixed (hr _ (ha.tokens e he) (hb.tokens e he))]⟩
  have e3 : map r.account id s.byOwner = s.byOwner :=
    map_fixed _ fun e he => ⟨r.account_fixed (hr _ (ha.byOwner e he) (hb.byOwner e he)), rfl⟩
  have e4 : s.subs.map r.sub = s.subs :=
    list_fixed _ fun c hc => by simp only [sub, hr _ (ha.subs c hc) (hb.subs c hc)]
  have e5 : s.guards.map r.to = s.guards :=
    list_fixed _ fun c hc => hr _ (ha.guards c hc) (hb.guards c hc)
  have e6 : map id r.upload s.uploads = s.uploads :=
    map_fixed _ fun e he => ⟨rfl, by simp only [upload, hr _ (ha.uploads e he) (hb.uploads e he)]⟩
  have e7 : map id r.approvals s.tokAppr = s.tokAppr :=
    map_fixed _ fun e he => ⟨rfl, r.approvals_fixed _ fun x hx =>
      have h1 := ha.tokAppr e he x hx
      have h2 := hb.tokAppr e he x hx
      ⟨hr _ h1.1 h2.1, hr _ h1.2.1 h2.2.1, hr _ h1.2.2 h2.2.2⟩⟩
  have e8 : map r.account r.approvals s.collAppr = s.collAppr :=
    map_fixed _ fun e he => ⟨r.account_fixed (hr _ (ha.collAppr e he).1 (hb.collAppr e he).1),
      r.approvals_fixed _ fun x hx =>
      have h1 := (ha.collAppr e he).2 x hx
      have h2 := (hb.collAppr e he).2 x hx
      ⟨hr _ h1.1 h2.1, hr _ h1.2.1 h2.2.1, hr _ h1.2.2 h2.2.2⟩⟩
  have e9 : s.log.map r.tx = s.log :=
    list_fixed _ fun t ht => by
      have h := fun c hc => hr _ (ha.log t ht c hc) (hb.log t ht c hc)
      simp only [tx, r.option_fixed fun c hc => h c (.inl hc), r.option_fixed fun c hc => h c (.inr (.inl hc)),
        r.option_fixed fun c hc => h c (.inr (.inr hc))]
  have e10 : s.pending.map r.pending = s.pending :=
    list_fixed _ fun x hx => by
      have h1 := ha.pending x hx
      have h2 := hb.pending x hx
      cases x with
      | init c path n subs =>
        have h3 : subs.map r.sub = subs :=
          list_fixed _ fun y hy => by simp only [sub, hr _ (h1.2 y hy) (h2.2 y hy)]
        simp only [pending, hr _ h1.1 h2.1, h3]
      | store c key u => simp only [pending, upload, hr _ h1.1 h2.1, hr _ h1.2 h2.2]
      | finalize c key u => simp only [pending, upload, hr _ h1.1 h2.1, hr _ h1.2 h2.2]
      | cancel c key u => simp only [pending, upload, hr _ h1.1 h2.1, hr _ h1.2 h2.2]
  simp only [state, e1, e2, e3, e4, e5, e6, e7, e8, e9, e10]

theorem swapped_other {a b p : Principal} (ha : p ≠ a) (hb : p ≠ b) : swapped a b p = p := by
  simp [swapped, ha, hb]

end Verif.Spec.Renaming
