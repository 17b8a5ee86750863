import Verif.Spec.Named
import Verif.Props.Approvals
import Verif.Props.Batches
/-!
# The account a request names (C102)
-/
namespace Verif

open Spec

variable {H : Type}

/-- A batch of `icrc37_transfer_from` items that do not name account `a` keeps the live
approvals for the tokens of `a`. -/
private theorem from_keeps {E : Env H} {c : Principal} {now : Nat} {a : Account} {tid : Nat} {o sp : Account} {ap : Approval}
    (args : List TransferFromArg) (hn : ∀ x ∈ args, ¬ SameAccount x.from_ a) (hl : Live ap now) (hoa : SameAccount o a) :
    ∀ {s : State H}, Reachable E s → Owner s tid = some o → TokenApproval s tid sp ap →
      TokenApproval (run E s (args.map fun x => .call c now (.transferFrom [x]))) tid sp ap := by
  induction args with
  | nil => intro s _ _ h; exact h
  | cons x xs ih =>
    intro s hr ho h
    rw [List.map_cons, run]
    have hx : ¬ SameAccount o x.from_ := fun hs =>
      hn x (by simp) ⟨hs.1.symm.trans hoa.1, hs.2.symm.trans hoa.2⟩
    refine ih (fun y hy => hn y (by simp [hy])) (hr.step _) ?_ ?_
    · refine Classical.byContradiction fun hne => ?_
      rw [← ho] at hne
      obtain ⟨y, hy, _, o', ho', hs, _⟩ := C07_live_authority hr hne
      rw [ho] at ho'
      cases ho'
      simp at hy; subst hy
      exact hx hs
    · refine Classical.byContradiction fun hgone => ?_
      rcases C18_removed_by_owner hr h hgone with ⟨_, _, _, _, _, hm, _⟩ | ⟨_, _, _, _, _, hm, _⟩ |
        ⟨_, _, _, y, rs, i, hm, hrep, hz, ht⟩ | ⟨_, _, _, _, hm, _, _, _, hd⟩
      · cases hm
      · cases hm
      · cases hm
        have h1 : step E s (.call c now (.transferFrom [x])) =
            ((step E s (.call c now (.transferFrom [x]))).1, .batch rs) := Prod.ext rfl hrep
        have hlen := (C25_transfer_from_singles h1).1
        obtain ⟨r, rfl⟩ : ∃ r, rs = [r] := by
          match rs, hlen with
          | [r], _ => exact ⟨r, rfl⟩
        simp at hz
        obtain ⟨rfl, rfl⟩ := hz
        have h2 := transferFrom_out (transferFrom_one h1)
        generalize (step E s (.call c now (.transferFrom [y]))).1 = t at h2
        cases h2 with
        | moved w nft h i tok own =>
          unfold Owner at ho
          rw [← ht, tok] at ho
          simp at ho
          subst ho
          exact hx (sameAccount_iff.2 own)
      · cases hm; exact hd hl

/-- C102, as far as it holds: a message that does not act for account `a` leaves its
tokens, the approvals for them and its collection approvals alone. Missing: the
account named by `icrc7_transfer` and by `icrc37_revoke_collection_approvals`, which
do not read the subaccount given (`C102_violated_transfer`, `C102_violated_revoke`):
the first acts for every account of the caller, the second for the default account. -/
theorem C102_spares_partial {E : Env H} {s : State H} (hr : Reachable E s) (m : Msg) {a : Account}
    (hn : ¬ ActsFor m a) : Spares m s (step E s m).1 a := by
  refine ⟨?_, ?_, ?_, ?_, ?_⟩
  · intro tid o ho hoa
    refine Classical.byContradiction fun hne => ?_
    rw [← ho] at hne
    rcases C08_owner_change hr m hne with ⟨_, _, _, rfl, _, h⟩ | ⟨c, _, args, x, o', rfl, hx, _, h, hc⟩ |
      ⟨c, _, o', rfl, h, hc⟩ | ⟨_, _, args, x, o', rfl, hx, _, h, hs, _⟩
    · rw [ho] at h; cases h
    · rw [ho] at h; cases h
      exact hn ⟨fun he => (by rw [he] at hx; cases hx), hc.symm.trans hoa.1⟩
    · rw [ho] at h; cases h
      exact hn (hc.symm.trans hoa.1)
    · rw [ho] at h; cases h
      exact hn ⟨x, hx, hs.1.symm.trans hoa.1, hs.2.symm.trans hoa.2⟩
  · intro tid o sp ap ho hoa h hl
    refine Classical.byContradiction fun hgone => ?_
    rcases C18_removed_by_owner hr h hgone with ⟨c, _, args, x, o', rfl, hx, _, h', hs, _⟩ |
      ⟨c, _, args, x, o', rfl, hx, _, h', hs, _⟩ | ⟨c, now, args, x, rs, i, rfl, hrep, hz, ht⟩ |
      ⟨_, _, _, _, rfl, _, _, _, hd⟩
    · rw [ho] at h'; cases h'
      exact hn ⟨x, hx, hs.1.symm.trans hoa.1, hs.2.symm.trans hoa.2⟩
    · rw [ho] at h'; cases h'
      exact hn ⟨x, hx, hs.1.symm.trans hoa.1, hs.2.symm.trans hoa.2⟩
    · have h1 : step E s (.call c now (.transferFrom args)) =
          ((step E s (.call c now (.transferFrom args))).1, .batch rs) := Prod.ext rfl hrep
      rw [← (C25_transfer_from_singles h1).2.1] at hgone
      exact hgone (from_keeps args (fun y hy hs => hn ⟨y, hy, hs⟩) (hl _ _ _ rfl) hoa hr ho h)
    · exact hd (hl _ _ _ rfl)
  · intro tid o sp ap ho hoa h
    refine Classical.byContradiction fun hold => ?_
    obtain ⟨c, _, args, x, o', rfl, hx, _, h', hs, _⟩ := C18_granted_by_owner hr h hold
    rw [ho] at h'; cases h'
    exact hn ⟨x, hx, hs.1.symm.trans hoa.1, hs.2.symm.trans hoa.2⟩
  · intro sp ap h hl
    refine Classical.byContradiction fun hgone => ?_
    rcases C19_removed hr h hgone with ⟨c, _, args, x, rfl, hx, hs, _⟩ | ⟨c, _, args, x, rfl, hx, hs, _⟩ |
      ⟨_, _, args, x, rs, i, rfl, _, hz, hs⟩ | ⟨_, _, _, _, rfl, _, _, hd⟩
    · exact hn ⟨x, hx, hs⟩
    · exact hn ⟨fun he => (by rw [he] at hx; cases hx), hs⟩
    · exact hn ⟨x, (List.of_mem_zip hz).1, hs⟩
    · exact hd (hl _ _ _ rfl)
  · intro sp ap h
    refine Classical.byContradiction fun hold => ?_
    obtain ⟨c, _, args, x, rfl, hx, _, hs, _⟩ := C19_granted_by_holder hr h hold
    exact hn ⟨x, hx, hs⟩

/-- C102 for all other messages: unless a message is an `icrc7_transfer` or an
`icrc37_revoke_collection_approvals`, it leaves alone the accounts it does not name,
those of its own caller included. -/
theorem C102_named_partial {E : Env H} {s : State H} (hr : Reachable E s) (m : Msg) {a : Account}
    (h1 : ∀ c now args, m ≠ .call c now (.transfer args)) (h2 : ∀ c now args, m ≠ .call c now (.revokeCollection args))
    (hn : ¬ NamesAccount m a) : Spares m s (step E s m).1 a := by
  refine C102_spares_partial hr m fun h => hn ?_
  unfold ActsFor at h
  split at h
  · exact absurd rfl (h1 _ _ _)
  · exact absurd rfl (h2 _ _ _)
  · exact h

namespace Named

/-- alice lets carol move everything of alice's default account. -/
def openMsg : Msg :=
  .call [1] (Demo.ms 200) (.approveCollection [{ spender := Demo.carol, createdAt := Demo.ms 200 }])

/-- alice takes back what was granted from another account. -/
def closeMsg : Msg := .call [1] (Demo.ms 300) (.revokeCollection [{ fromSub := Demo.alice1.sub }])

/-- alice sends token 1 from another account. -/
def giveMsg : Msg := .call [1] (Demo.ms 200) (.transfer [{ to_ := Demo.bob, tid := 1, fromSub := Demo.alice1.sub }])

/-- alice lets carol move everything of another account. -/
def otherMsg : Msg :=
  .call [1] (Demo.ms 200)
    (.approveCollection [{ spender := Demo.carol, fromSub := Demo.alice1.sub, createdAt := Demo.ms 200 }])

/-- An approval from another account of alice is accepted and recorded, and does not
name or reach the default account, which holds two tokens; a transfer names and reaches
the account it comes from, however its subaccount is written. -/
example : (¬ NamesAccount otherMsg Demo.alice ∧ ¬ ActsFor otherMsg Demo.alice) ∧ Owner Demo.s1 1 = some Demo.alice ∧
    (step Demo.env Demo.s1 otherMsg).2 = .batch [.ok 3] ∧
    (∃ ap, CollApproval (step Demo.env Demo.s1 otherMsg).1 Demo.alice1 Demo.carol ap) ∧
    (∀ ap, ¬ CollApproval (step Demo.env Demo.s1 otherMsg).1 Demo.alice Demo.carol ap) ∧
    NamesAccount Demo.sendMsg Demo.alice ∧ NamesAccount Demo.sendMsg Demo.alice0 ∧ ActsFor Demo.sendMsg Demo.alice0 := by
  have h : ¬ ∃ x ∈ [({ spender := Demo.carol, fromSub := Demo.alice1.sub, createdAt := Demo.ms 200 } : ApprovalInfo)],
      SameAccount ⟨[1], x.fromSub⟩ Demo.alice := by decide
  refine ⟨⟨h, h⟩, by decide, rfl, ⟨_, _, rfl, rfl⟩, ?_, ⟨_, List.mem_singleton.2 rfl, by decide⟩,
    ⟨_, List.mem_singleton.2 rfl, by decide⟩, by simp, rfl⟩
  rintro ap ⟨m, hm, _⟩
  have h2 : (step Demo.env Demo.s1 otherMsg).1.collAppr.get Demo.alice = none := by decide
  rw [h2] at hm
  cases hm

end Named

/-- C102 is false of `icrc7_transfer`: alice asks to send a token from one of its
accounts, and it leaves another. -/
theorem C102_violated_transfer : ∃ s : State Nat, Reachable Demo.env s ∧
    ¬ NamesAccount Named.giveMsg Demo.alice ∧ Owner s 1 = some Demo.alice ∧
    Owner (step Demo.env s Named.giveMsg).1 1 = some Demo.bob := by
  refine ⟨Demo.s1, Demo.s1_reach, ?_, by decide, by decide⟩
  show ¬ ∃ x ∈ _, _
  decide

/-- C102 is false of `icrc37_revoke_collection_approvals`: alice asks to take back the
approvals of one of its accounts, and those of another are gone. -/
theorem C102_violated_revoke : ∃ s : State Nat, Reachable Demo.env s ∧
    ¬ NamesAccount Named.closeMsg Demo.alice ∧ (∃ ap, CollApproval s Demo.alice Demo.carol ap ∧ LiveAt Named.closeMsg ap) ∧
    ∀ ap, ¬ CollApproval (step Demo.env s Named.closeMsg).1 Demo.alice Demo.carol ap := by
  refine ⟨step Demo.env Demo.s1 Named.openMsg |>.1, Demo.s1_reach.step _, ?_, ⟨_, ⟨_, rfl, rfl⟩, ?_⟩, ?_⟩
  · show ¬ ∃ x ∈ _, _
    decide
  · intro c now k _ e he
    cases he
  · rintro ap ⟨m, hm, h⟩
    have h2 : (step Demo.env (step Demo.env Demo.s1 Named.openMsg).1 Named.closeMsg).1.collAppr.get Demo.alice = some ∅ := by
      decide
    rw [h2] at hm
    cases hm
    cases h

end Verif
