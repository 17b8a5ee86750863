import Verif.Props.Approvals
import Verif.Props.Transfers
import Verif.Props.Demo
/-!
# Tokens of a holder who does nothing (C105)
-/
namespace Verif

open Spec

variable {H : Type}

/-- No message of the history is a call by `p`. -/
def Spec.Silent (p : Principal) (ms : List Msg) : Prop := ∀ now call, Msg.call p now call ∉ ms

/-- `sp` was approved for token `tid` of account `o` in state `s`, for longer than until
`now`: for the token itself or for all tokens of the account. -/
def Spec.ApprovedThen (s : State H) (tid : Nat) (o sp : Account) (now : Nat) : Prop :=
  ∃ a, (TokenApproval s tid sp a ∨ CollApproval s o sp a) ∧ Live a now

/-- One message that is not a call of the holder: the token stays, and no approval is new. -/
private theorem custody_step {E : Env H} {s : State H} (hr : Reachable E s) {tid : Nat} {o : Account}
    (ho : Owner s tid = some o) {m : Msg} (hm : ∀ now call, m ≠ .call o.owner now call) :
    (∀ sp a, TokenApproval (step E s m).1 tid sp a → TokenApproval s tid sp a) ∧
    (∀ sp a, CollApproval (step E s m).1 o sp a → CollApproval s o sp a) ∧
    (Owner (step E s m).1 tid = some o ∨
      ∃ c now args, ∃ arg : TransferFromArg, m = .call c now (.transferFrom args) ∧ arg ∈ args ∧ arg.tid = tid ∧
        SameAccount o arg.from_ ∧ ApprovedThen s tid o ⟨c, arg.spenderSub⟩ now) := by
  refine ⟨fun sp a h => ?_, fun sp a h => ?_, ?_⟩
  · refine Classical.byContradiction fun hn => ?_
    obtain ⟨c, now, args, arg, o', rfl, _, _, ho', hs, _⟩ := C18_granted_by_owner hr h hn
    rw [ho] at ho'; cases ho'
    exact hm now (.approveTokens args) (by rw [hs.1])
  · refine Classical.byContradiction fun hn => ?_
    obtain ⟨c, now, args, info, rfl, _, hc, _⟩ := C19_granted_by_holder hr h hn
    exact hm now (.approveCollection args) (by rw [hc])
  · refine Classical.byCases .inl fun hne => .inr ?_
    rw [← ho] at hne
    rcases C08_owner_change hr m hne with ⟨c, now, reqs, _, _, hn⟩ | ⟨c, now, args, arg, o', rfl, _, _, ho', hc⟩ |
      ⟨c, now, o', rfl, ho', hc⟩ | ⟨c, now, args, arg, o', rfl, harg, ht, ho', hs, hmay⟩
    · rw [ho] at hn; cases hn
    · rw [ho] at ho'; cases ho'
      exact absurd (by rw [hc]) (hm now (.transfer args))
    · rw [ho] at ho'; cases ho'
      exact absurd (by rw [hc]) (hm now (.burn tid))
    · rw [ho] at ho'; cases ho'
      refine ⟨c, now, args, arg, rfl, harg, ht, hs, ?_⟩
      rcases hmay with h | ⟨a, h, hl⟩ | ⟨a, h, hl⟩
      · have := (sameAccount_iff.2 h).1
        exact absurd (by rw [← this]) (hm now (.transferFrom args))
      · exact ⟨a, .inl h, hl⟩
      · exact ⟨a, .inr h, hl⟩

/-- C105: as long as the principal of the account that owns a token makes no call, the
token leaves the account only by an `icrc37_transfer_from` of a spender that had been
approved, for the token or for all tokens of the account, before that time began, by an
approval that had not ended when the call was made. Until then no approval for the
token or for the account's tokens is new. -/
theorem C105_kept {E : Env H} {tid : Nat} {o : Account} (ms : List Msg) : ∀ {s : State H}, Reachable E s →
    Owner s tid = some o → Silent o.owner ms →
    (Owner (run E s ms) tid = some o ∧ (∀ sp a, TokenApproval (run E s ms) tid sp a → TokenApproval s tid sp a) ∧
      ∀ sp a, CollApproval (run E s ms) o sp a → CollApproval s o sp a) ∨
    ∃ before after c now args, ∃ arg : TransferFromArg,
      ms = before ++ .call c now (.transferFrom args) :: after ∧ arg ∈ args ∧ arg.tid = tid ∧ SameAccount o arg.from_ ∧
      Owner (run E s before) tid = some o ∧ ApprovedThen s tid o ⟨c, arg.spenderSub⟩ now := by
  induction ms with
  | nil => intro s _ ho _; exact .inl ⟨ho, fun _ _ h => h, fun _ _ h => h⟩
  | cons m ms ih =>
    intro s hr ho hs
    obtain ⟨h1, h2, h3⟩ := custody_step hr ho (m := m) (fun now call he => hs now call (by simp [he]))
    rcases h3 with h3 | ⟨c, now, args, arg, rfl, harg, ht, hf, ha⟩
    · rcases ih (hr.step m) h3 (fun now call he => hs now call (by simp [he])) with ⟨g1, g2, g3⟩ |
        ⟨before, after, c, now, args, arg, rfl, harg, ht, hf, hob, a, ha, hl⟩
      · exact .inl ⟨g1, fun sp a h => h1 sp a (g2 sp a h), fun sp a h => h2 sp a (g3 sp a h)⟩
      · exact .inr ⟨m :: before, after, c, now, args, arg, rfl, harg, ht, hf, hob, a, ha.imp (h1 _ a) (h2 _ a), hl⟩
    · exact .inr ⟨[], ms, c, now, args, arg, rfl, harg, ht, hf, ho, ha⟩

/-- C105 for a holder with no approval on record: all tokens of the account stay,
whatever anybody else does. -/
theorem C105_no_approvals {E : Env H} {s : State H} (hr : Reachable E s) {o : Account}
    (htok : ∀ tid sp a, Owner s tid = some o → ¬ TokenApproval s tid sp a) (hcoll : ∀ sp a, ¬ CollApproval s o sp a)
    {ms : List Msg} (hs : Silent o.owner ms) {tid : Nat} (ho : Owner s tid = some o) :
    Owner (run E s ms) tid = some o := by
  rcases C105_kept ms hr ho hs with h | ⟨_, _, _, _, _, _, _, _, _, _, _, a, h | h, _⟩
  · exact h.1
  · exact absurd h (htok _ _ _ ho)
  · exact absurd h (hcoll _ _)

/-- C105 for a holder whose approvals have all ended: the same, from that time on. -/
theorem C105_all_ended {E : Env H} {s : State H} (hr : Reachable E s) {o : Account} {t : Nat}
    (htok : ∀ tid sp a, Owner s tid = some o → TokenApproval s tid sp a → ¬ Live a t)
    (hcoll : ∀ sp a, CollApproval s o sp a → ¬ Live a t)
    {ms : List Msg} (hs : Silent o.owner ms) (hlater : ∀ c now call, Msg.call c now call ∈ ms → t ≤ now)
    {tid : Nat} (ho : Owner s tid = some o) : Owner (run E s ms) tid = some o := by
  rcases C105_kept ms hr ho hs with h | ⟨_, _, c, now, args, arg, rfl, _, _, _, _, a, ha, hl⟩
  · exact h.1
  · have hle := hlater c now (.transferFrom args) (by simp)
    have hlt : Live a t := fun e he => Nat.lt_of_le_of_lt hle (hl e he)
    rcases ha with h | h
    · exact absurd hlt (htok _ _ _ ho h)
    · exact absurd hlt (hcoll _ _ h)

/-- alice says nothing; bob and carol try to take tokens 1 and 2, and the collection is
upgraded: the tokens stay. -/
example : Silent Demo.alice.owner [Demo.takeMsg, .upgrade, .call [2] (Demo.ms 300) (.transfer [{ to_ := Demo.bob, tid := 1 }])] ∧
    Owner Demo.s1 1 = some Demo.alice ∧ (∀ tid sp a, ¬ TokenApproval Demo.s1 tid sp a) ∧
    (∀ sp a, ¬ CollApproval Demo.s1 Demo.alice sp a) := by
  refine ⟨fun now call h => ?_, rfl, ?_, ?_⟩
  · rcases List.mem_cons.1 h with h | h
    · cases h
    rcases List.mem_cons.1 h with h | h
    · cases h
    cases List.mem_singleton.1 h
  · rintro tid sp a ⟨m, h, _⟩; cases h
  · rintro sp a ⟨m, h, _⟩; cases h

/-- After alice approved carol for token 2, carol takes it although alice says nothing. -/
example : Owner (run Demo.env Demo.s1 [Demo.approveMsg]) 2 = some Demo.alice ∧
    Owner (run Demo.env Demo.s1 [Demo.approveMsg, Demo.takeMsg]) 2 = some Demo.carol ∧
    Silent Demo.alice.owner [Demo.takeMsg] :=
  ⟨rfl, rfl, fun now call h => by cases List.mem_singleton.1 h⟩

end Verif
