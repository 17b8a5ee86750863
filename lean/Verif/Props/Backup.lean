import Verif.Lemmas.Backup
import Verif.Props.Audit
import Verif.Props.Balances
import Verif.Props.History
/-!
# C125: the log is a backup of the collection

Two collections, with whatever settings, archives, permissions, uploads and histories.
-/
namespace Verif

open Spec

variable {H H' : Type}

/-- C125, who holds what: two collections with the same transaction log that have given
out the same ids have the same owners and give the same answers about holdings. Missing
from the full claim: the ids given out cannot be read off the log if a mint was cut short
by the ledger (`C125_violated_cut`); and the log does not have the metadata tokens were
minted with (`C125_violated_metadata`). -/
theorem C125_holdings_partial {E : Env H} {E' : Env H'} {s : State H} {s' : State H'} (hr : Reachable E s)
    (hr' : Reachable E' s') (hlog : s.log = s'.log) (hnext : s.lastId = s'.lastId) :
    (∀ tid, Owner s tid = Owner s' tid) ∧ SameHoldings s s' := by
  have key : ∀ tid, Owner s tid = Owner s' tid := by
    intro tid
    by_cases h : tid < s.lastId
    · rw [C12_replay_partial hr h, C12_replay_partial hr' (hnext ▸ h), hlog]
    · have none {K : Type} {u : State K} (hi : TokInv u) (hle : ¬ tid < u.lastId) : Owner u tid = none := by
        unfold Owner
        cases hg : u.tokens.get tid with
        | none => rfl
        | some t => exact absurd (hi.fresh tid t hg) hle
      rw [none hr.tokInv h, none hr'.tokInv (hnext ▸ h)]
  exact ⟨key, sameHoldings hr.tokInv hr'.tokInv hr.ownInv hr'.ownInv key hlog⟩

/-- C125, who holds what, from the log alone: if in neither history a mint was cut short
by the ledger. -/
theorem C125_uncut_partial {E : Env H} {E' : Env H'} {v v' : String → Bool} {hid : H} {hid' : H'} {c c' : Principal}
    {a a' : InitArgs} {s₀ : State H} {s₀' : State H'} (h0 : init v hid c a = some s₀) (h0' : init v' hid' c' a' = some s₀')
    {ms ms' : List Msg} (hcut : NoCutMint E s₀ ms) (hcut' : NoCutMint E' s₀' ms')
    (hlog : (run E s₀ ms).log = (run E' s₀' ms').log) :
    (∀ tid, Owner (run E s₀ ms) tid = Owner (run E' s₀' ms') tid) ∧ SameHoldings (run E s₀ ms) (run E' s₀' ms') := by
  have key : ∀ tid, Owner (run E s₀ ms) tid = Owner (run E' s₀' ms') tid := by
    intro tid
    rw [C12_replay_uncut_partial h0 ms hcut, C12_replay_uncut_partial h0' ms' hcut', hlog]
  have hr : Reachable E (run E s₀ ms) := ⟨v, hid, c, a, s₀, ms, h0, rfl⟩
  have hr' : Reachable E' (run E' s₀' ms') := ⟨v', hid', c', a', s₀', ms', h0', rfl⟩
  exact ⟨key, sameHoldings hr.tokInv hr'.tokInv hr.ownInv hr'.ownInv key hlog⟩

/-- C125, what comes next: if no mint was cut short, the next mint answers with the id
that is one more than the number of mints on record; so the next mints of two collections
with the same log answer alike. -/
theorem C125_next_partial {E : Env H} {v : String → Bool} {hid : H} {c : Principal} {a : InitArgs} {s₀ : State H}
    (h0 : init v hid c a = some s₀) {ms : List Msg} (hcut : NoCutMint E s₀ ms) {p : Principal} {now : Nat}
    {reqs : List MintReq} {s' : State H} {i : Nat}
    (h : step E (run E s₀ ms) (.call p now (.mint reqs)) = (s', .mgmt (.ok (.id i)))) :
    i = 1 + ((run E s₀ ms).log.filter fun t => t.op = .mint).length := by
  have key : ∀ (ms : List Msg) (s : State H), TokInv s → s.lastId = 1 + mintsIn s.log → NoCutMint E s ms →
      (run E s ms).lastId = 1 + mintsIn (run E s ms).log := by
    intro ms
    induction ms with
    | nil => intro s _ h _; exact h
    | cons m ms ih =>
      intro s hi h hc
      exact ih _ (Steps.induct (P := TokInv) (fun _ _ h hm => tokInv_micro h hm) (step_steps E s m) hi)
        (step_next hi h fun c now reqs hm => hc [] m ms rfl c now reqs hm)
        fun pre m' post he c now reqs hm => hc (m :: pre) m' post (by rw [he]; rfl) c now reqs hm
  obtain ⟨_, _, hv, _⟩ := mint_accepted h
  cases hv
  exact key ms s₀ (tokInv_init h0) (by rw [init_eq h0]; rfl) hcut

/-- C125, who may move what: with the same log, at any time after the last call of both,
the same approvals are in force, and the same accounts may move the tokens of an owner. -/
theorem C125_movers {E : Env H} {E' : Env H'} {v v' : String → Bool} {hid : H} {hid' : H'} {c c' : Principal}
    {a a' : InitArgs} {s₀ : State H} {s₀' : State H'} (h0 : init v hid c a = some s₀) (h0' : init v' hid' c' a' = some s₀')
    {ms ms' : List Msg} {T : Nat} (hT : UpTo T ms) (hT' : UpTo T ms')
    (hlog : (run E s₀ ms).log = (run E' s₀' ms').log) :
    (∀ tid sp x, Live x T → (TokenApproval (run E s₀ ms) tid sp x ↔ TokenApproval (run E' s₀' ms') tid sp x)) ∧
    (∀ o sp x, Live x T → (CollApproval (run E s₀ ms) o sp x ↔ CollApproval (run E' s₀' ms') o sp x)) ∧
    (∀ tid o sp, MayMove (run E s₀ ms) T tid o sp ↔ MayMove (run E' s₀' ms') T tid o sp) := by
  have l := C88_logged (⟨v, hid, c, a, s₀, ms, h0, rfl⟩ : Reachable E (run E s₀ ms))
  have l' := C88_logged (⟨v', hid', c', a', s₀', ms', h0', rfl⟩ : Reachable E' (run E' s₀' ms'))
  have k := C88_held (E := E) h0 hT
  have k' := C88_held (E := E') h0' hT'
  rw [hlog] at l k
  refine ⟨fun tid sp x hx => ⟨fun h => k'.1 _ _ _ (l.1 _ _ _ h) hx, fun h => k.1 _ _ _ (l'.1 _ _ _ h) hx⟩,
    fun o sp x hx => ⟨fun h => k'.2 _ _ _ (l.2 _ _ _ h) hx, fun h => k.2 _ _ _ (l'.2 _ _ _ h) hx⟩, fun tid o sp => ?_⟩
  rw [C88_movers h0 hT, C88_movers h0' hT', hlog]

/-- C125, metadata: if all updates of a token were recorded in both histories and the log
has an update of the token, both show the same. -/
theorem C125_metadata_partial {E : Env H} {E' : Env H'} {v v' : String → Bool} {hid : H} {hid' : H'} {c c' : Principal}
    {a a' : InitArgs} {s₀ : State H} {s₀' : State H'} (h0 : init v hid c a = some s₀) (h0' : init v' hid' c' a' = some s₀')
    {ms ms' : List Msg} {tid : Nat} (hrec : UpdatesRecorded E tid s₀ ms) (hrec' : UpdatesRecorded E' tid s₀' ms')
    (hlog : (run E s₀ ms).log = (run E' s₀' ms').log) (hup : versions (run E s₀ ms).log tid ≠ [])
    (ho : Owner (run E s₀ ms) tid ≠ none) (ho' : Owner (run E' s₀' ms') tid ≠ none) :
    ∃ l, Shown (run E s₀ ms) tid l ∧ Shown (run E' s₀' ms') tid l := by
  obtain ⟨vs, x, y, hv⟩ : ∃ vs x y, versions (run E s₀ ms).log tid = vs ++ [(x, y)] :=
    ⟨_, _, _, (List.dropLast_concat_getLast hup).symm⟩
  exact ⟨y, C91_last_partial h0 hrec ho hv, C91_last_partial h0' hrec' ho' (hlog ▸ hv)⟩

namespace BackupDemo

open Demo

/-- A collection with other settings. -/
def other : State Nat :=
  (init (fun _ => true) 0 admin { atomicArgs with name := "copy", maxQueryBatch := some 3 }).get rfl

theorem other_init :
    init (fun _ => true) 0 admin { atomicArgs with name := "copy", maxQueryBatch := some 3 } = some other := rfl

/-- A mint, an approval and a transfer. -/
def first : List Msg := [mintMsg, approveMsg, sendMsg]
/-- The same, but carol is given a permission and makes a call that is refused, and the
canister is upgraded. -/
def second : List Msg :=
  [mintMsg, .call admin (ms 120) (.grant carol.owner .minting), approveMsg, .upgrade,
   .call carol.owner (ms 210) (.transfer [{ to_ := carol, tid := 1 }]), sendMsg]

end BackupDemo

open BackupDemo

private theorem noCut_cons {E : Env H} {s : State H} {m : Msg} {ms : List Msg}
    (h : ∀ c now reqs, m = .call c now (.mint reqs) → (step E s m).2 ≠ .mgmt (.error .storageCanisterError))
    (ht : NoCutMint E (step E s m).1 ms) : NoCutMint E s (m :: ms) := by
  intro pre m' post he c now reqs hm
  cases pre with
  | nil => cases he; exact h c now reqs hm
  | cons x pre => cases he; exact ht pre m' post rfl c now reqs hm

private theorem noCut_nil {E : Env H} {s : State H} : NoCutMint E s [] := fun pre _ _ he => by cases pre <;> cases he

/-- Two different histories of different collections with the same log. -/
example : (run Demo.env Demo.s0 first).log = (run Demo.env other second).log ∧
    (run Demo.env Demo.s0 first).log.length = 5 ∧
    (run Demo.env Demo.s0 first).lastId = (run Demo.env other second).lastId ∧
    NoCutMint Demo.env Demo.s0 first ∧ NoCutMint Demo.env other second ∧
    UpTo (Demo.ms 1000) first ∧ UpTo (Demo.ms 1000) second := by
  refine ⟨by rfl, by rfl, by rfl, ?_, ?_, ?_, ?_⟩
  · exact noCut_cons (by rintro _ _ _ _ h; cases h) <| noCut_cons (by rintro _ _ _ h; cases h) <|
      noCut_cons (by rintro _ _ _ h; cases h) noCut_nil
  · exact noCut_cons (by rintro _ _ _ _ h; cases h) <| noCut_cons (by rintro _ _ _ h; cases h) <|
      noCut_cons (by rintro _ _ _ h; cases h) <| noCut_cons (by rintro _ _ _ h; cases h) <|
      noCut_cons (by rintro _ _ _ h; cases h) <| noCut_cons (by rintro _ _ _ h; cases h) noCut_nil
  · intro c now call h
    simp only [first, Demo.mintMsg, Demo.approveMsg, Demo.sendMsg, List.mem_cons, List.not_mem_nil, or_false,
      Msg.call.injEq] at h
    rcases h with ⟨_, rfl, _⟩ | ⟨_, rfl, _⟩ | ⟨_, rfl, _⟩ <;> decide
  · intro c now call h
    simp only [second, Demo.mintMsg, Demo.approveMsg, Demo.sendMsg, List.mem_cons, List.not_mem_nil, or_false,
      Msg.call.injEq, reduceCtorEq, false_or] at h
    rcases h with ⟨_, rfl, _⟩ | ⟨_, rfl, _⟩ | ⟨_, rfl, _⟩ | ⟨_, rfl, _⟩ | ⟨_, rfl, _⟩ <;> decide

/-- The fourth token. -/
example : ∃ s', step Demo.env (run Demo.env other second) (.call Demo.carol.owner (Demo.ms 900) (.mint [{ owner := Demo.carol }])) =
    (s', .mgmt (.ok (.id 4))) := ⟨_, rfl⟩

/-- They differ where the log is silent: carol may mint in the second only. -/
example : hasPermission (run Demo.env Demo.s0 first).perms Demo.carol.owner .minting = false ∧
    hasPermission (run Demo.env other second).perms Demo.carol.owner .minting = true := ⟨by rfl, by rfl⟩

/-- The answers about holdings. -/
example : icrc7OwnerOf (run Demo.env Demo.s0 first) [1, 2, 3] = some [some Demo.bob, some Demo.alice, some Demo.bob] ∧
    icrc7OwnerOf (run Demo.env other second) [1, 2, 3] = some [some Demo.bob, some Demo.alice, some Demo.bob] ∧
    icrc7TokensOf (run Demo.env other second) Demo.bob none (some 5) = some [1, 3] ∧
    MayMove (run Demo.env other second) (Demo.ms 1000) 2 Demo.alice Demo.carol := by
  refine ⟨by rfl, by rfl, by rfl, .inr (.inl ⟨(⟨Demo.carol, Demo.alice, none, Demo.ms 200, none⟩ : Approval), ⟨_, rfl, rfl⟩, ?_⟩)⟩
  intro e he; cases he

/-- An update that is recorded. -/
example : versions (run Demo.env Demo.s0 [Demo.mintMsg, Demo.updMsg]).log 1 ≠ [] ∧
    (run Demo.env Demo.s0 [Demo.mintMsg, Demo.updMsg]).log = (run Demo.env other [Demo.mintMsg, .upgrade, Demo.updMsg]).log ∧
    UpdatesRecorded Demo.env 1 Demo.s0 [Demo.mintMsg, Demo.updMsg] ∧
    UpdatesRecorded Demo.env 1 other [Demo.mintMsg, .upgrade, Demo.updMsg] :=
  ⟨by rw [show versions _ 1 = [_] from rfl]; simp, by rfl,
    ⟨fun ⟨_, _, _, h⟩ => (nomatch h), fun _ h => (nomatch h), trivial⟩,
    ⟨fun ⟨_, _, _, h⟩ => (nomatch h), fun ⟨_, _, _, h⟩ => (nomatch h), fun _ h => (nomatch h), trivial⟩⟩

/-- C125 fails as stated if the ledger refuses in the middle of a mint: the record of the
first token of the batch stays. The same log is left by a mint of that token alone. In the
one collection alice owns token 1, in the other nobody. -/
theorem C125_violated_cut : ∃ (E E' : Env Nat) (s s' : State Nat), Reachable E s ∧ Reachable E' s' ∧ s.log = s'.log ∧
    icrc7OwnerOf s [1] = some [none] ∧ icrc7OwnerOf s' [1] = some [some Demo.alice] :=
  ⟨Demo.shortEnv 1, Demo.env, run (Demo.shortEnv 1) Demo.s0 [Demo.mintMsg],
    run Demo.env Demo.s0 [.call Demo.admin (Demo.ms 100) (.mint [{ owner := Demo.alice }])],
    Demo.reachShort 1 _, Demo.reach _, by rfl, by rfl, by rfl⟩

/-- C125 fails as stated for the metadata tokens are minted with: two collections with the
same log, given the same ids and owners, that show different metadata of token 1. -/
theorem C125_violated_metadata : ∃ (s s' : State Nat), Reachable Demo.env s ∧ Reachable Demo.env s' ∧ s.log = s'.log ∧
    s.lastId = s'.lastId ∧ icrc7TokenMetadata s [1] = some [some [("k", .nat 1)]] ∧
    icrc7TokenMetadata s' [1] = some [some [("k", .nat 2)]] :=
  ⟨run Demo.env Demo.s0 [.call Demo.admin (Demo.ms 100) (.mint [{ owner := Demo.alice, metadata := [("k", .nat 1)] }])],
    run Demo.env Demo.s0 [.call Demo.admin (Demo.ms 100) (.mint [{ owner := Demo.alice, metadata := [("k", .nat 2)] }])],
    Demo.reach _, Demo.reach _, by rfl, by rfl, by rfl, by rfl⟩

end Verif
