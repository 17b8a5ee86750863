import Verif.Lemmas.Later
import Verif.Props.Demo
/-!
# C109: no date is built in
-/
namespace Verif.Spec

variable {H : Type}

/-- **C109**. Take a collection and a history, and move everything that is a date by
the same `d`: the arrival of the messages, the dates in the requests and the dates
in the collection. Then the replies are the same (an answer "created in the future"
names the moved time), and the collection afterwards is the same with its dates
moved. `timeless`: the transaction log does not look at the date either. `short`,
`amid`: no message arrives within twice the collection's own time limits of either
end of the clock. -/
theorem C109_later (E : Env H) (d : Nat) (timeless : Later.Timeless d E.ledger) (b : Nat) (s : State H)
    (short : Later.Short b s.cfg) (msgs : List Msg) (amid : ∀ m ∈ msgs, Later.Amid b d m) :
    replies E (Later.state d s) (msgs.map (Later.msg d)) = (replies E s msgs).map (Later.reply d) ∧
      run E (Later.state d s) (msgs.map (Later.msg d)) = Later.state d (run E s msgs) :=
  ⟨(Later.run_later timeless s short msgs amid).2, (Later.run_later timeless s short msgs amid).1⟩

/-- **C109**, from the beginning: installed with the same arguments, the collection
has no date in it, so the whole life of a collection can be moved. -/
theorem C109_whole (E : Env H) (d : Nat) (timeless : Later.Timeless d E.ledger) (b : Nat)
    (v : String → Bool) (hid : H) (c : Principal) (a : InitArgs) (s₀ : State H) (h0 : init v hid c a = some s₀)
    (short : Later.Short b s₀.cfg) (msgs : List Msg) (amid : ∀ m ∈ msgs, Later.Amid b d m) :
    replies E s₀ (msgs.map (Later.msg d)) = (replies E s₀ msgs).map (Later.reply d) ∧
      run E s₀ (msgs.map (Later.msg d)) = Later.state d (run E s₀ msgs) := by
  have h := C109_later E d timeless b s₀ short msgs amid
  rw [Later.init_later d h0] at h
  exact h

/-- **C109**, who may move a token, and what is listed: asked later about the
collection with its dates moved, the answers are the same. -/
theorem C109_approvals (d : Nat) (s : State H) (now : Nat) (qs : List IsApprovedArg)
    (walk walk' : List (Account × Approval) → List (Account × Approval))
    (hw : ∀ l, walk' (l.map (Later.entry d)) = (walk l).map (Later.entry d))
    (tid : Nat) (a : Account) (prev : Option ApprovalInfo) (take : Option Nat) :
    icrc37IsApproved (Later.state d s) (now + d) qs = icrc37IsApproved s now qs ∧
      icrc37GetTokenApprovals (Later.state d s) walk' tid (prev.map (Later.info d)) take
        = (icrc37GetTokenApprovals s walk tid prev take).map (Later.info d) ∧
      icrc37GetCollectionApprovals (Later.state d s) walk' a (prev.map (Later.info d)) take
        = (icrc37GetCollectionApprovals s walk a prev take).map (Later.info d) := by
  refine ⟨?_, ?_, ?_⟩
  · exact List.map_congr_left fun q _ => Later.isApproved_later d s now q
  · simp only [icrc37GetTokenApprovals, Later.state_tokAppr, Change.get_mapV]
    cases s.tokAppr.get tid with
    | none => rfl
    | some m =>
      simp only [Option.map_some]
      rw [show (Later.approvals d m).entries = m.entries.map (Later.entry d) from rfl, hw]
      exact Later.approvalPage_later d _ prev take
  · simp only [icrc37GetCollectionApprovals, Later.state_collAppr, Change.get_mapV, Later.approvals_getD]
    rw [show ∀ m, (Later.approvals d m).entries = m.entries.map (Later.entry d) from fun _ => rfl, hw]
    exact Later.approvalPage_later d _ prev take

/-- **C109**, the other queries: what they answer contains no date and depends on
none. -/
theorem C109_answers (d : Nat) (s : State H) (ids : List Nat) (as : List Account) (a : Account)
    (prev take : Option Nat) (c : Principal) (path : String) :
    icrc7OwnerOf (Later.state d s) ids = icrc7OwnerOf s ids ∧
      icrc7BalanceOf (Later.state d s) as = icrc7BalanceOf s as ∧
      icrc7Tokens (Later.state d s) prev take = icrc7Tokens s prev take ∧
      icrc7TokensOf (Later.state d s) a prev take = icrc7TokensOf s a prev take ∧
      icrc7TokenMetadata (Later.state d s) ids = icrc7TokenMetadata s ids ∧
      icrc7CollectionMetadata (Later.state d s) = icrc7CollectionMetadata s ∧
      getUploadStatus (Later.state d s) c path = getUploadStatus s c path ∧
      httpRequest (Later.state d s) path = httpRequest s path := by
  refine ⟨rfl, rfl, rfl, rfl, rfl, rfl, ?_, rfl⟩
  simp only [getUploadStatus, Later.state_uploads, Change.get_mapV, Option.map_map]
  rfl

/-- **C109**, the daily clean-up: it asks for the same uploads to be cancelled. -/
theorem C109_cleanup (d : Nat) (s : State H) (now : Nat)
    (h : ∀ e ∈ s.uploads.entries, e.2.initTs + d + dayInMs < 2 ^ 64) :
    gcCancels (Later.state d s) (now + d) = gcCancels s now := by
  exact Later.filter_uploads d (gcSelects now) (gcSelects (now + d)) s.uploads.entries
    fun e he => Later.gcSelects_later d now e.2 (h e he)

namespace LaterDemo

/-- A minute after the clock began. -/
def minute : Nat := 60000000000
/-- A hundred years. -/
def century : Nat := 3155760000000000000

/-- alice lets carol move token 2 for a second; carol is half a second early with a
request of its own, then too late, and bob asks from the future. -/
def story : List Msg :=
  [.call Demo.admin minute (.mint [{ owner := Demo.alice }, { owner := Demo.alice }, { owner := Demo.bob }]),
    .call [1] (minute + Demo.ms 500) (.approveTokens
      [{ tid := 2, info := { spender := Demo.carol, expiresAt := some (minute + Demo.ms 1500), createdAt := minute + Demo.ms 400 } }]),
    .call [3] (minute + Demo.ms 1500) (.transferFrom [{ from_ := Demo.alice, to_ := Demo.carol, tid := 2 }]),
    .call [2] (minute + Demo.ms 1600) (.transfer [{ to_ := Demo.alice, tid := 3, createdAt := some (minute + Demo.ms 2000) }]),
    .call [2] (minute + Demo.ms 1700) (.transfer [{ to_ := Demo.alice, tid := 3, createdAt := some minute }])]

end LaterDemo

-- the log of the demo collection does not look at dates
example (d : Nat) : Later.Timeless d Demo.env.ledger := fun _ _ => rfl

-- the limits of the demo collection are ten seconds and 50 ms
example : Later.Short 10000000000 Demo.s0.cfg := by unfold Later.Short; decide

-- the story is far from both ends of the clock, moved by a century or not
example : ∀ m ∈ LaterDemo.story, Later.Amid 10000000000 LaterDemo.century m := by
  intro m hm
  simp only [LaterDemo.story, List.mem_cons, List.not_mem_nil, or_false] at hm
  rcases hm with rfl | rfl | rfl | rfl | rfl <;>
    exact ⟨by decide, by decide, trivial⟩

-- it uses every kind of answer: an expired approval, a request from the future, an accepted transfer
example : (match replies Demo.env Demo.s0 LaterDemo.story with
    | [.mgmt (.ok (.id 1)), .batch [.ok _], .batch [.error .unauthorized], .batch [.error (.createdInFuture t)], .batch [.ok _]] =>
      t == LaterDemo.minute + Demo.ms 1600
    | _ => false) = true := by decide

-- a century later the time is reported a century later
example : (match replies Demo.env Demo.s0 (LaterDemo.story.map (Later.msg LaterDemo.century)) with
    | [.mgmt (.ok (.id 1)), .batch [.ok _], .batch [.error .unauthorized], .batch [.error (.createdInFuture t)], .batch [.ok _]] =>
      t == LaterDemo.century + LaterDemo.minute + Demo.ms 1600
    | _ => false) = true := by decide

-- close to the end of the clock it is different: `now + drift` starts again from zero
example : (match replies Demo.env Demo.s1 [.call [1] (2 ^ 64 - 1000) (.transfer [{ to_ := Demo.bob, tid := 1 }])] with
    | [.batch [.error (.createdInFuture _)]] => true
    | _ => false) = true := by decide

-- walking a table in the order of its entries commutes with moving dates
example (d : Nat) : ∀ l : List (Account × Approval), id (l.map (Later.entry d)) = (id l).map (Later.entry d) := fun _ => rfl

-- an upload that can be moved
example : ∀ e ∈ (⟨[("a", { initTs := LaterDemo.minute, state := .init, canister := [5], path := "a" })]⟩ : Map String Upload).entries,
    e.2.initTs + LaterDemo.century + dayInMs < 2 ^ 64 := by decide

end Verif.Spec
