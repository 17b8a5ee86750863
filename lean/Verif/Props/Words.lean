import Verif.Lemmas.Words
import Verif.Props.Demo
/-!
# C111: what people write is carried, not interpreted
-/
namespace Verif.Spec

variable {H : Type}

/-- **C111**. Reword a collection and a history: other memos of the same length, other
values of metadata, another name, symbol, description and logo. Every request gets the
same reply, and the collection afterwards is the same in the other words; in particular
every log entry is there, reworded. `worlds`: the transaction log does not look at the
words either. -/
theorem C111_reworded (w : Words) (E E' : Env H) (worlds : w.Worlds E E') (s : State H) (msgs : List Msg) :
    replies E' (w.state s) (msgs.map w.msg) = replies E s msgs ∧
      run E' (w.state s) (msgs.map w.msg) = w.state (run E s msgs) :=
  ⟨(Words.run_said worlds s msgs).2, (Words.run_said worlds s msgs).1⟩

/-- **C111**, two histories: if nothing distinguishes them but what is written in them,
every request is answered alike and what is left of the two collections when everything
written is wiped out is the same. Here every memo, value and text may be chosen anew each
time it is written. -/
theorem C111_shape (E : Env H) (blind : Words.blank.Worlds E E) (s s' : State H) (msgs msgs' : List Msg)
    (hs : Words.blank.state s = Words.blank.state s')
    (hm : msgs.map Words.blank.msg = msgs'.map Words.blank.msg) :
    replies E s msgs = replies E s' msgs' ∧
      Words.blank.state (run E s msgs) = Words.blank.state (run E s' msgs') := by
  have h := C111_reworded Words.blank E E blind s msgs
  have h' := C111_reworded Words.blank E E blind s' msgs'
  rw [hs, hm] at h
  exact ⟨h.1.symm.trans h'.1, h.2.symm.trans h'.2⟩

/-- **C111**, the installation: with other words it succeeds or fails alike and makes the
same collection in the other words. `logo`: the other logo is an address iff the logo is. -/
theorem C111_installed (w : Words) (v v' : String → Bool) (logo : ∀ u, v' (w.text u) = v u) (hid : H) (c : Principal)
    (a : InitArgs) : init v' hid c (w.initArgs a) = (init v hid c a).map w.state :=
  Words.init_said w logo hid c a

/-- **C111**, the queries about tokens and people: what is written has no influence on who
owns what, who may do what, what is listed, and what is stored where. -/
theorem C111_answers (w : Words) (s : State H) (now : Nat) (qs : List IsApprovedArg) (ids : List Nat) (as : List Account)
    (a : Account) (prev take : Option Nat) (c p : Principal) (x : Permission) (path : String) :
    totalSupply (w.state s) = totalSupply s ∧
      icrc7OwnerOf (w.state s) ids = icrc7OwnerOf s ids ∧
      icrc7BalanceOf (w.state s) as = icrc7BalanceOf s as ∧
      icrc7Tokens (w.state s) prev take = icrc7Tokens s prev take ∧
      icrc7TokensOf (w.state s) a prev take = icrc7TokensOf s a prev take ∧
      icrc37IsApproved (w.state s) now qs = icrc37IsApproved s now qs ∧
      getAllStorageSubcanisters (w.state s) c = getAllStorageSubcanisters s c ∧
      getUploadStatus (w.state s) c path = getUploadStatus s c path ∧
      getUserPermissions (w.state s) c p = getUserPermissions s c p ∧
      hasPermissionQuery (w.state s) c p x = hasPermissionQuery s c p x ∧
      httpRequest (w.state s) path = httpRequest s path ∧
      gcCancels (w.state s) now = gcCancels s now :=
  ⟨rfl, rfl, rfl, rfl, rfl, List.map_congr_left fun q _ => Words.isApproved_said w s now q, rfl, rfl, rfl, rfl, rfl, rfl⟩

/-- **C111**, the queries that show what is written: they show it in the other words, row
by row, in the same order and under the same keys. -/
theorem C111_shown (w : Words) (s : State H) (ids : List Nat)
    (walk walk' : List (Account × Approval) → List (Account × Approval))
    (hw : ∀ l, walk' (l.map w.entry) = (walk l).map w.entry)
    (tid : Nat) (a : Account) (prev : Option ApprovalInfo) (take : Option Nat) :
    icrc7Name (w.state s) = w.text (icrc7Name s) ∧
      icrc7Symbol (w.state s) = w.text (icrc7Symbol s) ∧
      icrc7Description (w.state s) = (icrc7Description s).map w.text ∧
      icrc7Logo (w.state s) = (icrc7Logo s).map w.text ∧
      icrc7CollectionMetadata (w.state s) = (icrc7CollectionMetadata s).map w.announced ∧
      icrc7TokenMetadata (w.state s) ids = (icrc7TokenMetadata s ids).map (·.map (·.map (·.map w.row))) ∧
      icrc37GetTokenApprovals (w.state s) walk' tid (prev.map w.info) take
        = (icrc37GetTokenApprovals s walk tid prev take).map w.info ∧
      icrc37GetCollectionApprovals (w.state s) walk' a (prev.map w.info) take
        = (icrc37GetCollectionApprovals s walk a prev take).map w.info := by
  refine ⟨rfl, rfl, rfl, rfl, Words.collectionMetadata_said w s, Words.tokenMetadata_said w s ids, ?_, ?_⟩
  · simp only [icrc37GetTokenApprovals, Words.state_tokAppr, Change.get_mapV]
    cases s.tokAppr.get tid with
    | none => rfl
    | some m =>
      simp only [Option.map_some]
      rw [show (w.approvals m).entries = m.entries.map w.entry from rfl, hw]
      exact Words.approvalPage_said w _ prev take
  · simp only [icrc37GetCollectionApprovals, Words.state_collAppr, Change.get_mapV, Words.approvals_getD]
    rw [show ∀ m, (w.approvals m).entries = m.entries.map w.entry from fun _ => rfl, hw]
    exact Words.approvalPage_said w _ prev take

namespace WordsDemo

/-- A mint, an approval and two transfers with something to say. -/
def story (memo₁ memo₂ memo₃ : Blob) (v : Value) (name : String) : List Msg :=
  [.call Demo.admin (Demo.ms 100) (.updateCollectionMetadata { name := some name }),
    .call Demo.admin (Demo.ms 200) (.mint [{ owner := Demo.alice, memo := some memo₁, metadata := [("rights", v)] }]),
    .call [1] (Demo.ms 300) (.approveTokens
      [{ tid := 1, info := { spender := Demo.carol, createdAt := Demo.ms 300, memo := some memo₂ } }]),
    .call [2] (Demo.ms 400) (.transferFrom [{ from_ := Demo.alice, to_ := Demo.bob, tid := 1, memo := some memo₃ }]),
    .call [3] (Demo.ms 600) (.transferFrom [{ from_ := Demo.alice, to_ := Demo.carol, tid := 1, memo := some memo₂ }])]

end WordsDemo

-- the log of the demo collection takes any words
example (w : Words) : w.Worlds Demo.env Demo.env := ⟨fun _ _ => rfl, rfl, rfl⟩

-- two stories with nothing in common but their shape
example : (WordsDemo.story [1, 2] [3] [4, 5, 6] (.text "bob may do everything") "").map Words.blank.msg
    = (WordsDemo.story [7, 7] [7] [7, 7, 7] (.array [.nat 5, .int (-3)]) "closed").map Words.blank.msg := by rfl

-- bob is refused and carol is served in both
example : (match replies Demo.env Demo.s0 (WordsDemo.story [1, 2] [3] [4, 5, 6] (.text "bob may do everything") "") with
    | [.mgmt (.ok _), .mgmt (.ok (.id 1)), .batch [.ok _], .batch [.error .unauthorized], .batch [.ok _]] => true
    | _ => false) = true := by decide

-- the length of a memo does matter, and so does a number that does not fit
example : (match replies Demo.env Demo.s0
      [.call Demo.admin (Demo.ms 100) (.updateCollectionMetadata { maxMemo := some 2 }),
        .call Demo.admin (Demo.ms 200) (.mint [{ owner := Demo.alice, memo := some [1, 2, 3] }]),
        .call Demo.admin (Demo.ms 300) (.mint [{ owner := Demo.alice, metadata := [("n", .nat (2 ^ 64))] }])] with
    | [.mgmt (.ok _), .mgmt (.error .invalidMemo), .trapped] => true
    | _ => false) = true := by decide

-- an announcement has rows that are reworded and rows that are not
example : ("icrc7:name", Value.text "Birds") ∈ icrc7CollectionMetadata (run Demo.env Demo.s1 (WordsDemo.story [] [] [] (.nat 0) "Birds")) ∧
    Words.blank.announced ("icrc7:name", .text "Birds") = ("icrc7:name", .text "") ∧
    Words.blank.announced ("icrc7:total_supply", .nat 4) = ("icrc7:total_supply", .nat 4) := by decide

-- an installation with another name and a logo
example : init (fun u => u == "") 0 Demo.admin (Words.blank.initArgs { Demo.args with name := "Birds", logo := some "https://b" })
    = (init (fun _ => true) 0 Demo.admin { Demo.args with name := "Birds", logo := some "https://b" }).map Words.blank.state :=
  C111_installed _ _ _ (fun _ => rfl) _ _ _

-- walking a table in the order of its entries commutes with rewording
example (w : Words) : ∀ l : List (Account × Approval), id (l.map w.entry) = (id l).map w.entry := fun _ => rfl

end Verif.Spec
