import Verif.Lemmas.Renaming
import Verif.Props.Demo
/-!
# C106: the collection plays no favourites
-/
namespace Verif.Spec

variable {H : Type}

/-- **C106.** Rename every principal in a history (a permutation that keeps the
anonymous principal): every reply stays word for word the same, and the state
reached is the old one with the names changed. So no principal is built into the
code: what somebody gets depends on what the collection has recorded about them,
not on who they are. From any state, reachable or not. -/
theorem C106_replies (r : Renaming) (E : Env H) (s : State H) (msgs : List Msg) :
    replies (r.env E) (r.state s) (msgs.map r.msg) = replies E s msgs ∧
      run (r.env E) (r.state s) (msgs.map r.msg) = r.state (run E s msgs) :=
  ⟨r.replies_ren (r.worlds E) s msgs, r.run_ren (r.worlds E) s msgs⟩

/-- **C106**, installation: it treats all installers alike, too. -/
theorem C106_installation (r : Renaming) (validUrl : String → Bool) (hid : H) (caller : Principal)
    (a : InitArgs) :
    init validUrl hid (r.to caller) (r.initArgs a) = (init validUrl hid caller a).map r.state :=
  r.init_ren validUrl hid caller a

/-- **C106**, reachable states: renaming a state that can occur gives a state that
can occur. -/
theorem C106_reachable (r : Renaming) (E : Env H) (s : State H) (h : Reachable E s) :
    Reachable (r.env E) (r.state s) := by
  obtain ⟨v, hid, c, a, s₀, msgs, h0, h1⟩ := h
  refine ⟨v, hid, r.to c, r.initArgs a, r.state s₀, msgs.map r.msg, ?_, ?_⟩
  · rw [r.init_ren, h0]; rfl
  · rw [r.run_ren (r.worlds E), h1]

/-- **C106**, newcomers: two principals of which nothing is recorded get, for the
same calls, the same replies, call by call, whatever the calls are. `ledger`: the
transaction log does not play favourites either. -/
theorem C106_newcomers (E : Env H) (s : State H) (a b : Principal)
    (ha : a ≠ anonymous) (hb : b ≠ anonymous) (hsa : Absent s a) (hsb : Absent s b)
    (ledger : ∀ h t, E.ledger.add h ((Renaming.swap a b ha hb).tx t) = E.ledger.add h t)
    (calls : List (Principal × Nat × Call)) :
    replies E s (calls.map fun x =>
        .call ((Renaming.swap a b ha hb).to x.1) x.2.1 ((Renaming.swap a b ha hb).call x.2.2))
      = replies E s (calls.map fun x => .call x.1 x.2.1 x.2.2) := by
  have key : ∀ (E E' : Env H) (s : State H), E.ledger = E'.ledger → ∀ l : List (Principal × Nat × Call),
      replies E s (l.map fun x => .call x.1 x.2.1 x.2.2) = replies E' s (l.map fun x => .call x.1 x.2.1 x.2.2) := by
    intro E E' s hE l
    induction l generalizing s with
    | nil => rfl
    | cons x l ih =>
      simp only [List.map_cons, replies]
      rw [Change.step_call_env E E' hE, ih]
  have hl : E.ledger = ((Renaming.swap a b ha hb).env E).ledger := by
    have : ∀ t, (Renaming.swap a b ha hb).symm.tx t = (Renaming.swap a b ha hb).tx t := fun t => rfl
    obtain ⟨⟨add⟩, p, f⟩ := E
    simp only [Renaming.env, Renaming.ledger, this] at *
    congr 1
    funext h t
    exact (ledger h t).symm
  have hs : (Renaming.swap a b ha hb).state s = s :=
    Renaming.state_fixed _ (fun p h1 h2 => Renaming.swapped_other h1 h2) hsa hsb
  have h := (C106_replies (Renaming.swap a b ha hb) E s (calls.map fun x => .call x.1 x.2.1 x.2.2)).1
  rw [hs, List.map_map] at h
  rw [← h]
  have e : (calls.map fun x : Principal × Nat × Call => Msg.call ((Renaming.swap a b ha hb).to x.1) x.2.1
      ((Renaming.swap a b ha hb).call x.2.2))
      = (calls.map fun x => ((Renaming.swap a b ha hb).to x.1, x.2.1, (Renaming.swap a b ha hb).call x.2.2)).map
        fun x => .call x.1 x.2.1 x.2.2 := by rw [List.map_map]; rfl
  have e' : calls.map ((Renaming.swap a b ha hb).msg ∘ fun x => .call x.1 x.2.1 x.2.2)
      = (calls.map fun x => ((Renaming.swap a b ha hb).to x.1, x.2.1, (Renaming.swap a b ha hb).call x.2.2)).map
        fun x => .call x.1 x.2.1 x.2.2 := by rw [List.map_map]; rfl
  rw [e, e']
  exact key _ _ s hl _

/-- **C106**, token queries: they answer the renamed question with the renamed
answer. -/
theorem C106_queries (r : Renaming) (s : State H) (now : Nat) (ids : List Nat) (as : List Account) (a : Account)
    (prev take : Option Nat) (qs : List IsApprovedArg) :
    icrc7OwnerOf (r.state s) ids = (icrc7OwnerOf s ids).map (·.map (·.map r.account)) ∧
      icrc7BalanceOf (r.state s) (as.map r.account) = icrc7BalanceOf s as ∧
      icrc7Tokens (r.state s) prev take = icrc7Tokens s prev take ∧
      icrc7TokensOf (r.state s) (r.account a) prev take = icrc7TokensOf s a prev take ∧
      icrc7TokenMetadata (r.state s) ids = icrc7TokenMetadata s ids ∧
      icrc7CollectionMetadata (r.state s) = icrc7CollectionMetadata s ∧
      icrc37IsApproved (r.state s) now (qs.map r.isApprovedArg) = icrc37IsApproved s now qs := by
  obtain ⟨h1, h2, h3, h4, h5, h6⟩ := r.queries_ren s ids as a prev take
  refine ⟨h1, h2, h3, h4, h5, h6, ?_⟩
  rw [icrc37IsApproved, icrc37IsApproved, List.map_map]
  exact List.map_congr_left fun q _ => r.isApproved_ren r.respell_inj s now q

/-- **C106**, listings of approvals, whatever order the table is walked in: the
renamed answer, page by page. -/
theorem C106_approvals (r : Renaming) (s : State H) (a : Account) (tid : Nat)
    (walk : List (Account × Approval) → List (Account × Approval)) (prev : Option ApprovalInfo) (take : Option Nat) :
    let walk' := fun l => (walk (l.map r.symm.entry)).map r.entry
    icrc37GetTokenApprovals (r.state s) walk' tid (prev.map r.info) take
        = (icrc37GetTokenApprovals s walk tid prev take).map r.info ∧
      icrc37GetCollectionApprovals (r.state s) walk' (r.account a) (prev.map r.info) take
        = (icrc37GetCollectionApprovals s walk a prev take).map r.info := by
  intro walk'
  have h : ∀ m : Map Account Approval, walk' (r.approvals m).entries = (walk m.entries).map r.entry := by
    intro m
    have e : ((r.approvals m).entries).map r.symm.entry = m.entries := by
      rw [Change.approvals, Change.entries_map, List.map_map]
      refine Change.list_fixed _ fun e _ => ?_
      simp only [Function.comp_apply, Change.entry, Change.approval, Renaming.account_back]
    simp only [walk', e]
  constructor
  · simp only [icrc37GetTokenApprovals, Change.state_tokAppr, Change.get_mapV]
    cases s.tokAppr.get tid with
    | none => rfl
    | some m => simp only [Option.map_some, h, r.approvalPage_ren]
  · simp only [icrc37GetCollectionApprovals, Change.state_collAppr, Change.get_mapA, Change.approvals_getD, h,
      r.approvalPage_ren]

/-- **C106**, queries of the administration: who may ask and what is answered. -/
theorem C106_admin_queries (r : Renaming) (s : State H) (caller p : Principal) (x : Permission) (path : String) :
    getAllStorageSubcanisters (r.state s) (r.to caller)
        = (getAllStorageSubcanisters s caller).map (·.map r.to) ∧
      getUploadStatus (r.state s) (r.to caller) path = getUploadStatus s caller path ∧
      getUserPermissions (r.state s) (r.to caller) (r.to p) = getUserPermissions s caller p ∧
      hasPermissionQuery (r.state s) (r.to caller) (r.to p) x = hasPermissionQuery s caller p x ∧
      httpRequest (r.state s) path = httpRequest s path := by
  refine ⟨?_, ?_, ?_, ?_, ?_⟩
  · simp only [getAllStorageSubcanisters, guarded, Change.state_perms, Change.hasPermission_ren,
      Change.state_subs, List.map_map]
    split
    · simp only [Option.map_some, List.map_map]; rfl
    · rfl
  · simp only [getUploadStatus, guarded, Change.state_perms, Change.hasPermission_ren, Change.state_uploads,
      Change.get_mapV, Option.map_map]
    rfl
  · simp only [getUserPermissions, guarded, Change.state_perms, Change.hasPermission_ren, Change.get_mapP,
      Option.map_id_fun, id]
  · simp only [hasPermissionQuery, guarded, Change.state_perms, Change.hasPermission_ren]
  · rfl

namespace RenDemo

/-- Alice and carol change places. -/
def r : Renaming := .swap [1] [3] (by decide) (by decide)

end RenDemo

-- the renaming does something: token 1 is alice's, and carol's after the change
example : icrc7OwnerOf Demo.s1 [1] = some [some Demo.alice] ∧
    icrc7OwnerOf (RenDemo.r.state Demo.s1) [1] = some [some Demo.carol] := by decide

-- in the renamed collection it is carol who can send token 1 on, and alice cannot
example :
    (match (step (RenDemo.r.env Demo.env) (RenDemo.r.state Demo.s1)
        (.call [3] (Demo.ms 200) (.transfer [{ to_ := Demo.bob, tid := 1 }]))).2 with
      | .batch [.ok _] => true
      | _ => false) = true ∧
    (match (step (RenDemo.r.env Demo.env) (RenDemo.r.state Demo.s1)
        (.call [1] (Demo.ms 200) (.transfer [{ to_ := Demo.bob, tid := 1 }]))).2 with
      | .batch [.error _] => true
      | _ => false) = true := by decide

-- the installer of a test collection gets the permissions, whoever they are
example : ((init (fun _ => true) (0 : Nat) (RenDemo.r.to [1]) { testMode := true }).map fun s =>
    (hasPermission s.perms [3] .minting, hasPermission s.perms [1] .minting)) = some (true, false) := by decide

-- reachable states remain reachable
example : Reachable (RenDemo.r.env Demo.env) (RenDemo.r.state Demo.s1) :=
  C106_reachable _ _ _ Demo.s1_reach

-- two strangers of the demo collection
example : Absent Demo.s1 [50] ∧ Absent Demo.s1 [60] := by
  constructor <;> exact
    { perms := by decide, tokens := by decide, byOwner := by decide, subs := by decide, guards := by decide
      uploads := by decide, tokAppr := fun e he => absurd (show e ∈ [] from he) (by simp)
      collAppr := fun e he => absurd (show e ∈ [] from he) (by simp)
      log := fun t ht a ha h => by
        have : ∀ t ∈ Demo.s1.log, (t.from_.all fun a => a.owner.length = 1 && a.owner.all (· ≤ 9)) ∧
          (t.to_.all fun a => a.owner.length = 1 && a.owner.all (· ≤ 9)) ∧
          (t.spender.all fun a => a.owner.length = 1 && a.owner.all (· ≤ 9)) := by decide
        have h2 := this t ht
        rcases ha with e | e | e <;> rw [e] at h2 <;> simp [h] at h2
      pending := fun x hx => absurd (show x ∈ [] from hx) (by simp) }

-- whatever the strangers try, they get the same replies; here a mint and a transfer
example : replies Demo.env Demo.s1 [.call [60] 5 (.mint []), .call [60] 6 (.transfer [{ to_ := ⟨[50], none⟩, tid := 1 }])]
    = replies Demo.env Demo.s1 [.call [50] 5 (.mint []), .call [50] 6 (.transfer [{ to_ := ⟨[60], none⟩, tid := 1 }])] := by
  rfl

end Verif.Spec
