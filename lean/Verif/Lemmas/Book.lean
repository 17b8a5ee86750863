import Verif.Spec.Book
import Verif.Lemmas.Approvals
import Verif.Lemmas.Batch
/-!
# Lemmas for Props/Book
-/
namespace Verif

open Spec

variable {H : Type}

theorem account_holder (a : Account) : (Holder.account (holder a) == a) = true := by
  rw [Account.beq_iff]; exact ⟨rfl, rfl⟩

theorem holder_account (h : Holder) : holder (Holder.account h) = h := rfl

theorem holder_eq {a b : Account} : holder a = holder b ↔ (a == b) = true := by
  rw [Account.beq_iff]
  exact Prod.mk.injEq _ _ _ _ ▸ Iff.rfl

theorem account_beq {h : Holder} {a : Account} : (a == Holder.account h) = true ↔ h = holder a := by
  rw [← holder_eq, holder_account]
  exact ⟨Eq.symm, Eq.symm⟩

theorem nobody_eq : nobody = holder anonymousAccount := rfl

/-- The times approvals in a table end at. -/
def ends (m : Option (Map Account Approval)) (sp : Holder) : Option (Option Nat) :=
  (m.bind fun m => m.get (Holder.account sp)).map Approval.expiresAt

theorem bookOf_token (s : State H) (tid : Nat) : (bookOf s).token tid = ends (s.tokAppr.get tid) := rfl

theorem bookOf_all (s : State H) (o : Account) : (bookOf s).all (holder o) = ends (s.collAppr.get o) := by
  funext sp
  show ends (s.collAppr.get (Holder.account (holder o))) sp = _
  rw [Map.get_congr _ (account_holder o)]

theorem ends_set (m : Map Account Approval) (sp : Account) (a : Approval) :
    ends (some (m.set sp a)) = upd (ends (some m)) (holder sp) (some a.expiresAt) := by
  funext h
  unfold ends upd
  simp only [Option.bind_some, Map.get_set]
  by_cases hh : h = holder sp
  · rw [if_pos (account_beq.2 hh), if_pos hh]; rfl
  · rw [if_neg (fun hc => hh (account_beq.1 hc)), if_neg hh]

theorem ends_del (m : Map Account Approval) (sp : Account) :
    ends (some (m.del sp)) = upd (ends (some m)) (holder sp) none := by
  funext h
  unfold ends upd
  simp only [Option.bind_some, Map.get_del]
  by_cases hh : h = holder sp
  · rw [if_pos (account_beq.2 hh), if_pos hh]; rfl
  · rw [if_neg (fun hc => hh (account_beq.1 hc)), if_neg hh]

theorem ends_none : ends none = fun _ => none := rfl

theorem ends_empty : ends (some ∅) = fun _ => none := rfl

theorem ends_drop (m : Map Account Approval) (sp : Option Account) :
    ends (some (dropSpender m sp)) = without (ends (some m)) sp := by
  cases sp with
  | none => rfl
  | some a => exact ends_del m a

theorem ends_getD (o : Option (Map Account Approval)) : ends (some (o.getD ∅)) = ends o := by
  cases o <;> rfl

theorem token_set (t : Map Nat (Map Account Approval)) (tid : Nat) (m : Map Account Approval) :
    (fun k => ends ((t.set tid m).get k)) = upd (fun k => ends (t.get k)) tid (ends (some m)) := by
  funext k
  unfold upd
  rw [Map.get_set]
  by_cases h : k = tid
  · subst h; simp
  · rw [if_neg h, if_neg (by simpa using fun hc => h hc.symm)]

theorem token_del (t : Map Nat (Map Account Approval)) (tid : Nat) :
    (fun k => ends ((t.del tid).get k)) = upd (fun k => ends (t.get k)) tid (fun _ => none) := by
  funext k
  unfold upd
  rw [Map.get_del]
  by_cases h : k = tid
  · subst h; simp [ends_none]
  · rw [if_neg h, if_neg (by simpa using fun hc => h hc.symm)]

theorem all_set (t : Map Account (Map Account Approval)) (o : Account) (m : Map Account Approval) :
    (fun h => ends ((t.set o m).get (Holder.account h))) =
      upd (fun h => ends (t.get (Holder.account h))) (holder o) (ends (some m)) := by
  funext h
  unfold upd
  rw [Map.get_set]
  by_cases hh : h = holder o
  · rw [if_pos (account_beq.2 hh), if_pos hh]
  · rw [if_neg (fun hc => hh (account_beq.1 hc)), if_neg hh]

theorem all_del (t : Map Account (Map Account Approval)) (o : Account) :
    (fun h => ends ((t.del o).get (Holder.account h))) =
      upd (fun h => ends (t.get (Holder.account h))) (holder o) (fun _ => none) := by
  funext h
  unfold upd
  rw [Map.get_del]
  by_cases hh : h = holder o
  · rw [if_pos (account_beq.2 hh), if_pos hh]; rfl
  · rw [if_neg (fun hc => hh (account_beq.1 hc)), if_neg hh]

theorem owner_set (t : Map Nat Token) (tid : Nat) (x : Token) :
    (fun k => (((t.set tid x).get k).map Token.owner).map holder) =
      upd (fun k => ((t.get k).map Token.owner).map holder) tid (some (holder x.owner)) := by
  funext k
  unfold upd
  rw [Map.get_set]
  by_cases h : k = tid
  · subst h; simp
  · rw [if_neg h, if_neg (by simpa using fun hc => h hc.symm)]

theorem owner_del (t : Map Nat Token) (tid : Nat) :
    (fun k => (((t.del tid).get k).map Token.owner).map holder) =
      upd (fun k => ((t.get k).map Token.owner).map holder) tid none := by
  funext k
  unfold upd
  rw [Map.get_del]
  by_cases h : k = tid
  · subst h; simp
  · rw [if_neg h, if_neg (by simpa using fun hc => h hc.symm)]

theorem inForce_ends {m : Option (Map Account Approval)} {sp : Account} {a : Approval} {now : Nat}
    (h : m.bind (fun m => m.get sp) = some a) (hl : Live a now) : InForce now (ends m (holder sp)) := by
  have he : ends m (holder sp) = some a.expiresAt := by
    unfold ends
    cases m with
    | none => cases h
    | some m =>
      simp only [Option.bind_some] at h ⊢
      rw [Map.get_congr _ (account_holder sp), h]; rfl
  rw [he]
  unfold Live at hl
  cases hx : a.expiresAt with
  | none => trivial
  | some e => exact hl e hx

theorem ended_ends {m : Map Account Approval} {sp : Account} {a : Approval} {now : Nat}
    (h : m.get sp = some a) (hl : ¬ Live a now) : Ended now (ends (some m) (holder sp)) := by
  have he : ends (some m) (holder sp) = some a.expiresAt := by
    unfold ends
    simp only [Option.bind_some]
    rw [Map.get_congr _ (account_holder sp), h]; rfl
  rw [he]
  unfold Live at hl
  cases hx : a.expiresAt with
  | none => exact absurd (fun e he => by rw [hx] at he; cases he) hl
  | some e =>
    refine ⟨e, rfl, ?_⟩
    refine Nat.le_of_not_lt fun hlt => hl fun e' he' => ?_
    rw [hx] at he'
    cases he'
    exact hlt

/-- A state's book, by its tables. -/
theorem bookOf_eq (s : State H) : bookOf s =
    { owner := fun k => ((s.tokens.get k).map Token.owner).map holder
      next := s.lastId
      token := fun k => ends (s.tokAppr.get k)
      all := fun h => ends (s.collAppr.get (Holder.account h))
      may := fun p x => Holds s p x } := rfl

theorem holds_grant {s : State H} {p : Principal} {x : Permission} :
    (fun q y => Holds { s with perms := grantPermission s.perms p x } q y) = fun q y => (q = p ∧ y = x) ∨ Holds s q y := by
  funext q y
  apply propext
  unfold Holds grantPermission
  simp only [Map.get_set]
  by_cases hq : q = p
  · subst hq
    simp only [beq_self_eq_true, if_true, Option.some.injEq, exists_eq_left', List.mem_append, List.mem_singleton, true_and]
    cases s.perms.get q with
    | none => simp
    | some l => simp [or_comm]
  · rw [if_neg (by simpa using fun hc => hq hc.symm)]
    simp [hq]

theorem holds_revoke {s : State H} {p : Principal} {x : Permission} :
    (fun q y => Holds { s with perms := revokePermission s.perms p x } q y) = fun q y => ¬ (q = p ∧ y = x) ∧ Holds s q y := by
  funext q y
  apply propext
  unfold Holds revokePermission
  by_cases hq : q = p
  · subst hq
    cases hg : s.perms.get q with
    | none => simp [hg]
    | some l =>
      simp only [Map.get_set_self, Option.some.injEq, exists_eq_left', List.mem_filter, decide_eq_true_eq, true_and]
      simp [and_comm]
  · cases hg : s.perms.get p with
    | none => simp [hq]
    | some l =>
      simp only [Map.get_set]
      rw [if_neg (by simpa using fun hc => hq hc.symm)]
      simp [hq]

theorem Spec.Does.to {c : Principal} {now : Nat} {call : Call} {b b' b'' : Book} (h : Does c now call b b') (he : b'' = b') :
    Does c now call b b'' := he ▸ h

theorem Spec.Forgets.to {c : Principal} {now : Nat} {arg : TransferFromArg} {b b' b'' : Book} (h : Forgets c now arg b b')
    (he : b'' = b') : Forgets c now arg b b'' := he ▸ h

theorem Spec.Reaction.to {D : Prop} {c : Principal} {now : Nat} {call : Call} {r : Reply} {b b' b'' : Book}
    (h : Reaction D c now call r b b') (he : b'' = b') : Reaction D c now call r b b'' := he ▸ h

theorem Spec.Book.ext' {b b' : Book} (h1 : b.owner = b'.owner) (h2 : b.next = b'.next) (h3 : b.token = b'.token)
    (h4 : b.all = b'.all) (h5 : b.may = b'.may) : b = b' := by
  cases b; cases b'; simp only at h1 h2 h3 h4 h5; subst h1 h2 h3 h4 h5; rfl

/-! ### items -/

theorem book_own {s : State H} {tid : Nat} {x : Token} (hx : s.tokens.get tid = some x) :
    (bookOf s).owner tid = some (holder x.owner) := by
  show (Owner s tid).map holder = _
  rw [owner_of_get hx]; rfl

theorem book_ownerOf {s : State H} {tid : Nat} {o a : Account} (h : ownerOf s tid = some o) (he : (o == a) = true) :
    (bookOf s).owner tid = some (holder a) := by
  rw [← holder_eq.2 he]
  show (Owner s tid).map holder = _
  have : Owner s tid = some o := h
  rw [this]; rfl

theorem holder_ne {a b : Account} (h : (a == b) = false) : holder a ≠ holder b := by
  intro he
  rw [holder_eq.1 he] at h; cases h

theorem item_transfer {E : Env H} {s s' : State H} {c : Principal} {now : Nat} {arg : TransferArg} {r}
    (hi : TokInv s) (hc : c ≠ anonymous) (h : transferNft E.ledger s c now arg = some (s', r)) :
    Item (CanRepeat E.ledger) c now (.transfer [arg]) r (bookOf s) (bookOf s') ∧ TokInv s' := by
  have hout := transferNft_out h
  clear h
  cases hout with
  | refused w h e => exact ⟨.refused, hi.nodup, hi.ids, hi.fresh, hi.pos, hi.start⟩
  | duplicate w nft h d tok add =>
    exact ⟨.repeated ⟨_, _, _, _, add⟩ (book_own tok), hi.nodup, hi.ids, hi.fresh, hi.pos, hi.start⟩
  | moved w nft h i tok hown toOk diff memo timing add =>
    refine ⟨.done ((Does.transfer (book_own tok) hown hc (holder_ne diff).symm toOk).to ?_), ?_⟩
    · refine Book.ext' ?_ rfl rfl rfl rfl
      simp only [moveToken_eq, hi.ids _ _ tok]
      exact owner_set _ _ _
    · exact tokInv_micro (E := E) (s := { s with windows := w, hid := s.hid }) ⟨hi.nodup, hi.ids, hi.fresh, hi.pos, hi.start⟩
        (Micro.xfer arg nft h i (List.mem_singleton.2 rfl) hc tok hown toOk diff memo timing add)

theorem item_transferFrom {E : Env H} {s s' : State H} {c : Principal} {now : Nat} {arg : TransferFromArg} {r} {D : Prop}
    (hi : TokInv s) (h : transferFrom E.ledger s c now arg = some (s', r)) :
    Item D c now (.transferFrom [arg]) r (bookOf s) (bookOf s') ∧ TokInv s' := by
  have hout := transferFrom_out h
  clear h
  cases hout with
  | refused w h ta ca e hta hca =>
    refine ⟨.forgot ?_, hi.nodup, hi.ids, hi.fresh, hi.pos, hi.start⟩
    have h1 : Forgets c now arg (bookOf s) (bookOf { s with tokAppr := ta }) := by
      rcases hta with rfl | ⟨m, a, hm, ha, hexp, rfl⟩
      · exact .nothing
      · refine (Forgets.token ?_).to ?_
        · rw [bookOf_token, hm]
          exact ended_ends ha hexp
        · refine Book.ext' rfl rfl ?_ rfl rfl
          rw [bookOf_token, hm, ← ends_del]
          exact token_set _ _ _
    refine .both h1 ?_
    rcases hca with rfl | ⟨nft, tok, rfl | ⟨m, a, base, hm, ha, hexp, hbase, rfl⟩⟩
    · exact .nothing
    · exact .nothing
    · refine (Forgets.all (book_own (s := { s with tokAppr := ta }) tok) ?_).to ?_
      · rw [bookOf_all]
        show Ended _ (ends (s.collAppr.get _) _)
        rw [hm]
        exact ended_ends ha hexp
      · refine Book.ext' rfl rfl rfl ?_ rfl
        rw [bookOf_all]
        show _ = upd _ _ (upd (ends (s.collAppr.get _)) _ _)
        rw [hm, ← ends_del]
        refine (all_set _ _ _).trans ?_
        rcases hbase with rfl | rfl
        · rfl
        · rw [all_del]
          funext h
          simp only [upd]
          split
          · rfl
          · rfl
  | moved w nft h i tok hown auth diff toOk timing add =>
    have ho : holder arg.from_ = holder nft.owner := (holder_eq.2 hown).symm
    refine ⟨.done ((Does.transferFrom (book_own tok) ho ?_ (ho ▸ (holder_ne diff).symm) (holder_ne toOk)).to ?_), ?_⟩
    · rcases auth with h | ⟨a, ⟨m, hm, ha⟩, hl⟩ | ⟨a, ⟨m, hm, ha⟩, hl⟩
      · exact .inl (holder_eq.2 h)
      · refine .inr (.inl ?_)
        rw [bookOf_token]
        exact inForce_ends (by rw [hm]; exact ha) hl
      · refine .inr (.inr ?_)
        rw [bookOf_all]
        exact inForce_ends (by rw [hm]; exact ha) hl
    · refine Book.ext' ?_ rfl ?_ ?_ rfl
      · simp only [moveToken_eq, hi.ids _ _ tok]
        exact owner_set _ _ _
      · exact token_del _ _
      · rw [← ho]; exact all_del _ _
    · exact tokInv_micro (E := E) (s := { s with windows := w, hid := s.hid }) ⟨hi.nodup, hi.ids, hi.fresh, hi.pos, hi.start⟩
        (Micro.xferFrom arg nft h i (List.mem_singleton.2 rfl) tok hown auth diff toOk timing add)

theorem item_approve {E : Env H} {s s' : State H} {c : Principal} {now : Nat} {arg : ApproveTokenArg} {r} {D : Prop}
    (hi : TokInv s) (h : approveToken E.ledger s c now arg = some (s', r)) :
    Item D c now (.approveTokens [arg]) r (bookOf s) (bookOf s') ∧ TokInv s' := by
  have hout := approveToken_out h
  clear h
  cases hout with
  | refused w h e => exact ⟨.refused, hi.nodup, hi.ids, hi.fresh, hi.pos, hi.start⟩
  | approved w owner h i hown eqv sp room timing add =>
    refine ⟨.done ((Does.approve (book_ownerOf hown eqv) (holder_ne sp)).to ?_), hi.nodup, hi.ids, hi.fresh, hi.pos, hi.start⟩
    refine Book.ext' rfl rfl ?_ rfl rfl
    refine (token_set _ _ _).trans ?_
    rw [ends_set, ends_getD]; rfl

theorem item_approveAll {E : Env H} {s s' : State H} {c : Principal} {now : Nat} {info : ApprovalInfo} {r} {D : Prop}
    (hi : TokInv s) (h : approveCollection E.ledger s c now info = (s', r)) :
    Item D c now (.approveCollection [info]) r (bookOf s) (bookOf s') ∧ TokInv s' := by
  have hout := approveCollection_out h
  clear h
  cases hout with
  | refused w h e => exact ⟨.refused, hi.nodup, hi.ids, hi.fresh, hi.pos, hi.start⟩
  | approved w h i sp holds room timing add =>
    obtain ⟨e, he, hec⟩ := holds
    refine ⟨.done ((Does.approveAll (book_own (Map.get_of_mem hi.nodup he)) hec (holder_ne sp)).to ?_),
      hi.nodup, hi.ids, hi.fresh, hi.pos, hi.start⟩
    refine Book.ext' rfl rfl rfl ?_ rfl
    refine (all_set _ _ _).trans ?_
    rw [ends_set, ends_getD, bookOf_all]; rfl

theorem item_revoke {E : Env H} {s s' : State H} {c : Principal} {now : Nat} {arg : RevokeTokenArg} {r} {D : Prop}
    (hi : TokInv s) (h : revokeToken E.ledger s c now arg = some (s', r)) :
    Item D c now (.revokeTokens [arg]) r (bookOf s) (bookOf s') ∧ TokInv s' := by
  have hout := revokeToken_out h
  clear h
  cases hout with
  | refused h e => exact ⟨.refused, hi.nodup, hi.ids, hi.fresh, hi.pos, hi.start⟩
  | revoked owner h i m hown eqv hm timing add =>
    refine ⟨.done ((Does.revoke (book_ownerOf hown eqv)).to ?_), hi.nodup, hi.ids, hi.fresh, hi.pos, hi.start⟩
    refine Book.ext' rfl rfl ?_ rfl rfl
    refine (token_set _ _ _).trans ?_
    rw [ends_drop, bookOf_token, hm]; rfl

theorem item_revokeAll {E : Env H} {s s' : State H} {c : Principal} {now : Nat} {arg : RevokeCollArg} {r} {D : Prop}
    (hi : TokInv s) (h : revokeCollection E.ledger s c now arg = (s', r)) :
    Item D c now (.revokeCollection [arg]) r (bookOf s) (bookOf s') ∧ TokInv s' := by
  have hout := revokeCollection_out h
  clear h
  cases hout with
  | refused w h e => exact ⟨.refused, hi.nodup, hi.ids, hi.fresh, hi.pos, hi.start⟩
  | revoked w h i m hm timing add =>
    refine ⟨.done (Does.revokeAll.to ?_), hi.nodup, hi.ids, hi.fresh, hi.pos, hi.start⟩
    refine Book.ext' rfl rfl rfl ?_ rfl
    refine (all_set _ _ _).trans ?_
    rw [ends_drop, bookOf_all, hm]; rfl

/-- A batch, item by item. -/
theorem runBatch_items {A : Type} {D : Prop} {c : Principal} {now : Nat}
    {f : State H → A → Option (State H × Except TokErr Nat)} {one : A → Call}
    (hf : ∀ s a s' r, TokInv s → f s a = some (s', r) → Item D c now (one a) r (bookOf s) (bookOf s') ∧ TokInv s')
    (args : List A) : ∀ {s s' : State H} {rs}, TokInv s → runBatch f s args = some (s', rs) →
      Items D c now (args.map one) rs (bookOf s) (bookOf s') := by
  induction args with
  | nil => intro s s' rs _ h; simp [runBatch] at h; obtain ⟨rfl, rfl⟩ := h; exact .nil
  | cons a as ih =>
    intro s s' rs hi h
    obtain ⟨t, r, rs', h1, h2, rfl⟩ := runBatch_cons h
    obtain ⟨h3, h4⟩ := hf s a t r hi h1
    exact .cons h3 (ih h4 h2)

theorem Spec.Items.more {D : Prop} {c : Principal} {now : Nat} {is js rs} {b b' : Book} (h : Items D c now is rs b b') :
    Items D c now (is ++ js) rs b b' := by
  induction h with
  | nil => exact .nil
  | cons h1 _ ih => exact .cons h1 ih

theorem runBatch_items_take {A : Type} {D : Prop} {c : Principal} {now n : Nat}
    {f : State H → A → Option (State H × Except TokErr Nat)} {one : A → Call}
    (hf : ∀ s a s' r, TokInv s → f s a = some (s', r) → Item D c now (one a) r (bookOf s) (bookOf s') ∧ TokInv s')
    {args : List A} {s s' : State H} {rs} (hi : TokInv s) (h : runBatch f s (args.take n) = some (s', rs)) :
      Items D c now (args.map one) rs (bookOf s) (bookOf s') := by
  have h1 := runBatch_items hf _ hi h
  have h2 := h1.more (js := (args.drop n).map one)
  rwa [← List.map_append, List.take_append_drop] at h2

theorem answers_ofBatch {D : Prop} {c : Principal} {now : Nat} {call : Call} {s : State H} {o}
    (h : ∀ s' rs, o = some (s', rs) → Items D c now (items call) rs (bookOf s) (bookOf s')) :
    Reaction D c now call (ofBatch s o).2 (bookOf s) (bookOf (ofBatch s o).1) := by
  cases o with
  | none => exact .trapped
  | some p => exact .batch (h _ _ rfl)

theorem answers_ofMgmt {D : Prop} {c : Principal} {now : Nat} {call : Call} {s : State H} {o}
    (h : ∀ s' r, o = some (s', r) → Reaction D c now call (.mgmt r) (bookOf s) (bookOf s')) :
    Reaction D c now call (ofMgmt s o).2 (bookOf s) (bookOf (ofMgmt s o).1) := by
  cases o with
  | none => exact .trapped
  | some p => exact h _ _ rfl

theorem answers_started {D : Prop} {c : Principal} {now : Nat} {call : Call} {s : State H} {o}
    (hb : ¬ Books call) (hn : items call = []) (h : UploadOut s c call o) :
    Reaction D c now call (ofStarted o).2 (bookOf s) (bookOf (ofStarted o).1) := by
  cases h <;> exact .elsewhere hb hn

/-- What a call does to the book. -/
theorem exec_answers {E : Env H} {s : State H} (hi : TokInv s) {c : Principal} {now : Nat} {call : Call}
    (hp : ∀ p, call.needs = some p → hasPermission s.perms c p = true) :
    Reaction (CanRepeat E.ledger) c now call (exec E s c now call).2 (bookOf s) (bookOf (exec E s c now call).1) := by
  cases call with
  | transfer args =>
    refine answers_ofBatch fun s' rs h => ?_
    rcases icrc7Transfer_out h with ⟨rfl, rfl, rfl⟩ | ⟨hne, _, ⟨_, rfl, rfl⟩ | ⟨_, hc, hb⟩⟩
    · exact .nil
    · cases args with
      | nil => exact absurd rfl hne
      | cons a as => exact .cons .refused .nil
    · exact runBatch_items_take (fun s a s' r hi h => item_transfer hi hc h) hi hb
  | approveTokens args =>
    exact answers_ofBatch fun s' rs h => runBatch_items (fun s a s' r hi h => item_approve hi h) _ hi h
  | approveCollection args =>
    exact answers_ofBatch fun s' rs h => runBatch_items (fun s a s' r hi h => item_approveAll hi (Option.some.inj h)) _ hi h
  | revokeTokens args =>
    simp only [exec]
    split
    · exact .trapped
    · rename_i s' rs h
      unfold icrc37RevokeTokens at h
      split at h
      · cases h
      rename_i a as
      rw [guardWindow_eq] at h
      dsimp only at h
      split at h
      · simp at h
      split at h
      · cases h
      rename_i s2 rs2 h2
      simp only [Option.some.injEq, Prod.mk.injEq, Except.ok.injEq] at h
      obtain ⟨rfl, rfl⟩ := h
      have hi' : TokInv { s with windows := (guardWindow s now a.tid).1.windows } :=
        ⟨hi.nodup, hi.ids, hi.fresh, hi.pos, hi.start⟩
      have h3 := runBatch_items_take (D := CanRepeat E.ledger) (c := c) (now := now) (one := fun a => .revokeTokens [a])
        (fun s a s' r hi h => item_revoke (E := E) hi h) hi' h2
      exact .batch h3
    · rename_i s' e h
      unfold icrc37RevokeTokens at h
      split at h
      · cases h
      rename_i a as
      rw [guardWindow_eq] at h
      dsimp only at h
      split at h
      · simp only [Option.some.injEq, Prod.mk.injEq] at h
        obtain ⟨rfl, _⟩ := h
        exact .batchError
      split at h
      · cases h
      simp at h
  | revokeCollection args =>
    exact answers_ofBatch fun s' rs h => runBatch_items_take (fun s a s' r hi h => item_revokeAll hi (Option.some.inj h)) hi h
  | transferFrom args =>
    exact answers_ofBatch fun s' rs h => runBatch_items (fun s a s' r hi h => item_transferFrom hi h) _ hi h
  | updateCollectionMetadata a =>
    refine answers_ofMgmt fun s' r h => ?_
    rcases updateCollectionMetadata_out h with ⟨_, rfl, _⟩ | ⟨hg, _, rfl⟩ <;> exact .elsewhere (fun h => h) rfl
  | mint reqs =>
    refine answers_ofMgmt fun s' r h => ?_
    have hout := mint_out h
    clear h
    cases hout with
    | refused e => exact .error
    | cut md h n free hn hmd => exact .error
    | minted md h free batch cap memos hmd =>
      refine .minted (b := bookOf s) ((Does.mint (holds_iff.2 (hp _ rfl))).to ?_)
      rw [mintInsert_eq]
      refine Book.ext' ?_ rfl rfl rfl rfl
      funext k
      show (((insTok s.tokens s.lastId reqs).get k).map Token.owner).map holder = 
        if s.lastId ≤ k then (reqs[k - s.lastId]?).map fun r => holder r.owner else _
      rw [insTok_get]
      by_cases hk : s.lastId ≤ k
      · rw [if_pos hk]
        by_cases hk2 : k < s.lastId + reqs.length
        · rw [dif_pos ⟨hk, hk2⟩, List.getElem?_eq_getElem (by omega)]; rfl
        · rw [dif_neg (by omega), List.getElem?_eq_none (by omega)]
          cases hg : s.tokens.get k with
          | none => rfl
          | some x => have := hi.fresh _ _ hg; omega
      · rw [if_neg hk, dif_neg (by omega)]; rfl
  | updateNftMetadata tid kvs =>
    refine answers_ofMgmt fun s' r h => ?_
    have hout := updateNftMetadata_out h
    clear h
    cases hout with
    | refused e => exact .error
    | cut token md h free tok hmd => exact .error
    | updated token md h i free tok hmd add =>
      refine (Reaction.elsewhere (call := .updateNftMetadata tid kvs) (fun h => h) rfl).to ?_
      refine Book.ext' ?_ rfl rfl rfl rfl
      refine (owner_set _ _ _).trans ?_
      funext k
      unfold upd
      split
      · rename_i hk; subst hk; exact (book_own tok).symm
      · rfl
  | burn tid =>
    refine answers_ofMgmt fun s' r h => ?_
    have hout := burnNft_out h
    clear h
    cases hout with
    | refused h e => exact .error
    | burned token h i free tok hown add =>
      exact .done ((Does.burn (book_own tok) hown.symm).to (Book.ext' (owner_del _ _) rfl rfl rfl rfl))
  | initUpload path size => exact answers_started (fun h => h) rfl (initUpload_out s c path size)
  | storeChunk path => exact answers_started (fun h => h) rfl (storeChunk_out s c path)
  | finalizeUpload path => exact answers_started (fun h => h) rfl (finalizeUpload_out s c path)
  | cancelUpload path => exact answers_started (fun h => h) rfl (cancelUpload_out s c path)
  | grant p x =>
    refine answers_ofMgmt fun s' r h => ?_
    rcases grant_out h with ⟨_, rfl, rfl⟩ | ⟨hg, rfl, rfl⟩
    · exact .error
    · exact .done ((Does.grant (holds_iff.2 (hp _ rfl))).to (Book.ext' rfl rfl rfl rfl holds_grant))
  | revoke p x =>
    refine answers_ofMgmt fun s' r h => ?_
    rcases revoke_out h with ⟨_, rfl, rfl⟩ | ⟨hg, rfl, rfl⟩
    · exact .error
    · exact .done ((Does.revokePermission (holds_iff.2 (hp _ rfl))).to (Book.ext' rfl rfl rfl rfl holds_revoke))

theorem step_answers {E : Env H} {s : State H} (hi : TokInv s) {c : Principal} {now : Nat} {call : Call} :
    Reaction (CanRepeat E.ledger) c now call (step E s (.call c now call)).2 (bookOf s)
      (bookOf (step E s (.call c now call)).1) := by
  simp only [step, execCall]
  split
  · rename_i p hp
    split
    · rename_i hperm
      exact exec_answers hi (by intro q hq; rw [hp] at hq; cases hq; exact hperm)
    · exact .rejected
  · rename_i hp
    exact exec_answers hi (by intro q hq; rw [hp] at hq; cases hq)

theorem step_other {E : Env H} {s : State H} {m : Msg} (h : ∀ c now call, m ≠ .call c now call) :
    bookOf (step E s m).1 = bookOf s := by
  cases m with
  | call c now call => exact absurd rfl (h c now call)
  | resume now i ans =>
    simp only [step]
    split
    · rfl
    · rename_i p hp
      obtain ⟨_, _, _, _, he⟩ := resumeBody_eq E { s with pending := s.pending.eraseIdx i } now p ans
      rw [he]; rfl
  | resumeTrap i =>
    simp only [step]
    split
    · rfl
    · rfl
  | upgrade => rfl

end Verif
