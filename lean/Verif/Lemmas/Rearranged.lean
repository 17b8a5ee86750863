import Verif.Spec.Rearranged
import Verif.Model.Gc
import Verif.Lemmas.Batch
/-!
# Rearranging the tables commutes with the code: helper lemmas
-/
set_option linter.unusedSectionVars false

namespace Verif.Spec

variable {H K V : Type}

/-! ### Tables -/

/-- What is asked of the relation between contents. -/
structure Per (R : V → V → Prop) : Prop where
  symm : ∀ a b, R a b → R b a
  trans : ∀ a b c, R a b → R b c → R a c

theorem perEq : Per (V := V) Eq := ⟨fun _ _ => Eq.symm, fun _ _ _ => Eq.trans⟩

/-- Both missing, or both there and related. -/
inductive OptSame (R : V → V → Prop) : Option V → Option V → Prop where
  | none : OptSame R none none
  | some {v v'} : R v v' → OptSame R (some v) (some v')

theorem OptSame.trans {R : V → V → Prop} (p : Per R) {a b c : Option V} (h : OptSame R a b) (g : OptSame R b c) :
    OptSame R a c := by
  cases h with
  | none => exact g
  | some h => cases g with | some g => exact .some (p.trans _ _ _ h g)

theorem OptSame.eq {a b : Option V} (h : OptSame Eq a b) : b = a := by
  cases h with
  | none => rfl
  | some h => rw [h]

theorem Rearranged.symm {R : V → V → Prop} (p : Per R) {l l' : List (K × V)} (h : Rearranged R l l') :
    Rearranged R l' l := by
  induction h with
  | nil => exact .nil
  | row h _ ih => exact .row (p.symm _ _ h) ih
  | swap h g _ ih => exact .swap (p.symm _ _ g) (p.symm _ _ h) ih
  | trans _ _ ih ih' => exact .trans ih' ih

theorem Rearranged.keys {R : V → V → Prop} {l l' : List (K × V)} (h : Rearranged R l l') :
    (l.map Prod.fst).Perm (l'.map Prod.fst) := by
  induction h with
  | nil => exact .nil
  | row h _ ih => exact ih.cons _
  | swap h g _ ih => exact (List.Perm.swap _ _ _).trans ((ih.cons _).cons _)
  | trans _ _ ih ih' => exact ih.trans ih'

theorem Rearranged.perm {l l' : List (K × V)} (h : Rearranged Eq l l') : l.Perm l' := by
  induction h with
  | nil => exact .nil
  | row h _ ih => subst h; exact ih.cons _
  | swap h g _ ih => subst h; subst g; exact (List.Perm.swap _ _ _).trans ((ih.cons _).cons _)
  | trans _ _ ih ih' => exact ih.trans ih'

theorem Rearranged.refl {R : V → V → Prop} : ∀ {l : List (K × V)}, (∀ e ∈ l, R e.2 e.2) → Rearranged R l l
  | [], _ => .nil
  | e :: _, h => .row (h e (by simp)) (Rearranged.refl fun e he => h e (by simp [he]))

theorem Rearranged.of_perm {l l' : List (K × V)} (h : l.Perm l') : Rearranged Eq l l' := by
  induction h with
  | nil => exact .nil
  | cons a _ ih => exact .row rfl ih
  | swap a b l => exact .swap rfl rfl (.refl fun _ _ => rfl)
  | trans _ _ ih ih' => exact ih.trans ih'

theorem Rearranged.length {R : V → V → Prop} {l l' : List (K × V)} (h : Rearranged R l l') :
    l.length = l'.length := by simpa using h.keys.length_eq

section
variable [BEq K] [EquivBEq K]

/-- No two rows have the same key. -/
def Distinct (l : List (K × V)) : Prop := l.Pairwise fun a b => (a.1 == b.1) = false

theorem Rearranged.distinct {R : V → V → Prop} {l l' : List (K × V)} (h : Rearranged R l l') (hd : Distinct l) :
    Distinct l' := by
  unfold Distinct at *
  rw [Map.nodupL_iff] at *
  refine (List.Perm.pairwise_iff ?_ h.keys).1 hd
  intro a b hab
  rw [BEq.comm]; exact hab

theorem Rearranged.getL {R : V → V → Prop} (p : Per R) {l l' : List (K × V)} (h : Rearranged R l l')
    (hd : Distinct l) (k : K) : OptSame R (Map.getL l k) (Map.getL l' k) := by
  induction h with
  | nil => exact .none
  | row h _ ih =>
    have hd' := List.pairwise_cons.1 hd
    simp only [Map.getL]
    split
    · exact .some h
    · exact ih hd'.2
  | @swap k₁ v v' k₂ w w' l l' h g _ ih =>
    have hd' := List.pairwise_cons.1 hd
    have hd₂ := List.pairwise_cons.1 hd'.2
    have hne : (k₁ == k₂) = false := hd'.1 (k₂, w) (by simp)
    simp only [Map.getL]
    by_cases h1 : (k₁ == k) = true
    · have h2 : (k₂ == k) = false := by
        cases h2 : (k₂ == k) with
        | false => rfl
        | true => rw [BEq.trans h1 (BEq.symm h2)] at hne; exact hne
      simp only [h1, h2, if_true]; exact .some h
    · by_cases h2 : (k₂ == k) = true
      · simp only [h1, h2, if_true]; exact .some g
      · simp only [h1, h2]; exact ih hd₂.2
  | trans h _ ih ih' => exact (ih hd).trans p (ih' (h.distinct hd))

theorem Rearranged.setL {R : V → V → Prop} (p : Per R) {l l' : List (K × V)} (h : Rearranged R l l')
    (hd : Distinct l) (k : K) : ∀ {x x' : V}, R x x' → Rearranged R (Map.setL l k x) (Map.setL l' k x') := by
  induction h with
  | nil => exact fun hx => .row hx .nil
  | row h hl ih =>
    intro x x' hx
    have hd' := List.pairwise_cons.1 hd
    simp only [Map.setL]
    split
    · exact .row hx hl
    · exact .row h (ih hd'.2 hx)
  | @swap k₁ v v' k₂ w w' l l' h g hl ih =>
    intro x x' hx
    have hd' := List.pairwise_cons.1 hd
    have hd₂ := List.pairwise_cons.1 hd'.2
    have hne : (k₁ == k₂) = false := hd'.1 (k₂, w) (by simp)
    simp only [Map.setL]
    by_cases h1 : (k₁ == k) = true
    · have h2 : (k₂ == k) = false := by
        cases h2 : (k₂ == k) with
        | false => rfl
        | true => rw [BEq.trans h1 (BEq.symm h2)] at hne; exact hne
      simp only [h1, h2, if_true]; exact .swap hx g hl
    · by_cases h2 : (k₂ == k) = true
      · simp only [h1, h2, if_true]; exact .swap h hx hl
      · simp only [h1, h2]; exact .swap h g (ih hd₂.2 hx)
  | trans h _ ih ih' =>
    intro x x' hx
    exact (ih hd hx).trans (ih' (h.distinct hd) (p.trans _ _ _ (p.symm _ _ hx) hx))

theorem Rearranged.filter {R : V → V → Prop} {l l' : List (K × V)} (h : Rearranged R l l') (q : K → Bool) :
    Rearranged R (l.filter fun e => q e.1) (l'.filter fun e => q e.1) := by
  induction h with
  | nil => exact .nil
  | row h _ ih =>
    simp only [List.filter_cons]
    split
    · exact .row h ih
    · exact ih
  | @swap k₁ v v' k₂ w w' l l' h g _ ih =>
    simp only [List.filter_cons]
    cases q k₁ <;> cases q k₂
    · exact ih
    · exact .row g ih
    · exact .row h ih
    · exact .swap h g ih
  | trans _ _ ih ih' => exact ih.trans ih'

namespace SameTable

variable {R : V → V → Prop} {m m' : Map K V}

theorem refl (hd : m.NodupKeys) (h : ∀ e ∈ m.entries, R e.2 e.2) : SameTable R m m := ⟨hd, .refl h⟩
theorem distinct' (h : SameTable R m m') : m'.NodupKeys := h.rows.distinct h.distinct
theorem symm (p : Per R) (h : SameTable R m m') : SameTable R m' m := ⟨h.distinct', h.rows.symm p⟩
theorem trans {m'' : Map K V} (h : SameTable R m m') (g : SameTable R m' m'') : SameTable R m m'' :=
  ⟨h.distinct, h.rows.trans g.rows⟩
theorem get (p : Per R) (h : SameTable R m m') (k : K) : OptSame R (m.get k) (m'.get k) := h.rows.getL p h.distinct k
theorem set (p : Per R) (h : SameTable R m m') (k : K) {v v' : V} (hv : R v v') :
    SameTable R (m.set k v) (m'.set k v') := ⟨Map.nodup_set h.distinct k v, h.rows.setL p h.distinct k hv⟩
theorem del (h : SameTable R m m') (k : K) : SameTable R (m.del k) (m'.del k) :=
  ⟨Map.nodup_del h.distinct k, h.rows.filter fun a => !(a == k)⟩
theorem size (h : SameTable R m m') : m'.size = m.size := h.rows.length.symm
theorem empty : SameTable R (∅ : Map K V) ∅ := ⟨Map.nodup_empty, .nil⟩

theorem getEq {m m' : Map K V} (h : SameTable Eq m m') (k : K) : m'.get k = m.get k := (h.get perEq k).eq
theorem setEq {m m' : Map K V} (h : SameTable Eq m m') (k : K) (v : V) : SameTable Eq (m.set k v) (m'.set k v) :=
  h.set perEq k rfl
theorem perm {m m' : Map K V} (h : SameTable Eq m m') : m.entries.Perm m'.entries := h.rows.perm
theorem anyEq {m m' : Map K V} (h : SameTable Eq m m') (q : K × V → Bool) : m'.entries.any q = m.entries.any q := by
  rw [Bool.eq_iff_iff, List.any_eq_true, List.any_eq_true]
  simp only [h.perm.mem_iff]

end SameTable

theorem perTable : Per (V := Map K V) (SameTable Eq) :=
  ⟨fun _ _ h => h.symm perEq, fun _ _ _ h g => h.trans g⟩

end

/-! ### States -/

namespace SameTables

theorem trans {s t u : State H} (h : SameTables s t) (g : SameTables t u) : SameTables s u where
  cfg := g.cfg.trans h.cfg
  perms := h.perms.trans g.perms
  tokens := h.tokens.trans g.tokens
  byOwner := h.byOwner.trans g.byOwner
  lastId := g.lastId.trans h.lastId
  subs := g.subs.trans h.subs
  redirects := h.redirects.trans g.redirects
  guards := g.guards.trans h.guards
  windows := h.windows.trans g.windows
  uploads := h.uploads.trans g.uploads
  tokAppr := h.tokAppr.trans g.tokAppr
  collAppr := h.collAppr.trans g.collAppr
  mdata := h.mdata.trans g.mdata
  hid := g.hid.trans h.hid
  log := g.log.trans h.log
  router := h.router.trans g.router
  pending := g.pending.trans h.pending

end SameTables

/-- Related states and the same result. -/
def Res {R : Type} (x y : State H × R) : Prop := SameTables x.1 y.1 ∧ y.2 = x.2

/-- Both trap, or neither does. -/
abbrev Out {R : Type} (x y : Option (State H × R)) : Prop := OptSame Res x y

theorem Out.mk {R : Type} {s s' : State H} (h : SameTables s s') (r : R) : Out (some (s, r)) (some (s', r)) :=
  .some ⟨h, rfl⟩

theorem guardWindow_tab {s s' : State H} (h : SameTables s s') (now tid : Nat) :
    Res (guardWindow s now tid) (guardWindow s' now tid) := by
  unfold guardWindow
  rw [h.windows.getEq]
  exact ⟨{ h with windows := h.windows.setEq _ _ }, rfl⟩

theorem addTx_tab {s s' : State H} (L : Ledger H) (h : SameTables s s') (t : Tx) :
    Res (addTx L s t) (addTx L s' t) := by
  unfold addTx
  rw [h.hid]
  split <;> rename_i heq
  · exact ⟨{ h with hid := rfl, log := by rw [h.log] }, rfl⟩
  · exact ⟨{ h with hid := rfl }, rfl⟩

theorem ownerOf_tab {s s' : State H} (h : SameTables s s') (tid : Nat) : ownerOf s' tid = ownerOf s tid := by
  unfold ownerOf; rw [h.tokens.getEq]

theorem putTokAppr_tab {s s' : State H} (h : SameTables s s') (tid : Nat) {m m' : Map Account Approval}
    (hm : SameTable Eq m m') : OptSame SameTables (putTokAppr s tid m) (putTokAppr s' tid m') := by
  unfold putTokAppr
  split
  · exact .some { h with tokAppr := h.tokAppr.set perTable _ hm }
  · exact .none

theorem moveToken_tab {s s' : State H} (h : SameTables s s') (nft : Token) (a : Account) :
    SameTables (moveToken s nft a) (moveToken s' nft a) := by
  have hb : SameTable Eq (s.byOwner.set a ((s.byOwner.get a).getD [] ++ [nft.id]))
      (s'.byOwner.set a ((s'.byOwner.get a).getD [] ++ [nft.id])) := by
    rw [h.byOwner.getEq]; exact h.byOwner.setEq _ _
  refine { h with tokens := h.tokens.setEq _ _, byOwner := ?_ }
  show SameTable Eq (Map.set _ _ _) (Map.set _ _ _)
  rw [hb.getEq]
  exact hb.setEq _ _


theorem transferNft_tab {s s' : State H} (L : Ledger H) (h : SameTables s s') (caller : Principal) (now : Nat)
    (arg : TransferArg) : Out (transferNft L s caller now arg) (transferNft L s' caller now arg) := by
  unfold transferNft
  have hg := guardWindow_tab h now arg.tid
  generalize guardWindow s now arg.tid = x at hg ⊢
  generalize guardWindow s' now arg.tid = y at hg ⊢
  obtain ⟨t, ok⟩ := x
  obtain ⟨t', ok'⟩ := y
  obtain ⟨ht, hok⟩ := hg
  change SameTables t t' at ht
  change ok' = ok at hok
  subst hok
  dsimp only
  cases ok' with
  | false => exact Out.mk ht _
  | true =>
    rw [ht.tokens.getEq, ht.cfg]
    rw [if_neg (show ¬(!true) = true by simp), if_neg (show ¬(!true) = true by simp)]
    cases t.tokens.get arg.tid with
    | none => exact Out.mk ht _
    | some nft =>
      dsimp only
      cases checkMemo t.cfg arg.memo with
      | none => exact .none
      | some b =>
        cases b with
        | false => exact Out.mk ht _
        | true =>
          dsimp only
          by_cases hc : nft.owner.owner ≠ caller ∨ arg.to_.owner = anonymous ∨ (nft.owner == arg.to_) = true
          · rw [if_pos hc, if_pos hc]; exact Out.mk ht _
          · rw [if_neg hc, if_neg hc]
            cases transferTiming t.cfg now (arg.createdAt.getD now) with
            | none => exact .none
            | some o =>
              cases o with
              | some e => exact Out.mk ht _
              | none =>
                dsimp only
                have ha := addTx_tab L ht (transferTx now (arg.createdAt.getD now) arg nft)
                generalize addTx L t (transferTx now (arg.createdAt.getD now) arg nft) = x at ha ⊢
                generalize addTx L t' (transferTx now (arg.createdAt.getD now) arg nft) = y at ha ⊢
                obtain ⟨u, r⟩ := x
                obtain ⟨u', r'⟩ := y
                obtain ⟨hu, hr⟩ := ha
                change SameTables u u' at hu
                change r' = r at hr
                subst hr
                cases r' with
                | ok i => exact Out.mk (moveToken_tab hu nft arg.to_) _
                | error e => cases e <;> exact Out.mk hu _

theorem runBatch_tab {A R : Type} {f : State H → A → Option (State H × R)}
    (hf : ∀ s s' a, SameTables s s' → Out (f s a) (f s' a)) (l : List A) :
    ∀ {s s' : State H}, SameTables s s' → Out (runBatch f s l) (runBatch f s' l) := by
  induction l with
  | nil => exact fun h => Out.mk h _
  | cons a l ih =>
    intro s s' h
    simp only [runBatch]
    have ha := hf s s' a h
    generalize f s a = x at ha ⊢
    generalize f s' a = y at ha ⊢
    cases ha with
    | none => exact .none
    | @some x y hxy =>
      obtain ⟨t, r⟩ := x
      obtain ⟨t', r'⟩ := y
      obtain ⟨ht, hr⟩ := hxy
      change r' = r at hr
      subst hr
      dsimp only
      have hb := ih ht
      change Out (runBatch f t l) (runBatch f t' l) at hb
      generalize runBatch f t l = x at hb ⊢
      generalize runBatch f t' l = y at hb ⊢
      cases hb with
      | none => exact .none
      | @some x y hxy =>
        obtain ⟨t, r⟩ := x
        obtain ⟨t', r'⟩ := y
        obtain ⟨ht, hr⟩ := hxy
        change r' = r at hr
        subst hr
        exact Out.mk ht _

theorem icrc7Transfer_tab {s s' : State H} (L : Ledger H) (h : SameTables s s') (caller : Principal) (now : Nat)
    (args : List TransferArg) : Out (icrc7Transfer L s caller now args) (icrc7Transfer L s' caller now args) := by
  unfold icrc7Transfer
  rw [h.cfg]
  split
  · exact Out.mk h _
  · cases toUsize? (s.cfg.maxUpdateBatch.getD defaultMaxUpdateBatch) with
    | none => exact .none
    | some mx =>
      dsimp only
      split
      · exact Out.mk h _
      · split
        · exact Out.mk h _
        · exact runBatch_tab (fun s s' a hs => transferNft_tab L hs caller now a) _ h

/-! ### Approvals -/

theorem getD_tab {o o' : Option (Map Account Approval)} (h : OptSame (SameTable Eq) o o') :
    SameTable Eq (o.getD ∅) (o'.getD ∅) := by
  cases h with
  | none => exact .empty
  | some h => exact h

theorem anySize_tab {o o' : Option (Map Account Approval)} (h : OptSame (SameTable Eq) o o') (n : Nat) :
    o'.any (fun m => decide (n ≤ m.size)) = o.any (fun m => decide (n ≤ m.size)) := by
  cases h with
  | none => rfl
  | some h => simp only [Option.any_some, h.size]

theorem approveToken_tab {s s' : State H} (L : Ledger H) (h : SameTables s s') (caller : Principal) (now : Nat)
    (arg : ApproveTokenArg) : Out (approveToken L s caller now arg) (approveToken L s' caller now arg) := by
  unfold approveToken
  have hg := guardWindow_tab h now arg.tid
  generalize guardWindow s now arg.tid = x at hg ⊢
  generalize guardWindow s' now arg.tid = y at hg ⊢
  obtain ⟨t, ok⟩ := x
  obtain ⟨t', ok'⟩ := y
  obtain ⟨ht, hok⟩ := hg
  change SameTables t t' at ht
  change ok' = ok at hok
  subst hok
  dsimp only
  cases ok' with
  | false => exact Out.mk ht _
  | true =>
    rw [ownerOf_tab ht, ht.cfg, anySize_tab (ht.tokAppr.get perTable arg.tid)]
    rw [if_neg (show ¬(!true) = true by simp), if_neg (show ¬(!true) = true by simp)]
    cases verifyTiming t.cfg arg.info.createdAt now with
    | some e => exact Out.mk ht _
    | none =>
      dsimp only
      cases ownerOf t arg.tid with
      | none => exact Out.mk ht _
      | some owner =>
        dsimp only
        by_cases h1 : (owner == (⟨caller, arg.info.fromSub⟩ : Account)) = false
        · rw [if_pos h1, if_pos h1]; exact Out.mk ht _
        rw [if_neg h1, if_neg h1]
        by_cases h2 : (arg.info.spender == anonymousAccount) = true
        · rw [if_pos h2, if_pos h2]; exact Out.mk ht _
        rw [if_neg h2, if_neg h2]
        by_cases h3 : (t.tokAppr.get arg.tid).any (fun m => decide (maxApprovals t.cfg ≤ m.size)) = true
        · rw [if_pos h3, if_pos h3]; exact Out.mk ht _
        rw [if_neg h3, if_neg h3]
        generalize ({ op := .approve, ts := now, tid := some arg.tid, from_ := some (⟨caller, arg.info.fromSub⟩ : Account),
                      memo := arg.info.memo, createdAt := some arg.info.createdAt,
                      spender := some arg.info.spender, exp := arg.info.expiresAt } : Tx) = tx
        have ha := addTx_tab L ht tx
        generalize addTx L t tx = x at ha ⊢
        generalize addTx L t' tx = y at ha ⊢
        obtain ⟨u, r⟩ := x
        obtain ⟨u', r'⟩ := y
        obtain ⟨hu, hr⟩ := ha
        change SameTables u u' at hu
        change r' = r at hr
        subst hr
        cases r' with
        | error e => exact Out.mk hu _
        | ok i =>
          dsimp only
          have hp := putTokAppr_tab hu arg.tid
            ((getD_tab (hu.tokAppr.get perTable arg.tid)).setEq arg.info.spender (mkApproval arg.info ⟨caller, arg.info.fromSub⟩ now))
          revert hp
          generalize putTokAppr u _ _ = x
          generalize putTokAppr u' _ _ = y
          intro hp
          cases hp with
          | none => exact .none
          | some hp => exact Out.mk hp _

theorem approveCollection_tab {s s' : State H} (L : Ledger H) (h : SameTables s s') (caller : Principal) (now : Nat)
    (info : ApprovalInfo) : Res (approveCollection L s caller now info) (approveCollection L s' caller now info) := by
  unfold approveCollection
  have hg := guardWindow_tab h now 0
  generalize guardWindow s now 0 = x at hg ⊢
  generalize guardWindow s' now 0 = y at hg ⊢
  obtain ⟨t, ok⟩ := x
  obtain ⟨t', ok'⟩ := y
  obtain ⟨ht, hok⟩ := hg
  change SameTables t t' at ht
  change ok' = ok at hok
  subst hok
  dsimp only
  cases ok' with
  | false => exact ⟨ht, rfl⟩
  | true =>
    rw [ht.cfg, anySize_tab (ht.collAppr.get perTable _), ht.tokens.anyEq]
    rw [if_neg (show ¬(!true) = true by simp), if_neg (show ¬(!true) = true by simp)]
    cases verifyTiming t.cfg info.createdAt now with
    | some e => exact ⟨ht, rfl⟩
    | none =>
      dsimp only
      by_cases h2 : (info.spender == anonymousAccount) = true
      · rw [if_pos h2, if_pos h2]; exact ⟨ht, rfl⟩
      rw [if_neg h2, if_neg h2]
      by_cases h4 : (!(t.tokens.entries.any fun e => decide (e.2.owner.owner = caller))) = true
      · rw [if_pos h4, if_pos h4]; exact ⟨ht, rfl⟩
      rw [if_neg h4, if_neg h4]
      by_cases h3 : (t.collAppr.get ⟨caller, info.fromSub⟩).any (fun m => decide (maxApprovals t.cfg ≤ m.size)) = true
      · rw [if_pos h3, if_pos h3]; exact ⟨ht, rfl⟩
      rw [if_neg h3, if_neg h3]
      generalize ({ op := .approveColl, ts := now, from_ := some (⟨caller, info.fromSub⟩ : Account), memo := info.memo,
                        createdAt := some info.createdAt, spender := some info.spender,
                        exp := info.expiresAt } : Tx) = tx
      have ha := addTx_tab L ht tx
      generalize addTx L t tx = x at ha ⊢
      generalize addTx L t' tx = y at ha ⊢
      obtain ⟨u, r⟩ := x
      obtain ⟨u', r'⟩ := y
      obtain ⟨hu, hr⟩ := ha
      change SameTables u u' at hu
      change r' = r at hr
      subst hr
      cases r' with
      | error e => exact ⟨hu, rfl⟩
      | ok i =>
        exact ⟨{ hu with collAppr := hu.collAppr.set perTable _ ((getD_tab (hu.collAppr.get perTable _)).setEq _ _) }, rfl⟩

theorem dropSpender_tab {m m' : Map Account Approval} (h : SameTable Eq m m') (o : Option Account) :
    SameTable Eq (dropSpender m o) (dropSpender m' o) := by
  cases o with
  | none => exact .empty
  | some a => exact h.del a

theorem revokeToken_tab {s s' : State H} (L : Ledger H) (ht : SameTables s s') (caller : Principal) (now : Nat)
    (arg : RevokeTokenArg) : Out (revokeToken L s caller now arg) (revokeToken L s' caller now arg) := by
  unfold revokeToken
  rw [ownerOf_tab ht, ht.cfg]
  cases verifyTimingOpt s.cfg arg.createdAt now with
  | some e => exact Out.mk ht _
  | none =>
    dsimp only
    cases ownerOf s arg.tid with
    | none => exact Out.mk ht _
    | some owner =>
      dsimp only
      by_cases h1 : (owner == (⟨caller, arg.fromSub⟩ : Account)) = false
      · rw [if_pos h1, if_pos h1]; exact Out.mk ht _
      rw [if_neg h1, if_neg h1]
      have hm := ht.tokAppr.get perTable arg.tid
      generalize s.tokAppr.get arg.tid = x at hm ⊢
      generalize s'.tokAppr.get arg.tid = y at hm ⊢
      cases hm with
      | none => exact Out.mk ht _
      | @some m m' hm =>
        dsimp only
        generalize ({ op := .revoke, ts := now, tid := some arg.tid, from_ := some (⟨caller, arg.fromSub⟩ : Account),
                          memo := arg.memo, createdAt := arg.createdAt, spender := arg.spender } : Tx) = tx
        have ha := addTx_tab L ht tx
        generalize addTx L s tx = x at ha ⊢
        generalize addTx L s' tx = y at ha ⊢
        obtain ⟨u, r⟩ := x
        obtain ⟨u', r'⟩ := y
        obtain ⟨hu, hr⟩ := ha
        change SameTables u u' at hu
        change r' = r at hr
        subst hr
        cases r' with
        | error e => exact Out.mk hu _
        | ok i =>
          dsimp only
          have hp := putTokAppr_tab hu arg.tid (dropSpender_tab hm arg.spender)
          revert hp
          generalize putTokAppr u _ _ = x
          generalize putTokAppr u' _ _ = y
          intro hp
          cases hp with
          | none => exact .none
          | some hp => exact Out.mk hp _

theorem revokeCollection_tab {s s' : State H} (L : Ledger H) (h : SameTables s s') (caller : Principal) (now : Nat)
    (arg : RevokeCollArg) : Res (revokeCollection L s caller now arg) (revokeCollection L s' caller now arg) := by
  unfold revokeCollection
  have hg := guardWindow_tab h now 0
  generalize guardWindow s now 0 = x at hg ⊢
  generalize guardWindow s' now 0 = y at hg ⊢
  obtain ⟨t, ok⟩ := x
  obtain ⟨t', ok'⟩ := y
  obtain ⟨ht, hok⟩ := hg
  change SameTables t t' at ht
  change ok' = ok at hok
  subst hok
  dsimp only
  cases ok' with
  | false => exact ⟨ht, rfl⟩
  | true =>
    rw [ht.cfg]
    rw [if_neg (show ¬(!true) = true by simp), if_neg (show ¬(!true) = true by simp)]
    cases verifyTimingOpt t.cfg arg.createdAt now with
    | some e => exact ⟨ht, rfl⟩
    | none =>
      dsimp only
      have hm := ht.collAppr.get perTable ⟨caller, none⟩
      generalize t.collAppr.get ⟨caller, none⟩ = x at hm ⊢
      generalize t'.collAppr.get ⟨caller, none⟩ = y at hm ⊢
      cases hm with
      | none => exact ⟨ht, rfl⟩
      | @some m m' hm =>
        dsimp only
        generalize ({ op := .revokeColl, ts := now, from_ := some (⟨caller, none⟩ : Account), memo := arg.memo,
                        createdAt := arg.createdAt, spender := arg.spender } : Tx) = tx
        have ha := addTx_tab L ht tx
        generalize addTx L t tx = x at ha ⊢
        generalize addTx L t' tx = y at ha ⊢
        obtain ⟨u, r⟩ := x
        obtain ⟨u', r'⟩ := y
        obtain ⟨hu, hr⟩ := ha
        change SameTables u u' at hu
        change r' = r at hr
        subst hr
        cases r' with
        | error e => exact ⟨hu, rfl⟩
        | ok i => exact ⟨{ hu with collAppr := hu.collAppr.set perTable _ (dropSpender_tab hm _) }, rfl⟩

theorem checkTokenApproval_tab {s s' : State H} (h : SameTables s s') (now tid : Nat) (a : Account) :
    Out (checkTokenApproval s now tid a) (checkTokenApproval s' now tid a) := by
  unfold checkTokenApproval
  have hm := h.tokAppr.get perTable tid
  generalize s.tokAppr.get tid = x at hm ⊢
  generalize s'.tokAppr.get tid = y at hm ⊢
  cases hm with
  | none => exact Out.mk h _
  | @some m m' hm =>
    dsimp only
    rw [hm.getEq]
    cases m.get a with
    | none => exact Out.mk h _
    | some v =>
      dsimp only
      split
      · have hp := putTokAppr_tab h tid (hm.del a)
        revert hp
        generalize putTokAppr s _ _ = x
        generalize putTokAppr s' _ _ = y
        intro hp
        cases hp with
        | none => exact .none
        | some hp => exact Out.mk hp _
      · exact Out.mk h _

theorem checkCollApproval_tab {s s' : State H} (h : SameTables s s') (now : Nat) (o a : Account) :
    Res (checkCollApproval s now o a) (checkCollApproval s' now o a) := by
  unfold checkCollApproval
  have hm := h.collAppr.get perTable o
  generalize s.collAppr.get o = x at hm ⊢
  generalize s'.collAppr.get o = y at hm ⊢
  cases hm with
  | none => exact ⟨h, rfl⟩
  | @some m m' hm =>
    dsimp only
    rw [hm.getEq]
    cases m.get a with
    | none => exact ⟨h, rfl⟩
    | some v =>
      dsimp only
      split
      · have he : (m'.del a).entries.isEmpty = (m.del a).entries.isEmpty := by
          rw [Bool.eq_iff_iff, List.isEmpty_iff_length_eq_zero, List.isEmpty_iff_length_eq_zero, (hm.del a).rows.length]
        rw [he]
        refine ⟨{ h with collAppr := ?_ }, rfl⟩
        refine SameTable.set perTable ?_ _ (hm.del a)
        split
        · exact h.collAppr.del o
        · exact h.collAppr
      · exact ⟨h, rfl⟩

theorem transferFrom_tab {s s' : State H} (L : Ledger H) (h : SameTables s s') (caller : Principal) (now : Nat)
    (arg : TransferFromArg) : Out (transferFrom L s caller now arg) (transferFrom L s' caller now arg) := by
  unfold transferFrom
  have hg := guardWindow_tab h now arg.tid
  generalize guardWindow s now arg.tid = x at hg ⊢
  generalize guardWindow s' now arg.tid = y at hg ⊢
  obtain ⟨t, ok⟩ := x
  obtain ⟨t', ok'⟩ := y
  obtain ⟨ht, hok⟩ := hg
  change SameTables t t' at ht
  change ok' = ok at hok
  subst hok
  dsimp only
  cases ok' with
  | false => exact Out.mk ht _
  | true =>
    rw [ht.tokens.getEq, ht.cfg]
    rw [if_neg (show ¬(!true) = true by simp), if_neg (show ¬(!true) = true by simp)]
    cases verifyTimingOpt t.cfg arg.createdAt now with
    | some e => exact Out.mk ht _
    | none =>
      dsimp only
      cases t.tokens.get arg.tid with
      | none => exact Out.mk ht _
      | some nft =>
        dsimp only
        by_cases h1 : (arg.from_ == arg.to_) = true
        · rw [if_pos h1, if_pos h1]; exact Out.mk ht _
        rw [if_neg h1, if_neg h1]
        by_cases h2 : (arg.to_ == anonymousAccount) = true
        · rw [if_pos h2, if_pos h2]; exact Out.mk ht _
        rw [if_neg h2, if_neg h2]
        have hk := checkTokenApproval_tab ht now arg.tid ⟨caller, arg.spenderSub⟩
        generalize checkTokenApproval t now arg.tid ⟨caller, arg.spenderSub⟩ = x at hk ⊢
        generalize checkTokenApproval t' now arg.tid ⟨caller, arg.spenderSub⟩ = y at hk ⊢
        cases hk with
        | none => exact .none
        | @some x y hk =>
          obtain ⟨u, b⟩ := x
          obtain ⟨u', b'⟩ := y
          obtain ⟨hu, hb⟩ := hk
          change SameTables u u' at hu
          change b' = b at hb
          subst hb
          dsimp only
          have hk := checkCollApproval_tab hu now nft.owner ⟨caller, arg.spenderSub⟩
          generalize checkCollApproval u now nft.owner ⟨caller, arg.spenderSub⟩ = x at hk ⊢
          generalize checkCollApproval u' now nft.owner ⟨caller, arg.spenderSub⟩ = y at hk ⊢
          obtain ⟨v, c⟩ := x
          obtain ⟨v', c'⟩ := y
          obtain ⟨hv, hc⟩ := hk
          change SameTables v v' at hv
          change c' = c at hc
          subst hc
          dsimp only
          split
          · exact Out.mk hv _
          · generalize ({ op := .xferFrom, ts := now, tid := some arg.tid,
                              from_ := some arg.from_, to_ := some arg.to_, memo := arg.memo,
                              createdAt := arg.createdAt, spender := some (⟨caller, arg.spenderSub⟩ : Account) } : Tx) = tx
            have ha := addTx_tab L hv tx
            generalize addTx L v tx = x at ha ⊢
            generalize addTx L v' tx = y at ha ⊢
            obtain ⟨w, r⟩ := x
            obtain ⟨w', r'⟩ := y
            obtain ⟨hw, hr⟩ := ha
            change SameTables w w' at hw
            change r' = r at hr
            subst hr
            cases r' with
            | error e => exact Out.mk hw _
            | ok i =>
              dsimp only
              have hmv := moveToken_tab hw nft arg.to_
              rw [Map.get_del_self, Map.get_del_self]
              have hfin : SameTables
                  { moveToken w nft arg.to_ with tokAppr := (moveToken w nft arg.to_).tokAppr.del arg.tid,
                                                 collAppr := (moveToken w nft arg.to_).collAppr.del arg.from_ }
                  { moveToken w' nft arg.to_ with tokAppr := (moveToken w' nft arg.to_).tokAppr.del arg.tid,
                                                  collAppr := (moveToken w' nft arg.to_).collAppr.del arg.from_ } :=
                { hmv with tokAppr := hmv.tokAppr.del _, collAppr := hmv.collAppr.del _ }
              exact Out.mk hfin _

theorem icrc37RevokeTokens_tab {s s' : State H} (L : Ledger H) (h : SameTables s s') (caller : Principal) (now : Nat)
    (args : List RevokeTokenArg) :
    Out (icrc37RevokeTokens L s caller now args) (icrc37RevokeTokens L s' caller now args) := by
  unfold icrc37RevokeTokens
  cases args with
  | nil => exact .none
  | cons a l =>
    dsimp only
    have hg := guardWindow_tab h now a.tid
    generalize guardWindow s now a.tid = x at hg ⊢
    generalize guardWindow s' now a.tid = y at hg ⊢
    obtain ⟨t, ok⟩ := x
    obtain ⟨t', ok'⟩ := y
    obtain ⟨ht, hok⟩ := hg
    change SameTables t t' at ht
    change ok' = ok at hok
    subst hok
    dsimp only
    cases ok' with
    | false => exact Out.mk ht _
    | true =>
      rw [ht.cfg]
      have hb := runBatch_tab (fun s s' a hs => revokeToken_tab L hs caller now a) ((a :: l).take (maxRevoke t.cfg)) ht
      generalize runBatch (fun s a => revokeToken L s caller now a) t ((a :: l).take (maxRevoke t.cfg)) = x at hb ⊢
      generalize runBatch (fun s a => revokeToken L s caller now a) t' ((a :: l).take (maxRevoke t.cfg)) = y at hb ⊢
      cases hb with
      | none => exact .none
      | @some x y hxy =>
        obtain ⟨t, r⟩ := x
        obtain ⟨t', r'⟩ := y
        obtain ⟨ht, hr⟩ := hxy
        change r' = r at hr
        subst hr
        exact Out.mk ht _

/-! ### Management -/

theorem guardEnter_tab {s s' : State H} (h : SameTables s s') (p : Principal) :
    OptSame SameTables (guardEnter s p) (guardEnter s' p) := by
  unfold guardEnter
  rw [h.guards]
  split
  · exact .none
  · exact .some { h with guards := rfl }

theorem guardLeave_tab {s s' : State H} (h : SameTables s s') (p : Principal) :
    SameTables (guardLeave s p) (guardLeave s' p) :=
  { h with guards := by show List.filter _ _ = List.filter _ _; rw [h.guards] }

theorem withGuard_tab {s s' : State H} (h : SameTables s s') (p : Principal) {b : State H → Option (MgmtRes H)}
    (hb : ∀ t t', SameTables t t' → Out (b t) (b t')) : Out (withGuard s p b) (withGuard s' p b) := by
  unfold withGuard
  have hg := guardEnter_tab h p
  generalize guardEnter s p = x at hg ⊢
  generalize guardEnter s' p = y at hg ⊢
  cases hg with
  | none => exact Out.mk h _
  | @some t t' ht =>
    dsimp only
    have hb := hb t t' ht
    generalize b t = x at hb ⊢
    generalize b t' = y at hb ⊢
    cases hb with
    | none => exact .none
    | @some x y hxy =>
      obtain ⟨t, r⟩ := x
      obtain ⟨t', r'⟩ := y
      obtain ⟨ht, hr⟩ := hxy
      change r' = r at hr
      subst hr
      exact Out.mk (guardLeave_tab ht p) _

theorem insertData_tab {t t' : MetaTable} (h : SameTable Eq t t') (tid : Nat) (k : String) (v : Value) :
    OptSame (SameTable Eq) (insertData t tid k v) (insertData t' tid k v) := by
  unfold insertData
  rw [h.getEq]
  split
  · exact .some (h.setEq _ _)
  · exact .none

theorem addMetadata_tab (tid : Nat) (kvs : List (String × Value)) : ∀ {t t' : MetaTable}, SameTable Eq t t' →
    OptSame (SameTable Eq) (addMetadata t tid kvs) (addMetadata t' tid kvs) := by
  induction kvs with
  | nil => exact fun h => .some h
  | cons e kvs ih =>
    intro t t' h
    obtain ⟨k, v⟩ := e
    simp only [addMetadata]
    have hi := insertData_tab h tid k v
    generalize insertData t tid k v = x at hi ⊢
    generalize insertData t' tid k v = y at hi ⊢
    cases hi with
    | none => exact .none
    | some hi => exact ih hi

theorem mintMetadata_tab (l : List MintReq) : ∀ {t t' : MetaTable} (tid : Nat), SameTable Eq t t' →
    OptSame (SameTable Eq) (mintMetadata t tid l) (mintMetadata t' tid l) := by
  induction l with
  | nil => exact fun _ h => .some h
  | cons r l ih =>
    intro t t' tid h
    simp only [mintMetadata]
    have hi := addMetadata_tab tid r.metadata h
    generalize addMetadata t tid r.metadata = x at hi ⊢
    generalize addMetadata t' tid r.metadata = y at hi ⊢
    cases hi with
    | none => exact .none
    | some hi => exact ih _ hi

theorem mintTxs_tab (L : Ledger H) (now : Nat) (l : List MintReq) : ∀ {s s' : State H} (tid : Nat), SameTables s s' →
    Res (mintTxs L s now tid l) (mintTxs L s' now tid l) := by
  induction l with
  | nil => exact fun _ h => ⟨h, rfl⟩
  | cons r l ih =>
    intro s s' tid h
    simp only [mintTxs]
    have ha := addTx_tab L h (mintTx now tid r)
    generalize addTx L s (mintTx now tid r) = x at ha ⊢
    generalize addTx L s' (mintTx now tid r) = y at ha ⊢
    obtain ⟨u, r⟩ := x
    obtain ⟨u', r'⟩ := y
    obtain ⟨hu, hr⟩ := ha
    change SameTables u u' at hu
    change r' = r at hr
    subst hr
    cases r' with
    | error e => exact ⟨hu, rfl⟩
    | ok i => exact ih _ hu

theorem mintInsert_tab (l : List MintReq) : ∀ {s s' : State H} (tid : Nat), SameTables s s' →
    SameTables (mintInsert s tid l) (mintInsert s' tid l) := by
  induction l with
  | nil => exact fun _ h => h
  | cons r l ih =>
    intro s s' tid h
    simp only [mintInsert]
    refine ih _ { h with tokens := h.tokens.setEq _ _, byOwner := ?_ }
    show SameTable Eq (Map.set _ _ _) (Map.set _ _ _)
    rw [h.byOwner.getEq]
    exact h.byOwner.setEq _ _

theorem mint_tab {s s' : State H} (E : Env H) (h : SameTables s s') (caller : Principal) (now : Nat) (l : List MintReq) :
    Out (mint E s caller now l) (mint E s' caller now l) := by
  unfold mint
  refine withGuard_tab h caller fun t t' ht => ?_
  rw [ht.cfg, ht.tokens.size, ht.lastId]
  split
  · exact Out.mk ht _
  split
  · exact Out.mk ht _
  cases checkMemos t.cfg l with
  | none => exact .none
  | some b =>
    cases b with
    | false => exact Out.mk ht _
    | true =>
      dsimp only
      have hm := mintMetadata_tab l t.lastId ht.mdata
      generalize mintMetadata t.mdata t.lastId l = x at hm ⊢
      generalize mintMetadata t'.mdata t.lastId l = y at hm ⊢
      cases hm with
      | none => exact .none
      | @some md md' hm =>
        dsimp only
        have hx : SameTables { t with mdata := md } { t' with cfg := t.cfg, lastId := t.lastId, mdata := md' } :=
          { ht with cfg := rfl, lastId := rfl, mdata := hm }
        have ha := mintTxs_tab E.ledger now l t.lastId hx
        generalize mintTxs E.ledger { t with mdata := md } now t.lastId l = x at ha ⊢
        generalize mintTxs E.ledger { t' with cfg := t.cfg, lastId := t.lastId, mdata := md' } now t.lastId l = y at ha ⊢
        obtain ⟨u, r⟩ := x
        obtain ⟨u', r'⟩ := y
        obtain ⟨hu, hr⟩ := ha
        change SameTables u u' at hu
        change r' = r at hr
        subst hr
        cases r' with
        | false => exact Out.mk hu _
        | true =>
          have hl : SameTables { u with lastId := t.lastId + l.length } { u' with lastId := t.lastId + l.length } :=
            { hu with lastId := rfl }
          exact Out.mk (mintInsert_tab l t.lastId hl) _

theorem getAllData_tab {t t' : MetaTable} (h : SameTable Eq t t') (tid : Nat) : getAllData t' tid = getAllData t tid := by
  unfold getAllData; rw [h.getEq]

theorem updateNftMetadata_tab {s s' : State H} (E : Env H) (h : SameTables s s') (caller : Principal) (now tid : Nat)
    (kvs : List (String × Value)) :
    Out (updateNftMetadata E s caller now tid kvs) (updateNftMetadata E s' caller now tid kvs) := by
  unfold updateNftMetadata
  refine withGuard_tab h caller fun t t' ht => ?_
  rw [ht.tokens.getEq]
  cases t.tokens.get tid with
  | none => exact Out.mk ht _
  | some token =>
    dsimp only
    rw [getAllData_tab ht.mdata]
    have hm : OptSame (SameTable Eq) (replaceMetadata t.mdata token.id kvs) (replaceMetadata t'.mdata token.id kvs) :=
      addMetadata_tab token.id _ (ht.mdata.del token.id)
    generalize replaceMetadata t.mdata token.id kvs = x at hm ⊢
    generalize replaceMetadata t'.mdata token.id kvs = y at hm ⊢
    cases hm with
    | none => exact .none
    | @some md md' hm =>
      dsimp only
      have hx : SameTables { t with mdata := md } { t' with mdata := md' } := { ht with mdata := hm }
      rw [getAllData_tab hm]
      generalize ({ op := .updateToken, ts := now, tid := some tid,
                    from_ := some (⟨caller, none⟩ : Account),
                    meta_ := some ((getAllData t.mdata tid).getD [], (getAllData md tid).getD []),
                    createdAt := some now } : Tx) = tx
      have ha := addTx_tab E.ledger hx tx
      generalize addTx E.ledger { t with mdata := md } tx = x at ha ⊢
      generalize addTx E.ledger { t' with mdata := md' } tx = y at ha ⊢
      obtain ⟨u, r⟩ := x
      obtain ⟨u', r'⟩ := y
      obtain ⟨hu, hr⟩ := ha
      change SameTables u u' at hu
      change r' = r at hr
      subst hr
      cases r' with
      | error e => exact Out.mk hu _
      | ok i =>
        have hl : SameTables { u with tokens := u.tokens.set tid token } { u' with tokens := u'.tokens.set tid token } :=
          { hu with tokens := hu.tokens.setEq _ _ }
        exact Out.mk hl _

theorem burnNft_tab {s s' : State H} (E : Env H) (h : SameTables s s') (caller : Principal) (now tid : Nat) :
    Out (burnNft E s caller now tid) (burnNft E s' caller now tid) := by
  unfold burnNft
  refine withGuard_tab h caller fun t t' ht => ?_
  rw [ht.tokens.getEq]
  cases t.tokens.get tid with
  | none => exact Out.mk ht _
  | some token =>
    dsimp only
    split
    · exact Out.mk ht _
    · generalize ({ op := .burn, ts := now, tid := some tid, from_ := some token.owner, createdAt := some now } : Tx) = tx
      have ha := addTx_tab E.ledger ht tx
      generalize addTx E.ledger t tx = x at ha ⊢
      generalize addTx E.ledger t' tx = y at ha ⊢
      obtain ⟨u, r⟩ := x
      obtain ⟨u', r'⟩ := y
      obtain ⟨hu, hr⟩ := ha
      change SameTables u u' at hu
      change r' = r at hr
      subst hr
      cases r' with
      | error e => exact Out.mk hu _
      | ok i =>
        have hl : SameTables { u with tokens := u.tokens.del tid } { u' with tokens := u'.tokens.del tid } :=
          { hu with tokens := hu.tokens.del _ }
        exact Out.mk hl _

theorem updateCollectionMetadata_tab {s s' : State H} (h : SameTables s s') (caller : Principal) (a : UpdateCollArg) :
    Out (updateCollectionMetadata s caller a) (updateCollectionMetadata s' caller a) := by
  unfold updateCollectionMetadata
  refine withGuard_tab h caller fun t t' ht => ?_
  have hl : SameTables { t with cfg := applyUpdate t.cfg a } { t' with cfg := applyUpdate t'.cfg a } :=
    { ht with cfg := by rw [ht.cfg] }
  exact Out.mk hl _

theorem grantPermission_tab {m m' : Map Principal (List Permission)} (h : SameTable Eq m m') (p : Principal) (x : Permission) :
    SameTable Eq (grantPermission m p x) (grantPermission m' p x) := by
  unfold grantPermission; rw [h.getEq]; exact h.setEq _ _

theorem revokePermission_tab {m m' : Map Principal (List Permission)} (h : SameTable Eq m m') (p : Principal) (x : Permission) :
    SameTable Eq (revokePermission m p x) (revokePermission m' p x) := by
  unfold revokePermission; rw [h.getEq]
  cases m.get p with
  | none => exact h
  | some l => exact h.setEq _ _

theorem hasPermission_tab {m m' : Map Principal (List Permission)} (h : SameTable Eq m m') (p : Principal) (x : Permission) :
    hasPermission m' p x = hasPermission m p x := by
  unfold hasPermission; rw [h.getEq]

theorem grant_tab {s s' : State H} (h : SameTables s s') (caller p : Principal) (x : Permission) :
    Out (grant s caller p x) (grant s' caller p x) := by
  unfold grant
  refine withGuard_tab h caller fun t t' ht => ?_
  have hl : SameTables { t with perms := grantPermission t.perms p x } { t' with perms := grantPermission t'.perms p x } :=
    { ht with perms := grantPermission_tab ht.perms p x }
  exact Out.mk hl _

theorem revoke_tab {s s' : State H} (h : SameTables s s') (caller p : Principal) (x : Permission) :
    Out (revoke s caller p x) (revoke s' caller p x) := by
  unfold revoke
  refine withGuard_tab h caller fun t t' ht => ?_
  have hl : SameTables { t with perms := revokePermission t.perms p x } { t' with perms := revokePermission t'.perms p x } :=
    { ht with perms := revokePermission_tab ht.perms p x }
  exact Out.mk hl _

/-! ### Uploads -/

/-- The first segments of asynchronous methods end alike. -/
inductive SameStart : Started H → Started H → Prop where
  | done {s s' r} : SameTables s s' → SameStart (.done s r) (.done s' r)
  | suspended {s s'} : SameTables s s' → SameStart (.suspended s) (.suspended s')

theorem withGuardAsync_tab {s s' : State H} (h : SameTables s s') (p : Principal)
    {b : State H → State H × (Except MgmtErr MgmtOk ⊕ Pending)} (hb : ∀ t t', SameTables t t' → Res (b t) (b t')) :
    SameStart (withGuardAsync s p b) (withGuardAsync s' p b) := by
  unfold withGuardAsync
  have hg := guardEnter_tab h p
  generalize guardEnter s p = x at hg ⊢
  generalize guardEnter s' p = y at hg ⊢
  cases hg with
  | none => exact .done h
  | @some t t' ht =>
    dsimp only
    have hb := hb t t' ht
    generalize b t = x at hb ⊢
    generalize b t' = y at hb ⊢
    obtain ⟨t, r⟩ := x
    obtain ⟨t', r'⟩ := y
    obtain ⟨ht, hr⟩ := hb
    change SameTables t t' at ht
    change r' = r at hr
    subst hr
    cases r' with
    | inl r => exact .done (guardLeave_tab ht p)
    | inr q => exact .suspended { ht with pending := by rw [ht.pending] }

theorem containsPath_tab {m m' : Map String Upload} (h : SameTable Eq m m') (p : String) :
    containsPath m' p = containsPath m p := h.anyEq _

theorem initUpload_tab {s s' : State H} (h : SameTables s s') (caller : Principal) (path : String) (n : Nat) :
    SameStart (initUpload s caller path n) (initUpload s' caller path n) := by
  unfold initUpload
  refine withGuardAsync_tab h caller fun t t' ht => ?_
  rw [containsPath_tab ht.uploads, ht.subs]
  split
  · exact ⟨ht, rfl⟩
  split
  · exact ⟨ht, rfl⟩
  · exact ⟨ht, rfl⟩

theorem callStorage_tab {s s' : State H} (h : SameTables s s') (key : String) (u : Upload) (p : Pending) :
    Res (callStorage s key u p) (callStorage s' key u p) := by
  unfold callStorage
  rw [h.subs]
  cases getSub s.subs u.canister with
  | none => exact ⟨{ h with subs := rfl, uploads := h.uploads.del _ }, rfl⟩
  | some c =>
    dsimp only
    split
    · exact ⟨h, rfl⟩
    · exact ⟨h, rfl⟩

theorem storeChunk_tab {s s' : State H} (h : SameTables s s') (caller : Principal) (key : String) :
    SameStart (storeChunk s caller key) (storeChunk s' caller key) := by
  unfold storeChunk
  refine withGuardAsync_tab h caller fun t t' ht => ?_
  rw [ht.uploads.getEq]
  cases t.uploads.get key with
  | none => exact ⟨ht, rfl⟩
  | some u =>
    dsimp only
    split
    · exact ⟨ht, rfl⟩
    · exact callStorage_tab ht _ _ _
    · exact callStorage_tab ht _ _ _

theorem finalizeUpload_tab {s s' : State H} (h : SameTables s s') (caller : Principal) (key : String) :
    SameStart (finalizeUpload s caller key) (finalizeUpload s' caller key) := by
  unfold finalizeUpload
  refine withGuardAsync_tab h caller fun t t' ht => ?_
  rw [ht.uploads.getEq]
  cases t.uploads.get key with
  | none => exact ⟨ht, rfl⟩
  | some u =>
    dsimp only
    split
    · exact ⟨ht, rfl⟩
    · exact ⟨ht, rfl⟩
    · exact callStorage_tab ht _ _ _

theorem cancelUpload_tab {s s' : State H} (h : SameTables s s') (caller : Principal) (key : String) :
    SameStart (cancelUpload s caller key) (cancelUpload s' caller key) := by
  unfold cancelUpload
  refine withGuardAsync_tab h caller fun t t' ht => ?_
  rw [ht.uploads.getEq]
  cases t.uploads.get key with
  | none => exact ⟨ht, rfl⟩
  | some u =>
    dsimp only
    split
    · exact ⟨ht, rfl⟩
    · exact callStorage_tab ht _ _ _
    · exact callStorage_tab ht _ _ _

theorem resumeBody_tab {s s' : State H} (E : Env H) (h : SameTables s s') (now : Nat) (p : Pending) (a : Answer) :
    Res (resumeBody E s now p a) (resumeBody E s' now p a) := by
  unfold resumeBody
  cases p with
  | init c path n subs =>
    dsimp only
    cases managerInitUpload a subs n with
    | none => exact ⟨h, rfl⟩
    | some x =>
      obtain ⟨subs', can⟩ := x
      exact ⟨{ h with subs := rfl, uploads := h.uploads.setEq _ _ }, rfl⟩
  | store c key u =>
    dsimp only
    cases a.resp with
    | error e => exact ⟨h, rfl⟩
    | ok _ => exact ⟨{ h with uploads := h.uploads.setEq _ _ }, rfl⟩
  | finalize c key u =>
    dsimp only
    cases a.resp with
    | error e => exact ⟨h, rfl⟩
    | ok _ =>
      exact ⟨{ h with uploads := h.uploads.setEq _ _, router := h.router.setEq _ _, redirects := h.redirects.setEq _ _ }, rfl⟩
  | cancel c key u =>
    dsimp only
    cases a.resp with
    | error e => exact ⟨h, rfl⟩
    | ok _ => exact ⟨{ h with uploads := h.uploads.del _ }, rfl⟩

/-! ### Messages -/

theorem ofBatch_tab {s s' : State H} (h : SameTables s s') {x y : Option (State H × List (Except TokErr Nat))}
    (hx : Out x y) : Res (ofBatch s x) (ofBatch s' y) := by
  cases hx with
  | none => exact ⟨h, rfl⟩
  | @some x y hx => exact ⟨hx.1, congrArg Reply.batch hx.2⟩

theorem ofMgmt_tab {s s' : State H} (h : SameTables s s') {x y : Option (MgmtRes H)}
    (hx : Out x y) : Res (ofMgmt s x) (ofMgmt s' y) := by
  cases hx with
  | none => exact ⟨h, rfl⟩
  | @some x y hx => exact ⟨hx.1, congrArg Reply.mgmt hx.2⟩

theorem ofStarted_tab {x y : Started H} (hx : SameStart x y) : Res (ofStarted x) (ofStarted y) := by
  cases hx with
  | done h => exact ⟨h, rfl⟩
  | suspended h => exact ⟨h, rfl⟩

theorem exec_tab {s s' : State H} (E : Env H) (h : SameTables s s') (caller : Principal) (now : Nat) (c : Call) :
    Res (exec E s caller now c) (exec E s' caller now c) := by
  cases c with
  | transfer args => exact ofBatch_tab h (icrc7Transfer_tab E.ledger h caller now args)
  | approveTokens args =>
    exact ofBatch_tab h (runBatch_tab (fun s s' a hs => approveToken_tab E.ledger hs caller now a) args h)
  | approveCollection args =>
    exact ofBatch_tab h (runBatch_tab (fun s s' a hs => .some (approveCollection_tab E.ledger hs caller now a)) args h)
  | revokeTokens args =>
    have hr := icrc37RevokeTokens_tab E.ledger h caller now args
    simp only [exec]
    generalize icrc37RevokeTokens E.ledger s caller now args = x at hr ⊢
    generalize icrc37RevokeTokens E.ledger s' caller now args = y at hr ⊢
    cases hr with
    | none => exact ⟨h, rfl⟩
    | @some x y hxy =>
      obtain ⟨t, r⟩ := x
      obtain ⟨t', r'⟩ := y
      obtain ⟨ht, hr⟩ := hxy
      change r' = r at hr
      subst hr
      cases r' with
      | ok l => exact ⟨ht, rfl⟩
      | error e => exact ⟨ht, rfl⟩
  | revokeCollection args =>
    simp only [exec, icrc37RevokeCollection]
    rw [h.cfg]
    exact ofBatch_tab h (runBatch_tab (fun s s' a hs => .some (revokeCollection_tab E.ledger hs caller now a)) _ h)
  | transferFrom args =>
    exact ofBatch_tab h (runBatch_tab (fun s s' a hs => transferFrom_tab E.ledger hs caller now a) args h)
  | updateCollectionMetadata a => exact ofMgmt_tab h (updateCollectionMetadata_tab h caller a)
  | mint reqs => exact ofMgmt_tab h (mint_tab E h caller now reqs)
  | updateNftMetadata tid kvs => exact ofMgmt_tab h (updateNftMetadata_tab E h caller now tid kvs)
  | burn tid => exact ofMgmt_tab h (burnNft_tab E h caller now tid)
  | initUpload path n => exact ofStarted_tab (initUpload_tab h caller path n)
  | storeChunk path => exact ofStarted_tab (storeChunk_tab h caller path)
  | finalizeUpload path => exact ofStarted_tab (finalizeUpload_tab h caller path)
  | cancelUpload path => exact ofStarted_tab (cancelUpload_tab h caller path)
  | grant p x => exact ofMgmt_tab h (grant_tab h caller p x)
  | revoke p x => exact ofMgmt_tab h (revoke_tab h caller p x)

/-- Building a table row by row: distinct rows give the rows themselves. -/
theorem foldl_set {l : List (String × String)} : ∀ {m : Map String String}, m.NodupKeys →
    (m.entries ++ l).Pairwise (fun a b => (a.1 == b.1) = false) →
    (l.foldl (fun r e => r.set e.1 e.2) m).entries = m.entries ++ l := by
  induction l with
  | nil => intro m _ _; simp
  | cons e l ih =>
    intro m hm hp
    have hnone : m.get e.1 = none := by
      rw [Map.get_eq_none]
      intro a ha
      exact (List.pairwise_append.1 hp).2.2 a ha e (by simp)
    have hset : (m.set e.1 e.2).entries = m.entries ++ [e] := Map.set_of_none hnone
    simp only [List.foldl_cons]
    rw [ih (Map.nodup_set hm _ _) (by rw [hset]; simpa using hp), hset]
    simp

theorem rebuild_tab {m m' : Map String String} (h : SameTable Eq m m') :
    SameTable Eq (m.entries.foldl (fun r e => r.set e.1 e.2) ∅) (m'.entries.foldl (fun r e => r.set e.1 e.2) ∅) := by
  have h1 : (m.entries.foldl (fun r e => r.set e.1 e.2) (∅ : Map String String)).entries = m.entries := by
    have := foldl_set (l := m.entries) (m := ∅) Map.nodup_empty (by rw [show (∅ : Map String String).entries = [] from rfl, List.nil_append]; exact h.distinct)
    simpa using this
  have h2 : (m'.entries.foldl (fun r e => r.set e.1 e.2) (∅ : Map String String)).entries = m'.entries := by
    have := foldl_set (l := m'.entries) (m := ∅) Map.nodup_empty (by rw [show (∅ : Map String String).entries = [] from rfl, List.nil_append]; exact h.distinct')
    simpa using this
  exact ⟨by unfold Map.NodupKeys; rw [h1]; exact h.distinct, by rw [h1, h2]; exact h.rows⟩

theorem step_tab {s s' : State H} (E : Env H) (h : SameTables s s') (m : Msg) : Res (step E s m) (step E s' m) := by
  cases m with
  | call caller now c =>
    simp only [step, execCall]
    cases c.needs with
    | none => exact exec_tab E h caller now c
    | some p =>
      dsimp only
      rw [hasPermission_tab h.perms]
      split
      · exact exec_tab E h caller now c
      · exact ⟨h, rfl⟩
  | resume now i ans =>
    simp only [step]
    rw [h.pending]
    cases s.pending[i]? with
    | none => exact ⟨h, rfl⟩
    | some p =>
      dsimp only
      have hx : SameTables { s with pending := s.pending.eraseIdx i } { s' with pending := s.pending.eraseIdx i } :=
        { h with pending := rfl }
      have hb := resumeBody_tab E hx now p ans
      exact ⟨guardLeave_tab hb.1 _, congrArg Reply.mgmt hb.2⟩
  | resumeTrap i =>
    simp only [step]
    rw [h.pending]
    cases s.pending[i]? with
    | none => exact ⟨h, rfl⟩
    | some p =>
      dsimp only
      have hx : SameTables { s with pending := s.pending.eraseIdx i } { s' with pending := s.pending.eraseIdx i } :=
        { h with pending := rfl }
      exact ⟨guardLeave_tab hx _, rfl⟩
  | upgrade => exact ⟨{ h with pending := rfl, router := rebuild_tab h.redirects }, rfl⟩

theorem run_tab (E : Env H) (ms : List Msg) : ∀ {s s' : State H}, SameTables s s' →
    SameTables (run E s ms) (run E s' ms) ∧ replies E s' ms = replies E s ms := by
  induction ms with
  | nil => exact fun h => ⟨h, rfl⟩
  | cons m ms ih =>
    intro s s' h
    have hs := step_tab E h m
    have hi := ih hs.1
    refine ⟨hi.1, ?_⟩
    show (step E s' m).2 :: replies E (step E s' m).1 ms = (step E s m).2 :: replies E (step E s m).1 ms
    rw [hs.2, hi.2]

/-! ### Installation and queries -/

theorem init_tab {validUrl : String → Bool} {hid : H} {caller : Principal} {a : InitArgs} {s : State H}
    (hp : a.perms.NodupKeys) (h : init validUrl hid caller a = some s) : SameTables s s := by
  have hgrant : ∀ (l : List Permission) {m : Map Principal (List Permission)}, SameTable Eq m m →
      SameTable Eq (l.foldl (fun ps x => grantPermission ps caller x) m)
        (l.foldl (fun ps x => grantPermission ps caller x) m) := by
    intro l
    induction l with
    | nil => exact fun h => h
    | cons x l ih => exact fun h => ih (grantPermission_tab h caller x)
  have hperms : SameTable Eq a.perms a.perms := .refl hp fun _ _ => rfl
  unfold init at h
  split at h
  · cases h
  split at h
  · cases h
  split at h
  · cases h
  split at h
  · cases h
  cases h
  exact {
    cfg := rfl, lastId := rfl, subs := rfl, guards := rfl, hid := rfl, log := rfl, pending := rfl
    perms := by
      show SameTable Eq (if _ then _ else _) (if _ then _ else _)
      split
      · exact hgrant _ hperms
      · exact hperms
    tokens := .empty, byOwner := .empty, redirects := .empty, windows := .empty, uploads := .empty
    tokAppr := .empty, collAppr := .empty, mdata := .empty, router := .empty }

theorem SameTables.symm {s t : State H} (h : SameTables s t) : SameTables t s where
  cfg := h.cfg.symm
  lastId := h.lastId.symm
  subs := h.subs.symm
  guards := h.guards.symm
  hid := h.hid.symm
  log := h.log.symm
  pending := h.pending.symm
  perms := h.perms.symm perEq
  tokens := h.tokens.symm perEq
  byOwner := h.byOwner.symm perEq
  redirects := h.redirects.symm perEq
  windows := h.windows.symm perEq
  uploads := h.uploads.symm perEq
  mdata := h.mdata.symm perEq
  router := h.router.symm perEq
  tokAppr := h.tokAppr.symm perTable
  collAppr := h.collAppr.symm perTable

theorem SameTables.self {s t : State H} (h : SameTables s t) : SameTables t t := h.symm.trans h

theorem sortNat_tab {l l' : List Nat} (h : l.Perm l') : sortNat l' = sortNat l := by
  refine List.Perm.eq_of_pairwise (le := (· ≤ ·)) ?_ (sortNat_sorted _) (sortNat_sorted _)
    ((sortNat_perm l').trans (h.symm.trans (sortNat_perm l).symm))
  intro a b _ _ h1 h2
  exact Nat.le_antisymm h1 h2

theorem paged_tab {s s' : State H} (h : SameTables s s') {l l' : List Nat} (hl : l.Perm l') (prev take : Option Nat) :
    paged s' l' prev take = paged s l prev take := by
  unfold paged page
  rw [h.cfg, sortNat_tab hl]

/-- A walk of a rearranged table that meets the rows in the order of a given walk. -/
theorem walk_tab {A : Type} [DecidableEq A] {l l' : List A} (h : l.Perm l') (walk : List A → List A) (hw : AnyWalk walk) :
    ∃ walk', AnyWalk walk' ∧ walk' l' = walk l := by
  refine ⟨fun x => if x.Perm l then walk l else x, fun x => ?_, ?_⟩
  · show (if x.Perm l then walk l else x).Perm x
    split
    · next hx => exact (hw l).trans hx.symm
    · exact .refl x
  · show (if l'.Perm l then walk l else l') = walk l
    rw [if_pos h.symm]

theorem sameReadings_tab {s s' : State H} (h : SameTables s s') : SameReadings s s' where
  settings := h.cfg
  collection := by unfold icrc7CollectionMetadata totalSupply; rw [h.cfg, h.tokens.size]
  supply := h.tokens.size
  metadata ids := by
    unfold icrc7TokenMetadata queryBatch
    have hf : (fun tid => (s'.tokens.get tid).map (tokenMetadata s')) = fun tid => (s.tokens.get tid).map (tokenMetadata s) := by
      funext tid
      rw [h.tokens.getEq]
      unfold tokenMetadata
      simp only [getAllData_tab h.mdata]
    rw [hf, h.cfg]
  owners ids := by
    unfold icrc7OwnerOf queryBatch
    rw [show ownerOf s' = ownerOf s from funext (ownerOf_tab h), h.cfg]
  balances as := by
    unfold icrc7BalanceOf queryBatch
    have hf : balanceOf s' = balanceOf s := by funext a; unfold balanceOf; rw [h.byOwner.getEq]
    rw [hf, h.cfg]
  tokens prev take := paged_tab h (h.tokens.perm.map _) prev take
  tokensOf a prev take := paged_tab h ((h.tokens.perm.filter _).map _) prev take
  isApproved now args := by
    unfold icrc37IsApproved
    congr 1
    funext arg
    unfold Verif.isApproved
    rw [ownerOf_tab h]
    have h1 := h.tokAppr.get perTable arg.tid
    have h2 := getD_tab (h.collAppr.get perTable arg.spender)
    simp only [h2.anyEq]
    generalize s.tokAppr.get arg.tid = x at h1 ⊢
    generalize s'.tokAppr.get arg.tid = y at h1 ⊢
    cases h1 with
    | none => rfl
    | some h1 => simp only [h1.getEq]
  storage c := by unfold getAllStorageSubcanisters guarded; rw [hasPermission_tab h.perms, h.subs]
  uploadStatus c path := by unfold getUploadStatus guarded; rw [hasPermission_tab h.perms, h.uploads.getEq]
  userPermissions c p := by unfold getUserPermissions guarded; rw [hasPermission_tab h.perms, h.perms.getEq]
  hasPermission c p x := by unfold hasPermissionQuery guarded; rw [hasPermission_tab h.perms, hasPermission_tab h.perms]
  http path := by unfold httpRequest; rw [h.router.getEq]
  tokenApprovals walk hw tid prev take := by
    unfold icrc37GetTokenApprovals
    have h1 := h.tokAppr.get perTable tid
    generalize s.tokAppr.get tid = x at h1 ⊢
    generalize s'.tokAppr.get tid = y at h1 ⊢
    cases h1 with
    | none => exact ⟨walk, hw, rfl⟩
    | some h1 =>
      obtain ⟨w, hw', he⟩ := walk_tab h1.perm walk hw
      exact ⟨w, hw', by simp only [he]⟩
  collApprovals walk hw a prev take := by
    unfold icrc37GetCollectionApprovals
    obtain ⟨w, hw', he⟩ := walk_tab (getD_tab (h.collAppr.get perTable a)).perm walk hw
    exact ⟨w, hw', by rw [he]⟩
  uploads walk hw c prev take := by
    unfold getAllUploads guarded
    obtain ⟨w, hw', he⟩ := walk_tab h.uploads.perm walk hw
    exact ⟨w, hw', by rw [he, hasPermission_tab h.perms]⟩

theorem gcCancels_tab {s s' : State H} (h : SameTables s s') (now : Nat) : (gcCancels s' now).Perm (gcCancels s now) :=
  (h.uploads.perm.symm.filter _).map _

/-- Rearranging before every message gives the same replies. -/
theorem rearrangedRun_tab {E : Env H} {s t : State H} {ms : List Msg} {rs : List Reply} (h : RearrangedRun E s ms rs t) :
    rs = replies E s ms ∧ SameTables (run E s ms) t := by
  induction h with
  | nil h => exact ⟨rfl, h⟩
  | @cons s s₁ s₂ t m r ms rs hs hst _ ih =>
    have hstep := step_tab E hs m
    rw [hst] at hstep
    obtain ⟨hs2, hr⟩ := hstep
    have hrun := run_tab E ms hs2
    change r = (step E s m).2 at hr
    change SameTables (run E (step E s m).1 ms) (run E s₂ ms) ∧ replies E s₂ ms = replies E (step E s m).1 ms at hrun
    refine ⟨?_, hrun.1.trans ih.2⟩
    show r :: rs = (step E s m).2 :: replies E (step E s m).1 ms
    rw [hr, ih.1, hrun.2]

end Verif.Spec
