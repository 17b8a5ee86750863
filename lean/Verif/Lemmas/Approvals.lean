import Verif.Lemmas.Replies
/-!
# Approval tables: what a message can add and remove
-/
namespace Verif

open Spec

variable {H : Type}

theorem tokApproval_set {s s' : State H} {k : Nat} {m : Map Account Approval} {tid : Nat} {sp : Account}
    {a : Approval} (hs : s'.tokAppr = s.tokAppr.set k m) :
    TokenApproval s' tid sp a ↔ (k = tid ∧ m.get sp = some a) ∨ (k ≠ tid ∧ TokenApproval s tid sp a) := by
  unfold TokenApproval
  rw [hs, Map.get_set]
  by_cases h : k = tid
  · subst h; simp
  · simp [h]

theorem tokApproval_del {s s' : State H} {k tid : Nat} {sp : Account} {a : Approval}
    (hs : s'.tokAppr = s.tokAppr.del k) :
    TokenApproval s' tid sp a ↔ k ≠ tid ∧ TokenApproval s tid sp a := by
  unfold TokenApproval
  rw [hs, Map.get_del]
  by_cases h : k = tid
  · subst h; simp
  · simp [h]

theorem tokApproval_same {s s' : State H} {tid : Nat} {sp : Account} {a : Approval}
    (hs : s'.tokAppr = s.tokAppr) : TokenApproval s' tid sp a ↔ TokenApproval s tid sp a := by
  unfold TokenApproval; rw [hs]

theorem collApproval_set {s s' : State H} {k : Account} {m : Map Account Approval} {o sp : Account}
    {a : Approval} (hs : s'.collAppr = s.collAppr.set k m) :
    CollApproval s' o sp a ↔ ((k == o) = true ∧ m.get sp = some a) ∨
      ((k == o) = false ∧ CollApproval s o sp a) := by
  unfold CollApproval
  rw [hs, Map.get_set]
  by_cases h : (k == o) = true
  · simp [h]
  · simp [h]

theorem collApproval_del {s s' : State H} {k o : Account} {sp : Account} {a : Approval}
    (hs : s'.collAppr = s.collAppr.del k) :
    CollApproval s' o sp a ↔ (k == o) = false ∧ CollApproval s o sp a := by
  unfold CollApproval
  rw [hs, Map.get_del]
  by_cases h : (k == o) = true
  · simp [h]
  · simp [h]

theorem collApproval_same {s s' : State H} {o : Account} {sp : Account} {a : Approval}
    (hs : s'.collAppr = s.collAppr) : CollApproval s' o sp a ↔ CollApproval s o sp a := by
  unfold CollApproval; rw [hs]

/-- Effects on the token approvals. -/
inductive TokApprEff (m : Msg) (s s' : State H) : Prop
  | same (h : s'.tokAppr = s.tokAppr)
  | approve (c : Principal) (now : Nat) (args : List ApproveTokenArg) (arg : ApproveTokenArg) (owner : Account)
      (hm : m = .call c now (.approveTokens args)) (harg : arg ∈ args)
      (own : Owner s arg.tid = some owner) (eqv : (owner == ⟨c, arg.info.fromSub⟩) = true)
      (sp : (arg.info.spender == anonymousAccount) = false)
      (room : ∀ m, s.tokAppr.get arg.tid = some m → m.size < maxApprovals s.cfg)
      (h : s'.tokAppr = s.tokAppr.set arg.tid (((s.tokAppr.get arg.tid).getD ∅).set
                   arg.info.spender (mkApproval arg.info ⟨c, arg.info.fromSub⟩ now)))
  | prune (c : Principal) (now : Nat) (args : List TransferFromArg) (arg : TransferFromArg)
      (hm : m = .call c now (.transferFrom args)) (harg : arg ∈ args)
      (tbl : Map Account Approval) (a : Approval) (htbl : s.tokAppr.get arg.tid = some tbl)
      (ha : tbl.get ⟨c, arg.spenderSub⟩ = some a) (hexp : ¬ Live a now)
      (h : s'.tokAppr = s.tokAppr.set arg.tid (tbl.del ⟨c, arg.spenderSub⟩))
  | revoke (c : Principal) (now : Nat) (args : List RevokeTokenArg) (arg : RevokeTokenArg) (owner : Account)
      (hm : m = .call c now (.revokeTokens args)) (harg : arg ∈ args)
      (own : Owner s arg.tid = some owner) (eqv : (owner == ⟨c, arg.fromSub⟩) = true)
      (tbl : Map Account Approval) (htbl : s.tokAppr.get arg.tid = some tbl)
      (h : s'.tokAppr = s.tokAppr.set arg.tid (dropSpender tbl arg.spender))
  | moved (c : Principal) (now : Nat) (args : List TransferFromArg) (arg : TransferFromArg) (owner : Account)
      (hm : m = .call c now (.transferFrom args)) (harg : arg ∈ args)
      (own : Owner s arg.tid = some owner) (howner : (owner == arg.from_) = true)
      (hto : Owner s' arg.tid = some arg.to_)
      (auth : MayMove s now arg.tid owner ⟨c, arg.spenderSub⟩)
      (h : s'.tokAppr = s.tokAppr.del arg.tid)

theorem owner_of_get {s : State H} {tid : Nat} {t : Token} (h : s.tokens.get tid = some t) :
    Owner s tid = some t.owner := by simp [Owner, h]

theorem micro_tokAppr {E : Env H} {m : Msg} {s s' : State H} (hi : TokInv s) (h : Micro E m s s') :
    TokApprEff m s s' := by
  cases h with
  | xferFrom arg nft h i harg tok own auth diff toOk timing add =>
    refine .moved _ _ _ arg nft.owner rfl harg (owner_of_get tok) own ?_ auth rfl
    simp [Owner, moveToken_eq, hi.ids _ _ tok]
  | pruneTok arg harg tbl a htbl ha hexp => exact .prune _ _ _ arg rfl harg tbl a htbl ha hexp rfl
  | approve arg owner h i harg own eqv sp room timing add =>
    exact .approve _ _ _ arg owner rfl harg own eqv sp room rfl
  | revokeTok arg owner h i tbl harg own eqv hm timing add =>
    exact .revoke _ _ _ arg owner rfl harg own eqv tbl hm rfl
  | mint reqs md h perm free batch cap memos hmd => rw [mintInsert_eq]; exact .same rfl
  | @resume _ now i ans p hp =>
    obtain ⟨_, _, _, _, he⟩ := resumeBody_eq E { s with pending := s.pending.eraseIdx i } now p ans
    rw [he]; exact .same rfl
  | _ => exact .same rfl

/-- Effects on the collection approvals. -/
inductive CollApprEff (m : Msg) (s s' : State H) : Prop
  | same (h : s'.collAppr = s.collAppr)
  | approve (c : Principal) (now : Nat) (args : List ApprovalInfo) (info : ApprovalInfo)
      (hm : m = .call c now (.approveCollection args)) (harg : info ∈ args)
      (sp : (info.spender == anonymousAccount) = false)
      (holds : ∃ e ∈ s.tokens.entries, e.2.owner.owner = c)
      (room : ∀ m, s.collAppr.get ⟨c, info.fromSub⟩ = some m → m.size < maxApprovals s.cfg)
      (h : s'.collAppr = s.collAppr.set ⟨c, info.fromSub⟩
                   (((s.collAppr.get ⟨c, info.fromSub⟩).getD ∅).set info.spender
                     (mkApproval info ⟨c, info.fromSub⟩ now)))
  | prune (c : Principal) (now : Nat) (args : List TransferFromArg) (arg : TransferFromArg) (o : Account)
      (hm : m = .call c now (.transferFrom args)) (harg : arg ∈ args)
      (own : Owner s arg.tid = some o)
      (tbl : Map Account Approval) (a : Approval) (htbl : s.collAppr.get o = some tbl)
      (ha : tbl.get ⟨c, arg.spenderSub⟩ = some a) (hexp : ¬ Live a now)
      (base : Map Account (Map Account Approval))
      (hbase : base = s.collAppr ∨ base = s.collAppr.del o)
      (h : s'.collAppr = base.set o (tbl.del ⟨c, arg.spenderSub⟩))
  | revoke (c : Principal) (now : Nat) (args : List RevokeCollArg) (arg : RevokeCollArg)
      (hm : m = .call c now (.revokeCollection args)) (harg : arg ∈ args)
      (tbl : Map Account Approval) (htbl : s.collAppr.get ⟨c, none⟩ = some tbl)
      (h : s'.collAppr = s.collAppr.set ⟨c, none⟩ (dropSpender tbl arg.spender))
  | moved (c : Principal) (now : Nat) (args : List TransferFromArg) (arg : TransferFromArg) (owner : Account)
      (hm : m = .call c now (.transferFrom args)) (harg : arg ∈ args)
      (own : Owner s arg.tid = some owner) (howner : (owner == arg.from_) = true)
      (hto : Owner s' arg.tid = some arg.to_)
      (auth : MayMove s now arg.tid owner ⟨c, arg.spenderSub⟩)
      (h : s'.collAppr = s.collAppr.del arg.from_)

theorem micro_collAppr {E : Env H} {m : Msg} {s s' : State H} (hi : TokInv s) (h : Micro E m s s') :
    CollApprEff m s s' := by
  cases h with
  | xferFrom arg nft h i harg tok own auth diff toOk timing add =>
    refine .moved _ _ _ arg nft.owner rfl harg (owner_of_get tok) own ?_ auth rfl
    simp [Owner, moveToken_eq, hi.ids _ _ tok]
  | pruneColl arg harg nft tok tbl a htbl ha hexp base hbase =>
    exact .prune _ _ _ arg nft.owner rfl harg (owner_of_get tok) tbl a htbl ha hexp base hbase rfl
  | approveColl info h i harg sp holds room timing add =>
    exact .approve _ _ _ info rfl harg sp holds room rfl
  | revokeColl arg h i tbl harg hm timing add =>
    exact .revoke _ _ _ arg rfl harg tbl hm rfl
  | mint reqs md h perm free batch cap memos hmd => rw [mintInsert_eq]; exact .same rfl
  | @resume _ now i ans p hp =>
    obtain ⟨_, _, _, _, he⟩ := resumeBody_eq E { s with pending := s.pending.eraseIdx i } now p ans
    rw [he]; exact .same rfl
  | _ => exact .same rfl

theorem get_dropSpender {m : Map Account Approval} {w : Option Account} {sp : Account} {a : Approval}
    (h : (dropSpender m w).get sp = some a) : m.get sp = some a := by
  cases w with
  | none => simp [dropSpender] at h
  | some x =>
    simp only [dropSpender, Map.get_del] at h
    split at h
    · cases h
    · exact h

theorem get_del_some {m : Map Account Approval} {x sp : Account} {a : Approval}
    (h : (m.del x).get sp = some a) : m.get sp = some a :=
  get_dropSpender (w := some x) h

/-- A token approval present after an elementary effect was there before, or has
just been granted by the owner. -/
theorem TokApprEff.gain {m : Msg} {s s' : State H} (h : TokApprEff m s s') {tid : Nat} {sp : Account}
    {a : Approval} (ha : TokenApproval s' tid sp a) :
    TokenApproval s tid sp a ∨ ∃ c now args arg owner, m = .call c now (.approveTokens args) ∧ arg ∈ args ∧
      arg.tid = tid ∧ Owner s tid = some owner ∧ (owner == ⟨c, arg.info.fromSub⟩) = true ∧
      (arg.info.spender == sp) = true ∧ (arg.info.spender == anonymousAccount) = false ∧
      a = mkApproval arg.info ⟨c, arg.info.fromSub⟩ now := by
  cases h with
  | same h => exact .inl ((tokApproval_same h).1 ha)
  | approve c now args arg owner hm harg own eqv sp' room h =>
    rcases (tokApproval_set h).1 ha with ⟨rfl, hg⟩ | ⟨_, h⟩
    · rw [Map.get_set] at hg
      split at hg
      · rename_i hsp
        simp at hg
        exact .inr ⟨c, now, args, arg, owner, hm, harg, rfl, own, eqv, hsp, sp', hg.symm⟩
      · left
        cases hget : s.tokAppr.get arg.tid with
        | none => simp [hget] at hg
        | some tbl => simp [hget] at hg; exact ⟨tbl, hget, hg⟩
    · exact .inl h
  | prune c now args arg hm harg tbl a' htbl ha' hexp h =>
    rcases (tokApproval_set h).1 ha with ⟨rfl, hg⟩ | ⟨_, h⟩
    · exact .inl ⟨tbl, htbl, get_del_some hg⟩
    · exact .inl h
  | revoke c now args arg owner hm harg own eqv tbl htbl h =>
    rcases (tokApproval_set h).1 ha with ⟨rfl, hg⟩ | ⟨_, h⟩
    · exact .inl ⟨tbl, htbl, get_dropSpender hg⟩
    · exact .inl h
  | moved c now args arg owner hm harg own howner hto auth h =>
    exact .inl ((tokApproval_del h).1 ha).2

/-- A live token approval that disappears was replaced or revoked by the owner,
or removed by an accepted `transfer_from` of the token. -/
theorem TokApprEff.loss {m : Msg} {s s' : State H} (h : TokApprEff m s s') {tid : Nat} {sp : Account}
    {a : Approval} (ha : TokenApproval s tid sp a) (hn : ¬ TokenApproval s' tid sp a)
     :
    (∃ c now args arg owner, m = .call c now (.approveTokens args) ∧ arg ∈ args ∧
      arg.tid = tid ∧ Owner s tid = some owner ∧ (owner == ⟨c, arg.info.fromSub⟩) = true ∧
      (arg.info.spender == sp) = true) ∨
    (∃ c now args arg owner, m = .call c now (.revokeTokens args) ∧ arg ∈ args ∧ arg.tid = tid ∧
      Owner s tid = some owner ∧ (owner == ⟨c, arg.fromSub⟩) = true ∧
      (arg.spender = none ∨ ∃ w, arg.spender = some w ∧ (w == sp) = true)) ∨
    (∃ c now args arg owner, m = .call c now (.transferFrom args) ∧ arg ∈ args ∧ arg.tid = tid ∧
      Owner s tid = some owner ∧ (owner == arg.from_) = true ∧ Owner s' tid = some arg.to_ ∧
      MayMove s now tid owner ⟨c, arg.spenderSub⟩) ∨
    (∃ c now args arg, m = .call c now (.transferFrom args) ∧ arg ∈ args ∧ arg.tid = tid ∧
      ((⟨c, arg.spenderSub⟩ : Account) == sp) = true ∧ ¬ Live a now) := by
  cases h with
  | same h => exact absurd ((tokApproval_same h).2 ha) hn
  | approve c now args arg owner hm harg own eqv sp' room h =>
    rw [tokApproval_set h] at hn
    by_cases hk : arg.tid = tid
    · subst hk
      left
      refine ⟨c, now, args, arg, owner, hm, harg, rfl, own, eqv, ?_⟩
      by_cases hsp : (arg.info.spender == sp) = true
      · exact hsp
      · exfalso; apply hn
        left
        refine ⟨rfl, ?_⟩
        rw [Map.get_set_ne _ _ (by simpa using hsp)]
        obtain ⟨tbl, h1, h2⟩ := ha
        simp [h1, h2]
    · exact absurd (.inr ⟨hk, ha⟩) hn
  | prune c now args arg hm harg tbl a' htbl ha' hexp h =>
    rw [tokApproval_set h] at hn
    by_cases hk : arg.tid = tid
    · subst hk
      right; right; right
      obtain ⟨tbl', h1, h2⟩ := ha
      rw [htbl] at h1; cases h1
      by_cases hsp : ((⟨c, arg.spenderSub⟩ : Account) == sp) = true
      · rw [Map.get_congr _ hsp, h2] at ha'
        cases ha'
        exact ⟨c, now, args, arg, hm, harg, rfl, hsp, hexp⟩
      · exfalso; apply hn
        left
        exact ⟨rfl, by rw [Map.get_del_ne _ (by simpa using hsp)]; exact h2⟩
    · exact absurd (.inr ⟨hk, ha⟩) hn
  | revoke c now args arg owner hm harg own eqv tbl htbl h =>
    rw [tokApproval_set h] at hn
    by_cases hk : arg.tid = tid
    · subst hk
      right; left
      refine ⟨c, now, args, arg, owner, hm, harg, rfl, own, eqv, ?_⟩
      obtain ⟨tbl', h1, h2⟩ := ha
      rw [htbl] at h1; cases h1
      cases hw : arg.spender with
      | none => exact .inl rfl
      | some w =>
        refine .inr ⟨w, rfl, ?_⟩
        by_cases hsp : (w == sp) = true
        · exact hsp
        · exfalso; apply hn
          left
          refine ⟨rfl, ?_⟩
          simp only [hw, dropSpender]
          rw [Map.get_del_ne _ (by simpa using hsp)]; exact h2
    · exact absurd (.inr ⟨hk, ha⟩) hn
  | moved c now args arg owner hm harg own howner hto auth h =>
    rw [tokApproval_del h] at hn
    by_cases hk : arg.tid = tid
    · subst hk
      exact .inr (.inr (.inl ⟨c, now, args, arg, owner, hm, harg, rfl, own, howner, hto, auth⟩))
    · exact absurd ⟨hk, ha⟩ hn

/-- A collection approval present after an elementary effect was there before,
or has just been granted by the account's principal, which owns a token. -/
theorem CollApprEff.gain {m : Msg} {s s' : State H} (h : CollApprEff m s s') {o sp : Account}
    {a : Approval} (ha : CollApproval s' o sp a) :
    CollApproval s o sp a ∨ ∃ c now args info, m = .call c now (.approveCollection args) ∧ info ∈ args ∧
      ((⟨c, info.fromSub⟩ : Account) == o) = true ∧ (∃ e ∈ s.tokens.entries, e.2.owner.owner = c) ∧
      (info.spender == sp) = true ∧ (info.spender == anonymousAccount) = false ∧
      a = mkApproval info ⟨c, info.fromSub⟩ now := by
  cases h with
  | same h => exact .inl ((collApproval_same h).1 ha)
  | approve c now args info hm harg sp' holds room h =>
    rcases (collApproval_set h).1 ha with ⟨he, hg⟩ | ⟨_, h⟩
    · rw [Map.get_set] at hg
      split at hg
      · rename_i hsp
        simp at hg
        exact .inr ⟨c, now, args, info, hm, harg, he, holds, hsp, sp', hg.symm⟩
      · left
        cases hget : s.collAppr.get ⟨c, info.fromSub⟩ with
        | none => simp [hget] at hg
        | some tbl =>
          simp [hget] at hg
          exact ⟨tbl, by rw [← Map.get_congr _ he]; exact hget, hg⟩
    · exact .inl h
  | prune c now args arg o' hm harg own tbl a' htbl ha' hexp base hbase h =>
    by_cases he : (o' == o) = true
    · obtain ⟨tbl', h1, h2⟩ := ha
      rw [h, Map.get_set, if_pos he] at h1
      cases h1
      exact .inl ⟨tbl, by rw [← Map.get_congr _ he]; exact htbl, get_del_some h2⟩
    · obtain ⟨tbl', h1, h2⟩ := ha
      rw [h, Map.get_set, if_neg he] at h1
      left
      refine ⟨tbl', ?_, h2⟩
      rcases hbase with rfl | rfl
      · exact h1
      · rw [Map.get_del_ne _ (by simpa using he)] at h1; exact h1
  | revoke c now args arg hm harg tbl htbl h =>
    rcases (collApproval_set h).1 ha with ⟨he, hg⟩ | ⟨_, h⟩
    · exact .inl ⟨tbl, by rw [← Map.get_congr _ he]; exact htbl, get_dropSpender hg⟩
    · exact .inl h
  | moved c now args arg owner hm harg own howner hto auth h =>
    exact .inl ((collApproval_del h).1 ha).2

/-- A collection approval that disappears was replaced or revoked by the
account's principal, dropped because it had expired, or dropped by an accepted
`transfer_from` out of the account. -/
theorem CollApprEff.loss {m : Msg} {s s' : State H} (h : CollApprEff m s s') {o sp : Account}
    {a : Approval} (ha : CollApproval s o sp a) (hn : ¬ CollApproval s' o sp a) :
    (∃ c now args info, m = .call c now (.approveCollection args) ∧ info ∈ args ∧
      ((⟨c, info.fromSub⟩ : Account) == o) = true ∧ (info.spender == sp) = true) ∨
    (∃ c now args arg, m = .call c now (.revokeCollection args) ∧ arg ∈ args ∧
      ((⟨c, none⟩ : Account) == o) = true ∧
      (arg.spender = none ∨ ∃ w, arg.spender = some w ∧ (w == sp) = true)) ∨
    (∃ c now args arg owner, m = .call c now (.transferFrom args) ∧ arg ∈ args ∧
      Owner s arg.tid = some owner ∧ (owner == o) = true ∧ Owner s' arg.tid = some arg.to_ ∧
      MayMove s now arg.tid owner ⟨c, arg.spenderSub⟩) ∨
    (∃ c now args arg, m = .call c now (.transferFrom args) ∧ arg ∈ args ∧
      ((⟨c, arg.spenderSub⟩ : Account) == sp) = true ∧ ¬ Live a now) := by
  cases h with
  | same h => exact absurd ((collApproval_same h).2 ha) hn
  | approve c now args info hm harg sp' holds room h =>
    rw [collApproval_set h] at hn
    by_cases hk : ((⟨c, info.fromSub⟩ : Account) == o) = true
    · left
      refine ⟨c, now, args, info, hm, harg, hk, ?_⟩
      by_cases hsp : (info.spender == sp) = true
      · exact hsp
      · exfalso; apply hn
        left
        refine ⟨hk, ?_⟩
        rw [Map.get_set_ne _ _ (by simpa using hsp)]
        obtain ⟨tbl, h1, h2⟩ := ha
        rw [Map.get_congr _ hk]
        simp [h1, h2]
    · exact absurd (.inr ⟨by simpa using hk, ha⟩) hn
  | prune c now args arg o' hm harg own tbl a' htbl ha' hexp base hbase h =>
    right; right; right
    obtain ⟨tbl', h1, h2⟩ := ha
    by_cases hk : (o' == o) = true
    · rw [← Map.get_congr _ hk, htbl] at h1; cases h1
      by_cases hsp : ((⟨c, arg.spenderSub⟩ : Account) == sp) = true
      · rw [Map.get_congr _ hsp, h2] at ha'
        cases ha'
        exact ⟨c, now, args, arg, hm, harg, hsp, hexp⟩
      · exfalso; apply hn
        exact ⟨_, by rw [h, Map.get_set, if_pos hk], by rw [Map.get_del_ne _ (by simpa using hsp)]; exact h2⟩
    · exfalso; apply hn
      refine ⟨tbl', ?_, h2⟩
      rw [h, Map.get_set, if_neg hk]
      rcases hbase with rfl | rfl
      · exact h1
      · rw [Map.get_del_ne _ (by simpa using hk)]; exact h1
  | revoke c now args arg hm harg tbl htbl h =>
    rw [collApproval_set h] at hn
    by_cases hk : ((⟨c, none⟩ : Account) == o) = true
    · right; left
      refine ⟨c, now, args, arg, hm, harg, hk, ?_⟩
      obtain ⟨tbl', h1, h2⟩ := ha
      rw [← Map.get_congr _ hk, htbl] at h1; cases h1
      cases hw : arg.spender with
      | none => exact .inl rfl
      | some w =>
        refine .inr ⟨w, rfl, ?_⟩
        by_cases hsp : (w == sp) = true
        · exact hsp
        · exfalso; apply hn
          left
          refine ⟨hk, ?_⟩
          simp only [hw, dropSpender]
          rw [Map.get_del_ne _ (by simpa using hsp)]; exact h2
    · exact absurd (.inr ⟨by simpa using hk, ha⟩) hn
  | moved c now args arg owner hm harg own howner hto auth h =>
    rw [collApproval_del h] at hn
    by_cases hk : (arg.from_ == o) = true
    · exact .inr (.inr (.inl ⟨c, now, args, arg, owner, hm, harg, own, Account.trans_beq howner hk, hto, auth⟩))
    · exact absurd ⟨by simpa using hk, ha⟩ hn

/-- Inside one `transfer_from` message authority only shrinks: whoever may move a
token in the middle of the batch could already at its start, as long as the
owner has not changed. -/
theorem mayMove_shrinks {E : Env H} {s : State H} (hi : TokInv s) {c : Principal} {now : Nat}
    {args : List TransferFromArg} {t : State H} (h : Steps E (.call c now (.transferFrom args)) s t)
    {n tid : Nat} {o sp : Account} (hm : MayMove t n tid o sp) : MayMove s n tid o sp := by
  have key : TokInv t ∧ (∀ tid sp a, TokenApproval t tid sp a → TokenApproval s tid sp a) ∧
      (∀ o sp a, CollApproval t o sp a → CollApproval s o sp a) := by
    refine h.induct (P := fun t => TokInv t ∧ (∀ tid sp a, TokenApproval t tid sp a → TokenApproval s tid sp a) ∧
      (∀ o sp a, CollApproval t o sp a → CollApproval s o sp a)) ?_ ⟨hi, fun _ _ _ h => h, fun _ _ _ h => h⟩
    intro t t' ⟨h1, h2, h3⟩ hmic
    refine ⟨tokInv_micro h1 hmic, ?_, ?_⟩
    · intro tid sp a ha
      rcases (micro_tokAppr h1 hmic).gain ha with h | ⟨_, _, _, _, _, h, _⟩
      · exact h2 _ _ _ h
      · cases h
    · intro o sp a ha
      rcases (micro_collAppr h1 hmic).gain ha with h | ⟨_, _, _, _, h, _⟩
      · exact h3 _ _ _ h
      · cases h
  rcases hm with h | ⟨a, h, hl⟩ | ⟨a, h, hl⟩
  · exact .inl h
  · exact .inr (.inl ⟨a, key.2.1 _ _ _ h, hl⟩)
  · exact .inr (.inr ⟨a, key.2.2 _ _ _ h, hl⟩)

end Verif
