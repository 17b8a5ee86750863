import Verif.Lemmas.Micro
/-!
# Management methods and the dispatcher as sequences of elementary effects
-/
namespace Verif

open Spec

variable {H : Type}

theorem guardEnter_some {s s' : State H} {p : Principal} (h : guardEnter s p = some s') :
    s.guards = [] ∧ s' = { s with guards := [p] } := by
  unfold guardEnter at h
  split at h
  · cases h
  · rename_i hlen
    have hg : s.guards = [] := by
      cases hg : s.guards with
      | nil => rfl
      | cons a l => simp [hg, maxConcurrent] at hlen
    simp only [hg, List.not_mem_nil, if_false, List.nil_append, Option.some.injEq] at h
    exact ⟨hg, h.symm⟩

theorem guardEnter_none {s : State H} {p : Principal} (h : guardEnter s p = none) :
    s.guards ≠ [] := by
  intro hg
  simp [guardEnter, hg, maxConcurrent] at h

theorem guardEnter_free {s : State H} {p : Principal} (h : s.guards = []) :
    guardEnter s p = some { s with guards := [p] } := by
  simp [guardEnter, h, maxConcurrent]

theorem guardEnter_busy {s : State H} {p : Principal} (h : s.guards ≠ []) :
    guardEnter s p = none := by
  unfold guardEnter
  rw [if_pos]
  cases hg : s.guards with
  | nil => exact absurd hg h
  | cons a l => simp [maxConcurrent]

theorem withGuard_out {s s' : State H} {c : Principal} {body} {r : Except MgmtErr MgmtOk}
    (h : withGuard s c body = some (s', r)) :
    (s.guards ≠ [] ∧ s' = s ∧ r = .error .concurrentManagementCall) ∨
    (s.guards = [] ∧ ∃ s1, body { s with guards := [c] } = some (s1, r) ∧ s' = guardLeave s1 c) := by
  unfold withGuard at h
  split at h
  · rename_i hg
    simp only [Option.some.injEq, Prod.mk.injEq] at h
    exact .inl ⟨guardEnter_none hg, h.1.symm, h.2.symm⟩
  · rename_i s1 hg
    obtain ⟨hfree, rfl⟩ := guardEnter_some hg
    split at h
    · cases h
    · rename_i s2 r2 hb
      simp only [Option.some.injEq, Prod.mk.injEq] at h
      obtain ⟨rfl, rfl⟩ := h
      exact .inr ⟨hfree, s2, hb, rfl⟩

/-- Leaving the guard restores the empty set. -/
theorem guardLeave_self (s : State H) (c : Principal) (h : s.guards = [c]) :
    guardLeave s c = { s with guards := [] } := by
  simp [guardLeave, h]

theorem with_guards_nil {s : State H} (h : s.guards = []) : { s with guards := [] } = s := by
  cases s; simp only at h; subst h; rfl

/-! ### mint -/

/-- Token table after `mintInsert`. -/
def insTok (t : Map Nat Token) (tid : Nat) : List MintReq → Map Nat Token
  | [] => t
  | r :: rs => insTok (t.set tid { id := tid, owner := r.owner }) (tid + 1) rs

/-- Owner lists after `mintInsert`. -/
def insOwn (b : Map Account (List Nat)) (tid : Nat) : List MintReq → Map Account (List Nat)
  | [] => b
  | r :: rs => insOwn (b.set r.owner ((b.get r.owner).getD [] ++ [tid])) (tid + 1) rs

theorem mintInsert_eq (s : State H) (tid : Nat) (reqs : List MintReq) :
    mintInsert s tid reqs =
      { s with tokens := insTok s.tokens tid reqs, byOwner := insOwn s.byOwner tid reqs } := by
  induction reqs generalizing s tid with
  | nil => rfl
  | cons r rs ih => simp only [mintInsert, ih, insTok, insOwn]

theorem mintTxs_out {L : Ledger H} {now : Nat} (reqs : List MintReq) :
    ∀ {s s' : State H} {tid : Nat} {b : Bool}, mintTxs L s now tid reqs = (s', b) →
    ∃ n h, n ≤ reqs.length ∧ (b = true → n = reqs.length) ∧ (b = false → n < reqs.length) ∧
      s' = { s with hid := h, log := s.log ++ (reqs.take n).mapIdx fun k r => mintTx now (tid + k) r } := by
  induction reqs with
  | nil =>
    intro s s' tid b h
    simp only [mintTxs, Prod.mk.injEq] at h
    obtain ⟨rfl, rfl⟩ := h
    exact ⟨0, s.hid, by simp, by simp, by simp, by simp⟩
  | cons r rs ih =>
    intro s s' tid b h
    simp only [mintTxs] at h
    split at h
    · rename_i hadd
      obtain ⟨h', _, rfl⟩ := addTx_err hadd
      simp only [Prod.mk.injEq] at h
      obtain ⟨rfl, rfl⟩ := h
      exact ⟨0, h', by simp, by simp, by simp, by simp⟩
    · rename_i hadd
      obtain ⟨h', _, rfl⟩ := addTx_ok hadd
      obtain ⟨n, h2, hn, ht, hf, rfl⟩ := ih h
      refine ⟨n + 1, h2, by simp; omega, by simpa using ht, by simpa using hf, ?_⟩
      simp only [List.append_assoc, List.take_succ_cons, List.mapIdx_cons, Nat.add_zero,
        List.singleton_append]
      congr 3
      congr 1
      funext k r
      congr 1
      omega

/-- Outcomes of `mint`. -/
inductive MintOut (s : State H) (c : Principal) (now : Nat) (reqs : List MintReq) :
    State H → Except MgmtErr MgmtOk → Prop
  | refused (e : MgmtErr) (why : e = .invalidMemo → checkMemos s.cfg reqs = some false) :
      MintOut s c now reqs s (.error e)
  | cut (md : MetaTable) (h : H) (n : Nat) (free : s.guards = []) (hn : n < reqs.length)
      (hmd : mintMetadata s.mdata s.lastId reqs = some md)
      (memos : checkMemos s.cfg reqs = some true) (batch : reqs.length ≤ s.cfg.maxUpdateBatch.getD 100) :
      MintOut s c now reqs
        { s with hid := h, mdata := md,
                 log := s.log ++ (reqs.take n).mapIdx fun k r => mintTx now (s.lastId + k) r }
        (.error .storageCanisterError)
  | minted (md : MetaTable) (h : H) (free : s.guards = [])
      (batch : reqs.length ≤ s.cfg.maxUpdateBatch.getD 100)
      (cap : s.tokens.size + reqs.length ≤ s.cfg.supplyCap.getD defaultSupplyCap)
      (memos : checkMemos s.cfg reqs = some true)
      (hmd : mintMetadata s.mdata s.lastId reqs = some md) :
      MintOut s c now reqs
        (mintInsert { s with hid := h, mdata := md, lastId := s.lastId + reqs.length,
                             log := s.log ++ reqs.mapIdx fun k r => mintTx now (s.lastId + k) r }
          s.lastId reqs) (.ok (.id s.lastId))

theorem mint_out {E : Env H} {s s' : State H} {c : Principal} {now : Nat} {reqs : List MintReq}
    {r : Except MgmtErr MgmtOk} (h : mint E s c now reqs = some (s', r)) :
    MintOut s c now reqs s' r := by
  rcases withGuard_out h with ⟨_, rfl, rfl⟩ | ⟨free, s1, hb, rfl⟩
  · exact .refused _ (by simp)
  have leave : ∀ {t : State H}, t = { s with guards := [c] } → guardLeave t c = s := by
    intro t ht
    subst ht
    rw [guardLeave_self _ _ rfl]
    exact with_guards_nil free
  dsimp only at hb
  split at hb
  · simp only [Option.some.injEq, Prod.mk.injEq] at hb
    obtain ⟨rfl, rfl⟩ := hb
    rw [leave rfl]; exact .refused _ (by simp)
  rename_i batch
  split at hb
  · simp only [Option.some.injEq, Prod.mk.injEq] at hb
    obtain ⟨rfl, rfl⟩ := hb
    rw [leave rfl]; exact .refused _ (by simp)
  rename_i cap
  split at hb
  · cases hb
  · rename_i hno
    simp only [Option.some.injEq, Prod.mk.injEq] at hb
    obtain ⟨rfl, rfl⟩ := hb
    rw [leave rfl]; exact .refused _ (fun _ => hno)
  rename_i memos
  split at hb
  · cases hb
  rename_i md hmd
  split at hb
  · rename_i s2 htx
    obtain ⟨n, h', hn, _, hf, rfl⟩ := mintTxs_out reqs htx
    simp only [Option.some.injEq, Prod.mk.injEq] at hb
    obtain ⟨rfl, rfl⟩ := hb
    rw [guardLeave_self _ _ rfl]
    have := MintOut.cut (c := c) (now := now) (s := s) (reqs := reqs) md h' n free (hf rfl) hmd memos (by simpa using batch)
    simpa [free] using this
  · rename_i s2 htx
    obtain ⟨n, h', hn, ht, _, rfl⟩ := mintTxs_out reqs htx
    have hn := ht rfl
    subst hn
    simp only [Option.some.injEq, Prod.mk.injEq] at hb
    obtain ⟨rfl, rfl⟩ := hb
    rw [mintInsert_eq, guardLeave_self _ _ rfl]
    have := MintOut.minted (c := c) (now := now) (s := s) (reqs := reqs) md h' free
      (by simpa using batch) (by simpa using cap) memos hmd
    rw [mintInsert_eq] at this
    simpa [free] using this

/-! ### update_nft_metadata, burn_nft -/

/-- Outcomes of `update_nft_metadata`. -/
inductive UpdateOut (E : Env H) (s : State H) (c : Principal) (now tid : Nat)
    (kvs : List (String × Value)) : State H → Except MgmtErr MgmtOk → Prop
  | refused (e : MgmtErr) : UpdateOut E s c now tid kvs s (.error e)
  | cut (token : Token) (md : MetaTable) (h : H) (free : s.guards = [])
      (tok : s.tokens.get tid = some token) (hmd : replaceMetadata s.mdata token.id kvs = some md) :
      UpdateOut E s c now tid kvs { s with hid := h, mdata := md } (.error .storageCanisterError)
  | updated (token : Token) (md : MetaTable) (h : H) (i : Nat) (free : s.guards = [])
      (tok : s.tokens.get tid = some token) (hmd : replaceMetadata s.mdata token.id kvs = some md)
      (add : E.ledger.add s.hid (updateTx now c tid ((getAllData s.mdata tid).getD [])
        ((getAllData md tid).getD [])) = (h, .ok i)) :
      UpdateOut E s c now tid kvs
        { s with hid := h, mdata := md, tokens := s.tokens.set tid token,
                 log := s.log ++ [updateTx now c tid ((getAllData s.mdata tid).getD [])
                                    ((getAllData md tid).getD [])] } (.ok (.id tid))

theorem updateNftMetadata_out {E : Env H} {s s' : State H} {c : Principal} {now tid : Nat} {kvs}
    {r : Except MgmtErr MgmtOk} (h : updateNftMetadata E s c now tid kvs = some (s', r)) :
    UpdateOut E s c now tid kvs s' r := by
  rcases withGuard_out h with ⟨_, rfl, rfl⟩ | ⟨free, s1, hb, rfl⟩
  · exact .refused _
  dsimp only at hb
  split at hb
  · simp only [Option.some.injEq, Prod.mk.injEq] at hb
    obtain ⟨rfl, rfl⟩ := hb
    rw [guardLeave_self _ _ rfl, with_guards_nil free]; exact .refused _
  rename_i token tok
  split at hb
  · cases hb
  rename_i md hmd
  split at hb
  · rename_i hadd
    obtain ⟨h', hl, rfl⟩ := addTx_err hadd
    simp only [Option.some.injEq, Prod.mk.injEq] at hb
    obtain ⟨rfl, rfl⟩ := hb
    rw [guardLeave_self _ _ rfl]
    simpa [free] using UpdateOut.cut (E := E) (s := s) (c := c) (now := now) token md h' free tok hmd
  · rename_i hadd
    obtain ⟨h', hl, rfl⟩ := addTx_ok hadd
    simp only [Option.some.injEq, Prod.mk.injEq] at hb
    obtain ⟨rfl, rfl⟩ := hb
    rw [guardLeave_self _ _ rfl]
    have := UpdateOut.updated (E := E) (s := s) (c := c) (now := now) token md h' _ free tok hmd hl
    simpa [free, updateTx] using this

/-- Outcomes of `burn_nft`. -/
inductive BurnOut (E : Env H) (s : State H) (c : Principal) (now tid : Nat) :
    State H → Except MgmtErr MgmtOk → Prop
  | refused (h : H) (e : MgmtErr) : BurnOut E s c now tid { s with hid := h } (.error e)
  | burned (token : Token) (h : H) (i : Nat) (free : s.guards = [])
      (tok : s.tokens.get tid = some token) (own : c = token.owner.owner)
      (add : E.ledger.add s.hid (burnTx now tid token) = (h, .ok i)) :
      BurnOut E s c now tid
        { s with hid := h, log := s.log ++ [burnTx now tid token], tokens := s.tokens.del tid }
        (.ok .unit)

theorem burnNft_out {E : Env H} {s s' : State H} {c : Principal} {now tid : Nat}
    {r : Except MgmtErr MgmtOk} (h : burnNft E s c now tid = some (s', r)) :
    BurnOut E s c now tid s' r := by
  rcases withGuard_out h with ⟨_, rfl, rfl⟩ | ⟨free, s1, hb, rfl⟩
  · exact .refused s'.hid _
  dsimp only at hb
  split at hb
  · simp only [Option.some.injEq, Prod.mk.injEq] at hb
    obtain ⟨rfl, rfl⟩ := hb
    rw [guardLeave_self _ _ rfl, with_guards_nil free]; exact .refused s.hid _
  rename_i token tok
  split at hb
  · simp only [Option.some.injEq, Prod.mk.injEq] at hb
    obtain ⟨rfl, rfl⟩ := hb
    rw [guardLeave_self _ _ rfl, with_guards_nil free]; exact .refused s.hid _
  rename_i own
  split at hb
  · rename_i hadd
    obtain ⟨h', hl, rfl⟩ := addTx_err hadd
    simp only [Option.some.injEq, Prod.mk.injEq] at hb
    obtain ⟨rfl, rfl⟩ := hb
    rw [guardLeave_self _ _ rfl]
    simpa [free] using BurnOut.refused (E := E) (s := s) (c := c) (now := now) (tid := tid) h' .storageCanisterError
  · rename_i hadd
    obtain ⟨h', hl, rfl⟩ := addTx_ok hadd
    simp only [Option.some.injEq, Prod.mk.injEq] at hb
    obtain ⟨rfl, rfl⟩ := hb
    rw [guardLeave_self _ _ rfl]
    have := BurnOut.burned (E := E) (s := s) (c := c) (now := now) (tid := tid) token h' _ free tok
      (by simpa using own) hl
    simpa [free, burnTx] using this

/-- A synchronous management method without failure branches. -/
theorem withGuard_simple {s s' : State H} {c : Principal} {f : State H → State H}
    {r : Except MgmtErr MgmtOk} (hf : (f { s with guards := [c] }).guards = [c])
    (h : withGuard s c (fun s => some (f s, .ok .unit)) = some (s', r)) :
    (s.guards ≠ [] ∧ s' = s ∧ r = .error .concurrentManagementCall) ∨
    (s.guards = [] ∧ r = .ok .unit ∧ s' = { f { s with guards := [c] } with guards := [] }) := by
  rcases withGuard_out h with h | ⟨free, s1, hb, rfl⟩
  · exact .inl h
  · right
    simp only [Option.some.injEq, Prod.mk.injEq] at hb
    obtain ⟨rfl, rfl⟩ := hb
    exact ⟨free, rfl, guardLeave_self _ _ hf⟩

theorem updateCollectionMetadata_out {s s' : State H} {c : Principal} {a : UpdateCollArg}
    {r : Except MgmtErr MgmtOk} (h : updateCollectionMetadata s c a = some (s', r)) :
    (s.guards ≠ [] ∧ s' = s ∧ r = .error .concurrentManagementCall) ∨
    (s.guards = [] ∧ r = .ok .unit ∧ s' = { s with cfg := applyUpdate s.cfg a }) := by
  rcases withGuard_simple (f := fun s => { s with cfg := applyUpdate s.cfg a }) rfl h with h | ⟨hg, hr, hs⟩
  · exact .inl h
  · exact .inr ⟨hg, hr, by simpa [hg] using hs⟩

theorem grant_out {s s' : State H} {c p : Principal} {x : Permission}
    {r : Except MgmtErr MgmtOk} (h : grant s c p x = some (s', r)) :
    (s.guards ≠ [] ∧ s' = s ∧ r = .error .concurrentManagementCall) ∨
    (s.guards = [] ∧ r = .ok .unit ∧ s' = { s with perms := grantPermission s.perms p x }) := by
  rcases withGuard_simple (f := fun s => { s with perms := grantPermission s.perms p x }) rfl h with h | ⟨hg, hr, hs⟩
  · exact .inl h
  · exact .inr ⟨hg, hr, by simpa [hg] using hs⟩

theorem revoke_out {s s' : State H} {c p : Principal} {x : Permission}
    {r : Except MgmtErr MgmtOk} (h : revoke s c p x = some (s', r)) :
    (s.guards ≠ [] ∧ s' = s ∧ r = .error .concurrentManagementCall) ∨
    (s.guards = [] ∧ r = .ok .unit ∧ s' = { s with perms := revokePermission s.perms p x }) := by
  rcases withGuard_simple (f := fun s => { s with perms := revokePermission s.perms p x }) rfl h with h | ⟨hg, hr, hs⟩
  · exact .inl h
  · exact .inr ⟨hg, hr, by simpa [hg] using hs⟩

/-! ### uploads -/

/-- Outcomes of the first segment of an upload call. -/
inductive UploadOut (s : State H) (c : Principal) : Call → Started H → Prop
  | refused (call : Call) (e : MgmtErr) : UploadOut s c call (.done s (.error e))
  | dropped (call : Call) (key : String) (u : Upload) (free : s.guards = [])
      (hu : s.uploads.get key = some u) (hst : u.state ≠ .finalized)
      (hgone : getSub s.subs u.canister = none)
      (hcall : call = .storeChunk key ∨ call = .finalizeUpload key ∨ call = .cancelUpload key) :
      UploadOut s c call
        (.done { s with uploads := s.uploads.del key } (.error .storageCanisterError))
  | suspended (call : Call) (p : Pending) (free : s.guards = []) (hp : p.caller = c)
      (hcall :
        (∃ path size, call = .initUpload path size ∧ containsPath s.uploads path = false ∧
          size ≤ maxFileSize ∧ p = .init c path size s.subs) ∨
        (∃ key u, call = .storeChunk key ∧ s.uploads.get key = some u ∧ u.state ≠ .finalized ∧
          p = .store c key u) ∨
        (∃ key u, call = .finalizeUpload key ∧ s.uploads.get key = some u ∧ u.state = .inProgress ∧
          p = .finalize c key u) ∨
        (∃ key u, call = .cancelUpload key ∧ s.uploads.get key = some u ∧ u.state ≠ .finalized ∧
          p = .cancel c key u)) :
      UploadOut s c call (.suspended { s with guards := [c], pending := s.pending ++ [p] })

theorem withGuardAsync_out {s : State H} {c : Principal} {body} {P : Started H → Prop}
    (h1 : s.guards ≠ [] → P (.done s (.error .concurrentManagementCall)))
    (h2 : s.guards = [] → P (match body { s with guards := [c] } with
      | (s, .inl r) => .done (guardLeave s c) r
      | (s, .inr p) => .suspended { s with pending := s.pending ++ [p] })) :
    P (withGuardAsync s c body) := by
  unfold withGuardAsync
  split
  · rename_i hg
    exact h1 (guardEnter_none hg)
  · rename_i s1 hg
    obtain ⟨hfree, rfl⟩ := guardEnter_some hg
    exact h2 hfree

theorem initUpload_out (s : State H) (c : Principal) (path : String) (size : Nat) :
    UploadOut s c (.initUpload path size) (initUpload s c path size) := by
  refine withGuardAsync_out (fun _ => .refused _ _) (fun free => ?_)
  dsimp only
  by_cases hp : containsPath s.uploads path = true
  · simp only [hp, if_true]
    rw [guardLeave_self _ _ rfl, with_guards_nil free]
    exact .refused _ _
  · simp only [hp]
    by_cases hs : size > maxFileSize
    · simp only [hs, if_true]
      simp only [Bool.false_eq_true, if_false]
      rw [guardLeave_self _ _ rfl, with_guards_nil free]
      exact .refused _ _
    · simp only [hs, if_false, Bool.false_eq_true]
      exact .suspended _ _ free rfl
        (.inl ⟨path, size, rfl, by simpa using hp, by simpa using hs, rfl⟩)

theorem callStorage_out {s : State H} {c : Principal} {call : Call} {key : String} {u : Upload}
    {p : Pending} (free : s.guards = []) (hu : s.uploads.get key = some u)
    (hst : u.state ≠ .finalized)
    (hcall : call = .storeChunk key ∨ call = .finalizeUpload key ∨ call = .cancelUpload key)
    (hsus : UploadOut s c call (.suspended { s with guards := [c], pending := s.pending ++ [p] })) :
    UploadOut s c call (match callStorage { s with guards := [c] } key u p with
      | (s, .inl r) => .done (guardLeave s c) r
      | (s, .inr p) => .suspended { s with pending := s.pending ++ [p] }) := by
  unfold callStorage
  dsimp only
  cases hgone : getSub s.subs u.canister with
  | none =>
    dsimp only
    rw [guardLeave_self _ _ rfl]
    have := UploadOut.dropped (s := s) (c := c) call key u free hu hst hgone hcall
    simpa [free] using this
  | some sc =>
    cases hi : sc.installed with
    | true => simpa [hi] using hsus
    | false =>
      simp only [hi, Bool.false_eq_true, if_false]
      rw [guardLeave_self _ _ rfl, with_guards_nil free]
      exact .refused _ _

theorem storeChunk_out (s : State H) (c : Principal) (key : String) :
    UploadOut s c (.storeChunk key) (storeChunk s c key) := by
  refine withGuardAsync_out (fun _ => .refused _ _) (fun free => ?_)
  dsimp only
  cases hu : s.uploads.get key with
  | none =>
    dsimp only
    rw [guardLeave_self _ _ rfl, with_guards_nil free]
    exact .refused _ _
  | some u =>
    dsimp only
    cases hst : u.state with
    | finalized =>
      dsimp only
      rw [guardLeave_self _ _ rfl, with_guards_nil free]
      exact .refused _ _
    | init =>
      refine callStorage_out free hu (by simp [hst]) (.inl rfl) (.suspended _ _ free rfl ?_)
      exact .inr (.inl ⟨key, u, rfl, hu, by simp [hst], rfl⟩)
    | inProgress =>
      refine callStorage_out free hu (by simp [hst]) (.inl rfl) (.suspended _ _ free rfl ?_)
      exact .inr (.inl ⟨key, u, rfl, hu, by simp [hst], rfl⟩)

theorem finalizeUpload_out (s : State H) (c : Principal) (key : String) :
    UploadOut s c (.finalizeUpload key) (finalizeUpload s c key) := by
  refine withGuardAsync_out (fun _ => .refused _ _) (fun free => ?_)
  dsimp only
  cases hu : s.uploads.get key with
  | none =>
    dsimp only
    rw [guardLeave_self _ _ rfl, with_guards_nil free]
    exact .refused _ _
  | some u =>
    dsimp only
    cases hst : u.state with
    | finalized =>
      dsimp only
      rw [guardLeave_self _ _ rfl, with_guards_nil free]
      exact .refused _ _
    | init =>
      dsimp only
      rw [guardLeave_self _ _ rfl, with_guards_nil free]
      exact .refused _ _
    | inProgress =>
      refine callStorage_out free hu (by simp [hst]) (.inr (.inl rfl)) (.suspended _ _ free rfl ?_)
      exact .inr (.inr (.inl ⟨key, u, rfl, hu, hst, rfl⟩))

theorem cancelUpload_out (s : State H) (c : Principal) (key : String) :
    UploadOut s c (.cancelUpload key) (cancelUpload s c key) := by
  refine withGuardAsync_out (fun _ => .refused _ _) (fun free => ?_)
  dsimp only
  cases hu : s.uploads.get key with
  | none =>
    dsimp only
    rw [guardLeave_self _ _ rfl, with_guards_nil free]
    exact .refused _ _
  | some u =>
    dsimp only
    cases hst : u.state with
    | finalized =>
      dsimp only
      rw [guardLeave_self _ _ rfl, with_guards_nil free]
      exact .refused _ _
    | init =>
      refine callStorage_out free hu (by simp [hst]) (.inr (.inr rfl)) (.suspended _ _ free rfl ?_)
      exact .inr (.inr (.inr ⟨key, u, rfl, hu, by simp [hst], rfl⟩))
    | inProgress =>
      refine callStorage_out free hu (by simp [hst]) (.inr (.inr rfl)) (.suspended _ _ free rfl ?_)
      exact .inr (.inr (.inr ⟨key, u, rfl, hu, by simp [hst], rfl⟩))

theorem UploadOut.steps {E : Env H} {s : State H} {c : Principal} {now : Nat} {call : Call}
    {o : Started H} (perm : hasPermission s.perms c .updateUploads = true)
    (h : UploadOut s c call o) : Steps E (.call c now call) s (ofStarted o).1 := by
  cases h with
  | refused e => exact .refl
  | dropped key u free hu hst hgone hcall =>
    exact .one (.dropUpload key u perm free hu hst hgone hcall)
  | suspended p free hp hcall => exact .one (.suspend p perm free hp hcall)

/-! ### the dispatcher -/

theorem ofBatch_steps {E : Env H} {m : Msg} {s : State H} {o}
    (h : ∀ s' rs, o = some (s', rs) → Steps E m s s') : Steps E m s (ofBatch s o).1 := by
  cases o with
  | none => exact .refl
  | some p => exact h _ _ rfl

theorem ofMgmt_steps {E : Env H} {m : Msg} {s : State H} {o}
    (h : ∀ s' r, o = some (s', r) → Steps E m s s') : Steps E m s (ofMgmt s o).1 := by
  cases o with
  | none => exact .refl
  | some p => exact h _ _ rfl

/-- Every message is a sequence of elementary effects. -/
theorem step_steps (E : Env H) (s : State H) (m : Msg) : Steps E m s (step E s m).1 := by
  cases m with
  | call c now call =>
    have key : (∀ p, call.needs = some p → hasPermission s.perms c p = true) →
        Steps E (.call c now call) s (exec E s c now call).1 := by
      intro hp
      cases call with
      | transfer args => exact ofBatch_steps fun s' rs h => icrc7Transfer_steps h
      | approveTokens args => exact ofBatch_steps fun s' rs h => icrc37ApproveTokens_steps h
      | approveCollection args => exact ofBatch_steps fun s' rs h => icrc37ApproveCollection_steps h
      | revokeTokens args =>
        simp only [exec]
        split
        · exact .refl
        · rename_i h; exact icrc37RevokeTokens_steps h
        · rename_i h; exact icrc37RevokeTokens_steps h
      | revokeCollection args => exact ofBatch_steps fun s' rs h => icrc37RevokeCollection_steps h
      | transferFrom args => exact ofBatch_steps fun s' rs h => icrc37TransferFrom_steps h
      | updateCollectionMetadata a =>
        refine ofMgmt_steps fun s' r h => ?_
        rcases updateCollectionMetadata_out h with ⟨_, rfl, _⟩ | ⟨hg, _, rfl⟩
        · exact .refl
        · exact .one (.config a (hp _ rfl) hg)
      | mint reqs =>
        refine ofMgmt_steps fun s' r h => ?_
        have hout := mint_out h
        clear h
        cases hout with
        | refused e => exact .refl
        | cut md h n free hn hmd => exact .one (.mintCut reqs md h n (hp _ rfl) free hn hmd)
        | minted md h free batch cap memos hmd =>
          exact .one (.mint reqs md h (hp _ rfl) free batch cap memos hmd)
      | updateNftMetadata tid kvs =>
        refine ofMgmt_steps fun s' r h => ?_
        have hout := updateNftMetadata_out h
        clear h
        cases hout with
        | refused e => exact .refl
        | cut token md h free tok hmd => exact .one (.updateMetaCut tid kvs token md h (hp _ rfl) free tok hmd)
        | updated token md h i free tok hmd add =>
          exact .one (.updateMeta tid kvs token md h i (hp _ rfl) free tok hmd add)
      | burn tid =>
        refine ofMgmt_steps fun s' r h => ?_
        have hout := burnNft_out h
        clear h
        cases hout with
        | refused h e => exact .one (.quiet s.windows h)
        | burned token h i free tok own add => exact .one (.burn tid token h i free tok own add)
      | initUpload path size => exact (initUpload_out s c path size).steps (hp _ rfl)
      | storeChunk path => exact (storeChunk_out s c path).steps (hp _ rfl)
      | finalizeUpload path => exact (finalizeUpload_out s c path).steps (hp _ rfl)
      | cancelUpload path => exact (cancelUpload_out s c path).steps (hp _ rfl)
      | grant p x =>
        refine ofMgmt_steps fun s' r h => ?_
        rcases grant_out h with ⟨_, rfl, _⟩ | ⟨hg, _, rfl⟩
        · exact .refl
        · exact .one (.grant p x (hp _ rfl) hg)
      | revoke p x =>
        refine ofMgmt_steps fun s' r h => ?_
        rcases revoke_out h with ⟨_, rfl, _⟩ | ⟨hg, _, rfl⟩
        · exact .refl
        · exact .one (.revoke p x (hp _ rfl) hg)
    simp only [step, execCall]
    split
    · rename_i p hp
      split
      · rename_i hperm
        exact key (by intro q hq; rw [hp] at hq; cases hq; exact hperm)
      · exact .refl
    · rename_i hp
      exact key (by intro q hq; rw [hp] at hq; cases hq)
  | resume now i ans =>
    simp only [step]
    split
    · exact .refl
    · rename_i p hp
      exact .one (.resume p hp)
  | resumeTrap i =>
    simp only [step]
    split
    · exact .refl
    · rename_i p hp
      exact .one (.resumeTrap p hp)
  | upgrade => exact .one .upgrade

/-- Induction over histories by elementary effects. -/
theorem run_induct {E : Env H} {P : State H → Prop} (hmicro : ∀ m s s', P s → Micro E m s s' → P s')
    (msgs : List Msg) : ∀ {s : State H}, P s → P (run E s msgs) := by
  have hsteps : ∀ {m s s'}, Steps E m s s' → P s → P s' := by
    intro m s s' h hp
    induction h with
    | refl => exact hp
    | tail _ hm ih => exact hmicro _ _ _ ih hm
  induction msgs with
  | nil => intro s h; exact h
  | cons m ms ih => intro s h; exact ih (hsteps (step_steps E s m) h)

theorem Steps.induct {E : Env H} {m : Msg} {P : State H → Prop}
    (hmicro : ∀ s s', P s → Micro E m s s' → P s') {s s' : State H}
    (h : Steps E m s s') (hp : P s) : P s' := by
  induction h with
  | refl => exact hp
  | tail _ hm ih => exact hmicro _ _ ih hm

/-- A relation preserved by composition with elementary effects holds across a
message. -/
theorem Steps.rel {E : Env H} {m : Msg} {R : State H → State H → Prop}
    (hrefl : ∀ s, R s s) (hmicro : ∀ s t u, R s t → Micro E m t u → R s u) {s s' : State H}
    (h : Steps E m s s') : R s s' := by
  induction h with
  | refl => exact hrefl _
  | tail _ hm ih => exact hmicro _ _ _ ih hm

theorem Reachable.induct {E : Env H} {P : State H → Prop}
    (hinit : ∀ validUrl hid caller a s₀, init validUrl hid caller a = some s₀ → P s₀)
    (hmicro : ∀ m s s', P s → Micro E m s s' → P s') {s : State H} (h : Reachable E s) : P s := by
  obtain ⟨v, hid, c, a, s₀, msgs, h0, rfl⟩ := h
  exact run_induct hmicro msgs (hinit v hid c a s₀ h0)

theorem run_append (E : Env H) (s : State H) (ms ms' : List Msg) :
    run E s (ms ++ ms') = run E (run E s ms) ms' := by
  induction ms generalizing s with
  | nil => rfl
  | cons m ms ih => simp [run, ih]

theorem Reachable.run {E : Env H} {s : State H} (h : Reachable E s) (ms : List Msg) :
    Reachable E (run E s ms) := by
  obtain ⟨v, hid, c, a, s₀, msgs, h0, rfl⟩ := h
  exact ⟨v, hid, c, a, s₀, msgs ++ ms, h0, run_append E s₀ msgs ms⟩

theorem Reachable.step {E : Env H} {s : State H} (h : Reachable E s) (m : Msg) :
    Reachable E (step E s m).1 := h.run [m]

theorem init_eq {validUrl : String → Bool} {hid : H} {caller : Principal} {a : InitArgs}
    {s : State H} (h : init validUrl hid caller a = some s) :
    s = { cfg := initConfig a
          perms := if a.testMode then testPermissions.foldl (fun ps x => grantPermission ps caller x) a.perms
                   else a.perms
          tokens := ∅, byOwner := ∅, lastId := 1, subs := [], redirects := ∅, guards := [], windows := ∅
          uploads := ∅, tokAppr := ∅, collAppr := ∅, mdata := ∅, hid := hid, log := [], router := ∅
          pending := [] } := by
  unfold init at h
  split at h
  · cases h
  split at h
  · cases h
  split at h
  · cases h
  split at h
  · cases h
  exact (Option.some.inj h).symm

end Verif
