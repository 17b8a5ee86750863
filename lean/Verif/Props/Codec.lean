import Verif.Lemmas.Codec
import Verif.Lemmas.Metadata
import Verif.Lemmas.ApprovalTables
import Verif.Props.Demo
/-!
# What is stored is read back (C36, C37)

Sizes: an encoding is a `Vec<u8>`, so it has fewer than 2⁶⁴ bytes.
-/
namespace Verif

open Spec

variable {H : Type}

/-! ## C36: metadata values -/

/-- **C36.** Encoding panics exactly for the values with a number that does not
fit 64 bits. -/
theorem C36_encodes (v : Value) : (∃ bs, encValue v = some bs) ↔ v.inRange = true := by
  rw [← encValue_isSome, Option.isSome_iff_exists]

/-- **C36.** Decoding an encoded value gives it back and consumes exactly the
bytes written, whatever follows and for every sufficient recursion depth. -/
theorem C36_roundtrip {v : Value} {bs : Bytes} (h : encValue v = some bs) (hp : Proper v)
    (hl : bs.length < 2 ^ 64) {fuel : Nat} (hf : bs.length ≤ fuel) (rest : Bytes) :
    decValue fuel (bs ++ rest) = some (v, rest) := decValue_enc v h hp hl hf rest

/-- **C36.** In particular `from_bytes` after `to_bytes` is the identity. -/
theorem C36_from_bytes {v : Value} {bs : Bytes} (h : encValue v = some bs) (hp : Proper v)
    (hl : bs.length < 2 ^ 64) : valueOfBytes bs = some v := by
  unfold valueOfBytes
  have := C36_roundtrip h hp hl (Nat.le_refl _) []
  rw [List.append_nil] at this
  rw [this]
  rfl

/-- **C36.** Different values have different encodings: nothing is altered. -/
theorem C36_injective {v w : Value} {bs : Bytes} (hv : encValue v = some bs) (hw : encValue w = some bs)
    (pv : Proper v) (pw : Proper w) (hl : bs.length < 2 ^ 64) : v = w := by
  have h1 := C36_from_bytes hv pv hl
  rw [C36_from_bytes hw pw hl] at h1
  exact (Option.some.inj h1).symm

/-- The bound on the recursion depth used in the model of the decoder is not a
restriction: whatever any depth decodes, the number of bytes decodes too. -/
theorem C36_depth {fuel : Nat} {bs : Bytes} {v : Value} {rest : Bytes} (h : decValue fuel bs = some (v, rest)) :
    valueOfBytes bs = some v := by
  unfold valueOfBytes
  rw [(decValue_fuel h).2 (Nat.le_refl _)]
  rfl

/-- A nested value with a negative number, a large one, a blob and a non-ASCII
text. -/
def Demo.value : Value :=
  .map [("é", .array [.int (-300), .nat 18446744073709551615, .blob [0, 255]]), ("b", .text "x")]

example : Proper Demo.value ∧ Demo.value.inRange = true ∧
    encValue Demo.value = some [0x82, 5, 0xa2, 0x62, 0xc3, 0xa9, 0x82, 4, 0x83, 0x82, 3, 0x39, 1, 0x2b, 0x82, 2,
      0x1b, 255, 255, 255, 255, 255, 255, 255, 255, 0x82, 0, 0x42, 0, 255, 0x61, 98, 0x82, 1, 0x61, 120] := by
  refine ⟨⟨by decide, ⟨trivial, trivial, trivial, trivial⟩, trivial, trivial⟩, by decide, by decide⟩

/-- Numbers of 65 bits make the call trap. -/
example : encValue (.nat 18446744073709551616) = none ∧ encValue (.int (-9223372036854775809)) = none :=
  ⟨by decide, by decide⟩

/-- **C36.** The same for the rows of the metadata table. -/
theorem C36_row {r : Map String Value} {bs : Bytes} (h : encRow r = some bs) (hn : r.NodupKeys)
    (hp : ProperM r.entries) (hl : bs.length < 2 ^ 64) : rowOfBytes bs = some r := by
  obtain ⟨b, hb, rfl⟩ := Option.map_eq_some_iff.1 h
  have hlen := encPairs_length hb
  rw [List.length_append] at hl
  unfold rowOfBytes
  rw [readHead_head (by omega) (by omega)]
  dsimp only
  have := decPairs_enc r.entries hb hp (by omega) (f := (head 5 r.entries.length ++ b).length)
    (by rw [List.length_append]; omega) []
  rw [List.append_nil] at this
  rw [this]
  simp only [Option.map_some, Option.some.injEq]
  have := collectMap_of_nodup (Map.nodup_keys_lawful hn)
  cases hc : collectMap r.entries
  rw [hc] at this
  cases r
  exact congrArg Map.mk this

/-- Every stored value is in range, and so is its key. -/
private def Fits (t : MetaTable) : Prop :=
  ∀ tid r, t.get tid = some r → tid < 2 ^ 64 ∧ ∀ e ∈ r.entries, e.2.inRange = true

private theorem fits_insert {t t' : MetaTable} {tid : Nat} {k : String} {v : Value} (hf : Fits t)
    (h : insertData t tid k v = some t') : Fits t' := by
  unfold insertData at h
  split at h
  · rename_i hc
    rw [Bool.and_eq_true, decide_eq_true_iff] at hc
    cases h
    intro j r hj
    rw [Map.get_set] at hj
    split at hj
    · rename_i he
      have : tid = j := by simpa using he
      subst this
      cases hj
      refine ⟨hc.1, fun e he => ?_⟩
      rcases Map.mem_entries_set he with h | h
      · cases hg : t.get tid with
        | none => rw [hg] at h; simp at h
        | some r => rw [hg] at h; exact (hf _ _ hg).2 e h
      · rw [h.2]; exact hc.2
    · exact hf _ _ hj
  · cases h

private theorem fits_add {tid : Nat} (kvs : List (String × Value)) : ∀ {t t' : MetaTable}, Fits t →
    addMetadata t tid kvs = some t' → Fits t' := by
  induction kvs with
  | nil => intro t t' hf h; cases h; exact hf
  | cons kv kvs ih =>
    obtain ⟨k, v⟩ := kv
    intro t t' hf h
    unfold addMetadata at h
    split at h
    · cases h
    rename_i t1 h1
    exact ih (fits_insert hf h1) h

private theorem fits_mint (reqs : List MintReq) : ∀ {t t' : MetaTable} {tid : Nat}, Fits t →
    mintMetadata t tid reqs = some t' → Fits t' := by
  induction reqs with
  | nil => intro t t' tid hf h; cases h; exact hf
  | cons r rs ih =>
    intro t t' tid hf h
    unfold mintMetadata at h
    split at h
    · cases h
    rename_i t1 h1
    exact ih (fits_add _ hf h1) h

private theorem inRangeM_iff (l : List (String × Value)) : Value.inRangeM l = true ↔ ∀ e ∈ l, e.2.inRange = true := by
  induction l with
  | nil => simp [Value.inRangeM]
  | cons kv l ih =>
    obtain ⟨k, v⟩ := kv
    simp [Value.inRangeM, ih]

/-- **C36.** In every history, every row of the metadata table can be written,
and is read back unchanged. -/
theorem C36_reachable {E : Env H} {s : State H} (hr : Reachable E s) {tid : Nat} {r : Map String Value}
    (hg : s.mdata.get tid = some r) (hp : ProperM r.entries) :
    (∃ key, encNat tid = some key ∧ readNat key = some (tid, [])) ∧
    ∃ bs, encRow r = some bs ∧ (bs.length < 2 ^ 64 → rowOfBytes bs = some r) := by
  have hf : Fits s.mdata := hr.induct (P := fun s => Fits s.mdata)
    (by intro v hid c a s₀ h0; rw [init_eq h0]; intro j r h; simp at h)
    (by
      intro m s s' hp hm
      rcases micro_mdata hm with h | ⟨_, _, _, _, h⟩ | ⟨_, _, _, _, _, _, _, h⟩
      · rwa [h]
      · exact fits_mint _ hp h
      · refine fits_add _ ?_ h
        intro j r hj
        rw [Map.get_del] at hj
        split at hj
        · cases hj
        · exact hp _ _ hj)
  obtain ⟨h1, h2⟩ := hf _ _ hg
  refine ⟨⟨head 0 tid, if_pos h1, ?_⟩, ?_⟩
  · have := readUint_head (bound := U64) h1 h1 []
    rwa [List.append_nil] at this
  · have := (inRangeM_iff _).2 h2
    rw [← encPairs_isSome, Option.isSome_iff_exists] at this
    obtain ⟨b, hb⟩ := this
    have he : encRow r = some (head 5 r.entries.length ++ b) := by unfold encRow; rw [hb]; rfl
    exact ⟨_, he, fun hl => C36_row he (hr.rowsNodup _ _ hg) hp hl⟩

example : ∃ r, Demo.s1.mdata.get 1 = some r ∧ ProperM r.entries ∧ r.entries = [("k", .nat 1)] :=
  ⟨_, rfl, ⟨trivial, trivial⟩, rfl⟩

/-! ## C37: keys, approvals, index and cache entries -/

/-- **C37.** Token ids: encoding panics exactly above 64 bits; otherwise the id is
read back. -/
theorem C37_nat (n : Nat) : (encNat n = none ↔ 2 ^ 64 ≤ n) ∧
    ∀ bs, encNat n = some bs → ∀ rest, readNat (bs ++ rest) = some (n, rest) := by
  unfold encNat
  by_cases h : n < U64
  · rw [if_pos h]
    refine ⟨⟨fun h => by simp at h, fun h' => absurd h (Nat.not_lt.2 h')⟩, ?_⟩
    intro bs hb rest
    cases hb
    exact readUint_head h h rest
  · rw [if_neg h]
    exact ⟨⟨fun _ => Nat.not_lt.1 h, fun _ => rfl⟩, fun bs hb => by cases hb⟩

/-- **C37.** Accounts: owner and subaccount are read back exactly as given (an
explicit zero subaccount stays explicit). -/
theorem C37_account {a : Account} (h : ValidAccount a) (rest : Bytes) :
    readAccount (encAccount a ++ rest) = some (a, rest) := readAccount_enc h rest

/-- C37, the other direction: whatever bytes are read, an account that comes out has
an owner of at most 29 bytes and a subaccount of 32. -/
theorem C37_account_valid {bs rest : Bytes} {a : Account} (h : readAccount bs = some (a, rest)) : ValidAccount a := by
  unfold readAccount at h
  split at h
  · cases h
  split at h
  · cases h
  split at h
  · cases h
  split at h
  · cases h
  rename_i howner
  split at h
  · cases h
  split at h
  · simp only [Option.some.injEq, Prod.mk.injEq] at h
    rw [← h.1]
    exact ⟨Nat.le_of_not_lt howner, fun s hs => by cases hs⟩
  split at h
  · cases h
  split at h
  · rename_i hsub
    simp only [Option.some.injEq, Prod.mk.injEq] at h
    rw [← h.1]
    exact ⟨Nat.le_of_not_lt howner, fun s hs => by cases hs; exact hsub⟩
  · cases h

/-- Thirty bytes of owner, or 31 of subaccount, are not read. -/
example : readAccount (encAccount ⟨List.replicate 29 1, none⟩) = some (⟨List.replicate 29 1, none⟩, []) ∧
    readAccount (encAccount ⟨List.replicate 30 1, none⟩) = none ∧
    readAccount (encAccount ⟨[1], some (List.replicate 31 1)⟩) = none := ⟨rfl, rfl, rfl⟩

/-- **C37.** Approvals, with and without expiry and memo. -/
theorem C37_approval {a : Approval} (h : ValidApproval a) (rest : Bytes) :
    readApproval (encApproval a ++ rest) = some (a, rest) := readApproval_enc h rest

/-- **C37.** Tables of approvals, written in any order. -/
theorem C37_approvals {l : List (Account × Approval)} (hn : l.Pairwise fun a b => (a.1 == b.1) = false)
    (hv : ∀ e ∈ l, ValidAccount e.1 ∧ ValidApproval e.2) (hl : l.length < 2 ^ 64) (rest : Bytes) :
    readApprovals (encApprovals l ++ rest) = some (⟨l⟩, rest) := by
  unfold readApprovals encApprovals
  rw [List.append_assoc, readHead_head (by omega) hl]
  dsimp only
  rw [readMany_flatMap (f := id) l]
  · simp only [List.map_id, Option.map_some, Option.some.injEq, Prod.mk.injEq, and_true]
    have := collectMap_entries (l := l) (m := []) hn
    rw [List.nil_append] at this
    cases hx : l.foldl (fun m e => m.set e.1 e.2) (∅ : Map Account Approval)
    have hy : (l.foldl (fun m e => m.set e.1 e.2) (⟨[]⟩ : Map Account Approval)) = ⟨_⟩ := hx
    rw [hy] at this
    exact congrArg Map.mk this
  · intro e he rest
    unfold readApprovalEntry
    rw [List.append_assoc, readAccount_enc (hv e he).1]
    dsimp only
    rw [readApproval_enc (hv e he).2]
    rfl

example : ValidAccount Demo.alice1 ∧
    ValidApproval { spender := Demo.carol, from_ := Demo.alice1, expiresAt := none, createdAt := 7, memo := some [1, 200] } ∧
    encApproval { spender := Demo.carol, from_ := Demo.alice, expiresAt := none, createdAt := 7, memo := some [1, 200] } =
      [0x85, 0x82, 0x41, 3, 0xf6, 0x82, 0x41, 1, 0xf6, 0xf6, 7, 0x82, 1, 0x18, 200] := by
  have hc : ValidAccount Demo.carol := ⟨by decide, fun s h => by cases h⟩
  have ha : ValidAccount Demo.alice1 := ⟨by decide, fun s h => by cases h; decide⟩
  exact ⟨ha, ⟨hc, ha, by decide, fun e h => (nomatch h), fun m h => by cases h; decide⟩, by decide⟩

/-- Validity depends on an account only up to equality. -/
private theorem validAccount_congr {a b : Account} (h : (a == b) = true) (hb : ValidAccount b) : ValidAccount a := by
  obtain ⟨ho, hs⟩ := sameAccount_iff.2 h
  refine ⟨by rw [ho]; exact hb.1, fun s e => ?_⟩
  rw [e] at hs
  cases hx : b.sub with
  | none => rw [hx] at hs; simp only [Option.getD] at hs; rw [hs]; simp
  | some z => rw [hx] at hs; simp only [Option.getD] at hs; rw [hs]; exact hb.2 _ hx

/-- Every key and every approval of the table is valid. -/
private def Valid (m : Map Account Approval) : Prop :=
  m.NodupKeys ∧ ∀ e ∈ m.entries, ValidAccount e.1 ∧ ValidApproval e.2

private theorem valid_del {m : Map Account Approval} (h : Valid m) (k : Account) : Valid (m.del k) :=
  ⟨Map.nodup_del h.1 k, fun e he => h.2 e (Map.mem_entries_del.1 he).1⟩

private theorem valid_empty : Valid ∅ := ⟨Map.nodup_empty, by simp⟩

private theorem valid_drop {m : Map Account Approval} (h : Valid m) (k : Option Account) : Valid (dropSpender m k) := by
  cases k with
  | none => exact valid_empty
  | some k => exact valid_del h k

private theorem valid_set {K : Type} [BEq K] {t : Map K (Map Account Approval)} (h : ∀ o m, t.get o = some m → Valid m)
    (o : K) {info : ApprovalInfo} {c : Principal} {now : Nat} (hc : c.length ≤ 29) (hn : now < 2 ^ 64) (hi : TypedInfo info) :
    Valid (((t.get o).getD ∅).set info.spender (mkApproval info ⟨c, info.fromSub⟩ now)) := by
  have hv : Valid ((t.get o).getD ∅) := by
    cases hg : t.get o with
    | none => exact valid_empty
    | some m => exact h o m hg
  refine ⟨Map.nodup_set hv.1 _ _, fun e he => ?_⟩
  rcases Map.mem_entries_set he with he | ⟨hk, he⟩
  · exact hv.2 e he
  · refine ⟨validAccount_congr hk hi.1, ?_⟩
    rw [he]
    exact ⟨hi.1, ⟨hc, hi.2.1⟩, hn, hi.2.2.1, hi.2.2.2⟩

/-- Both approval tables are valid. -/
private def ValidTables (s : State H) : Prop :=
  (∀ tid m, s.tokAppr.get tid = some m → Valid m) ∧ ∀ o m, s.collAppr.get o = some m → ValidAccount o ∧ Valid m

private theorem validTables_micro {E : Env H} {m : Msg} {s s' : State H} (ht : TypedMsg m) (hi : TokInv s)
    (hv : ValidTables s) (h : Micro E m s s') : ValidTables s' := by
  obtain ⟨htok, hcoll⟩ := hv
  constructor
  · cases micro_tokAppr hi h with
    | same he => rw [he]; exact htok
    | approve c now args arg owner hm harg own eqv sp room he =>
      subst hm
      intro tid m hg
      rw [he, Map.get_set] at hg
      split at hg
      · simp at hg; subst hg
        exact valid_set htok _ ht.1 ht.2.1 (ht.2.2 _ harg)
      · exact htok _ _ hg
    | prune c now args arg hm harg tbl a htbl ha' hexp he =>
      intro tid m hg
      rw [he, Map.get_set] at hg
      split at hg
      · simp at hg; subst hg; exact valid_del (htok _ _ htbl) _
      · exact htok _ _ hg
    | revoke c now args arg owner hm harg own eqv tbl htbl he =>
      intro tid m hg
      rw [he, Map.get_set] at hg
      split at hg
      · simp at hg; subst hg; exact valid_drop (htok _ _ htbl) _
      · exact htok _ _ hg
    | moved c now args arg owner hm harg own howner hto auth he =>
      intro tid m hg
      rw [he, Map.get_del] at hg
      split at hg
      · cases hg
      · exact htok _ _ hg
  · have hco : ∀ o m, s.collAppr.get o = some m → Valid m := fun o m h => (hcoll o m h).2
    cases micro_collAppr hi h with
    | same he => rw [he]; exact hcoll
    | approve c now args info hm harg sp holds room he =>
      subst hm
      intro o m hg
      rw [he, Map.get_set] at hg
      split at hg
      · rename_i hk
        simp at hg; subst hg
        exact ⟨validAccount_congr (Account.symm_beq hk) ⟨ht.1, (ht.2.2 _ harg).2.1⟩,
          valid_set hco _ ht.1 ht.2.1 (ht.2.2 _ harg)⟩
      · exact hcoll _ _ hg
    | prune c now args arg o hm harg own tbl a htbl ha' hexp base hbase he =>
      intro o' m hg
      rw [he, Map.get_set] at hg
      split at hg
      · rename_i hk
        simp at hg; subst hg
        exact ⟨validAccount_congr (Account.symm_beq hk) (hcoll _ _ htbl).1, valid_del (hco _ _ htbl) _⟩
      · rcases hbase with rfl | rfl
        · exact hcoll _ _ hg
        · rw [Map.get_del] at hg
          split at hg
          · cases hg
          · exact hcoll _ _ hg
    | revoke c now args arg hm harg tbl htbl he =>
      intro o m hg
      rw [he, Map.get_set] at hg
      split at hg
      · rename_i hk
        simp at hg; subst hg
        exact ⟨validAccount_congr (Account.symm_beq hk) (hcoll _ _ htbl).1, valid_drop (hco _ _ htbl) _⟩
      · exact hcoll _ _ hg
    | moved c now args arg owner hm harg own howner hto auth he =>
      intro o m hg
      rw [he, Map.get_del] at hg
      split at hg
      · cases hg
      · exact hcoll _ _ hg

private theorem validTables_run {E : Env H} (ms : List Msg) (ht : ∀ m ∈ ms, TypedMsg m) : ∀ {s : State H}, TokInv s →
    ValidTables s → ValidTables (run E s ms) := by
  induction ms with
  | nil => intro s _ h; exact h
  | cons m ms ih =>
    intro s hi h
    have key : TokInv (step E s m).1 ∧ ValidTables (step E s m).1 :=
      (step_steps E s m).induct (P := fun s => TokInv s ∧ ValidTables s)
        (fun s s' ⟨h1, h2⟩ hm => ⟨tokInv_micro h1 hm, validTables_micro (ht m (by simp)) h1 h2 hm⟩) ⟨hi, h⟩
    exact ih (fun m hm => ht m (by simp [hm])) key.1 key.2

/-- What is read does not depend on the order of writing. -/
private theorem get_perm {t : Map Account Approval} {l : List (Account × Approval)} (hw : l.Perm t.entries)
    (hnl : l.Pairwise fun a b => (a.1 == b.1) = false) (sp : Account) : (Map.mk l).get sp = t.get sp := by
  have hnl' : (Map.mk l).NodupKeys := hnl
  cases hg : t.get sp with
  | none =>
    rw [Map.get_eq_none] at hg ⊢
    exact fun e he => hg e (hw.mem_iff.1 he)
  | some a =>
    obtain ⟨k, hk, hm⟩ := Map.mem_of_get hg
    rw [← Map.get_congr _ hk]
    exact Map.get_of_mem hnl' (hw.mem_iff.2 hm)

/-- **C37.** In every history, the approvals of every token and of every account can be read
back: whatever order the table is written in, reading gives the same approvals for the same
spenders. -/
theorem C37_reachable {E : Env H} {v : String → Bool} {hid : H} {c : Principal} {a : InitArgs} {s₀ : State H}
    (h0 : init v hid c a = some s₀) (ms : List Msg) (ht : ∀ m ∈ ms, TypedMsg m) (t : Map Account Approval)
    (hs : (∃ tid, (run E s₀ ms).tokAppr.get tid = some t) ∨
      ∃ o, (run E s₀ ms).collAppr.get o = some t) (hl : t.entries.length < 2 ^ 64)
    (l : List (Account × Approval)) (hw : l.Perm t.entries) :
    (∃ t', readApprovals (encApprovals l) = some (t', []) ∧ ∀ sp, t'.get sp = t.get sp) ∧
    ∀ o, (run E s₀ ms).collAppr.get o = some t → readAccount (encAccount o) = some (o, []) := by
  have hv : ValidTables (run E s₀ ms) := validTables_run ms ht (tokInv_init h0) (by rw [init_eq h0]; exact ⟨by simp, by simp⟩)
  have hvt : Valid t := by
    rcases hs with ⟨tid, h⟩ | ⟨o, h⟩
    · exact hv.1 _ _ h
    · exact (hv.2 _ _ h).2
  refine ⟨?_, fun o ho => by simpa using C37_account (hv.2 _ _ ho).1 []⟩
  have hnl : l.Pairwise fun a b => (a.1 == b.1) = false :=
    (hw.pairwise_iff (fun {a b} h => by
      cases hx : (b.1 == a.1) with
      | false => rfl
      | true => rw [Account.symm_beq hx] at h; cases h)).2 hvt.1
  refine ⟨⟨l⟩, ?_, get_perm hw hnl⟩
  have := C37_approvals hnl (fun e he => hvt.2 e (hw.mem_iff.1 he)) (by rw [hw.length_eq]; exact hl) []
  simpa using this

example : (∀ m ∈ [Demo.mintMsg, Demo.approveMsg], TypedMsg m) ∧
    ∃ t, (run Demo.env Demo.s0 [Demo.mintMsg, Demo.approveMsg]).tokAppr.get 2 = some t ∧ t.entries.length = 1 := by
  refine ⟨fun m hm => ?_, _, rfl, rfl⟩
  rcases List.mem_cons.1 hm with rfl | hm
  · trivial
  · cases List.mem_singleton.1 hm
    refine ⟨by decide, by decide, fun a ha => ?_⟩
    cases List.mem_singleton.1 ha
    exact ⟨⟨by decide, fun _ h => nomatch h⟩, (fun _ h => nomatch h), (fun _ h => nomatch h), fun _ h => nomatch h⟩

/-- **C37.** Keys of the index. -/
theorem C37_index_key {k : IndexKey} (h : ValidKey k) :
    ∃ bs, encIndexKey k = some bs ∧ ∀ rest, readIndexKey (bs ++ rest) = some (k, rest) := by
  have i64 : ∀ (n : Nat), n < 3 → ∀ rest, readI64 (head 0 n ++ rest) = some (Int.ofNat n, rest) := by
    intro n hn rest
    unfold readI64
    rw [readHead_head (by omega) (by omega)]
    dsimp only
    rw [if_pos (by omega)]
  have key : ∀ (n : Nat) (hn : n < 3) (tail rest : Bytes),
      readIndexKey ((head 4 2 ++ (head 0 n ++ (head 4 1 ++ tail))) ++ rest) =
        if Int.ofNat n = 0 then (readAccount (tail ++ rest)).map fun r => (.account r.1, r.2)
        else if Int.ofNat n = 1 then (readStr (tail ++ rest)).map fun r => (.blockType r.1, r.2)
        else if Int.ofNat n = 2 then (readNat (tail ++ rest)).map fun r => (.tokenId r.1, r.2)
        else none := by
    intro n hn tail rest
    unfold readIndexKey
    simp only [List.append_assoc]
    rw [readHead_head (by omega) (by omega)]
    dsimp only
    rw [if_neg (by omega), i64 n hn]
    dsimp only
    rw [readHead_head (by omega) (by omega)]
    dsimp only
    rw [if_neg (by omega)]
  cases k with
  | account a =>
    refine ⟨_, rfl, fun rest => ?_⟩
    rw [key 0 (by omega), if_pos (by decide), readAccount_enc h]
    rfl
  | blockType s =>
    refine ⟨_, rfl, fun rest => ?_⟩
    rw [key 1 (by omega), if_neg (by decide), if_pos (by decide), readStr_encStr h]
    rfl
  | tokenId n =>
    have hn : encNat n = some (head 0 n) := if_pos h
    refine ⟨head 4 2 ++ (head 0 2 ++ (head 4 1 ++ head 0 n)), by simp [encIndexKey, hn], fun rest => ?_⟩
    rw [key 2 (by omega), if_neg (by decide), if_neg (by decide), if_pos (by decide), readNat, readUint_head (bound := U64) h h]
    rfl

/-- **C37.** Entries of the index: lists of block ids. -/
theorem C37_index_value {l : List Nat} (h : ∀ n ∈ l, n < 2 ^ 64) (hl : l.length < 2 ^ 64) (rest : Bytes) :
    readIds (encIds l ++ rest) = some (l, rest) := by
  unfold readIds encIds
  rw [List.append_assoc, readHead_head (by omega) hl]
  dsimp only
  rw [readMany_flatMap (f := id) l fun n hn rest => readUint_head (bound := U64) (h n hn) (h n hn) rest, List.map_id]

/-- **C37.** Cache entries: time and block. -/
theorem C37_cache {ts : Nat} {v : Value} {bs : Bytes} (h : encCacheEntry ts v = some bs) (hts : ts < 2 ^ 64)
    (hp : Proper v) (hl : bs.length < 2 ^ 64) : cacheEntryOfBytes bs = some (ts, v) := by
  obtain ⟨b, hb, rfl⟩ := Option.map_eq_some_iff.1 h
  have h8 : (le64 ts).length = 8 := by simp [le64, beBytes_length]
  rw [List.length_append] at hl
  unfold cacheEntryOfBytes
  rw [if_neg (by rw [List.length_append]; omega)]
  have hd : (le64 ts ++ b).drop 8 = b := by rw [← h8]; simp
  have ht : (le64 ts ++ b).take 8 = le64 ts := by rw [← h8]; simp
  rw [hd, ht, C36_from_bytes hb hp (by omega)]
  simp only [Option.map_some, le64, List.reverse_reverse, beNat_beBytes]
  rw [Nat.mod_eq_of_lt (by omega)]

example : ValidKey (.account Demo.alice1) ∧ ValidKey (.tokenId 300) ∧
    encIndexKey (.tokenId 300) = some [0x82, 2, 0x81, 0x19, 1, 44] ∧ encIds [3, 256] = [0x82, 3, 0x19, 1, 0] ∧
    encCacheEntry 258 (.nat 1) = some [2, 1, 0, 0, 0, 0, 0, 0, 0x82, 2, 1] := by
  refine ⟨⟨by decide, fun s h => by cases h; decide⟩, show (300 : Nat) < 2 ^ 64 by decide, by decide, by decide, by decide⟩

end Verif
