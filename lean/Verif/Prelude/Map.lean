/-!
# Finite maps

Association lists standing for Rust's `HashMap` / `BTreeMap` / `StableBTreeMap`.
Keys are compared with `==` (the model's stand-in for Rust's `Eq`), which need
not be structural equality: accounts compare by *effective* subaccount.
Nothing here models repo code; it is the container library of the model.
-/
set_option linter.unusedSectionVars false
set_option linter.unusedSimpArgs false

namespace Verif

/-- A finite map: a list of key/value entries. -/
structure Map (K V : Type) where
  entries : List (K × V)
  deriving Repr, DecidableEq

namespace Map

variable {K V : Type}

/-- The empty map. -/
def empty : Map K V := ⟨[]⟩

instance : EmptyCollection (Map K V) := ⟨empty⟩
instance : Inhabited (Map K V) := ⟨empty⟩

section
variable [BEq K]

/-- Look a key up in a list of entries. -/
def getL : List (K × V) → K → Option V
  | [], _ => none
  | (k', v) :: m, k => if k' == k then some v else getL m k

/-- Overwrite the value of an existing entry (the *old key is kept*, as
`HashMap::insert` does) or append a new one. -/
def setL : List (K × V) → K → V → List (K × V)
  | [], k, v => [(k, v)]
  | (k', v') :: m, k, v => if k' == k then (k', v) :: m else (k', v') :: setL m k v

/-- `HashMap::get`. -/
def get (m : Map K V) (k : K) : Option V := getL m.entries k

/-- `HashMap::insert`. -/
def set (m : Map K V) (k : K) (v : V) : Map K V := ⟨setL m.entries k v⟩

/-- `HashMap::remove`. -/
def del (m : Map K V) (k : K) : Map K V := ⟨m.entries.filter fun e => !(e.1 == k)⟩

/-- `HashMap::contains_key`. -/
def has (m : Map K V) (k : K) : Bool := (m.get k).isSome

/-- No two entries have equal keys. -/
def NodupKeys (m : Map K V) : Prop := m.entries.Pairwise fun a b => (a.1 == b.1) = false

end

/-- `HashMap::len`. -/
def size (m : Map K V) : Nat := m.entries.length

/-- `HashMap::keys`. -/
def keys (m : Map K V) : List K := m.entries.map Prod.fst

/-- `HashMap::values`. -/
def vals (m : Map K V) : List V := m.entries.map Prod.snd

/-! ### Lemmas -/

section lemmas
variable [BEq K]

@[simp] theorem get_empty (k : K) : (∅ : Map K V).get k = none := rfl
@[simp] theorem entries_empty : (∅ : Map K V).entries = [] := rfl
@[simp] theorem size_empty : (∅ : Map K V).size = 0 := rfl
@[simp] theorem keys_empty : (∅ : Map K V).keys = [] := rfl
theorem nodup_empty : (∅ : Map K V).NodupKeys := List.Pairwise.nil

variable [EquivBEq K]

theorem beq_congr_left {a b c : K} (h : (a == b) = true) : (a == c) = (b == c) := by
  cases hbc : (b == c) with
  | true => exact BEq.trans h hbc
  | false =>
    cases hac : (a == c) with
    | false => rfl
    | true => rw [BEq.trans (BEq.symm h) hac] at hbc; exact hbc

theorem beq_congr_right {a b c : K} (h : (a == b) = true) : (c == a) = (c == b) := by
  rw [BEq.comm (a := c) (b := a), BEq.comm (a := c) (b := b)]; exact beq_congr_left h

theorem getL_congr (m : List (K × V)) {k k' : K} (h : (k == k') = true) : getL m k = getL m k' := by
  induction m with
  | nil => rfl
  | cons e m ih =>
    obtain ⟨a, v⟩ := e
    simp only [getL, ih, beq_congr_right h]

theorem get_congr (m : Map K V) {k k' : K} (h : (k == k') = true) : m.get k = m.get k' :=
  getL_congr _ h

theorem getL_setL (m : List (K × V)) (k k' : K) (v : V) :
    getL (setL m k v) k' = if k == k' then some v else getL m k' := by
  induction m with
  | nil => simp [setL, getL]
  | cons e m ih =>
    obtain ⟨a, w⟩ := e
    by_cases h1 : (a == k) = true
    · rw [setL, if_pos h1]
      simp only [getL]
      rw [beq_congr_left h1]
      by_cases h2 : (k == k') = true <;> simp [h2]
    · rw [setL, if_neg h1]
      simp only [getL, ih]
      by_cases h2 : (a == k') = true
      · have : (k == k') = false := by
          cases h3 : (k == k') with
          | false => rfl
          | true => exact absurd (BEq.trans h2 (BEq.symm h3)) h1
        simp [h2, this]
      · simp [h2]

theorem get_set (m : Map K V) (k k' : K) (v : V) :
    (m.set k v).get k' = if k == k' then some v else m.get k' := getL_setL _ _ _ _

@[simp] theorem get_set_self (m : Map K V) (k : K) (v : V) : (m.set k v).get k = some v := by
  simp [get_set]

theorem get_set_ne (m : Map K V) {k k' : K} (v : V) (h : (k == k') = false) :
    (m.set k v).get k' = m.get k' := by simp [get_set, h]

theorem getL_filter (m : List (K × V)) (k k' : K) :
    getL (m.filter fun e => !(e.1 == k)) k' = if k == k' then none else getL m k' := by
  induction m with
  | nil => simp [getL]
  | cons e m ih =>
    obtain ⟨a, w⟩ := e
    by_cases h1 : (a == k) = true
    · rw [List.filter_cons_of_neg (by simp [h1]), ih]
      by_cases h2 : (k == k') = true
      · simp [h2]
      · have : (a == k') = false := by rw [beq_congr_left h1]; simpa using h2
        simp [getL, h2, this]
    · rw [List.filter_cons_of_pos (by simp [h1])]
      simp only [getL, ih]
      by_cases h2 : (k == k') = true
      · have : (a == k') = false := by rw [← beq_congr_right h2]; simpa using h1
        simp [h2, this]
      · simp [h2]

theorem get_del (m : Map K V) (k k' : K) :
    (m.del k).get k' = if k == k' then none else m.get k' := getL_filter _ _ _

@[simp] theorem get_del_self (m : Map K V) (k : K) : (m.del k).get k = none := by simp [get_del]

theorem get_del_ne (m : Map K V) {k k' : K} (h : (k == k') = false) :
    (m.del k).get k' = m.get k' := by simp [get_del, h]

theorem mem_of_getL {m : List (K × V)} {k : K} {v : V} (h : getL m k = some v) :
    ∃ k', (k' == k) = true ∧ (k', v) ∈ m := by
  induction m with
  | nil => simp [getL] at h
  | cons e m ih =>
    obtain ⟨a, w⟩ := e
    simp only [getL] at h
    by_cases h1 : (a == k) = true
    · simp only [h1, if_true, Option.some.injEq] at h
      exact ⟨a, h1, by simp [h]⟩
    · simp only [h1, if_neg] at h
      obtain ⟨k', hk, hm⟩ := ih h
      exact ⟨k', hk, List.mem_cons_of_mem _ hm⟩

theorem mem_of_get {m : Map K V} {k : K} {v : V} (h : m.get k = some v) :
    ∃ k', (k' == k) = true ∧ (k', v) ∈ m.entries := mem_of_getL h

theorem getL_of_mem {m : List (K × V)} (hn : m.Pairwise fun a b => (a.1 == b.1) = false)
    {k : K} {v : V} (h : (k, v) ∈ m) : getL m k = some v := by
  induction m with
  | nil => simp at h
  | cons e m ih =>
    obtain ⟨a, w⟩ := e
    rw [List.pairwise_cons] at hn
    rcases List.mem_cons.1 h with h | h
    · cases h; simp [getL]
    · have : (a == k) = false := hn.1 _ h
      simp [getL, this, ih hn.2 h]

theorem get_of_mem {m : Map K V} (hn : m.NodupKeys) {k : K} {v : V} (h : (k, v) ∈ m.entries) :
    m.get k = some v := getL_of_mem hn h

theorem getL_eq_none {m : List (K × V)} {k : K} :
    getL m k = none ↔ ∀ e ∈ m, (e.1 == k) = false := by
  induction m with
  | nil => simp [getL]
  | cons e m ih =>
    obtain ⟨a, w⟩ := e
    by_cases h1 : (a == k) = true
    · simp [getL, h1]
    · simp [getL, h1, ih]

theorem get_eq_none {m : Map K V} {k : K} :
    m.get k = none ↔ ∀ e ∈ m.entries, (e.1 == k) = false := getL_eq_none

theorem keys_setL_of_some {m : List (K × V)} {k : K} {v w : V} (h : getL m k = some w) :
    (setL m k v).map Prod.fst = m.map Prod.fst := by
  induction m with
  | nil => simp [getL] at h
  | cons e m ih =>
    obtain ⟨a, x⟩ := e
    by_cases h1 : (a == k) = true
    · simp [setL, h1]
    · simp only [getL, h1] at h
      simp [setL, h1, ih h]

theorem setL_of_none {m : List (K × V)} {k : K} {v : V} (h : getL m k = none) :
    setL m k v = m ++ [(k, v)] := by
  induction m with
  | nil => rfl
  | cons e m ih =>
    obtain ⟨a, x⟩ := e
    by_cases h1 : (a == k) = true
    · simp [getL, h1] at h
    · simp only [getL, h1] at h
      simp [setL, h1, ih h]

theorem keys_set_of_some {m : Map K V} {k : K} {v w : V} (h : m.get k = some w) :
    (m.set k v).keys = m.keys := keys_setL_of_some h

theorem set_of_none {m : Map K V} {k : K} {v : V} (h : m.get k = none) :
    (m.set k v).entries = m.entries ++ [(k, v)] := setL_of_none h

theorem size_set_of_some {m : Map K V} {k : K} {v w : V} (h : m.get k = some w) :
    (m.set k v).size = m.size := by
  have := congrArg List.length (keys_set_of_some (v := v) h)
  simpa [keys, size] using this

theorem size_set_of_none {m : Map K V} {k : K} {v : V} (h : m.get k = none) :
    (m.set k v).size = m.size + 1 := by
  simp [size, set_of_none h]

theorem nodupL_iff {m : List (K × V)} :
    (m.Pairwise fun a b => (a.1 == b.1) = false) ↔
      (m.map Prod.fst).Pairwise fun a b => (a == b) = false := by
  rw [List.pairwise_map]

theorem nodup_set {m : Map K V} (h : m.NodupKeys) (k : K) (v : V) : (m.set k v).NodupKeys := by
  unfold NodupKeys at *
  cases hg : m.get k with
  | some w =>
    rw [nodupL_iff] at *
    have := keys_set_of_some (v := v) hg
    unfold keys at this
    rw [this]; exact h
  | none =>
    rw [set_of_none hg, List.pairwise_append]
    refine ⟨h, by simp, ?_⟩
    intro a ha b hb
    simp only [List.mem_singleton] at hb
    subst hb
    exact get_eq_none.1 hg a ha

theorem nodup_del {m : Map K V} (h : m.NodupKeys) (k : K) : (m.del k).NodupKeys :=
  List.Pairwise.filter _ h

theorem size_del_of_none {m : Map K V} {k : K} (h : m.get k = none) : (m.del k).size = m.size := by
  have : m.entries.filter (fun e => !(e.1 == k)) = m.entries := by
    rw [List.filter_eq_self]
    intro e he
    simp [get_eq_none.1 h e he]
  simp [size, del, this]

theorem size_del_of_some {m : Map K V} (hn : m.NodupKeys) {k : K} {w : V} (h : m.get k = some w) :
    (m.del k).size + 1 = m.size := by
  obtain ⟨es⟩ := m
  simp only [NodupKeys, get, size, del] at *
  induction es with
  | nil => simp [getL] at h
  | cons e es ih =>
    obtain ⟨a, x⟩ := e
    rw [List.pairwise_cons] at hn
    by_cases h1 : (a == k) = true
    · have : es.filter (fun e => !(e.1 == k)) = es := by
        rw [List.filter_eq_self]
        intro e he
        have := hn.1 e he
        rw [beq_congr_left h1] at this
        simp [BEq.comm (a := e.1), this]
      simp [h1, this]
    · simp only [getL, h1] at h
      have := ih hn.2 h
      simp only [h1, Bool.not_false, List.filter_cons_of_pos, List.length_cons]
      simpa [h1] using this

theorem size_del_le (m : Map K V) (k : K) : (m.del k).size ≤ m.size := List.length_filter_le _ _

theorem mem_keys_iff_lawful [LawfulBEq K] {m : Map K V} {k : K} :
    k ∈ m.keys ↔ (m.get k).isSome = true := by
  constructor
  · intro h
    cases hg : m.get k with
    | some v => rfl
    | none =>
      simp only [keys, List.mem_map] at h
      obtain ⟨e, he, rfl⟩ := h
      have := get_eq_none.1 hg e he
      simp at this
  · intro h
    cases hg : m.get k with
    | none => simp [hg] at h
    | some v =>
      obtain ⟨k', hk, hm⟩ := mem_of_get hg
      have : k' = k := by simpa using hk
      subst this
      exact List.mem_map.2 ⟨_, hm, rfl⟩

theorem nodup_keys_lawful [LawfulBEq K] {m : Map K V} (h : m.NodupKeys) : m.keys.Nodup := by
  unfold NodupKeys at h
  rw [nodupL_iff] at h
  refine List.Pairwise.imp ?_ h
  intro a b hab e
  subst e
  simp at hab

theorem mem_entries_set {m : Map K V} {k : K} {v : V} {e : K × V}
    (h : e ∈ (m.set k v).entries) : e ∈ m.entries ∨ ((e.1 == k) = true ∧ e.2 = v) := by
  obtain ⟨es⟩ := m
  simp only [set] at *
  induction es with
  | nil => simp [setL] at h; subst h; simp
  | cons a es ih =>
    obtain ⟨a, x⟩ := a
    by_cases h1 : (a == k) = true
    · simp only [setL, h1, if_true, List.mem_cons] at h
      rcases h with h | h
      · subst h; right; exact ⟨h1, rfl⟩
      · left; simp [h]
    · simp only [setL, if_neg h1, List.mem_cons] at h
      rcases h with h | h
      · subst h; left; simp
      · rcases ih h with h | h
        · left; simp [h]
        · right; exact h

theorem mem_entries_del {m : Map K V} {k : K} {e : K × V} :
    e ∈ (m.del k).entries ↔ e ∈ m.entries ∧ (e.1 == k) = false := by
  simp [del]

end lemmas
variable [BEq K] [EquivBEq K]

theorem del_del (m : Map K V) (k k' : K) (h : (k == k') = true) : (m.del k).del k' = m.del k' := by
  unfold del
  congr 1
  simp only [List.filter_filter]
  congr 1
  funext e
  rw [beq_congr_right h]
  simp

theorem filter_setL (m : List (K × V)) (k k' : K) (v : V) (h : (k == k') = true) :
    (setL m k v).filter (fun e => !(e.1 == k')) = m.filter (fun e => !(e.1 == k')) := by
  induction m with
  | nil => simp [setL, h]
  | cons a m ih =>
    obtain ⟨a, w⟩ := a
    simp only [setL]
    split
    · rename_i hak
      have : (a == k') = true := PartialEquivBEq.trans hak h
      simp [this]
    · simp only [List.filter_cons, ih]

theorem del_set (m : Map K V) (k k' : K) (v : V) (h : (k == k') = true) :
    (m.set k v).del k' = m.del k' := by
  unfold del set
  congr 1
  exact filter_setL _ _ _ _ h

end Map
end Verif
