/-!
# Stable sorting

Insertion sort: a stable sort, like `slice::sort` / `sort_by`. No repo content.
-/
namespace Verif

variable {A : Type}

/-- Insert before the first element that is strictly greater than `a`'s place:
`le a b` means `a` may stay before `b`. -/
def insertBy (le : A → A → Bool) (a : A) : List A → List A
  | [] => [a]
  | b :: bs => if le a b then a :: b :: bs else b :: insertBy le a bs

/-- Stable sort by `le`. -/
def sortBy (le : A → A → Bool) : List A → List A
  | [] => []
  | a :: as => insertBy le a (sortBy le as)

theorem insertBy_perm (le : A → A → Bool) (a : A) (l : List A) : (insertBy le a l).Perm (a :: l) := by
  induction l with
  | nil => exact .refl _
  | cons b bs ih =>
    simp only [insertBy]
    split
    · exact .refl _
    · exact (List.Perm.cons b ih).trans (List.Perm.swap a b bs)

theorem sortBy_perm (le : A → A → Bool) (l : List A) : (sortBy le l).Perm l := by
  induction l with
  | nil => exact .refl _
  | cons a as ih => exact (insertBy_perm le a _).trans (ih.cons a)

theorem insertBy_sorted {le : A → A → Bool} (total : ∀ a b, le a b = false → le b a = true)
    (trans : ∀ a b c, le a b = true → le b c = true → le a c = true) (a : A) (l : List A)
    (h : l.Pairwise fun a b => le a b = true) : (insertBy le a l).Pairwise fun a b => le a b = true := by
  induction l with
  | nil => simp [insertBy]
  | cons b bs ih =>
    rw [List.pairwise_cons] at h
    simp only [insertBy]
    split
    · rename_i hab
      rw [List.pairwise_cons, List.pairwise_cons]
      refine ⟨?_, h⟩
      intro c hc
      rcases List.mem_cons.1 hc with rfl | hc
      · exact hab
      · exact trans _ _ _ hab (h.1 c hc)
    · rename_i hab
      rw [List.pairwise_cons]
      refine ⟨?_, ih h.2⟩
      intro c hc
      rcases List.mem_cons.1 ((insertBy_perm le a bs).mem_iff.1 hc) with rfl | hc
      · exact total _ _ (by simpa using hab)
      · exact h.1 c hc

theorem sortBy_sorted {le : A → A → Bool} (total : ∀ a b, le a b = false → le b a = true)
    (trans : ∀ a b c, le a b = true → le b c = true → le a c = true) (l : List A) :
    (sortBy le l).Pairwise fun a b => le a b = true := by
  induction l with
  | nil => exact .nil
  | cons a as ih => exact insertBy_sorted total trans a _ ih

/-- `Vec<Nat>::sort`. -/
def sortNat (l : List Nat) : List Nat := sortBy (fun a b => decide (a ≤ b)) l

theorem sortNat_perm (l : List Nat) : (sortNat l).Perm l := sortBy_perm _ l

theorem mem_sortNat {l : List Nat} {a : Nat} : a ∈ sortNat l ↔ a ∈ l := (sortNat_perm l).mem_iff

theorem length_sortNat (l : List Nat) : (sortNat l).length = l.length := (sortNat_perm l).length_eq

theorem sortNat_sorted (l : List Nat) : (sortNat l).Pairwise (· ≤ ·) := by
  have := sortBy_sorted (le := fun a b => decide (a ≤ b)) (by intro a b; simp; omega)
    (by intro a b c; simp; omega) l
  simpa [sortNat] using this

theorem sortNat_strict {l : List Nat} (h : l.Nodup) : (sortNat l).Pairwise (· < ·) := by
  have h1 := sortNat_sorted l
  have h2 : (sortNat l).Nodup := (sortNat_perm l).nodup_iff.2 h
  exact (List.Pairwise.and h1 h2).imp (fun {a b} ⟨h, h'⟩ => Nat.lt_of_le_of_ne h h')

end Verif
