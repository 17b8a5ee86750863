import Verif.Spec.Basic
import Verif.Lemmas.Tokens
/-!
# Pages of ids
-/
namespace Verif

open Spec

variable {H : Type}

theorem drop_findIdx_sorted (l : List Nat) (prev : Nat) (h : l.Pairwise (· ≤ ·)) :
    l.drop ((l.findIdx? fun id => decide (id > prev)).getD l.length) = l.filter (fun id => decide (prev < id)) := by
  induction l with
  | nil => rfl
  | cons a as ih =>
    rw [List.pairwise_cons] at h
    rw [List.findIdx?_cons]
    by_cases ha : prev < a
    · have hall : ∀ x ∈ as, prev < x := fun x hx => Nat.lt_of_lt_of_le ha (h.1 x hx)
      simp [ha]
      exact (List.filter_eq_self.2 (by simpa using hall)).symm
    · simp only [gt_iff_lt, ha, decide_false, Bool.false_eq_true, if_false]
      rw [List.filter_cons_of_neg (by simpa using ha), ← ih h.2]
      cases hf : as.findIdx? fun id => decide (id > prev) with
      | none => simp
      | some i => simp

theorem page_eq (ids : List Nat) (prev take : Nat) :
    page ids prev take = ((sortNat ids).filter (fun id => decide (prev < id))).take take := by
  unfold page
  dsimp only
  rw [drop_findIdx_sorted _ _ (sortNat_sorted ids)]

theorem mem_page {ids : List Nat} {prev take x : Nat} (h : x ∈ page ids prev take) : x ∈ ids ∧ prev < x := by
  rw [page_eq] at h
  have := List.mem_of_mem_take h
  rw [List.mem_filter, mem_sortNat] at this
  exact ⟨this.1, by simpa using this.2⟩

theorem mem_tokenIdsOf {s : State H} (hi : TokInv s) {a : Account} {tid : Nat} :
    tid ∈ tokenIdsOf s a ↔ ∃ o, Owner s tid = some o ∧ SameAccount o a := by
  unfold tokenIdsOf Owner
  simp only [List.mem_map, List.mem_filter]
  constructor
  · rintro ⟨⟨k, t⟩, ⟨hm, he⟩, rfl⟩
    refine ⟨t.owner, ?_, sameAccount_iff.2 he⟩
    rw [Map.get_of_mem hi.nodup hm]
    rfl
  · rintro ⟨o, ho, he⟩
    cases hg : s.tokens.get tid with
    | none => simp [hg] at ho
    | some t =>
      simp [hg] at ho
      obtain ⟨k, hk, hm⟩ := Map.mem_of_get hg
      simp at hk
      subst hk
      exact ⟨_, ⟨hm, by rw [ho]; exact sameAccount_iff.1 he⟩, rfl⟩

theorem mem_keys {s : State H} {tid : Nat} : tid ∈ s.tokens.keys ↔ TokenExists s tid := by
  rw [Map.mem_keys_iff_lawful]
  unfold TokenExists Owner
  cases s.tokens.get tid <;> simp

theorem nodup_tokenIdsOf {s : State H} (hi : TokInv s) (a : Account) : (tokenIdsOf s a).Nodup := by
  have h := Map.nodup_keys_lawful hi.nodup
  unfold Map.keys at h
  unfold tokenIdsOf
  exact h.sublist (List.Sublist.map _ List.filter_sublist)

/-- Crawling the pages of a fixed duplicate-free list of positive ids gives the
sorted list. -/
theorem crawl_page (ids : List Nat) (hn : ids.Nodup) (take : Nat) (ht : 1 ≤ take)
    (fetch : Option Nat → Option (List Nat)) (hfetch : ∀ prev, fetch prev = some (page ids (prev.getD 0) take)) :
    ∀ (fuel : Nat) (prev : Option Nat),
      ((sortNat ids).filter (fun id => decide (prev.getD 0 < id))).length < fuel →
      crawl fetch fuel prev = some ((sortNat ids).filter (fun id => decide (prev.getD 0 < id))) := by
  have hs := sortNat_strict hn
  intro fuel
  induction fuel with
  | zero => intro prev h; omega
  | succ fuel ih =>
    intro prev h
    simp only [crawl, hfetch, page_eq]
    generalize hl : (sortNat ids).filter (fun id => decide (prev.getD 0 < id)) = l at *
    cases hp : l.take take with
    | nil =>
      have : l = [] := by
        cases l with
        | nil => rfl
        | cons a as =>
          obtain ⟨n, rfl⟩ : ∃ n, take = n + 1 := ⟨take - 1, by omega⟩
          simp at hp
      simp [this]
    | cons x xs =>
      simp only
      generalize hlast : (x :: xs).getLast (by simp) = last
      have hlastmem : last ∈ l.take take := by rw [hp, ← hlast]; exact List.getLast_mem _
      have hsl : l.Pairwise (· < ·) := by rw [← hl]; exact hs.filter _
      have hgt : prev.getD 0 < last := by
        have := List.mem_of_mem_take hlastmem
        rw [← hl, List.mem_filter] at this
        simpa using this.2
      -- the ids above `last` are the rest
      have hrest : (sortNat ids).filter (fun id => decide (last < id)) = l.drop take := by
        have h1 : (sortNat ids).filter (fun id => decide (last < id)) = l.filter (fun id => decide (last < id)) := by
          rw [← hl, List.filter_filter]
          apply List.filter_congr
          intro z _
          by_cases hz : last < z
          · simp [hz]; omega
          · simp [hz]
        rw [h1]
        conv => lhs; rw [← List.take_append_drop take l]
        rw [List.filter_append]
        have hsplit : l.take take ++ l.drop take = l := List.take_append_drop take l
        rw [← hsplit, List.pairwise_append] at hsl
        have h2 : (l.take take).filter (fun id => decide (last < id)) = [] := by
          rw [List.filter_eq_nil_iff]
          intro z hz
          simp only [decide_eq_true_eq, Nat.not_lt]
          have hsx : (x :: xs).Pairwise (· < ·) := by rw [← hp]; exact hsl.1
          rw [hp] at hz
          have := List.eq_nil_or_concat (x :: xs)
          rcases this with h | ⟨ini, b, hb⟩
          · simp at h
          · rw [hb] at hsx hz
            have hb' : last = b := by
              rw [← hlast]; simp only [hb]; simp
            rw [hb']
            rw [List.concat_eq_append, List.pairwise_append] at hsx
            rw [List.concat_eq_append, List.mem_append] at hz
            rcases hz with hz | hz
            · exact Nat.le_of_lt (hsx.2.2 z hz b (by simp))
            · simp at hz; omega
        have h3 : (l.drop take).filter (fun id => decide (last < id)) = l.drop take := by
          rw [List.filter_eq_self]
          intro z hz
          simp only [decide_eq_true_eq]
          exact hsl.2.2 last hlastmem z hz
        rw [h2, h3, List.nil_append]
      have hlen : (l.drop take).length < fuel := by
        rw [List.length_drop]
        have : 0 < l.length := by
          cases l with
          | nil => simp at hp
          | cons => simp
        omega
      have := ih (some last) (by simp only [Option.getD_some]; rw [hrest]; exact hlen)
      simp only [Option.getD_some] at this
      rw [this, hrest, Option.map_some, ← hp, List.take_append_drop]

end Verif
