import Verif.Model.Basics
import Verif.Spec.Order
import Mathlib.Data.List.Pairwise
import Mathlib.Tactic.Linarith
import Mathlib.Tactic.Ring

/-! Helper lemmas about `npSort`, `npPartitionMax` and `Spec.IsKthSmallest`. -/

namespace Robpy
open List

section
variable {K : Type*} [LinearOrder K]

theorem npSort_perm (xs : List K) : npSort xs ~ xs := List.perm_insertionSort _ xs

theorem npSort_length (xs : List K) : (npSort xs).length = xs.length := (npSort_perm xs).length_eq

theorem npSort_pairwise (xs : List K) : (npSort xs).Pairwise (· ≤ ·) :=
  List.pairwise_insertionSort (· ≤ ·) xs

theorem npSort_eq_of_perm {xs ys : List K} (h : xs ~ ys) : npSort xs = npSort ys :=
  List.Perm.eq_of_pairwise (le := (· ≤ ·)) (fun _ _ _ _ h1 h2 => le_antisymm h1 h2)
    (npSort_pairwise xs) (npSort_pairwise ys)
    (((npSort_perm xs).trans h).trans (npSort_perm ys).symm)

theorem npSort_eq_self {xs : List K} (h : xs.Pairwise (· ≤ ·)) : npSort xs = xs :=
  List.Perm.eq_of_pairwise (le := (· ≤ ·)) (fun _ _ _ _ h1 h2 => le_antisymm h1 h2)
    (npSort_pairwise xs) h (npSort_perm xs)

theorem isKth_perm {k : ℕ} {xs ys : List K} (h : xs ~ ys) {v : K} :
    Spec.IsKthSmallest k xs v ↔ Spec.IsKthSmallest k ys v := by
  unfold Spec.IsKthSmallest
  rw [h.countP_eq, h.countP_eq]

/-- In a sorted list the element at position `k - 1` is the k-th smallest. -/
theorem isKth_of_sorted {xs : List K} (h : xs.Pairwise (· ≤ ·)) {k : ℕ} {v : K}
    (hk : xs[k]? = some v) : Spec.IsKthSmallest (k + 1) xs v := by
  obtain ⟨hlt, hv⟩ := List.getElem?_eq_some_iff.1 hk
  constructor
  · -- elements below v are among the first k
    have : xs.countP (fun x => decide (x < v)) ≤ (xs.take k).countP (fun x => decide (x < v)) := by
      conv_lhs => rw [← List.take_append_drop k xs]
      rw [List.countP_append]
      have : (xs.drop k).countP (fun x => decide (x < v)) = 0 := by
        rw [List.countP_eq_zero]
        intro a ha
        obtain ⟨i, hi, rfl⟩ := List.mem_iff_getElem.1 ha
        rw [List.getElem_drop]
        simp only [decide_eq_true_eq, not_lt]
        rw [List.length_drop] at hi
        rcases Nat.eq_zero_or_pos i with h0 | h0
        · subst h0; simp [hv]
        · rw [← hv]
          exact List.pairwise_iff_getElem.1 h _ _ _ _ (by omega)
      omega
    have h2 := List.countP_le_length (p := fun x => decide (x < v)) (l := xs.take k)
    rw [List.length_take] at h2
    omega
  · have : (xs.take (k+1)).countP (fun x => decide (x ≤ v)) = (xs.take (k+1)).length := by
      rw [List.countP_eq_length]
      intro a ha
      obtain ⟨i, hi, rfl⟩ := List.mem_iff_getElem.1 ha
      rw [List.getElem_take]
      rw [List.length_take] at hi
      simp only [decide_eq_true_eq]
      rcases Nat.lt_or_ge i k with h0 | h0
      · rw [← hv]
        exact List.pairwise_iff_getElem.1 h _ _ _ _ h0
      · have : i = k := by omega
        subst this; simp [hv]
    rw [List.length_take] at this
    have h3 : (xs.take (k+1)).countP (fun x => decide (x ≤ v)) ≤ xs.countP (fun x => decide (x ≤ v)) :=
      (List.take_sublist _ _).countP_le
    omega

/-- The k-th smallest element is unique. -/
theorem isKth_unique {k : ℕ} {xs : List K} {v w : K}
    (hv : Spec.IsKthSmallest k xs v) (hw : Spec.IsKthSmallest k xs w) : v = w := by
  by_contra hne
  wlog hlt : v < w generalizing v w
  · exact this hw hv (Ne.symm hne) (lt_of_le_of_ne (not_lt.1 hlt) (Ne.symm hne))
  have : xs.countP (fun x => decide (x ≤ v)) ≤ xs.countP (fun x => decide (x < w)) := by
    apply List.countP_mono_left
    intro x _ hx
    simp only [decide_eq_true_eq] at hx ⊢
    exact lt_of_le_of_lt hx hlt
  have h1 := hv.2
  have h2 := hw.1
  omega

theorem isKth_mem {k : ℕ} {xs : List K} {v : K} (hv : Spec.IsKthSmallest k xs v) : v ∈ xs := by
  by_contra hne
  have : xs.countP (fun x => decide (x ≤ v)) ≤ xs.countP (fun x => decide (x < v)) := by
    apply List.countP_mono_left
    intro x hx h
    simp only [decide_eq_true_eq] at h ⊢
    exact lt_of_le_of_ne h (fun h => hne (h ▸ hx))
  have h1 := hv.2
  have h2 := hv.1
  omega

theorem isKth_range {k : ℕ} {xs : List K} {v : K} (hv : Spec.IsKthSmallest k xs v) :
    1 ≤ k ∧ k ≤ xs.length := by
  have h1 := hv.1
  have h2 := hv.2
  have := List.countP_le_length (p := fun x => decide (x ≤ v)) (l := xs)
  omega

theorem npPartitionMax_isKth {xs : List K} {k : ℕ} {v : K} (h : npPartitionMax xs k = some v) :
    Spec.IsKthSmallest k xs v := by
  unfold npPartitionMax at h
  split_ifs at h with h0
  have := isKth_of_sorted (npSort_pairwise xs) h
  rw [Nat.sub_add_cancel (by omega)] at this
  exact (isKth_perm (npSort_perm xs)).1 this

theorem npPartitionMax_some {xs : List K} {k : ℕ} (h1 : 1 ≤ k) (h2 : k ≤ xs.length) :
    ∃ v, npPartitionMax xs k = some v := by
  unfold npPartitionMax
  rw [if_neg (by omega)]
  have : k - 1 < (npSort xs).length := by rw [npSort_length]; omega
  exact ⟨_, List.getElem?_eq_getElem this⟩

theorem npPartitionMax_eq_some_iff {xs : List K} {k : ℕ} {v : K} :
    npPartitionMax xs k = some v ↔ Spec.IsKthSmallest k xs v := by
  constructor
  · exact npPartitionMax_isKth
  · intro h
    obtain ⟨h1, h2⟩ := isKth_range h
    obtain ⟨w, hw⟩ := npPartitionMax_some h1 h2
    rw [hw, isKth_unique (npPartitionMax_isKth hw) h]

theorem npPartitionMax_mem {xs : List K} {k : ℕ} {v : K} (h : npPartitionMax xs k = some v) :
    v ∈ xs := isKth_mem (npPartitionMax_isKth h)

end

end Robpy
