import Verif.Model.MCD
import Verif.Lemmas.Stats
import Mathlib.Data.List.Perm.Subperm
import Mathlib.Data.List.Sort

/-! Lemmas on index arrays and on selecting the smallest values. -/

namespace Robpy

section
variable {α β : Type}

theorem takeAt_map (f : α → β) (xs : List α) (idx : List ℕ) :
    takeAt (xs.map f) idx = (takeAt xs idx).map f := by
  unfold takeAt
  rw [List.map_filterMap]
  congr 1
  funext i
  simp

theorem takeAt_append (xs : List α) (a b : List ℕ) : takeAt xs (a ++ b) = takeAt xs a ++ takeAt xs b := by
  simp [takeAt, List.filterMap_append]

theorem takeAt_perm (xs : List α) {a b : List ℕ} (h : a.Perm b) : (takeAt xs a).Perm (takeAt xs b) :=
  h.filterMap _

theorem takeAt_range (xs : List α) : takeAt xs (List.range xs.length) = xs := by
  induction xs with
  | nil => rfl
  | cons x xs ih =>
    unfold takeAt at ih ⊢
    rw [List.length_cons, List.range_succ_eq_map, List.filterMap_cons, List.filterMap_map]
    simp only [List.getElem?_cons_zero]
    congr 1

theorem takeAt_length (xs : List α) (idx : List ℕ) (h : ∀ i ∈ idx, i < xs.length) :
    (takeAt xs idx).length = idx.length := by
  induction idx with
  | nil => rfl
  | cons i l ih =>
    have hi : i < xs.length := h i (by simp)
    have := ih fun j hj => h j (by simp [hj])
    unfold takeAt at this ⊢
    rw [List.filterMap_cons, List.getElem?_eq_getElem hi]
    simp [this]

theorem mem_takeAt {xs : List α} {idx : List ℕ} {a : α} (h : a ∈ takeAt xs idx) : a ∈ xs := by
  unfold takeAt at h
  obtain ⟨i, -, hi⟩ := List.mem_filterMap.1 h
  exact List.mem_of_getElem? hi

theorem takeAt_subperm (xs : List α) (idx : List ℕ) (hn : idx.Nodup) (h : ∀ i ∈ idx, i < xs.length) :
    (takeAt xs idx).Subperm xs := by
  have h1 : idx.Subperm (List.range xs.length) :=
    hn.subperm fun i hi => List.mem_range.2 (h i hi)
  obtain ⟨l, hp, hl⟩ := h1
  have h2 := hl.filterMap (fun i => xs[i]?)
  rw [← takeAt, ← takeAt, takeAt_range] at h2
  exact ⟨_, takeAt_perm xs hp, h2⟩

theorem takeAt_take (xs : List α) (idx : List ℕ) (h : ∀ i ∈ idx, i < xs.length) (k : ℕ) :
    takeAt xs (idx.take k) = (takeAt xs idx).take k := by
  induction idx generalizing k with
  | nil => simp [takeAt]
  | cons i l ih =>
    rcases k with _ | k
    · simp [takeAt]
    · have hi : i < xs.length := h i (by simp)
      have := ih (fun j hj => h j (by simp [hj])) k
      unfold takeAt at this ⊢
      rw [List.take_succ_cons, List.filterMap_cons, List.filterMap_cons, List.getElem?_eq_getElem hi]
      simp [this]

end

section
variable {K : Type} [Field K] [LinearOrder K] [IsStrictOrderedRing K]

/-- In a sorted list the first `k` values have the smallest sum among all sublists of length `k`. -/
theorem sum_take_le_sublist {l J : List K} (hs : l.Pairwise (· ≤ ·)) (hJ : J.Sublist l) :
    (l.take J.length).sum ≤ J.sum := by
  induction hJ with
  | slnil => simp
  | @cons J l a hJ ih =>
    rw [List.pairwise_cons] at hs
    refine le_trans ?_ (ih hs.2)
    rcases hk : J.length with _ | k
    · simp
    · have hlt : k < l.length := by have := hJ.length_le; omega
      rw [List.take_succ_cons, List.sum_cons, List.take_succ_eq_append_getElem hlt, List.sum_append,
        List.sum_singleton, add_comm]
      have := hs.1 _ (List.getElem_mem hlt)
      linarith
  | @cons_cons J l a hJ ih =>
    rw [List.pairwise_cons] at hs
    rw [List.length_cons, List.take_succ_cons, List.sum_cons, List.sum_cons]
    linarith [ih hs.2]

theorem sum_take_le_subperm {l J : List K} (hs : l.Pairwise (· ≤ ·)) (hJ : J.Subperm l) :
    (l.take J.length).sum ≤ J.sum := by
  obtain ⟨J', hp, hsub⟩ := hJ
  rw [← hp.length_eq, ← hp.sum_eq]
  exact sum_take_le_sublist hs hsub

end

section
variable {K : Type} [Field K] [LinearOrder K]

theorem ArgSort.lt (srt : ArgSort K) (d : List K) : ∀ i ∈ srt.toFun d, i < d.length := fun i hi => by
  simpa using (srt.perm d).mem_iff.1 hi

theorem ArgSort.nodup (srt : ArgSort K) (d : List K) : (srt.toFun d).Nodup :=
  (srt.perm d).nodup_iff.2 List.nodup_range

theorem ArgSort.length (srt : ArgSort K) (d : List K) : (srt.toFun d).length = d.length := by
  rw [(srt.perm d).length_eq, List.length_range]

theorem ArgSort.takeAt_perm (srt : ArgSort K) (d : List K) : (takeAt d (srt.toFun d)).Perm d := by
  have := Robpy.takeAt_perm d (srt.perm d)
  rwa [takeAt_range] at this

/-- The positions that `argsort(d)[:k]` selects have the smallest sum among all sets of `k` positions. -/
theorem ArgSort.sum_le [IsStrictOrderedRing K] (srt : ArgSort K) (d : List K) (J : List ℕ) (hn : J.Nodup)
    (h : ∀ i ∈ J, i < d.length) :
    (takeAt d ((srt.toFun d).take J.length)).sum ≤ (takeAt d J).sum := by
  rw [takeAt_take d _ (srt.lt d), ← takeAt_length d J h]
  refine sum_take_le_subperm (srt.sorted d) ?_
  exact (takeAt_subperm d J hn h).trans (srt.takeAt_perm d).symm.subperm

/-- A concrete `argsort` (stable insertion sort), which shows that the contract can be met. -/
def argsortStable (K : Type) [LinearOrder K] [Zero K] : ArgSort K where
  toFun d := (List.range d.length).insertionSort fun i j => d.getD i 0 ≤ d.getD j 0
  perm d := List.perm_insertionSort _ _
  sorted d := by
    haveI : IsTrans ℕ fun i j => d.getD i 0 ≤ d.getD j 0 := ⟨fun _ _ _ h1 h2 => le_trans h1 h2⟩
    haveI : Std.Total fun i j => d.getD i 0 ≤ d.getD j 0 := ⟨fun _ _ => le_total _ _⟩
    have h := List.pairwise_insertionSort (fun i j => d.getD i 0 ≤ d.getD j 0) (List.range d.length)
    unfold takeAt
    rw [List.pairwise_filterMap]
    refine h.imp fun {i j} hij a ha b hb => ?_
    have h1 : d.getD i 0 = a := by rw [List.getD_eq_getElem?_getD, ha]; rfl
    have h2 : d.getD j 0 = b := by rw [List.getD_eq_getElem?_getD, hb]; rfl
    rw [← h1, ← h2]; exact hij

end
end Robpy
