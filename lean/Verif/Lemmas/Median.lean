import Verif.Lemmas.Sort
import Mathlib.Algebra.Order.Field.Basic
import Mathlib.Tactic.Linarith
import Mathlib.Tactic.Ring
import Mathlib.Tactic.FieldSimp

/-! # Median and MAD: characterisation by order statistics -/

namespace Robpy
open Spec

section order
variable {K : Type*} [LinearOrder K]

theorem countP_lt_add_ge (xs : List K) (v : K) :
    xs.countP (fun x => decide (x < v)) + xs.countP (fun x => decide (v ≤ x)) = xs.length := by
  have h := List.length_eq_countP_add_countP (fun x => decide (x < v)) (l := xs)
  rw [h]
  congr 1
  apply List.countP_congr
  intro x _
  simp

theorem isKth_mono {k l : ℕ} {xs : List K} {v w : K} (hkl : k ≤ l) (hv : IsKthSmallest k xs v)
    (hw : IsKthSmallest l xs w) : v ≤ w := by
  by_contra h
  push Not at h
  have : xs.countP (fun x => decide (x ≤ w)) ≤ xs.countP (fun x => decide (x < v)) := by
    apply List.countP_mono_left
    intro x _ hx
    simp only [decide_eq_true_eq] at hx ⊢
    exact lt_of_le_of_lt hx h
  have := hv.1
  have := hw.2
  omega

theorem isKth_between {k : ℕ} {xs : List K} {v : K} (hv : IsKthSmallest k xs v) (lo hi : K)
    (h1 : xs.length < k + xs.countP (fun x => decide (lo ≤ x ∧ x ≤ hi)))
    (h2 : k ≤ xs.countP (fun x => decide (lo ≤ x ∧ x ≤ hi))) : lo ≤ v ∧ v ≤ hi := by
  constructor
  · by_contra h
    push Not at h
    have e1 : xs.countP (fun x => decide (lo ≤ x ∧ x ≤ hi)) ≤ xs.countP (fun x => decide (lo ≤ x)) := by
      apply List.countP_mono_left
      intro x _ hx
      simp only [decide_eq_true_eq] at hx ⊢
      exact hx.1
    have e2 := countP_lt_add_ge xs lo
    have e3 : xs.countP (fun x => decide (x ≤ v)) ≤ xs.countP (fun x => decide (x < lo)) := by
      apply List.countP_mono_left
      intro x _ hx
      simp only [decide_eq_true_eq] at hx ⊢
      exact lt_of_le_of_lt hx h
    have := hv.2
    omega
  · by_contra h
    push Not at h
    have e1 : xs.countP (fun x => decide (lo ≤ x ∧ x ≤ hi)) ≤ xs.countP (fun x => decide (x < v)) := by
      apply List.countP_mono_left
      intro x _ hx
      simp only [decide_eq_true_eq] at hx ⊢
      exact lt_of_le_of_lt hx.2 h
    have := hv.1
    omega

theorem isKth_of_monotone {k : ℕ} {xs : List K} {v : K} (f : K → K) (hf : StrictMono f)
    (hv : IsKthSmallest k xs v) : IsKthSmallest k (xs.map f) (f v) := by
  unfold IsKthSmallest at hv ⊢
  rw [List.countP_map, List.countP_map]
  have e1 : ((fun x => decide (x < f v)) ∘ f) = fun x => decide (x < v) := by
    funext x; simp [Function.comp, hf.lt_iff_lt]
  have e2 : ((fun x => decide (x ≤ f v)) ∘ f) = fun x => decide (x ≤ v) := by
    funext x; simp [Function.comp, hf.le_iff_le]
  rw [e1, e2]
  exact hv

theorem isKth_of_antitone {k : ℕ} {xs : List K} {v : K} (f : K → K) (hf : StrictAnti f)
    (hv : IsKthSmallest k xs v) : IsKthSmallest (xs.length + 1 - k) (xs.map f) (f v) := by
  have hr := isKth_range hv
  unfold IsKthSmallest at hv ⊢
  rw [List.countP_map, List.countP_map]
  have e1 : ((fun x => decide (x < f v)) ∘ f) = fun x => decide (v < x) := by
    funext x; simp [Function.comp, hf.lt_iff_gt]
  have e2 : ((fun x => decide (x ≤ f v)) ∘ f) = fun x => decide (v ≤ x) := by
    funext x; simp [Function.comp, hf.le_iff_ge]
  rw [e1, e2]
  have h1 := countP_lt_add_ge xs v
  have h2 : xs.countP (fun x => decide (x ≤ v)) + xs.countP (fun x => decide (v < x)) = xs.length := by
    have h := List.length_eq_countP_add_countP (fun x => decide (x ≤ v)) (l := xs)
    rw [h]
    congr 1
    apply List.countP_congr
    intro x _
    simp
  omega

theorem exists_isKth (xs : List K) {k : ℕ} (h1 : 1 ≤ k) (h2 : k ≤ xs.length) :
    ∃ v, IsKthSmallest k xs v := by
  obtain ⟨v, hv⟩ := npPartitionMax_some h1 h2
  exact ⟨v, npPartitionMax_isKth hv⟩

theorem isKth_sorted_iff {xs : List K} {k : ℕ} {v : K} :
    (npSort xs)[k]? = some v ↔ IsKthSmallest (k + 1) xs v := by
  rw [← npPartitionMax_eq_some_iff]
  simp [npPartitionMax]

end order

variable {K : Type*} [Field K] [LinearOrder K] [IsStrictOrderedRing K]

/-- The median in terms of order statistics. -/
theorem npMedian_eq_some_iff {xs : List K} {m : K} :
    npMedian xs = some m ↔ ∃ a b, IsKthSmallest ((xs.length + 1) / 2) xs a ∧
      IsKthSmallest (xs.length / 2 + 1) xs b ∧ m = (a + b) / 2 := by
  unfold npMedian
  simp only
  split_ifs with h0 h1
  · simp only [reduceCtorEq, false_iff]
    rintro ⟨a, b, ha, -⟩
    have := isKth_range ha
    omega
  · have e : (xs.length + 1) / 2 = xs.length / 2 + 1 := by omega
    rw [isKth_sorted_iff, e]
    constructor
    · intro h; exact ⟨m, m, h, h, by ring⟩
    · rintro ⟨a, b, ha, hb, rfl⟩
      have := isKth_unique ha hb
      subst this
      rwa [add_self_div_two]
  · have e : (xs.length + 1) / 2 = (xs.length / 2 - 1) + 1 := by omega
    rw [e]
    constructor
    · intro h
      rcases ha : (npSort xs)[xs.length / 2 - 1]? with _ | a
      · rw [ha] at h; simp at h
      rcases hb : (npSort xs)[xs.length / 2]? with _ | b
      · rw [ha, hb] at h; simp at h
      rw [ha, hb] at h
      simp only [Option.some.injEq] at h
      exact ⟨a, b, isKth_sorted_iff.1 ha, isKth_sorted_iff.1 hb, h.symm⟩
    · rintro ⟨a, b, ha, hb, rfl⟩
      rw [isKth_sorted_iff.2 ha, isKth_sorted_iff.2 hb]

theorem npMedian_isSome {xs : List K} (h : xs ≠ []) : ∃ m, npMedian xs = some m := by
  have hl : 0 < xs.length := List.length_pos_iff.2 h
  obtain ⟨a, ha⟩ := exists_isKth xs (k := (xs.length + 1) / 2) (by omega) (by omega)
  obtain ⟨b, hb⟩ := exists_isKth xs (k := xs.length / 2 + 1) (by omega) (by omega)
  exact ⟨_, npMedian_eq_some_iff.2 ⟨a, b, ha, hb, rfl⟩⟩

omit [IsStrictOrderedRing K] in
theorem npMedian_perm {xs ys : List K} (h : xs.Perm ys) : npMedian xs = npMedian ys := by
  simp only [npMedian, npSort_eq_of_perm h, h.length_eq]

omit [IsStrictOrderedRing K] in
theorem madRaw_perm {xs ys : List K} (h : xs.Perm ys) : madRaw xs = madRaw ys := by
  unfold madRaw
  rw [npMedian_perm h]
  rcases npMedian ys with _ | m
  · rfl
  · exact npMedian_perm (h.map _)

theorem npMedian_nil : npMedian ([] : List K) = none := by simp [npMedian]

/-- Median under an affine map, increasing, decreasing or constant. -/
theorem npMedian_affine (a b : K) (xs : List K) :
    npMedian (xs.map fun x => a * x + b) = (npMedian xs).map fun m => a * m + b := by
  by_cases hx : xs = []
  · subst hx; simp [npMedian]
  have hl : 0 < xs.length := List.length_pos_iff.2 hx
  obtain ⟨m, hm⟩ := npMedian_isSome hx
  rw [hm, Option.map_some]
  obtain ⟨u, v, hu, hv, rfl⟩ := npMedian_eq_some_iff.1 hm
  rw [npMedian_eq_some_iff]
  simp only [List.length_map]
  rcases lt_trichotomy a 0 with ha | ha | ha
  · have hf : StrictAnti fun x : K => a * x + b := fun x y h => by
      have : a * y < a * x := mul_lt_mul_of_neg_left h ha
      simp only; linarith
    have h1 := isKth_of_antitone _ hf hu
    have h2 := isKth_of_antitone _ hf hv
    have e1 : xs.length + 1 - (xs.length + 1) / 2 = xs.length / 2 + 1 := by omega
    have e2 : xs.length + 1 - (xs.length / 2 + 1) = (xs.length + 1) / 2 := by omega
    rw [e1] at h1
    rw [e2] at h2
    exact ⟨_, _, h2, h1, by ring⟩
  · subst ha
    have hk : ∀ k, 1 ≤ k → k ≤ xs.length → IsKthSmallest k (xs.map fun x => 0 * x + b) b := by
      intro k h1 h2
      obtain ⟨w, hw⟩ := exists_isKth (xs.map fun x => 0 * x + b) h1 (by simpa using h2)
      have := isKth_mem hw
      obtain ⟨x, -, hxw⟩ := List.mem_map.1 this
      have : w = b := by rw [← hxw]; ring
      exact this ▸ hw
    exact ⟨b, b, hk _ (by omega) (by omega), hk _ (by omega) (by omega), by ring⟩
  · have hf : StrictMono fun x : K => a * x + b := fun x y h => by
      have : a * x < a * y := mul_lt_mul_of_pos_left h ha
      simp only; linarith
    exact ⟨_, _, isKth_of_monotone _ hf hu, isKth_of_monotone _ hf hv, by ring⟩

theorem npMedian_scale (a : K) (xs : List K) :
    npMedian (xs.map fun x => a * x) = (npMedian xs).map fun m => a * m := by
  have := npMedian_affine a 0 xs
  simpa using this

/-- MAD under an affine map. -/
theorem madRaw_affine (a b : K) (xs : List K) :
    madRaw (xs.map fun x => a * x + b) = (madRaw xs).map fun s => |a| * s := by
  unfold madRaw
  rw [npMedian_affine]
  rcases npMedian xs with _ | m
  · rfl
  · simp only [Option.map_some]
    rw [List.map_map, ← npMedian_scale |a|, List.map_map]
    congr 1
    apply List.map_congr_left
    intro x _
    simp only [Function.comp]
    rw [← abs_mul]
    congr 1
    ring

/-- At least half of the observations are at most the median, at least half at least. -/
theorem npMedian_half {xs : List K} {m : K} (h : npMedian xs = some m) :
    xs.length ≤ 2 * xs.countP (fun x => decide (x ≤ m)) ∧
    xs.length ≤ 2 * xs.countP (fun x => decide (m ≤ x)) := by
  obtain ⟨a, b, ha, hb, hm⟩ := npMedian_eq_some_iff.1 h
  have hab : a ≤ b := isKth_mono (by omega) ha hb
  have h1 : a ≤ m := by rw [hm]; linarith
  have h2 : m ≤ b := by rw [hm]; linarith
  have c1 : xs.countP (fun x => decide (x ≤ a)) ≤ xs.countP (fun x => decide (x ≤ m)) := by
    apply List.countP_mono_left
    intro x _ hx
    simp only [decide_eq_true_eq] at hx ⊢
    exact hx.trans h1
  have c2 : xs.countP (fun x => decide (b ≤ x)) ≤ xs.countP (fun x => decide (m ≤ x)) := by
    apply List.countP_mono_left
    intro x _ hx
    simp only [decide_eq_true_eq] at hx ⊢
    exact h2.trans hx
  have c3 := countP_lt_add_ge xs b
  have := ha.2
  have := hb.1
  omega

theorem npMedian_between {xs : List K} {m : K} (h : npMedian xs = some m) (lo hi : K)
    (hc : xs.length < 2 * xs.countP (fun x => decide (lo ≤ x ∧ x ≤ hi))) : lo ≤ m ∧ m ≤ hi := by
  obtain ⟨a, b, ha, hb, hm⟩ := npMedian_eq_some_iff.1 h
  have h1 := isKth_between ha lo hi (by omega) (by omega)
  have h2 := isKth_between hb lo hi (by omega) (by omega)
  rw [hm]
  constructor <;> linarith [h1.1, h1.2, h2.1, h2.2]

theorem npMedian_bounds {xs : List K} {m : K} (h : npMedian xs = some m) (lo hi : K)
    (hb : ∀ x ∈ xs, lo ≤ x ∧ x ≤ hi) : lo ≤ m ∧ m ≤ hi := by
  have hx : xs ≠ [] := by rintro rfl; simp [npMedian] at h
  apply npMedian_between h
  rw [List.countP_eq_length.2 (by simpa using hb)]
  have := List.length_pos_iff.2 hx
  omega

theorem madRaw_isSome {xs : List K} (h : xs ≠ []) : ∃ s, madRaw xs = some s := by
  obtain ⟨m, hm⟩ := npMedian_isSome h
  unfold madRaw
  rw [hm]
  exact npMedian_isSome (by simpa using h)

theorem madRaw_spec {xs : List K} {s : K} (h : madRaw xs = some s) :
    ∃ m, npMedian xs = some m ∧ npMedian (xs.map fun x => |x - m|) = some s := by
  unfold madRaw at h
  rcases hm : npMedian xs with _ | m
  · rw [hm] at h; simp at h
  · rw [hm] at h; exact ⟨m, rfl, h⟩

theorem madRaw_nonneg {xs : List K} {s : K} (h : madRaw xs = some s) : 0 ≤ s := by
  obtain ⟨m, -, h2⟩ := madRaw_spec h
  obtain ⟨a, b, ha, hb, rfl⟩ := npMedian_eq_some_iff.1 h2
  obtain ⟨x, -, hx⟩ := List.mem_map.1 (isKth_mem ha)
  obtain ⟨y, -, hy⟩ := List.mem_map.1 (isKth_mem hb)
  have h1 : 0 ≤ a := hx ▸ abs_nonneg _
  have h2 : 0 ≤ b := hy ▸ abs_nonneg _
  linarith

/-- Some observation is within one raw MAD of the median. -/
theorem exists_within_mad {xs : List K} {m s : K} (hm : npMedian xs = some m)
    (hs : madRaw xs = some s) : ∃ x ∈ xs, |x - m| ≤ s := by
  obtain ⟨m', hm', h2⟩ := madRaw_spec hs
  obtain rfl : m = m' := by rw [hm] at hm'; exact Option.some.inj hm'
  have h3 := (npMedian_half h2).1
  have hx : xs ≠ [] := by rintro rfl; simp [npMedian] at hm
  have hl := List.length_pos_iff.2 hx
  rw [List.length_map] at h3
  have h4 : 0 < (xs.map fun x => |x - m|).countP (fun x => decide (x ≤ s)) := by omega
  obtain ⟨y, hy, hys⟩ := List.countP_pos_iff.1 h4
  obtain ⟨x, hx, rfl⟩ := List.mem_map.1 hy
  exact ⟨x, hx, by simpa using hys⟩

end Robpy
