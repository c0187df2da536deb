import Verif.Model.WeightedMedian
import Mathlib.Algebra.Order.BigOperators.Group.List

/-! Loop invariant of `weighted_median`. -/

namespace Robpy
open Spec

variable {K W : Type*} [LinearOrder K] [CommRing W] [LinearOrder W] [IsStrictOrderedRing W]

theorem weightOf_cons (p : K → Bool) (q : K × W) (xs : List (K × W)) :
    weightOf p (q :: xs) = (if p q.1 then q.2 else 0) + weightOf p xs := by
  unfold weightOf
  by_cases h : p q.1 <;> simp [h]

omit [LinearOrder K] [IsStrictOrderedRing W] in
theorem weightOf_nil (p : K → Bool) : weightOf p ([] : List (K × W)) = 0 := by
  simp [weightOf]

theorem weightOf_true (xs : List (K × W)) : weightOf (fun _ => true) xs = (xs.map Prod.snd).sum := by
  simp [weightOf]

theorem weightOf_nonneg (p : K → Bool) (xs : List (K × W)) (h : ∀ q ∈ xs, 0 ≤ q.2) :
    0 ≤ weightOf p xs := by
  unfold weightOf
  apply List.sum_nonneg
  intro x hx
  obtain ⟨q, hq, rfl⟩ := List.mem_map.1 hx
  exact h q (List.mem_filter.1 hq).1

theorem weightOf_filter (p r : K → Bool) (xs : List (K × W)) :
    weightOf p (xs.filter fun q => r q.1) = weightOf (fun x => p x && r x) xs := by
  unfold weightOf
  rw [List.filter_filter]

theorem weightOf_congr {p r : K → Bool} (xs : List (K × W)) (h : ∀ x, p x = r x) :
    weightOf p xs = weightOf r xs := by
  have : p = r := funext h
  rw [this]

theorem weightOf_add {p r s : K → Bool} (xs : List (K × W))
    (h : ∀ x, (s x = true ↔ (p x = true ∨ r x = true)) ∧ ¬ (p x = true ∧ r x = true)) :
    weightOf s xs = weightOf p xs + weightOf r xs := by
  induction xs with
  | nil => simp [weightOf_nil]
  | cons q xs ih =>
    rw [weightOf_cons, weightOf_cons, weightOf_cons, ih]
    obtain ⟨h1, h2⟩ := h q.1
    by_cases hp : p q.1 = true <;> by_cases hr : r q.1 = true
    · exact absurd ⟨hp, hr⟩ h2
    · have : s q.1 = true := h1.2 (Or.inl hp)
      simp [hp, hr, this, add_assoc]
    · have : s q.1 = true := h1.2 (Or.inr hr)
      simp only [hp, hr, this, if_true, if_false, Bool.false_eq_true]
      ring
    · have : ¬ s q.1 = true := fun hs => by rcases h1.1 hs with h | h <;> contradiction
      simp [hp, hr, this]

theorem weightedMedianLoop_spec (wtotal : W) (cand : List (K × W)) (wrest : W)
    (hpos : ∀ q ∈ cand, 0 ≤ q.2)
    (h1 : 2 * wrest ≤ wtotal) (h2 : wtotal < 2 * (wrest + (cand.map Prod.snd).sum)) :
    ∃ v, weightedMedianLoop wtotal cand wrest = .ok v ∧ v ∈ cand.map Prod.fst ∧
      0 < weightOf (fun x => decide (x = v)) cand ∧
      2 * (wrest + weightOf (fun x => decide (x < v)) cand) ≤ wtotal ∧
      wtotal < 2 * (wrest + weightOf (fun x => decide (x ≤ v)) cand) := by
  fun_induction weightedMedianLoop wtotal cand wrest with
  | case1 wrest =>
    simp at h2
    exact absurd h2 (not_lt.2 h1)
  | case2 wrest q =>
    simp only [List.map_cons, List.map_nil, List.sum_cons, List.sum_nil, add_zero] at h2
    refine ⟨q.1, rfl, by simp, ?_, ?_, ?_⟩
    · simp only [weightOf_cons, weightOf_nil]
      simp
      nlinarith
    · simp only [weightOf_cons, weightOf_nil]
      simpa using h1
    · simp only [weightOf_cons, weightOf_nil]
      simpa using h2
  | case3 wrest q₁ q₂ rest c h =>
    exfalso
    obtain ⟨v, hv⟩ := npPartitionMax_some (xs := c.map Prod.fst) (k := (c.length + 1)/2)
      (by simp [c]; omega) (by simp [c]; omega)
    rw [h] at hv
    exact absurd hv (by simp)
  | case4 wrest q₁ q₂ rest c trial h wleft hlt ih =>
    have hfil : ∀ v, v ∈ (c.filter fun q => decide (q.1 < trial)).map Prod.fst → v < trial := by
      intro v hv
      obtain ⟨q, hq, rfl⟩ := List.mem_map.1 hv
      simpa using (List.mem_filter.1 hq).2
    obtain ⟨v, hv, hmem, e1, e2, e3⟩ := ih
      (fun q hq => hpos q (List.mem_filter.1 hq).1) h1 hlt
    have hvt := hfil v hmem
    refine ⟨v, hv, ?_, ?_, ?_, ?_⟩
    · obtain ⟨q, hq, rfl⟩ := List.mem_map.1 hmem
      exact List.mem_map.2 ⟨q, (List.mem_filter.1 hq).1, rfl⟩
    · rw [weightOf_filter (fun x => decide (x = v)) (fun x => decide (x < trial))] at e1
      rwa [weightOf_congr (r := fun x => decide (x = v))] at e1
      intro x
      by_cases hx : x = v
      · subst hx; simp [hvt]
      · simp [hx]
    · rw [weightOf_filter (fun x => decide (x < v)) (fun x => decide (x < trial))] at e2
      rwa [weightOf_congr (r := fun x => decide (x < v))] at e2
      intro x
      by_cases hx : x < v
      · simp [hx, hx.trans hvt]
      · simp [hx]
    · rw [weightOf_filter (fun x => decide (x ≤ v)) (fun x => decide (x < trial))] at e3
      rwa [weightOf_congr (r := fun x => decide (x ≤ v))] at e3
      intro x
      by_cases hx : x ≤ v
      · simp [hx, lt_of_le_of_lt hx hvt]
      · simp [hx]
  | case5 wrest q₁ q₂ rest c trial h wleft wmid hge hlt =>
    have hadd : weightOf (fun x => decide (x ≤ trial)) c
        = weightOf (fun x => decide (x < trial)) c + weightOf (fun x => decide (x = trial)) c := by
      apply weightOf_add
      intro x
      simp only [decide_eq_true_eq]
      exact ⟨le_iff_lt_or_eq, fun h => h.1.ne h.2⟩
    have e1 : wleft = weightOf (fun x => decide (x < trial)) c := rfl
    have e2 : wmid = weightOf (fun x => decide (x = trial)) c := rfl
    refine ⟨trial, rfl, npPartitionMax_mem h, ?_, ?_, ?_⟩
    · change 0 < weightOf (fun x => decide (x = trial)) c
      rw [← e2]
      have : 2 * (wrest + wleft) ≤ wtotal := not_lt.1 hge
      have h3 := lt_of_le_of_lt this hlt
      nlinarith
    · change 2 * (wrest + weightOf (fun x => decide (x < trial)) c) ≤ wtotal
      rw [← e1]; exact not_lt.1 hge
    · change wtotal < 2 * (wrest + weightOf (fun x => decide (x ≤ trial)) c)
      rw [hadd, ← e1, ← e2, ← add_assoc]; exact hlt
  | case6 wrest q₁ q₂ rest c trial h wleft wmid hge hge2 ih =>
    have hfil : ∀ v, v ∈ (c.filter fun q => decide (trial < q.1)).map Prod.fst → trial < v := by
      intro v hv
      obtain ⟨q, hq, rfl⟩ := List.mem_map.1 hv
      simpa using (List.mem_filter.1 hq).2
    have e1 : wleft = weightOf (fun x => decide (x < trial)) c := rfl
    have e2 : wmid = weightOf (fun x => decide (x = trial)) c := rfl
    have hsplit : (c.map Prod.snd).sum = wleft + wmid +
        ((c.filter fun q => decide (trial < q.1)).map Prod.snd).sum := by
      rw [← weightOf_true, e1, e2]
      have a1 : weightOf (fun x => decide (x ≤ trial)) c
          = weightOf (fun x => decide (x < trial)) c + weightOf (fun x => decide (x = trial)) c := by
        apply weightOf_add
        intro x
        simp only [decide_eq_true_eq]
        exact ⟨le_iff_lt_or_eq, fun h => h.1.ne h.2⟩
      rw [← a1]
      change _ = _ + weightOf (fun x => decide (trial < x)) c
      apply weightOf_add
      intro x
      simp only [decide_eq_true_eq, true_iff]
      exact ⟨le_or_gt x trial, fun h => absurd h.2 (not_lt.2 h.1)⟩
    obtain ⟨v, hv, hmem, f1, f2, f3⟩ := ih
      (fun q hq => hpos q (List.mem_filter.1 hq).1) (not_lt.1 hge2)
      (by rw [add_assoc wrest, add_assoc wrest, ← hsplit]; exact h2)
    have hvt := hfil v hmem
    have key : ∀ (p : K → Bool), (∀ x, x ≤ trial → p x = true) →
        weightOf p c = wleft + wmid + weightOf p (c.filter fun q => decide (trial < q.1)) := by
      intro p hp
      rw [weightOf_filter p (fun x => decide (trial < x)), e1, e2]
      have a1 : weightOf (fun x => decide (x ≤ trial)) c
          = weightOf (fun x => decide (x < trial)) c + weightOf (fun x => decide (x = trial)) c := by
        apply weightOf_add
        intro x
        simp only [decide_eq_true_eq]
        exact ⟨le_iff_lt_or_eq, fun h => h.1.ne h.2⟩
      rw [← a1]
      apply weightOf_add
      intro x
      simp only [decide_eq_true_eq, Bool.and_eq_true]
      rcases le_or_gt x trial with hx | hx
      · simp [hx, hp x hx, not_lt.2 hx]
      · simp [hx, not_le.2 hx]
    refine ⟨v, hv, ?_, ?_, ?_, ?_⟩
    · obtain ⟨q, hq, rfl⟩ := List.mem_map.1 hmem
      exact List.mem_map.2 ⟨q, (List.mem_filter.1 hq).1, rfl⟩
    · rw [weightOf_filter (fun x => decide (x = v)) (fun x => decide (trial < x))] at f1
      rwa [weightOf_congr (r := fun x => decide (x = v))] at f1
      intro x
      by_cases hx : x = v
      · subst hx; simp [hvt]
      · simp [hx]
    · change 2 * (wrest + weightOf (fun x => decide (x < v)) c) ≤ wtotal
      rw [key _ (fun x hx => by simpa using lt_of_le_of_lt hx hvt), ← add_assoc, ← add_assoc]
      exact f2
    · change wtotal < 2 * (wrest + weightOf (fun x => decide (x ≤ v)) c)
      rw [key _ (fun x hx => by simpa using (lt_of_le_of_lt hx hvt).le), ← add_assoc, ← add_assoc]
      exact f3

end Robpy
