import Verif.Model.PowerTransform
import Verif.Lemmas.Median
import Mathlib.Analysis.SpecialFunctions.Pow.Deriv
import Mathlib.Analysis.Calculus.Deriv.MeanValue

/-! Facts about the Box-Cox and Yeo-Johnson formulas. -/

namespace Robpy

theorem yeojohnson_nonneg (lam : ℝ) {x : ℝ} (hx : 0 ≤ x) : yeojohnson lam x = boxcox lam (1 + x) := by
  unfold yeojohnson boxcox
  split_ifs <;> first | rfl | (exfalso; linarith)

theorem yeojohnson_neg (lam : ℝ) {x : ℝ} (hx : x < 0) :
    yeojohnson lam x = -boxcox (2 - lam) (1 - x) := by
  unfold yeojohnson boxcox
  split_ifs <;> first | rfl | (exfalso; linarith) | (exfalso; apply ‹¬ lam = 2›; linarith) |
    (exfalso; apply ‹¬ 2 - lam = 0›; linarith) | ring

theorem invYeojohnson_nonneg (lam : ℝ) {y : ℝ} (hy : 0 ≤ y) :
    invYeojohnson lam y = (invBoxcox lam y).map fun p => p - 1 := by
  unfold invYeojohnson invBoxcox
  split_ifs <;> first | rfl | (exfalso; linarith) | rw [mul_comm]

theorem invYeojohnson_neg (lam : ℝ) {y : ℝ} (hy : y < 0) :
    invYeojohnson lam y = (invBoxcox (2 - lam) (-y)).map fun p => 1 - p := by
  have e : -y * (2 - lam) + 1 = 1 + (lam - 2) * y := by ring
  unfold invYeojohnson invBoxcox
  split_ifs <;> first | rfl | (exfalso; linarith) | (exfalso; apply ‹¬ lam = 2›; linarith) |
    (exfalso; apply ‹¬ 2 - lam = 0›; linarith) | rw [e]

theorem boxcox_hasDerivAt (lam : ℝ) {x : ℝ} (hx : 0 < x) :
    HasDerivAt (boxcox lam) (x ^ (lam - 1)) x := by
  by_cases h : lam = 0
  · have e : boxcox lam = Real.log := by funext y; simp [boxcox, h]
    rw [e, h]
    refine (Real.hasDerivAt_log hx.ne').congr_deriv ?_
    rw [zero_sub, Real.rpow_neg_one]
  · have e : boxcox lam = fun y => (y ^ lam - 1) / lam := by funext y; simp [boxcox, h]
    rw [e]
    have h1 := ((Real.hasDerivAt_rpow_const (p := lam) (Or.inl hx.ne')).sub_const 1).div_const lam
    refine HasDerivAt.congr_deriv (f := fun y => (y ^ lam - 1) / lam) h1 ?_
    field_simp

theorem boxcox_strictMono (lam : ℝ) {x y : ℝ} (hx : 0 < x) (hxy : x < y) :
    boxcox lam x < boxcox lam y := by
  unfold boxcox
  split_ifs with h
  · exact Real.log_lt_log hx hxy
  · rcases lt_or_gt_of_ne h with h | h
    · have := Real.rpow_lt_rpow_of_neg hx hxy h
      rw [div_lt_div_right_of_neg h]
      linarith
    · have := Real.rpow_lt_rpow hx.le hxy h
      exact div_lt_div_of_pos_right (by linarith) h

@[simp] theorem boxcox_one (lam : ℝ) : boxcox lam 1 = 0 := by
  unfold boxcox; split_ifs <;> simp

theorem boxcox_le_iff (lam : ℝ) {x y : ℝ} (hx : 0 < x) (hy : 0 < y) :
    boxcox lam x ≤ boxcox lam y ↔ x ≤ y := by
  constructor
  · intro h
    by_contra hc
    exact absurd (boxcox_strictMono lam hy (not_le.1 hc)) (not_lt.2 h)
  · intro h
    rcases h.lt_or_eq with h | h
    · exact (boxcox_strictMono lam hx h).le
    · rw [h]

/-- The range of Box-Cox: `y` is attained iff `0 < y * lam + 1`. -/
theorem boxcox_range (lam : ℝ) {x : ℝ} (hx : 0 < x) : 0 < boxcox lam x * lam + 1 := by
  unfold boxcox
  split_ifs with h
  · rw [h]; simp
  · have : (x ^ lam - 1) / lam * lam + 1 = x ^ lam := by field_simp; ring
    rw [this]; exact Real.rpow_pos_of_pos hx lam

theorem invBoxcox_boxcox (lam : ℝ) {x : ℝ} (hx : 0 < x) : invBoxcox lam (boxcox lam x) = some x := by
  have hr := boxcox_range lam hx
  unfold invBoxcox
  split_ifs with h
  · simp [boxcox, h, Real.exp_log hx]
  · unfold npPow
    rw [if_pos hr]
    have : boxcox lam x * lam + 1 = x ^ lam := by
      unfold boxcox; rw [if_neg h]; field_simp; ring
    rw [this, ← Real.rpow_mul hx.le, mul_one_div_cancel h, Real.rpow_one]

theorem boxcox_invBoxcox (lam : ℝ) {y : ℝ} (hy : 0 < y * lam + 1) :
    ∃ x, 0 < x ∧ invBoxcox lam y = some x ∧ boxcox lam x = y := by
  by_cases h : lam = 0
  · refine ⟨Real.exp y, Real.exp_pos y, by simp [invBoxcox, h], by simp [boxcox, h]⟩
  · refine ⟨(y * lam + 1) ^ (1 / lam), Real.rpow_pos_of_pos hy _, by simp [invBoxcox, h, npPow, hy], ?_⟩
    unfold boxcox
    rw [if_neg h, ← Real.rpow_mul hy.le, one_div_mul_cancel h, Real.rpow_one]
    field_simp
    ring

theorem invBoxcox_some_pos (lam : ℝ) {y x : ℝ} (hy : 0 < y * lam + 1) (h : invBoxcox lam y = some x) :
    0 < x ∧ boxcox lam x = y := by
  obtain ⟨x', h1, h2, h3⟩ := boxcox_invBoxcox lam hy
  rw [h2] at h
  obtain rfl := Option.some.inj h
  exact ⟨h1, h3⟩

theorem yeojohnson_sign (lam x : ℝ) : (0 ≤ x → 0 ≤ yeojohnson lam x) ∧ (x < 0 → yeojohnson lam x < 0) := by
  constructor
  · intro h
    rw [yeojohnson_nonneg lam h, ← boxcox_one lam, boxcox_le_iff lam one_pos (by linarith)]
    linarith
  · intro h
    rw [yeojohnson_neg lam h, neg_lt_zero, ← boxcox_one (2 - lam)]
    exact boxcox_strictMono _ one_pos (by linarith)

theorem yeojohnson_strictMono (lam : ℝ) {x y : ℝ} (hxy : x < y) :
    yeojohnson lam x < yeojohnson lam y := by
  rcases lt_or_ge y 0 with hy | hy
  · have hx : x < 0 := hxy.trans hy
    rw [yeojohnson_neg lam hx, yeojohnson_neg lam hy, neg_lt_neg_iff]
    exact boxcox_strictMono _ (by linarith) (by linarith)
  · rcases lt_or_ge x 0 with hx | hx
    · exact lt_of_lt_of_le ((yeojohnson_sign lam x).2 hx) ((yeojohnson_sign lam y).1 hy)
    · rw [yeojohnson_nonneg lam hx, yeojohnson_nonneg lam hy]
      exact boxcox_strictMono _ (by linarith) (by linarith)

theorem invYeojohnson_yeojohnson (lam x : ℝ) : invYeojohnson lam (yeojohnson lam x) = some x := by
  rcases lt_or_ge x 0 with hx | hx
  · rw [invYeojohnson_neg lam ((yeojohnson_sign lam x).2 hx), yeojohnson_neg lam hx, neg_neg,
      invBoxcox_boxcox _ (by linarith)]
    simp
  · rw [invYeojohnson_nonneg lam ((yeojohnson_sign lam x).1 hx), yeojohnson_nonneg lam hx,
      invBoxcox_boxcox _ (by linarith)]
    simp

/-- `y` is strictly inside the range of the Yeo-Johnson transform. -/
def yjInRange (lam y : ℝ) : Prop := (0 ≤ y → 0 < y * lam + 1) ∧ (y < 0 → 0 < -y * (2 - lam) + 1)

theorem yeojohnson_range (lam x : ℝ) : yjInRange lam (yeojohnson lam x) := by
  constructor
  · intro h
    have hx : 0 ≤ x := by
      by_contra hc
      exact absurd ((yeojohnson_sign lam x).2 (not_le.1 hc)) (not_lt.2 h)
    rw [yeojohnson_nonneg lam hx]
    exact boxcox_range lam (by linarith)
  · intro h
    have hx : x < 0 := by
      by_contra hc
      exact absurd ((yeojohnson_sign lam x).1 (not_lt.1 hc)) (not_le.2 h)
    rw [yeojohnson_neg lam hx, neg_neg]
    exact boxcox_range _ (by linarith)

theorem yeojohnson_invYeojohnson (lam : ℝ) {y : ℝ} (hy : yjInRange lam y) :
    ∃ x, invYeojohnson lam y = some x ∧ yeojohnson lam x = y := by
  rcases lt_or_ge y 0 with h | h
  · obtain ⟨x, h1, h2, h3⟩ := boxcox_invBoxcox (2 - lam) (hy.2 h)
    refine ⟨1 - x, by rw [invYeojohnson_neg lam h, h2]; rfl, ?_⟩
    have hx : 1 < x := by
      by_contra hc
      have := (boxcox_le_iff (2 - lam) h1 one_pos).2 (not_lt.1 hc)
      rw [boxcox_one, h3] at this
      linarith
    rw [yeojohnson_neg lam (by linarith), sub_sub_cancel, h3, neg_neg]
  · obtain ⟨x, h1, h2, h3⟩ := boxcox_invBoxcox lam (hy.1 h)
    refine ⟨x - 1, by rw [invYeojohnson_nonneg lam h, h2]; rfl, ?_⟩
    have hx : 1 ≤ x := by
      rw [← boxcox_le_iff lam one_pos h1, boxcox_one, h3]
      exact h
    rw [yeojohnson_nonneg lam (by linarith), add_sub_cancel, h3]

theorem yeojohnson_hasDerivAt_nonneg (lam : ℝ) {x : ℝ} (hx : 0 ≤ x) :
    HasDerivWithinAt (yeojohnson lam) ((1 + x) ^ (lam - 1)) (Set.Ici 0) x := by
  have h1 : HasDerivAt (fun y => boxcox lam (1 + y)) ((1 + x) ^ (lam - 1)) x := by
    have := (boxcox_hasDerivAt lam (x := 1 + x) (by linarith)).comp x ((hasDerivAt_id x).const_add 1)
    refine HasDerivAt.congr_deriv (f := fun y => boxcox lam (1 + y)) this ?_
    ring
  exact h1.hasDerivWithinAt.congr (fun y hy => yeojohnson_nonneg lam hy) (yeojohnson_nonneg lam hx)

theorem yeojohnson_hasDerivAt_nonpos (lam : ℝ) {x : ℝ} (hx : x ≤ 0) :
    HasDerivWithinAt (yeojohnson lam) ((1 - x) ^ (1 - lam)) (Set.Iic 0) x := by
  have h1 : HasDerivAt (fun y => -boxcox (2 - lam) (1 - y)) ((1 - x) ^ (1 - lam)) x := by
    have := ((boxcox_hasDerivAt (2 - lam) (x := 1 - x) (by linarith)).comp x
      ((hasDerivAt_id x).const_sub 1)).neg
    refine HasDerivAt.congr_deriv (f := fun y => -boxcox (2 - lam) (1 - y)) this ?_
    have : 2 - lam - 1 = 1 - lam := by ring
    rw [this]; ring
  have h0 : ∀ y ≤ 0, yeojohnson lam y = -boxcox (2 - lam) (1 - y) := by
    intro y hy
    rcases hy.lt_or_eq with h | h
    · exact yeojohnson_neg lam h
    · subst h; rw [yeojohnson_nonneg lam le_rfl]; simp
  exact h1.hasDerivWithinAt.congr (fun y hy => h0 y hy) (h0 x hx)

/-- Derivative of the Yeo-Johnson transform. -/
theorem yeojohnson_hasDerivAt (lam x : ℝ) :
    HasDerivAt (yeojohnson lam) (if 0 ≤ x then (1 + x) ^ (lam - 1) else (1 - x) ^ (1 - lam)) x := by
  rcases lt_trichotomy x 0 with h | h | h
  · rw [if_neg (by linarith)]
    exact (yeojohnson_hasDerivAt_nonpos lam h.le).hasDerivAt (Iic_mem_nhds h)
  · subst h
    rw [if_pos le_rfl]
    have h1 := yeojohnson_hasDerivAt_nonneg lam (le_refl (0:ℝ))
    have h2 := yeojohnson_hasDerivAt_nonpos lam (le_refl (0:ℝ))
    simp only [add_zero, sub_zero, Real.one_rpow] at h1 h2 ⊢
    have := h2.union h1
    rw [Set.Iic_union_Ici] at this
    exact hasDerivWithinAt_univ.1 this
  · rw [if_pos h.le]
    exact (yeojohnson_hasDerivAt_nonneg lam h.le).hasDerivAt (Ici_mem_nhds h)

end Robpy
