import Verif.Model.Rho
import Mathlib.Analysis.Calculus.Deriv.Pow
import Mathlib.Analysis.Calculus.Deriv.Add
import Mathlib.Analysis.Calculus.Deriv.Mul
import Mathlib.Analysis.Calculus.Deriv.Comp
import Mathlib.Tactic.Linarith
import Mathlib.Tactic.Positivity
import Mathlib.Tactic.FieldSimp
import Mathlib.Tactic.NormNum

/-! # Properties C13 and C14: the loss functions -/

namespace Robpy
open Set Filter Topology

/-- `y ↦ max 0 y ^ (n+2)` is differentiable everywhere. -/
theorem hasDerivAt_maxpow (n : ℕ) (y : ℝ) :
    HasDerivAt (fun y : ℝ => max 0 y ^ (n + 2)) ((n + 2 : ℕ) * max 0 y ^ (n + 1)) y := by
  rcases lt_trichotomy y 0 with h | h | h
  · rw [max_eq_left h.le, zero_pow (by omega), mul_zero]
    refine (hasDerivAt_const y (0:ℝ)).congr_of_eventuallyEq ?_
    filter_upwards [Iio_mem_nhds h] with z hz
    rw [max_eq_left (le_of_lt hz), zero_pow (by omega)]
  · subst h
    rw [max_self, zero_pow (by omega), mul_zero]
    have h1 : HasDerivWithinAt (fun y : ℝ => max 0 y ^ (n + 2)) 0 (Iic 0) 0 := by
      refine (hasDerivWithinAt_const (0:ℝ) (Iic 0) (0:ℝ)).congr ?_ ?_
      · intro z hz; rw [max_eq_left hz, zero_pow (by omega)]
      · rw [max_self, zero_pow (by omega)]
    have h2 : HasDerivWithinAt (fun y : ℝ => max 0 y ^ (n + 2)) 0 (Ici 0) 0 := by
      have h3 := (hasDerivAt_pow (n + 2) (0:ℝ)).hasDerivWithinAt (s := Ici 0)
      have e : ((n + 2 : ℕ) : ℝ) * 0 ^ (n + 2 - 1) = 0 := by
        rw [zero_pow (by omega), mul_zero]
      rw [e] at h3
      refine h3.congr ?_ ?_
      · intro z hz; rw [max_eq_right hz]
      · rw [max_self]
    have := h1.union h2
    rwa [Iic_union_Ici, hasDerivWithinAt_univ] at this
  · rw [max_eq_right h.le]
    refine (hasDerivAt_pow (n + 2) y).congr_of_eventuallyEq ?_
    filter_upwards [Ioi_mem_nhds h] with z hz
    rw [max_eq_right (le_of_lt hz)]

/-! ## C13 -/

section
variable {K : Type} [Field K] [LinearOrder K] [IsStrictOrderedRing K]

theorem sq_div_le_one {c x : K} (hc : 0 < c) (hx : |x| ≤ c) : (x / c) ^ 2 ≤ 1 := by
  rw [div_pow, div_le_one (by positivity)]
  exact sq_le_sq' (by linarith [neg_abs_le x]) (le_trans (le_abs_self x) hx)

theorem tukeyRho_inner {c : K} (hc : 0 < c) (x : K) (hx : |x| ≤ c) :
    tukeyRho c x = c ^ 2 / 6 * (1 - (1 - (x / c) ^ 2) ^ 3) := by
  unfold tukeyRho
  rw [if_pos hx]
  field_simp
  ring

/-- **C13**, even. -/
theorem C13_even (c x : K) : tukeyRho c (-x) = tukeyRho c x ∧ tukeyPsi c (-x) = -tukeyPsi c x := by
  constructor
  · unfold tukeyRho
    rw [abs_neg]
    split_ifs
    · ring
    · rfl
  · unfold tukeyPsi
    rw [abs_neg]
    split_ifs <;> ring

/-- **C13**, range of rho. -/
theorem C13_range (c x : K) (hc : 0 < c) : 0 ≤ tukeyRho c x ∧ tukeyRho c x ≤ c ^ 2 / 6 := by
  by_cases hx : |x| ≤ c
  · rw [tukeyRho_inner hc x hx]
    have h1 := sq_div_le_one hc hx
    have h0 : 0 ≤ (x / c) ^ 2 := sq_nonneg _
    have h2 : 0 ≤ 1 - (x / c) ^ 2 := by linarith
    have h3 : (1 - (x / c) ^ 2) ^ 3 ≤ 1 := pow_le_one₀ h2 (by linarith)
    have h4 : 0 ≤ (1 - (x / c) ^ 2) ^ 3 := by positivity
    have h5 : 0 < c ^ 2 / 6 := by positivity
    constructor
    · apply mul_nonneg h5.le; linarith
    · nlinarith
  · unfold tukeyRho
    rw [if_neg hx]
    exact ⟨by positivity, le_rfl⟩

/-- **C13**, rho is non-decreasing in `|x|`. -/
theorem C13_mono (c x y : K) (hc : 0 < c) (hxy : |x| ≤ |y|) : tukeyRho c x ≤ tukeyRho c y := by
  by_cases hy : |y| ≤ c
  · have hx := hxy.trans hy
    rw [tukeyRho_inner hc x hx, tukeyRho_inner hc y hy]
    have h1 := sq_div_le_one hc hy
    have h2 : (x / c) ^ 2 ≤ (y / c) ^ 2 := by
      rw [div_pow, div_pow]
      exact div_le_div_of_nonneg_right (sq_le_sq.2 hxy) (by positivity)
    have h3 : (1 - (y / c) ^ 2) ^ 3 ≤ (1 - (x / c) ^ 2) ^ 3 :=
      pow_le_pow_left₀ (by linarith) (by linarith) 3
    apply mul_le_mul_of_nonneg_left _ (by positivity)
    linarith
  · have : tukeyRho c y = c ^ 2 / 6 := by unfold tukeyRho; rw [if_neg hy]
    rw [this]
    exact (C13_range c x hc).2

/-- **C13**, the weight `psi(x)/x` lies in `[0, 1]`. -/
theorem C13_weight (c x : K) (hc : 0 < c) (hx : x ≠ 0) :
    0 ≤ tukeyPsi c x / x ∧ tukeyPsi c x / x ≤ 1 := by
  unfold tukeyPsi
  split_ifs with h
  · rw [mul_div_right_comm, div_self hx, one_mul]
    have h1 := sq_div_le_one hc h
    have h0 : 0 ≤ (x / c) ^ 2 := sq_nonneg _
    exact ⟨by positivity, pow_le_one₀ (by linarith) (by linarith)⟩
  · simp

end

/-- **C13**, psi is the derivative of rho at every real number. -/
theorem C13_deriv (c x : ℝ) (hc : 0 < c) : HasDerivAt (tukeyRho c) (tukeyPsi c x) x := by
  have key : ∀ z, tukeyRho c z = c ^ 2 / 6 * (1 - max 0 (1 - (z / c) ^ 2) ^ 3) := by
    intro z
    by_cases hz : |z| ≤ c
    · rw [tukeyRho_inner hc z hz, max_eq_right]
      linarith [sq_div_le_one hc hz]
    · unfold tukeyRho
      rw [if_neg hz, max_eq_left]
      · ring
      · push Not at hz
        have : 1 ≤ (z / c) ^ 2 := by
          rw [div_pow, le_div_iff₀ (by positivity), one_mul]
          exact sq_le_sq.2 (by rw [abs_of_pos hc]; exact hz.le)
        linarith
  have hpsi : tukeyPsi c x = c ^ 2 / 6 * (-(3 * max 0 (1 - (x / c) ^ 2) ^ 2 * (-(2 * (x / c) * (1 / c))))) := by
    unfold tukeyPsi
    split_ifs with hz
    · rw [max_eq_right (by linarith [sq_div_le_one hc hz])]
      field_simp
      ring
    · rw [max_eq_left]
      · ring
      · push Not at hz
        have : 1 ≤ (x / c) ^ 2 := by
          rw [div_pow, le_div_iff₀ (by positivity), one_mul]
          exact sq_le_sq.2 (by rw [abs_of_pos hc]; exact hz.le)
        linarith
  rw [show tukeyRho c = fun z => c ^ 2 / 6 * (1 - max 0 (1 - (z / c) ^ 2) ^ 3) from funext key, hpsi]
  have h1 : HasDerivAt (fun z : ℝ => 1 - (z / c) ^ 2) (-(2 * (x / c) * (1 / c))) x := by
    have h := ((hasDerivAt_id x).div_const c).pow 2
    have h' := (hasDerivAt_const x (1:ℝ)).sub h
    refine HasDerivAt.congr_deriv (f := fun z : ℝ => 1 - (z / c) ^ 2) h' ?_
    simp
  have h2 := (hasDerivAt_maxpow 1 (1 - (x / c) ^ 2)).comp x h1
  have h3 := ((hasDerivAt_const x (1:ℝ)).sub h2).const_mul (c ^ 2 / 6)
  refine HasDerivAt.congr_deriv (f := fun z : ℝ => c ^ 2 / 6 * (1 - max 0 (1 - (z / c) ^ 2) ^ 3)) h3 ?_
  push_cast
  ring

example : (0:ℝ) < 1.56 ∧ tukeyPsi (3:ℚ) 1 = 64 / 81 ∧ tukeyRho (3:ℚ) 5 = 3/2 := by
  refine ⟨by norm_num, ?_, ?_⟩
  · norm_num [tukeyPsi]
  · norm_num [tukeyRho]

/-! ## C14 -/

section
variable {K : Type} [Field K] [LinearOrder K] [IsStrictOrderedRing K]

/-- **C14**, rho even and psi odd. -/
theorem C14_even (b x : K) : huberRho b (-x) = huberRho b x ∧ huberPsi b (-x) = -huberPsi b x := by
  constructor
  · unfold huberRho
    rw [abs_neg, neg_sq]
  · unfold huberPsi npSign
    rw [abs_neg]
    split_ifs with h1 h2 h3 h4 h5 <;> first | rfl | (exfalso; linarith) | ring

/-- **C14**, psi is bounded by `b`. -/
theorem C14_psi_bounded (b x : K) (hb : 0 < b) : |huberPsi b x| ≤ b := by
  unfold huberPsi npSign
  split_ifs with h1 h2 h3
  · exact h1
  · rw [mul_neg, mul_one, abs_neg, abs_of_pos hb]
  · rw [mul_one, abs_of_pos hb]
  · simp [hb.le]

/-- **C14**, rho is non-negative and at most the quadratic loss, equal to it exactly in the
central region. -/
theorem C14_range (b x : K) (hb : 0 < b) :
    0 ≤ huberRho b x ∧ huberRho b x ≤ x ^ 2 / 2 ∧ (huberRho b x = x ^ 2 / 2 ↔ |x| ≤ b) := by
  unfold huberRho
  split_ifs with h
  · exact ⟨by positivity, le_rfl, by simp [h]⟩
  · push Not at h
    have h2 : x ^ 2 = |x| ^ 2 := (sq_abs x).symm
    have h3 : 0 < (|x| - b) ^ 2 := pow_pos (by linarith) 2
    rw [h2]
    refine ⟨by nlinarith, by nlinarith, ?_⟩
    constructor
    · intro h4; nlinarith
    · intro h4; linarith

/-- **C14**, rho is non-decreasing in `|x|`. -/
theorem C14_mono (b x y : K) (hb : 0 < b) (hxy : |x| ≤ |y|) : huberRho b x ≤ huberRho b y := by
  have hx0 := abs_nonneg x
  have e : ∀ z : K, z ^ 2 = |z| ^ 2 := fun z => (sq_abs z).symm
  unfold huberRho
  split_ifs with h1 h2 h2
  · rw [e x, e y]
    have : |x| ^ 2 ≤ |y| ^ 2 := pow_le_pow_left₀ hx0 hxy 2
    linarith
  · push Not at h2
    rw [e x]
    nlinarith [mul_nonneg hx0 hb.le, sq_nonneg (|x| - b)]
  · exact absurd (hxy.trans h2) h1
  · nlinarith

/-- **C14**, the weight `psi(x)/x` lies in `(0, 1]`. -/
theorem C14_weight (b x : K) (hb : 0 < b) (hx : x ≠ 0) :
    0 < huberPsi b x / x ∧ huberPsi b x / x ≤ 1 := by
  unfold huberPsi npSign
  split_ifs with h1 h2 h3
  · rw [div_self hx]; exact ⟨one_pos, le_rfl⟩
  · have h4 : b < -x := by
      push Not at h1
      rwa [abs_of_neg h2] at h1
    have e : b * -1 / x = b / (-x) := by rw [mul_neg, mul_one, neg_div, div_neg]
    rw [e]
    exact ⟨div_pos hb (by linarith), by rw [div_le_one (by linarith)]; exact h4.le⟩
  · push Not at h1
    rw [abs_of_pos h3] at h1
    rw [mul_one]
    exact ⟨div_pos hb h3, by rw [div_le_one h3]; exact h1.le⟩
  · exact absurd (le_antisymm (not_lt.1 h3) (not_lt.1 h2)) hx

end

/-- **C14**, psi is the derivative of rho at every real number. -/
theorem C14_deriv (b x : ℝ) (hb : 0 < b) : HasDerivAt (huberRho b) (huberPsi b x) x := by
  have key : ∀ z, huberRho b z = z ^ 2 / 2 - max 0 (z - b) ^ 2 / 2 - max 0 (-z - b) ^ 2 / 2 := by
    intro z
    unfold huberRho
    split_ifs with hz
    · have := abs_le.1 hz
      rw [max_eq_left (by linarith), max_eq_left (by linarith)]; ring
    · push Not at hz
      rcases le_total 0 z with h0 | h0
      · rw [abs_of_nonneg h0] at hz ⊢
        rw [max_eq_right (by linarith), max_eq_left (by linarith)]; ring
      · rw [abs_of_nonpos h0] at hz ⊢
        rw [max_eq_left (by linarith), max_eq_right (by linarith)]; ring
  have hpsi : huberPsi b x = x - max 0 (x - b) + max 0 (-x - b) := by
    unfold huberPsi npSign
    split_ifs with hz h0 h1
    · have := abs_le.1 hz
      rw [max_eq_left (by linarith), max_eq_left (by linarith)]; ring
    · rw [abs_of_neg h0] at hz
      rw [max_eq_left (by linarith), max_eq_right (by linarith)]; ring
    · rw [abs_of_pos h1] at hz
      rw [max_eq_right (by linarith), max_eq_left (by linarith)]; ring
    · have : x = 0 := le_antisymm (not_lt.1 h1) (not_lt.1 h0)
      rw [this, abs_zero] at hz
      linarith
  rw [show huberRho b = _ from funext key, hpsi]
  have h1 : HasDerivAt (fun z : ℝ => z - b) 1 x := (hasDerivAt_id x).sub_const b
  have h2 : HasDerivAt (fun z : ℝ => -z - b) (-1) x := (hasDerivAt_id x).neg.sub_const b
  have h3 := ((hasDerivAt_maxpow 0 (x - b)).comp x h1).div_const 2
  have h4 := ((hasDerivAt_maxpow 0 (-x - b)).comp x h2).div_const 2
  have h5 := (((hasDerivAt_pow 2 x).div_const 2).sub h3).sub h4
  refine HasDerivAt.congr_deriv
    (f := fun z : ℝ => z ^ 2 / 2 - max 0 (z - b) ^ 2 / 2 - max 0 (-z - b) ^ 2 / 2) h5 ?_
  push_cast
  ring

example : (0:ℝ) < 1.5 ∧ huberPsi (3:ℚ) (-5) = -3 ∧ huberRho (3:ℚ) (-5) = 21/2 := by
  refine ⟨by norm_num, ?_, ?_⟩
  · norm_num [huberPsi, npSign]
  · norm_num [huberRho]

end Robpy
