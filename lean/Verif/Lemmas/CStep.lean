import Verif.Lemmas.Select
import Verif.Lemmas.LinAlg

/-! The determinant inequality behind the C-step (Rousseeuw & Van Driessen 1999, Theorem 1). -/

namespace Robpy
open Matrix

section
variable {m : Type} [Fintype m] [DecidableEq m]

/-- Equality case of `det_le_one_of_trace_le`. -/
theorem eq_one_of_trace_le_det {A : Matrix m m ℝ} (h : A.PosSemidef) (ht : A.trace ≤ Fintype.card m)
    (hd : A.det = 1) : A = 1 := by
  have hsp := h.1.spectral_theorem
  rw [h.1.det_eq_prod_eigenvalues] at hd
  rw [h.1.trace_eq_sum_eigenvalues] at ht
  simp only [RCLike.ofReal_real_eq_id, id_eq] at ht hd
  have hpos : ∀ i, 0 < h.1.eigenvalues i := fun i => by
    refine lt_of_le_of_ne (h.eigenvalues_nonneg i) fun h0 => ?_
    rw [Finset.prod_eq_zero (Finset.mem_univ i) h0.symm] at hd
    exact zero_ne_one hd
  have hlog : ∑ i, Real.log (h.1.eigenvalues i) = 0 := by
    rw [← Real.log_prod (fun i _ => (hpos i).ne'), hd, Real.log_one]
  have hle : ∀ i, 0 ≤ h.1.eigenvalues i - 1 - Real.log (h.1.eigenvalues i) := fun i => by
    have := Real.log_le_sub_one_of_pos (hpos i); linarith
  have hsum : ∑ i, (h.1.eigenvalues i - 1 - Real.log (h.1.eigenvalues i)) ≤ 0 := by
    rw [Finset.sum_sub_distrib, Finset.sum_sub_distrib, hlog]
    simp only [Finset.sum_const, Finset.card_univ, nsmul_eq_mul, mul_one]
    linarith
  have hz : ∀ i, h.1.eigenvalues i = 1 := by
    intro i
    have := (Finset.sum_eq_zero_iff_of_nonneg (fun i _ => hle i)).1
      (le_antisymm hsum (Finset.sum_nonneg fun i _ => hle i)) i (Finset.mem_univ i)
    by_contra hne
    have h2 := Real.log_lt_sub_one_of_pos (hpos i) hne
    linarith
  have hdiag : Matrix.diagonal (RCLike.ofReal ∘ h.1.eigenvalues : m → ℝ) = 1 := by
    rw [← Matrix.diagonal_one]
    congr 1
    funext i
    simp [hz i]
  rw [hdiag, map_one] at hsp
  exact hsp

/-- The quadratic form of `Bᵀ B` as a sum of squares. -/
theorem quadForm_factor (B : Matrix m m ℝ) (c : m → ℝ) : quadForm (Bᵀ * B) c = ∑ j, (B *ᵥ c) j ^ 2 := by
  rw [quadForm_eq, ← Matrix.mulVec_mulVec, Matrix.dotProduct_mulVec, Matrix.vecMul_transpose]
  simp only [dotProduct, sq]

/-- Sum of squared distances to `c` and to the mean. -/
theorem sum_quadForm_mean (B : Matrix m m ℝ) (R : List (m → ℝ)) (hR : 0 < R.length) (c : m → ℝ) :
    (R.map fun x => quadForm (Bᵀ * B) (x - c)).sum =
      (R.map fun x => quadForm (Bᵀ * B) (x - meanRow R)).sum +
        (R.length : ℝ) * quadForm (Bᵀ * B) (meanRow R - c) := by
  have hlen : (R.length : ℝ) ≠ 0 := by exact_mod_cast hR.ne'
  have hsw : ∀ (c : m → ℝ) (R : List (m → ℝ)), (R.map fun x => quadForm (Bᵀ * B) (x - c)).sum =
      ∑ j, (R.map fun x => ((B *ᵥ x) j - (B *ᵥ c) j) ^ 2).sum := by
    intro c R
    induction R with
    | nil => simp
    | cons x R ih =>
      rw [List.map_cons, List.sum_cons, ih, quadForm_factor, ← Finset.sum_add_distrib]
      refine Finset.sum_congr rfl fun j _ => ?_
      rw [List.map_cons, List.sum_cons, Matrix.mulVec_sub, Pi.sub_apply]
  have hmean : ∀ j, (B *ᵥ meanRow R) j = Spec.avg ((R.map fun x => (B *ᵥ x) j : List ℝ) : Multiset ℝ) := by
    intro j
    have h := congrFun (meanRow_affine B 0 R hlen) j
    simp only [Pi.add_apply, Pi.zero_apply, add_zero] at h
    rw [← h, ← mean_eq_avg]
    simp only [meanRow, List.map_map]
    rfl
  rw [hsw, hsw, quadForm_factor, Finset.mul_sum, ← Finset.sum_add_distrib]
  refine Finset.sum_congr rfl fun j _ => ?_
  have key := ssq_avg ((B *ᵥ c) j) ((R.map fun x => (B *ᵥ x) j : List ℝ) : Multiset ℝ) (by simpa using hR)
  simp only [ssq, Multiset.map_coe, Multiset.sum_coe, List.map_map, Multiset.coe_card, List.length_map,
    ← hmean] at key
  rw [Matrix.mulVec_sub, Pi.sub_apply]
  exact key

/-- The trace of the transformed covariance is the sum of the squared distances over `n - 1`. -/
theorem trace_factor_cov (B : Matrix m m ℝ) (R : List (m → ℝ)) :
    (B * npCov R * Bᵀ).trace =
      ((R.length : ℝ) - 1)⁻¹ * (R.map fun x => quadForm (Bᵀ * B) (x - meanRow R)).sum := by
  rw [npCov_eq_sum, Matrix.mul_smul, Matrix.smul_mul, Matrix.trace_smul, smul_eq_mul]
  congr 1
  generalize meanRow R = c
  induction R with
  | nil => simp
  | cons x R ih =>
    rw [List.map_cons, List.sum_cons, List.map_cons, List.sum_cons, Matrix.mul_add, Matrix.add_mul,
      Matrix.trace_add, ih]
    congr 1
    rw [quadForm_factor, Matrix.mul_vecMulVec, Matrix.vecMulVec_mul, Matrix.vecMul_transpose,
      Matrix.trace_vecMulVec]
    simp only [dotProduct, sq]

/-- Both conclusions of the C-step: the determinant does not increase, and if it stays the same then
location and covariance stay the same. -/
theorem cstep_core (R1 R2 : List (m → ℝ)) (hlen : R2.length = R1.length) (hd : (npCov R1).det ≠ 0)
    (hsum : (R2.map fun x => quadForm (npCov R1)⁻¹ (x - meanRow R1)).sum ≤
      (R1.map fun x => quadForm (npCov R1)⁻¹ (x - meanRow R1)).sum) :
    (npCov R2).det ≤ (npCov R1).det ∧
    ((npCov R2).det = (npCov R1).det → npCov R2 = npCov R1 ∧ meanRow R2 = meanRow R1) := by
  rcases isEmpty_or_nonempty m with he | hne
  · refine ⟨by rw [Matrix.det_isEmpty, Matrix.det_isEmpty], fun _ => ⟨?_, ?_⟩⟩
    · ext i; exact he.elim i
    · ext i; exact he.elim i
  -- at least two rows
  have h2 : 2 ≤ R1.length := by
    by_contra hlt
    have h0 : npCov R1 = 0 := by
      rcases R1 with _ | ⟨x, _ | ⟨y, R⟩⟩
      · funext i j; simp [npCov]
      · funext i j; simp [npCov]
      · simp at hlt
    rw [h0, Matrix.det_zero] at hd
    exact hd rfl
  have hpos : (0:ℝ) < (R1.length : ℝ) - 1 := by
    have : (2:ℝ) ≤ R1.length := by exact_mod_cast h2
    linarith
  have hS1 := posDef_of_posSemidef_det (npCov_posSemidef R1) hd
  obtain ⟨B, hB, hBd⟩ := posDef_inv_factor hS1
  have hBu : IsUnit B.det := isUnit_iff_ne_zero.2 hBd
  have hBS : B * npCov R1 * Bᵀ = 1 := by
    have h1 : B * npCov R1 * Bᵀ * B = B := by
      rw [mul_assoc, ← hB, mul_assoc, Matrix.mul_nonsing_inv _ (isUnit_iff_ne_zero.2 hd), mul_one]
    calc B * npCov R1 * Bᵀ = B * npCov R1 * Bᵀ * (B * B⁻¹) := by
          rw [Matrix.mul_nonsing_inv _ hBu, mul_one]
      _ = B * B⁻¹ := by rw [← mul_assoc, h1]
      _ = 1 := Matrix.mul_nonsing_inv _ hBu
  rw [hB] at hsum
  have ht1 := trace_factor_cov B R1
  rw [hBS, Matrix.trace_one] at ht1
  have hmean := sum_quadForm_mean B R2 (by omega) (meanRow R1)
  have hq : 0 ≤ quadForm (Bᵀ * B) (meanRow R2 - meanRow R1) := by
    rw [quadForm_factor]; exact Finset.sum_nonneg fun j _ => sq_nonneg _
  have ht2 := trace_factor_cov B R2
  rw [hlen] at ht2 hmean
  have hn : (0:ℝ) < R1.length := by linarith
  set s1 := (R1.map fun x => quadForm (Bᵀ * B) (x - meanRow R1)).sum
  set s2 := (R2.map fun x => quadForm (Bᵀ * B) (x - meanRow R2)).sum
  have hs12 : s2 + R1.length * quadForm (Bᵀ * B) (meanRow R2 - meanRow R1) ≤ s1 := by linarith
  have htr : (B * npCov R2 * Bᵀ).trace + ((R1.length : ℝ) - 1)⁻¹ *
      (R1.length * quadForm (Bᵀ * B) (meanRow R2 - meanRow R1)) ≤ Fintype.card m := by
    rw [ht1, ht2, ← mul_add]
    exact mul_le_mul_of_nonneg_left hs12 (inv_nonneg.2 hpos.le)
  have hextra : 0 ≤ ((R1.length : ℝ) - 1)⁻¹ *
      (R1.length * quadForm (Bᵀ * B) (meanRow R2 - meanRow R1)) := by positivity
  have hps : (B * npCov R2 * Bᵀ).PosSemidef := by
    have := (npCov_posSemidef R2).mul_mul_conjTranspose_same B
    rwa [Matrix.conjTranspose_eq_transpose_of_trivial] at this
  have hdet : ∀ S : Matrix m m ℝ, (B * S * Bᵀ).det = B.det ^ 2 * S.det := fun S => by
    rw [Matrix.det_mul, Matrix.det_mul, Matrix.det_transpose]; ring
  have hd1 := hdet (npCov R1)
  rw [hBS, Matrix.det_one] at hd1
  have hB2 : 0 < B.det ^ 2 := by positivity
  have hle := det_le_one_of_trace_le hps (by linarith)
  rw [hdet, hd1] at hle
  refine ⟨le_of_mul_le_mul_left hle hB2, fun heq => ?_⟩
  have hone : (B * npCov R2 * Bᵀ).det = 1 := by rw [hdet, heq, ← hd1]
  have hI := eq_one_of_trace_le_det hps (by linarith) hone
  constructor
  · have hcancel : ∀ S : Matrix m m ℝ, S = B⁻¹ * (B * S * Bᵀ) * (Bᵀ)⁻¹ := fun S => by
      have hBt : IsUnit (Bᵀ).det := by rwa [Matrix.det_transpose]
      rw [mul_assoc, mul_assoc (B * S), Matrix.mul_nonsing_inv _ hBt, mul_one, ← mul_assoc,
        Matrix.nonsing_inv_mul _ hBu, one_mul]
    rw [hcancel (npCov R2), hI, ← hBS, ← hcancel]
  · rw [hI, Matrix.trace_one] at htr
    have h0 : quadForm (Bᵀ * B) (meanRow R2 - meanRow R1) = 0 := by
      have h1 : ((R1.length : ℝ) - 1)⁻¹ * (R1.length * quadForm (Bᵀ * B) (meanRow R2 - meanRow R1)) ≤ 0 := by
        linarith
      have h3 := le_antisymm h1 hextra
      have h4 : ((R1.length : ℝ) - 1)⁻¹ ≠ 0 := inv_ne_zero hpos.ne'
      simpa [h4, hn.ne'] using h3
    by_contra hcon
    have hx : meanRow R2 - meanRow R1 ≠ 0 := sub_ne_zero.2 hcon
    have := hS1.inv.dotProduct_mulVec_pos hx
    rw [← hB, quadForm_eq] at h0
    simp only [star_trivial] at this
    linarith

end
end Robpy
