import Verif.Props.CellColumnsSteps

/-! # C208: `truncated_covariance` gives the nearest matrix that satisfies the bound -/

namespace Robpy
open Matrix

variable {p : ℕ}

/-- The squared Frobenius distance between two matrices. -/
def Spec.sqDist (A B : Matrix (Fin p) (Fin p) ℝ) : ℝ := ∑ i, ∑ j, (A i j - B i j) ^ 2

theorem sqDist_trace (A B : Matrix (Fin p) (Fin p) ℝ) : Spec.sqDist A B = ((A - B)ᵀ * (A - B)).trace := by
  unfold Spec.sqDist
  rw [Finset.sum_comm]
  simp only [Matrix.trace, Matrix.diag_apply, Matrix.mul_apply, Matrix.transpose_apply, Matrix.sub_apply, pow_two]

theorem sqDist_orth {V : Matrix (Fin p) (Fin p) ℝ} (hV : V * Vᵀ = 1) (A B : Matrix (Fin p) (Fin p) ℝ) :
    Spec.sqDist (Vᵀ * A * V) (Vᵀ * B * V) = Spec.sqDist A B := by
  rw [sqDist_trace, sqDist_trace, ← Matrix.sub_mul, ← Matrix.mul_sub]
  set D := A - B
  have h : (Vᵀ * D * V)ᵀ * (Vᵀ * D * V) = Vᵀ * (Dᵀ * D) * V := by
    rw [Matrix.transpose_mul, Matrix.transpose_mul, Matrix.transpose_transpose]
    calc Vᵀ * (Dᵀ * V) * (Vᵀ * D * V) = Vᵀ * Dᵀ * (V * Vᵀ) * D * V := by simp only [Matrix.mul_assoc]
      _ = Vᵀ * (Dᵀ * D) * V := by rw [hV, Matrix.mul_one]; simp only [Matrix.mul_assoc]
  rw [h, Matrix.trace_mul_cycle, hV, Matrix.one_mul]

/-- **C208**, nearest: among the matrices with eigenvalues at least `min_eigenvalue`, `truncated_covariance` returns the one nearest to
its argument in the Frobenius norm; every other one is further away, by at least its distance from the result. -/
theorem C208_nearest (eigh : ∀ A : Matrix (Fin p) (Fin p) ℝ, A.IsSymm → Eigh A) (order : (Fin p → ℝ) → Equiv.Perm (Fin p))
    {cov : Matrix (Fin p) (Fin p) ℝ} (hs : cov.IsSymm) (a : ℝ) {M : Matrix (Fin p) (Fin p) ℝ}
    (hM : (M - a • (1 : Matrix (Fin p) (Fin p) ℝ)).PosSemidef) :
    Spec.sqDist (truncatedCovariance eigh order cov a) cov + Spec.sqDist M (truncatedCovariance eigh order cov a) ≤ Spec.sqDist M cov := by
  have hc : symPart cov = cov := by
    unfold symPart
    rw [hs.eq, ← two_smul ℝ, smul_smul]
    norm_num
  rw [truncated_eq]
  set E := eigh (symPart cov) (symPart_isSymm cov)
  have hd : cov = E.V * diagonal E.w * E.Vᵀ := hc.symm.trans E.decomp
  have hV' : E.V * E.Vᵀ = 1 := mul_eq_one_comm.1 E.orth
  have back : ∀ d : Fin p → ℝ, E.Vᵀ * (E.V * diagonal d * E.Vᵀ) * E.V = diagonal d := by
    intro d
    calc E.Vᵀ * (E.V * diagonal d * E.Vᵀ) * E.V = (E.Vᵀ * E.V) * diagonal d * (E.Vᵀ * E.V) := by simp only [Matrix.mul_assoc]
      _ = diagonal d := by rw [E.orth, Matrix.one_mul, Matrix.mul_one]
  rw [← sqDist_orth hV' (E.V * diagonal (fun i => max (E.w i) a) * E.Vᵀ) cov,
    ← sqDist_orth hV' M (E.V * diagonal (fun i => max (E.w i) a) * E.Vᵀ), ← sqDist_orth hV' M cov, back]
  have hcov : E.Vᵀ * cov * E.V = diagonal E.w := by
    have := back E.w
    rwa [← hd] at this
  rw [hcov]
  have hN : ∀ i, a ≤ (E.Vᵀ * M * E.V) i i := by
    intro i
    have h1 := (hM.conjTranspose_mul_mul_same E.V).diag_nonneg (i := i)
    rw [Matrix.conjTranspose_eq_transpose_of_trivial, Matrix.mul_sub, Matrix.sub_mul, Matrix.mul_smul, Matrix.smul_mul, Matrix.mul_one,
      E.orth] at h1
    simp only [Matrix.sub_apply, Matrix.smul_apply, Matrix.one_apply_eq, smul_eq_mul, mul_one] at h1
    linarith
  generalize E.Vᵀ * M * E.V = N at hN
  unfold Spec.sqDist
  rw [← Finset.sum_add_distrib]
  refine Finset.sum_le_sum fun i _ => ?_
  rw [← Finset.sum_add_distrib]
  refine Finset.sum_le_sum fun j _ => ?_
  by_cases hij : i = j
  · subst hij
    simp only [Matrix.diagonal_apply_eq]
    rcases le_total a (E.w i) with h | h
    · rw [max_eq_left h]
      simp
    · rw [max_eq_right h]
      nlinarith [mul_nonneg (sub_nonneg.2 (hN i)) (sub_nonneg.2 h)]
  · simp [Matrix.diagonal_apply_ne _ hij]

/-- **C208**, rotations: for an orthogonal `P` and whatever eigenvectors and order the two calls obtain, the result for `P cov Pᵀ` is
that for `cov`, rotated. -/
theorem C208_rotation (eigh eigh' : ∀ A : Matrix (Fin p) (Fin p) ℝ, A.IsSymm → Eigh A) (order order' : (Fin p → ℝ) → Equiv.Perm (Fin p))
    (cov : Matrix (Fin p) (Fin p) ℝ) (a : ℝ) {P : Matrix (Fin p) (Fin p) ℝ} (hP : Pᵀ * P = 1) :
    truncatedCovariance eigh' order' (P * cov * Pᵀ) a = P * truncatedCovariance eigh order cov a * Pᵀ := by
  rw [truncated_eq, truncated_eq]
  set E := eigh (symPart cov) (symPart_isSymm cov)
  set F := eigh' (symPart (P * cov * Pᵀ)) (symPart_isSymm _)
  have hs : symPart (P * cov * Pᵀ) = P * symPart cov * Pᵀ := by
    unfold symPart
    rw [Matrix.mul_smul, Matrix.smul_mul, Matrix.mul_add, Matrix.add_mul, Matrix.transpose_mul, Matrix.transpose_mul,
      Matrix.transpose_transpose, Matrix.mul_assoc P covᵀ]
  have hsub : ∀ d : Fin p → ℝ, P * (E.V * diagonal d * E.Vᵀ) * Pᵀ = (P * E.V) * diagonal d * (P * E.V)ᵀ := by
    intro d
    rw [Matrix.transpose_mul]
    simp only [Matrix.mul_assoc]
  rw [hsub]
  refine eig_fun F.orth ?_ ?_ fun x => max x a
  · rw [Matrix.transpose_mul]
    calc E.Vᵀ * Pᵀ * (P * E.V) = E.Vᵀ * (Pᵀ * P) * E.V := by simp only [Matrix.mul_assoc]
      _ = 1 := by rw [hP, Matrix.mul_one, E.orth]
  · rw [← hsub, ← F.decomp, ← E.decomp, hs]

/-- **C208**: the result does not depend on the eigenvectors and the order that numpy returns. -/
theorem C208_choice (eigh eigh' : ∀ A : Matrix (Fin p) (Fin p) ℝ, A.IsSymm → Eigh A) (order order' : (Fin p → ℝ) → Equiv.Perm (Fin p))
    (cov : Matrix (Fin p) (Fin p) ℝ) (a : ℝ) : truncatedCovariance eigh' order' cov a = truncatedCovariance eigh order cov a := by
  have := C208_rotation eigh eigh' order order' cov a (P := 1) (by simp)
  simpa using this

/-- **C208**, only one nearest matrix: a matrix that satisfies the bound and is as near as the result is the result. -/
theorem C208_unique (eigh : ∀ A : Matrix (Fin p) (Fin p) ℝ, A.IsSymm → Eigh A) (order : (Fin p → ℝ) → Equiv.Perm (Fin p))
    {cov : Matrix (Fin p) (Fin p) ℝ} (hs : cov.IsSymm) (a : ℝ) {M : Matrix (Fin p) (Fin p) ℝ}
    (hM : (M - a • (1 : Matrix (Fin p) (Fin p) ℝ)).PosSemidef)
    (hle : Spec.sqDist M cov ≤ Spec.sqDist (truncatedCovariance eigh order cov a) cov) : M = truncatedCovariance eigh order cov a := by
  have h := C208_nearest eigh order hs a hM
  have h0 : Spec.sqDist M (truncatedCovariance eigh order cov a) ≤ 0 := by linarith
  have hz : Spec.sqDist M (truncatedCovariance eigh order cov a) = 0 :=
    le_antisymm h0 (Finset.sum_nonneg fun i _ => Finset.sum_nonneg fun j _ => sq_nonneg _)
  ext i j
  have h1 := (Finset.sum_eq_zero_iff_of_nonneg fun i _ => Finset.sum_nonneg fun j _ => sq_nonneg _).1 hz i (Finset.mem_univ i)
  have h2 := (Finset.sum_eq_zero_iff_of_nonneg fun j _ => sq_nonneg _).1 h1 j (Finset.mem_univ j)
  exact sub_eq_zero.1 (pow_eq_zero_iff (two_ne_zero)|>.1 h2)

/-! ## Examples -/

/-- Nothing with eigenvalues at least 1 is nearer to a singular matrix than the result. -/
example : Spec.sqDist (truncatedCovariance eighSpectral (fun _ => 1) (!![1, 1; 1, 1] : Matrix (Fin 2) (Fin 2) ℝ) 1) !![1, 1; 1, 1] ≤
    Spec.sqDist (1 : Matrix (Fin 2) (Fin 2) ℝ) !![1, 1; 1, 1] := by
  have h := C208_nearest eighSpectral (fun _ => 1) (cov := (!![1, 1; 1, 1] : Matrix (Fin 2) (Fin 2) ℝ))
    (by unfold Matrix.IsSymm; ext i j; fin_cases i <;> fin_cases j <;> rfl) 1 (M := 1) (by simpa using Matrix.PosSemidef.zero)
  have : 0 ≤ Spec.sqDist (1 : Matrix (Fin 2) (Fin 2) ℝ) (truncatedCovariance eighSpectral (fun _ => 1) !![1, 1; 1, 1] 1) :=
    Finset.sum_nonneg fun i _ => Finset.sum_nonneg fun j _ => sq_nonneg _
  linarith

/-- A quarter turn. -/
example (cov : Matrix (Fin 2) (Fin 2) ℝ) (a : ℝ) :
    truncatedCovariance eighSpectral (fun _ => 1) (!![0, -1; 1, 0] * cov * (!![0, -1; 1, 0] : Matrix (Fin 2) (Fin 2) ℝ)ᵀ) a =
      !![0, -1; 1, 0] * truncatedCovariance eighSpectral (fun _ => 1) cov a * (!![0, -1; 1, 0] : Matrix (Fin 2) (Fin 2) ℝ)ᵀ :=
  C208_rotation _ _ _ _ cov a (by ext i j; fin_cases i <;> fin_cases j <;> simp [Matrix.mul_apply])

end Robpy
