import Verif.Model.LinAlg
import Mathlib.LinearAlgebra.Matrix.PosDef
import Mathlib.Analysis.Matrix.PosDef
import Mathlib.Analysis.Matrix.Spectrum
import Mathlib.Analysis.MeanInequalities
import Mathlib.Algebra.Order.Star.Real

/-! Lemmas about `Verif.Model.LinAlg`. -/

namespace Robpy
open Matrix

section
variable {K : Type} [Field K] {m : Type} [Fintype m] [DecidableEq m]

theorem npInv_eq [DecidableEq K] (A : Matrix m m K) (h : A.det ≠ 0) : npInv A = .ok A⁻¹ := by
  unfold npInv
  rw [if_neg h, Matrix.inv_def, Ring.inverse_eq_inv']

theorem npInv_ok [DecidableEq K] {A B : Matrix m m K} (h : npInv A = .ok B) : A.det ≠ 0 ∧ B = A⁻¹ := by
  by_cases hd : A.det = 0
  · unfold npInv at h; rw [if_pos hd] at h; simp at h
  · rw [npInv_eq A hd] at h
    exact ⟨hd, (Except.ok.inj h).symm⟩

omit [DecidableEq m] in
theorem quadForm_eq (B : Matrix m m K) (c : m → K) : quadForm B c = c ⬝ᵥ (B *ᵥ c) := by
  unfold quadForm
  rw [Matrix.dotProduct_mulVec]

theorem npInv_congr [DecidableEq K] (A S : Matrix m m K) (hA : A.det ≠ 0) :
    npInv (A * S * Aᵀ) = (npInv S).map fun Si => (A⁻¹)ᵀ * Si * A⁻¹ := by
  by_cases hS : S.det = 0
  · unfold npInv
    rw [if_pos hS, if_pos]
    · rfl
    · rw [Matrix.det_mul, Matrix.det_mul, hS]; ring
  · rw [npInv_eq S hS, npInv_eq]
    · simp only [Except.map]
      rw [Matrix.mul_inv_rev, Matrix.mul_inv_rev, Matrix.transpose_nonsing_inv, mul_assoc]
    · rw [Matrix.det_mul, Matrix.det_mul, Matrix.det_transpose]
      exact mul_ne_zero (mul_ne_zero hA hS) hA

theorem quadForm_congr (A B : Matrix m m K) (hA : A.det ≠ 0) (c : m → K) :
    quadForm ((A⁻¹)ᵀ * B * A⁻¹) (A *ᵥ c) = quadForm B c := by
  have hu : IsUnit A.det := isUnit_iff_ne_zero.2 hA
  rw [quadForm_eq, quadForm_eq, Matrix.mulVec_mulVec, mul_assoc, Matrix.nonsing_inv_mul A hu, mul_one,
    ← Matrix.mulVec_mulVec, Matrix.dotProduct_mulVec, Matrix.vecMul_transpose, Matrix.mulVec_mulVec,
    Matrix.nonsing_inv_mul A hu, Matrix.one_mulVec]

omit [DecidableEq m] in
theorem meanRow_affine (A : Matrix m m K) (b : m → K) (X : List (m → K)) (hX : (X.length : K) ≠ 0) :
    meanRow (X.map fun x => A *ᵥ x + b) = A *ᵥ meanRow X + b := by
  have key : ∀ (X : List (m → K)) (j : m), (X.map fun x => (A *ᵥ x + b) j).sum =
      (A *ᵥ fun k => (X.map fun x => x k).sum) j + X.length * b j := by
    intro X j
    induction X with
    | nil => simp [Matrix.mulVec, dotProduct]
    | cons x X ih =>
      rw [List.map_cons, List.sum_cons, ih]
      simp only [List.map_cons, List.sum_cons, List.length_cons, Nat.cast_add, Nat.cast_one,
        Matrix.mulVec, dotProduct, Pi.add_apply, mul_add, Finset.sum_add_distrib]
      ring
  funext j
  unfold meanRow mean
  rw [List.map_map, List.length_map, Pi.add_apply]
  have := key X j
  simp only [Function.comp_def]
  rw [this]
  simp only [Matrix.mulVec, dotProduct]
  rw [add_div, mul_div_cancel_left₀ _ hX, Finset.sum_div]
  congr 1
  exact Finset.sum_congr rfl fun k _ => by rw [List.length_map]; ring

omit [Fintype m] [DecidableEq m] in
/-- The scatter around the mean as a sum of rank-one matrices. -/
theorem npCov_eq_sum (X : List (m → K)) :
    npCov X = ((X.length : K) - 1)⁻¹ • (X.map fun x => vecMulVec (x - meanRow X) (x - meanRow X)).sum := by
  have key : ∀ (c : m → K) (X : List (m → K)) (i j : m),
      (X.map fun x => vecMulVec (x - c) (x - c)).sum i j =
      (X.map fun x => (x i - c i) * (x j - c j)).sum := by
    intro c X i j
    induction X with
    | nil => simp
    | cons x X ih => simp [ih, Matrix.add_apply, vecMulVec_apply]
  funext i j
  rw [Matrix.smul_apply, key, smul_eq_mul, npCov, div_eq_inv_mul]

theorem npCov_affine (A : Matrix m m K) (b : m → K) (X : List (m → K)) (hX : (X.length : K) ≠ 0) :
    npCov (X.map fun x => A *ᵥ x + b) = A * npCov X * Aᵀ := by
  rw [npCov_eq_sum, npCov_eq_sum, meanRow_affine A b X hX, List.map_map, List.length_map,
    Matrix.mul_smul, Matrix.smul_mul]
  congr 1
  have key : ∀ (c : m → K) (X : List (m → K)),
      (X.map ((fun x => vecMulVec (x - (A *ᵥ c + b)) (x - (A *ᵥ c + b))) ∘ fun x => A *ᵥ x + b)).sum =
      A * (X.map fun x => vecMulVec (x - c) (x - c)).sum * Aᵀ := by
    intro c X
    induction X with
    | nil => simp
    | cons x X ih =>
      rw [List.map_cons, List.sum_cons, ih, List.map_cons, List.sum_cons, Matrix.mul_add, Matrix.add_mul]
      congr 1
      simp only [Function.comp_apply]
      rw [add_sub_add_right_eq_sub, ← Matrix.mulVec_sub, Matrix.mul_vecMulVec, Matrix.vecMulVec_mul,
        Matrix.vecMul_transpose]
  exact key _ X

omit [Fintype m] [DecidableEq m] in
theorem npCov_isSymm (X : List (m → K)) : (npCov X).IsSymm := by
  ext i j
  simp only [Matrix.transpose_apply, npCov]
  congr 2
  exact List.map_congr_left fun x _ => mul_comm _ _

theorem sqMahalanobis_affine [DecidableEq K] (A S : Matrix m m K) (hA : A.det ≠ 0) (b loc : m → K)
    (X : List (m → K)) :
    sqMahalanobis (X.map fun x => A *ᵥ x + b) (A *ᵥ loc + b) (A * S * Aᵀ) = sqMahalanobis X loc S := by
  unfold sqMahalanobis
  rw [npInv_congr A S hA]
  rcases npInv S with e | Si
  · rfl
  · simp only [Except.map, List.map_map, Except.ok.injEq]
    refine List.map_congr_left fun x _ => ?_
    simp only [Function.comp_apply]
    rw [add_sub_add_right_eq_sub, ← Matrix.mulVec_sub, quadForm_congr A Si hA]

omit [Fintype m] [DecidableEq m] in
theorem meanRow_perm {X Y : List (m → K)} (h : X.Perm Y) : meanRow X = meanRow Y := by
  funext j
  unfold meanRow mean
  rw [(h.map _).sum_eq, List.length_map, List.length_map, h.length_eq]

omit [Fintype m] [DecidableEq m] in
theorem npCov_perm {X Y : List (m → K)} (h : X.Perm Y) : npCov X = npCov Y := by
  funext i j
  unfold npCov
  rw [meanRow_perm h, (h.map _).sum_eq, h.length_eq]

end

section real
variable {m : Type} [Fintype m] [DecidableEq m]

omit [DecidableEq m] in
theorem posSemidef_sum_vecMulVec (L : List (m → ℝ)) :
    ((L.map fun x => vecMulVec x x).sum).PosSemidef := by
  induction L with
  | nil => simpa using Matrix.PosSemidef.zero
  | cons x L ih =>
    rw [List.map_cons, List.sum_cons]
    exact Matrix.PosSemidef.add (by simpa using Matrix.posSemidef_vecMulVec_self_star x) ih

omit [DecidableEq m] in
theorem npCov_posSemidef (X : List (m → ℝ)) : (npCov X).PosSemidef := by
  rcases X with _ | ⟨x, X⟩
  · have : npCov ([] : List (m → ℝ)) = 0 := by funext i j; simp [npCov]
    rw [this]; exact Matrix.PosSemidef.zero
  · rw [npCov_eq_sum]
    have := posSemidef_sum_vecMulVec (((x :: X).map fun y => y - meanRow (x :: X)))
    rw [List.map_map] at this
    refine Matrix.PosSemidef.smul this ?_
    rw [inv_nonneg, List.length_cons]
    push_cast
    have : (0:ℝ) ≤ X.length := Nat.cast_nonneg _
    linarith

theorem posDef_of_posSemidef_det {A : Matrix m m ℝ} (h : A.PosSemidef) (hd : A.det ≠ 0) : A.PosDef := by
  rw [h.1.posDef_iff_eigenvalues_pos]
  intro i
  refine lt_of_le_of_ne (h.eigenvalues_nonneg i) fun h0 => hd ?_
  rw [h.1.det_eq_prod_eigenvalues]
  exact Finset.prod_eq_zero (Finset.mem_univ i) (by rw [← h0]; simp)

/-- Arithmetic-geometric mean inequality for the eigenvalues of a positive semidefinite matrix. -/
theorem det_le_one_of_trace_le {A : Matrix m m ℝ} (h : A.PosSemidef) (ht : A.trace ≤ Fintype.card m) :
    A.det ≤ 1 := by
  rw [h.1.det_eq_prod_eigenvalues]
  rw [h.1.trace_eq_sum_eigenvalues] at ht
  simp only [RCLike.ofReal_real_eq_id, id_eq] at ht ⊢
  have h1 : ∀ i, h.1.eigenvalues i ≤ Real.exp (h.1.eigenvalues i - 1) := fun i => by
    have := Real.add_one_le_exp (h.1.eigenvalues i - 1)
    linarith
  calc ∏ i, h.1.eigenvalues i ≤ ∏ i, Real.exp (h.1.eigenvalues i - 1) :=
        Finset.prod_le_prod (fun i _ => h.eigenvalues_nonneg i) fun i _ => h1 i
    _ = Real.exp (∑ i, (h.1.eigenvalues i - 1)) := (Real.exp_sum _ _).symm
    _ ≤ 1 := by
        rw [Real.exp_le_one_iff, Finset.sum_sub_distrib]
        simp
        exact ht

/-- A factor of the inverse of a positive definite matrix. -/
theorem posDef_inv_factor {S : Matrix m m ℝ} (hS : S.PosDef) :
    ∃ B : Matrix m m ℝ, S⁻¹ = Bᵀ * B ∧ B.det ≠ 0 := by
  have hi : S⁻¹.PosSemidef := hS.inv.posSemidef
  let V : Matrix m m ℝ := hi.1.eigenvectorUnitary
  let D : Matrix m m ℝ := Matrix.diagonal fun i => Real.sqrt (hi.1.eigenvalues i)
  have hsp := hi.1.spectral_theorem
  rw [Unitary.conjStarAlgAut_apply] at hsp
  have hdd : D * D = Matrix.diagonal (RCLike.ofReal ∘ hi.1.eigenvalues) := by
    simp only [D, Matrix.diagonal_mul_diagonal]
    congr 1; funext i
    rw [Real.mul_self_sqrt (hi.eigenvalues_nonneg i)]; rfl
  have hB : S⁻¹ = (D * Vᵀ)ᵀ * (D * Vᵀ) := by
    rw [Matrix.transpose_mul, Matrix.transpose_transpose]
    have : Dᵀ = D := Matrix.diagonal_transpose _
    rw [this, mul_assoc, ← mul_assoc D D, hdd, ← mul_assoc]
    exact hsp
  refine ⟨D * Vᵀ, hB, fun h0 => ?_⟩
  have h1 : (S⁻¹).det = 0 := by rw [hB, Matrix.det_mul, h0, mul_zero]
  exact hS.inv.det_pos.ne' h1

end real

end Robpy
