import Verif.Lemmas.LinAlg
import Verif.Props.LinAlg
import Mathlib.LinearAlgebra.Matrix.SchurComplement
import Mathlib.Analysis.SpecialFunctions.Log.Basic

/-! Linear algebra of Gaussian likelihoods: conditioning on a part of the coordinates, and the trace /
log-determinant inequality. -/

namespace Robpy
open Matrix

section
variable {m : Type} [Fintype m] [DecidableEq m]

/-- `log det A ≤ tr A - m` for a positive definite matrix. -/
theorem log_det_le_trace {A : Matrix m m ℝ} (h : A.PosDef) :
    Real.log A.det ≤ A.trace - Fintype.card m := by
  rw [h.1.det_eq_prod_eigenvalues, h.1.trace_eq_sum_eigenvalues]
  simp only [RCLike.ofReal_real_eq_id, id_eq]
  rw [Real.log_prod fun i _ => (h.eigenvalues_pos i).ne']
  have : ∑ i, Real.log (h.1.eigenvalues i) ≤ ∑ i, (h.1.eigenvalues i - 1) :=
    Finset.sum_le_sum fun i _ => Real.log_le_sub_one_of_pos (h.eigenvalues_pos i)
  simpa using this

/-- Trace / log-determinant inequality for a pair of positive definite matrices. -/
theorem log_det_mul_le_trace {A B : Matrix m m ℝ} (hA : A.PosDef) (hB : B.PosDef) :
    Real.log A.det + Real.log B.det ≤ (A * B).trace - Fintype.card m := by
  obtain ⟨C, hC, hd⟩ := posDef_inv_factor hB.inv
  rw [Matrix.nonsing_inv_nonsing_inv _ hB.det_pos.ne'.isUnit] at hC
  have hM : (C * A * Cᵀ).PosDef := by
    refine posDef_of_posSemidef_det ?_ ?_
    · have := hA.posSemidef.mul_mul_conjTranspose_same C
      rwa [Matrix.conjTranspose_eq_transpose_of_trivial] at this
    · rw [Matrix.det_mul, Matrix.det_mul, Matrix.det_transpose]
      exact mul_ne_zero (mul_ne_zero hd hA.det_pos.ne') hd
  have h1 := log_det_le_trace hM
  have h2 : (C * A * Cᵀ).det = A.det * B.det := by
    rw [hC, Matrix.det_mul, Matrix.det_mul, Matrix.det_mul, Matrix.det_transpose]; ring
  have h3 : (C * A * Cᵀ).trace = (A * B).trace := by
    rw [hC, Matrix.mul_assoc, Matrix.trace_mul_comm, Matrix.mul_assoc]
  rw [h2, h3, Real.log_mul hA.det_pos.ne' hB.det_pos.ne'] at h1
  exact h1

end

section
variable {o m q : Type} [Fintype o] [Fintype m] [Fintype q] [DecidableEq o] [DecidableEq m] [DecidableEq q]

theorem symm_of_posDef {S : Matrix q q ℝ} (h : S.PosDef) : Sᵀ = S := by
  have := h.1; unfold Matrix.IsHermitian at this
  rwa [Matrix.conjTranspose_eq_transpose_of_trivial] at this

/-- Splitting the coordinates into an observed block (`inl`) and a missing block (`inr`): the inverse of
the observed block is the Schur complement in the inverse. -/
theorem inv_block (e : o ⊕ m ≃ q) {S : Matrix q q ℝ} (hS : S.PosDef) :
    (S.submatrix (e ∘ Sum.inl) (e ∘ Sum.inl))⁻¹ =
      S⁻¹.submatrix (e ∘ Sum.inl) (e ∘ Sum.inl) -
        S⁻¹.submatrix (e ∘ Sum.inl) (e ∘ Sum.inr) * (S⁻¹.submatrix (e ∘ Sum.inr) (e ∘ Sum.inr))⁻¹ *
          S⁻¹.submatrix (e ∘ Sum.inr) (e ∘ Sum.inl) := by
  have hK : (S⁻¹.submatrix (e ∘ Sum.inr) (e ∘ Sum.inr)).PosDef :=
    hS.inv.submatrix (e.injective.comp Sum.inr_injective)
  refine Matrix.inv_eq_right_inv (schur_block e S S⁻¹ (Matrix.mul_nonsing_inv _ hS.det_pos.ne'.isUnit) _ ?_)
  exact Matrix.mul_nonsing_inv _ hK.det_pos.ne'.isUnit

/-- The quadratic form of the inverse splits into the observed part and the missing part given the
observed one. -/
theorem quadForm_split (e : o ⊕ m ≃ q) {S : Matrix q q ℝ} (hS : S.PosDef) (z : q → ℝ) :
    quadForm S⁻¹ z =
      quadForm (S.submatrix (e ∘ Sum.inl) (e ∘ Sum.inl))⁻¹ (z ∘ e ∘ Sum.inl) +
      quadForm (S⁻¹.submatrix (e ∘ Sum.inr) (e ∘ Sum.inr))
        (z ∘ e ∘ Sum.inr + (S⁻¹.submatrix (e ∘ Sum.inr) (e ∘ Sum.inr))⁻¹ *ᵥ
          (S⁻¹.submatrix (e ∘ Sum.inr) (e ∘ Sum.inl) *ᵥ (z ∘ e ∘ Sum.inl))) := by
  set K := S⁻¹ with hKdef
  have hK : K.PosDef := hS.inv
  have hsym : Kᵀ = K := symm_of_posDef hK
  set Koo := K.submatrix (e ∘ Sum.inl) (e ∘ Sum.inl)
  set Kom := K.submatrix (e ∘ Sum.inl) (e ∘ Sum.inr) with hom
  set Kmo := K.submatrix (e ∘ Sum.inr) (e ∘ Sum.inl) with hmo
  set D := K.submatrix (e ∘ Sum.inr) (e ∘ Sum.inr) with hDdef
  have hD : D.PosDef := hK.submatrix (e.injective.comp Sum.inr_injective)
  have hDs : Dᵀ = D := symm_of_posDef hD
  have hDi : D⁻¹ᵀ = D⁻¹ := symm_of_posDef hD.inv
  have homT : Kom = Kmoᵀ := by rw [hom, hmo, Matrix.transpose_submatrix, hsym]
  set u := z ∘ e ∘ Sum.inl
  set v := z ∘ e ∘ Sum.inr
  have h1 : quadForm K z = u ⬝ᵥ Koo *ᵥ u + u ⬝ᵥ Kom *ᵥ v + v ⬝ᵥ Kmo *ᵥ u + v ⬝ᵥ D *ᵥ v := by
    rw [quadForm_eq]
    simp only [dotProduct, Matrix.mulVec]
    rw [← Equiv.sum_comp e, Fintype.sum_sum_type]
    have : ∀ x, ∑ i, K (e x) i * z i = ∑ i, K (e x) (e (Sum.inl i)) * z (e (Sum.inl i)) +
        ∑ i, K (e x) (e (Sum.inr i)) * z (e (Sum.inr i)) := fun x => by
      rw [← Equiv.sum_comp e, Fintype.sum_sum_type]
    simp only [this, mul_add, Finset.sum_add_distrib]
    simp only [u, v, Koo, Kom, Kmo, D, Matrix.submatrix_apply, Function.comp_apply]
    ring
  have hdot : ∀ (a : o → ℝ) (b : m → ℝ), a ⬝ᵥ Kom *ᵥ b = b ⬝ᵥ Kmo *ᵥ a := by
    intro a b
    rw [homT, Matrix.dotProduct_mulVec, Matrix.vecMul_transpose, dotProduct_comm]
  have hDdot : ∀ a b : m → ℝ, a ⬝ᵥ D *ᵥ b = b ⬝ᵥ D *ᵥ a := by
    intro a b
    rw [Matrix.dotProduct_mulVec, dotProduct_comm, ← Matrix.mulVec_transpose, hDs]
  have hcancel : ∀ a : m → ℝ, D *ᵥ (D⁻¹ *ᵥ a) = a := fun a => by
    rw [Matrix.mulVec_mulVec, Matrix.mul_nonsing_inv _ hD.det_pos.ne'.isUnit, Matrix.one_mulVec]
  rw [h1, quadForm_eq, quadForm_eq, inv_block e hS]
  rw [Matrix.sub_mulVec, dotProduct_sub, ← Matrix.mulVec_mulVec, ← Matrix.mulVec_mulVec, hdot u (_ *ᵥ _)]
  rw [Matrix.mulVec_add, hcancel, add_dotProduct, dotProduct_add, dotProduct_add, hdot u v,
    hDdot (D⁻¹ *ᵥ _) v, hcancel]
  ring

/-- The log-determinants of the blocks. -/
theorem log_det_split (e : o ⊕ m ≃ q) {S : Matrix q q ℝ} (hS : S.PosDef) :
    Real.log (S.submatrix (e ∘ Sum.inl) (e ∘ Sum.inl)).det =
      Real.log S.det + Real.log (S⁻¹.submatrix (e ∘ Sum.inr) (e ∘ Sum.inr)).det := by
  have hA : (S.submatrix (e ∘ Sum.inl) (e ∘ Sum.inl)).PosDef :=
    hS.submatrix (e.injective.comp Sum.inl_injective)
  have hD : (S⁻¹.submatrix (e ∘ Sum.inr) (e ∘ Sum.inr)).PosDef :=
    hS.inv.submatrix (e.injective.comp Sum.inr_injective)
  have hib := inv_block e hS
  set K := S⁻¹ with hK
  haveI : Invertible (K.submatrix (e ∘ Sum.inr) (e ∘ Sum.inr)) :=
    Matrix.invertibleOfIsUnitDet _ hD.det_pos.ne'.isUnit
  have hb : K.submatrix e e = fromBlocks (K.submatrix (e ∘ Sum.inl) (e ∘ Sum.inl))
      (K.submatrix (e ∘ Sum.inl) (e ∘ Sum.inr)) (K.submatrix (e ∘ Sum.inr) (e ∘ Sum.inl))
      (K.submatrix (e ∘ Sum.inr) (e ∘ Sum.inr)) := by
    ext (i | i) (j | j) <;> rfl
  have hdet : K.det = (K.submatrix (e ∘ Sum.inr) (e ∘ Sum.inr)).det *
      (S.submatrix (e ∘ Sum.inl) (e ∘ Sum.inl))⁻¹.det := by
    rw [← Matrix.det_submatrix_equiv_self e K, hb, Matrix.det_fromBlocks₂₂, hib, Matrix.invOf_eq_nonsing_inv]
  rw [hK, Matrix.det_nonsing_inv, Matrix.det_nonsing_inv, Ring.inverse_eq_inv', ← hK] at hdet
  have hl : Real.log (S.det)⁻¹ = Real.log (K.submatrix (e ∘ Sum.inr) (e ∘ Sum.inr)).det +
      Real.log ((S.submatrix (e ∘ Sum.inl) (e ∘ Sum.inl)).det)⁻¹ := by
    rw [hdet, Real.log_mul hD.det_pos.ne' (inv_ne_zero hA.det_pos.ne')]
  rw [Real.log_inv, Real.log_inv] at hl
  linarith

/-- Regression coefficients from the covariance and from its inverse. -/
theorem regress_block (e : o ⊕ m ≃ q) {S : Matrix q q ℝ} (hS : S.PosDef) :
    S.submatrix (e ∘ Sum.inr) (e ∘ Sum.inl) * (S.submatrix (e ∘ Sum.inl) (e ∘ Sum.inl))⁻¹ =
      -((S⁻¹.submatrix (e ∘ Sum.inr) (e ∘ Sum.inr))⁻¹ * S⁻¹.submatrix (e ∘ Sum.inr) (e ∘ Sum.inl)) := by
  have hA : (S.submatrix (e ∘ Sum.inl) (e ∘ Sum.inl)).PosDef :=
    hS.submatrix (e.injective.comp Sum.inl_injective)
  have hD : (S⁻¹.submatrix (e ∘ Sum.inr) (e ∘ Sum.inr)).PosDef :=
    hS.inv.submatrix (e.injective.comp Sum.inr_injective)
  have h0 : S⁻¹.submatrix (e ∘ Sum.inr) (e ∘ Sum.inl) * S.submatrix (e ∘ Sum.inl) (e ∘ Sum.inl) +
      S⁻¹.submatrix (e ∘ Sum.inr) (e ∘ Sum.inr) * S.submatrix (e ∘ Sum.inr) (e ∘ Sum.inl) = 0 := by
    have h1 : (S⁻¹ * S).submatrix (e ∘ Sum.inr) (e ∘ Sum.inl) = (0 : Matrix m o ℝ) := by
      rw [Matrix.nonsing_inv_mul _ hS.det_pos.ne'.isUnit]
      ext i j
      rw [Matrix.submatrix_apply, Matrix.one_apply_ne]
      · rfl
      · intro hh; simpa using e.injective hh
    rw [← h1]
    ext i j
    simp only [Matrix.submatrix_apply, Matrix.mul_apply, Matrix.add_apply, Function.comp_apply]
    rw [← Equiv.sum_comp e (fun k => S⁻¹ (e (Sum.inr i)) k * S k (e (Sum.inl j))), Fintype.sum_sum_type]
  set D := S⁻¹.submatrix (e ∘ Sum.inr) (e ∘ Sum.inr)
  set A := S.submatrix (e ∘ Sum.inl) (e ∘ Sum.inl)
  have h2 : D * S.submatrix (e ∘ Sum.inr) (e ∘ Sum.inl) =
      -(S⁻¹.submatrix (e ∘ Sum.inr) (e ∘ Sum.inl) * A) := eq_neg_of_add_eq_zero_right h0
  have h3 : S.submatrix (e ∘ Sum.inr) (e ∘ Sum.inl) =
      -(D⁻¹ * S⁻¹.submatrix (e ∘ Sum.inr) (e ∘ Sum.inl) * A) := by
    have := congrArg (D⁻¹ * ·) h2
    simp only [← Matrix.mul_assoc, Matrix.mul_neg] at this
    rwa [Matrix.nonsing_inv_mul _ hD.det_pos.ne'.isUnit, Matrix.one_mul] at this
  rw [h3, Matrix.neg_mul, Matrix.mul_assoc, Matrix.mul_nonsing_inv _ hA.det_pos.ne'.isUnit, Matrix.mul_one]

/-- The conditional covariance from the covariance and from its inverse. -/
theorem cond_cov_block (e : o ⊕ m ≃ q) {S : Matrix q q ℝ} (hS : S.PosDef) :
    S.submatrix (e ∘ Sum.inr) (e ∘ Sum.inr) - S.submatrix (e ∘ Sum.inr) (e ∘ Sum.inl) *
        (S.submatrix (e ∘ Sum.inl) (e ∘ Sum.inl))⁻¹ * S.submatrix (e ∘ Sum.inl) (e ∘ Sum.inr) =
      (S⁻¹.submatrix (e ∘ Sum.inr) (e ∘ Sum.inr))⁻¹ := by
  have h := inv_block ((Equiv.sumComm m o).trans e) hS.inv
  rw [Matrix.nonsing_inv_nonsing_inv _ hS.det_pos.ne'.isUnit] at h
  exact h.symm

/-- One more coordinate: the conditional variance is positive, the quadratic form and the log-determinant
grow by the terms of the conditional density. -/
theorem add_coordinate (e : o ⊕ Unit ≃ q) {S : Matrix q q ℝ} (hS : S.PosDef) (z : q → ℝ) :
    let A := (S.submatrix (e ∘ Sum.inl) (e ∘ Sum.inl))⁻¹
    let b : o → ℝ := fun k => S (e (Sum.inl k)) (e (Sum.inr ()))
    let c := S (e (Sum.inr ())) (e (Sum.inr ())) - (b ᵥ* A) ⬝ᵥ b
    0 < c ∧
    quadForm S⁻¹ z = quadForm A (z ∘ e ∘ Sum.inl) + (z (e (Sum.inr ())) - ((z ∘ e ∘ Sum.inl) ᵥ* A) ⬝ᵥ b) ^ 2 / c ∧
    Real.log S.det = Real.log (S.submatrix (e ∘ Sum.inl) (e ∘ Sum.inl)).det + Real.log c ∧
    S⁻¹ (e (Sum.inr ())) (e (Sum.inr ())) = c⁻¹ := by
  intro A b c
  have hsym : Sᵀ = S := symm_of_posDef hS
  have hAs : Aᵀ = A := symm_of_posDef (hS.submatrix (e.injective.comp Sum.inl_injective)).inv
  have hD : (S⁻¹.submatrix (e ∘ Sum.inr) (e ∘ Sum.inr)).PosDef :=
    hS.inv.submatrix (e.injective.comp Sum.inr_injective)
  set D := S⁻¹.submatrix (e ∘ Sum.inr) (e ∘ Sum.inr) with hDdef
  have hcond := cond_cov_block e hS
  have hb : ∀ k, S (e (Sum.inr ())) (e (Sum.inl k)) = b k := fun k => by
    have := congrFun (congrFun hsym (e (Sum.inl k))) (e (Sum.inr ()))
    exact this
  have hc : D⁻¹ () () = c := by
    rw [← hDdef] at hcond
    rw [← hcond]
    simp only [Matrix.sub_apply, Matrix.submatrix_apply, Function.comp_apply, c, dotProduct, Matrix.vecMul,
      Matrix.mul_apply, hb]
    rfl
  have hDi : D⁻¹ = fun _ _ => c := by ext i j; exact hc
  have hcpos : 0 < c := by
    have := hD.inv.diag_pos (i := ())
    rwa [hc] at this
  have hdetD : D⁻¹.det = c := by rw [Matrix.det_unique]; exact hc
  have hDdet : D.det = c⁻¹ := by
    rw [← hdetD, Matrix.det_nonsing_inv, Ring.inverse_eq_inv', inv_inv]
  have hD11 : D () () = c⁻¹ := by rw [← hDdet, Matrix.det_unique]
  refine ⟨hcpos, ?_, ?_, hD11⟩
  · rw [quadForm_split e hS z, ← hDdef]
    congr 1
    have hreg := regress_block e hS
    rw [← hDdef] at hreg
    have hv : D⁻¹ *ᵥ (S⁻¹.submatrix (e ∘ Sum.inr) (e ∘ Sum.inl) *ᵥ (z ∘ e ∘ Sum.inl)) =
        fun _ => -(((z ∘ e ∘ Sum.inl) ᵥ* A) ⬝ᵥ b) := by
      rw [Matrix.mulVec_mulVec, ← neg_eq_iff_eq_neg.2 hreg, Matrix.neg_mulVec]
      funext i
      rw [Pi.neg_apply, neg_inj, ← Matrix.mulVec_mulVec]
      have : (S.submatrix (e ∘ Sum.inl) (e ∘ Sum.inl))⁻¹ *ᵥ (z ∘ e ∘ Sum.inl) = (z ∘ e ∘ Sum.inl) ᵥ* A := by
        rw [← Matrix.mulVec_transpose, hAs]
      rw [this, dotProduct_comm]
      simp only [Matrix.mulVec, dotProduct, Matrix.submatrix_apply, Function.comp_apply]
      refine Finset.sum_congr rfl fun k _ => ?_
      rw [← hb k]
    rw [hv, quadForm_eq]
    simp only [dotProduct, Matrix.mulVec, Finset.univ_unique, Finset.sum_singleton, Pi.add_apply,
      Function.comp_apply]
    have : D default default = c⁻¹ := hD11
    rw [this]
    have hu : (default : Unit) = () := rfl
    rw [hu]
    field_simp
    ring
  · have := log_det_split e hS
    rw [← hDdef, hDdet, Real.log_inv] at this
    linarith

/-- A matrix that is `D` on the missing block and 0 elsewhere. -/
def IsPad (e : o ⊕ m ≃ q) (D : Matrix m m ℝ) (C : Matrix q q ℝ) : Prop :=
  C.submatrix e e = fromBlocks 0 0 0 D

theorem IsPad.trace_mul {e : o ⊕ m ≃ q} {D : Matrix m m ℝ} {C : Matrix q q ℝ} (h : IsPad e D C)
    (K : Matrix q q ℝ) : (K * C).trace = (K.submatrix (e ∘ Sum.inr) (e ∘ Sum.inr) * D).trace := by
  have h1 : ∀ a b, C (e a) (e b) = fromBlocks (0 : Matrix o o ℝ) 0 0 D a b := fun a b =>
    congrFun (congrFun h a) b
  simp only [Matrix.trace, Matrix.diag, Matrix.mul_apply]
  rw [← Equiv.sum_comp e, Fintype.sum_sum_type]
  have h2 : ∀ x : o ⊕ m, ∑ j, K (e x) j * C j (e x) =
      ∑ j, K (e x) (e (Sum.inl j)) * C (e (Sum.inl j)) (e x) +
      ∑ j, K (e x) (e (Sum.inr j)) * C (e (Sum.inr j)) (e x) := fun x => by
    rw [← Equiv.sum_comp e, Fintype.sum_sum_type]
  simp only [h2, h1]
  simp

/-- The observed part of twice the negative log-likelihood under new parameters is at most the expected
complete-data version minus a constant that depends on the old parameters only. -/
theorem em_row_le (e : o ⊕ m ≃ q) {S S' : Matrix q q ℝ} (hS : S.PosDef) (hS' : S'.PosDef) (mu' y : q → ℝ)
    {C : Matrix q q ℝ} (hC : IsPad e (S⁻¹.submatrix (e ∘ Sum.inr) (e ∘ Sum.inr))⁻¹ C) :
    quadForm (S'.submatrix (e ∘ Sum.inl) (e ∘ Sum.inl))⁻¹ ((y - mu') ∘ e ∘ Sum.inl) +
        Real.log (S'.submatrix (e ∘ Sum.inl) (e ∘ Sum.inl)).det ≤
      quadForm S'⁻¹ (y - mu') + (S'⁻¹ * C).trace + Real.log S'.det - Fintype.card m +
        Real.log (S⁻¹.submatrix (e ∘ Sum.inr) (e ∘ Sum.inr)).det := by
  have hD : (S⁻¹.submatrix (e ∘ Sum.inr) (e ∘ Sum.inr)).PosDef :=
    hS.inv.submatrix (e.injective.comp Sum.inr_injective)
  have hD' : (S'⁻¹.submatrix (e ∘ Sum.inr) (e ∘ Sum.inr)).PosDef :=
    hS'.inv.submatrix (e.injective.comp Sum.inr_injective)
  rw [hC.trace_mul, quadForm_split e hS' (y - mu'), log_det_split e hS']
  have h1 := log_det_mul_le_trace hD' hD.inv
  rw [Matrix.det_nonsing_inv, Ring.inverse_eq_inv', Real.log_inv] at h1
  have h2 : ∀ v, 0 ≤ quadForm (S'⁻¹.submatrix (e ∘ Sum.inr) (e ∘ Sum.inr)) v := fun v => by
    rw [quadForm_eq]; simpa using hD'.posSemidef.dotProduct_mulVec_nonneg v
  have h3 := h2 ((y - mu') ∘ e ∘ Sum.inr + (S'⁻¹.submatrix (e ∘ Sum.inr) (e ∘ Sum.inr))⁻¹ *ᵥ
          (S'⁻¹.submatrix (e ∘ Sum.inr) (e ∘ Sum.inl) *ᵥ ((y - mu') ∘ e ∘ Sum.inl)))
  linarith

/-- Equality in `em_row_le` for the old parameters, when the missing part is imputed by its conditional
mean. -/
theorem em_row_eq (e : o ⊕ m ≃ q) {S : Matrix q q ℝ} (hS : S.PosDef) (mu y : q → ℝ)
    {C : Matrix q q ℝ} (hC : IsPad e (S⁻¹.submatrix (e ∘ Sum.inr) (e ∘ Sum.inr))⁻¹ C)
    (hy : (y - mu) ∘ e ∘ Sum.inr = -((S⁻¹.submatrix (e ∘ Sum.inr) (e ∘ Sum.inr))⁻¹ *ᵥ
          (S⁻¹.submatrix (e ∘ Sum.inr) (e ∘ Sum.inl) *ᵥ ((y - mu) ∘ e ∘ Sum.inl)))) :
    quadForm (S.submatrix (e ∘ Sum.inl) (e ∘ Sum.inl))⁻¹ ((y - mu) ∘ e ∘ Sum.inl) +
        Real.log (S.submatrix (e ∘ Sum.inl) (e ∘ Sum.inl)).det =
      quadForm S⁻¹ (y - mu) + (S⁻¹ * C).trace + Real.log S.det - Fintype.card m +
        Real.log (S⁻¹.submatrix (e ∘ Sum.inr) (e ∘ Sum.inr)).det := by
  have hD : (S⁻¹.submatrix (e ∘ Sum.inr) (e ∘ Sum.inr)).PosDef :=
    hS.inv.submatrix (e.injective.comp Sum.inr_injective)
  rw [hC.trace_mul, quadForm_split e hS (y - mu), log_det_split e hS, hy, neg_add_cancel,
    Matrix.mul_nonsing_inv _ hD.det_pos.ne'.isUnit, Matrix.trace_one]
  have : quadForm (S⁻¹.submatrix (e ∘ Sum.inr) (e ∘ Sum.inr)) 0 = 0 := by
    rw [quadForm_eq]; simp
  rw [this]
  ring

end

section
variable {m : Type} [Fintype m] [DecidableEq m]

/-- If `S` is at least `a` times the identity then its inverse is at most `1 / a` times the identity. -/
theorem quadForm_inv_le {S : Matrix m m ℝ} (hS : S.PosDef) {a : ℝ} (ha : 0 < a)
    (hb : (S - a • (1 : Matrix m m ℝ)).PosSemidef) (v : m → ℝ) : quadForm S⁻¹ v ≤ v ⬝ᵥ v / a := by
  set w := S⁻¹ *ᵥ v with hw
  have hSw : S *ᵥ w = v := by
    rw [hw, Matrix.mulVec_mulVec, Matrix.mul_nonsing_inv _ hS.det_pos.ne'.isUnit, Matrix.one_mulVec]
  have hq : quadForm S⁻¹ v = v ⬝ᵥ w := quadForm_eq _ _
  have h1 : a * (w ⬝ᵥ w) ≤ v ⬝ᵥ w := by
    have := hb.dotProduct_mulVec_nonneg w
    rw [star_trivial, Matrix.sub_mulVec, Matrix.smul_mulVec, Matrix.one_mulVec, hSw, dotProduct_sub,
      dotProduct_smul, smul_eq_mul, dotProduct_comm w v] at this
    linarith
  have h2 : (v ⬝ᵥ w) ^ 2 ≤ (v ⬝ᵥ v) * (w ⬝ᵥ w) := by
    have := Finset.sum_mul_sq_le_sq_mul_sq Finset.univ v w
    simpa [dotProduct, sq] using this
  have h0 : 0 ≤ w ⬝ᵥ w := Finset.sum_nonneg fun i _ => mul_self_nonneg _
  have hv0 : 0 ≤ v ⬝ᵥ v := Finset.sum_nonneg fun i _ => mul_self_nonneg _
  rw [hq, le_div_iff₀ ha]
  set t := v ⬝ᵥ w
  have ht : 0 ≤ t := le_trans (mul_nonneg ha.le h0) h1
  rcases ht.eq_or_lt with h | h
  · rw [← h]; simpa using hv0
  · have h3 : t * (t * a) ≤ t * (v ⬝ᵥ v) := by nlinarith
    exact le_of_mul_le_mul_left h3 h

theorem trace_mul_conj_diagonal (M V : Matrix m m ℝ) (d : m → ℝ) :
    (M * (V * Matrix.diagonal d * Vᵀ)).trace = ∑ i, d i * quadForm M (fun k => V k i) := by
  rw [Matrix.mul_assoc V, ← Matrix.mul_assoc M, Matrix.trace_mul_comm, Matrix.mul_assoc, Matrix.trace]
  refine Finset.sum_congr rfl fun i _ => ?_
  rw [Matrix.diag_apply, Matrix.diagonal_mul, quadForm_eq]
  congr 1

end

/-- Truncating the eigenvalues is the constrained maximum likelihood step: among all covariance matrices
with eigenvalues at least `a` the truncated matrix minimises `log det S + tr (S⁻¹ T)`. -/
theorem truncated_optimal {p : ℕ} (eigh : ∀ A : Matrix (Fin p) (Fin p) ℝ, A.IsSymm → Eigh A)
    (order : (Fin p → ℝ) → Equiv.Perm (Fin p)) {T : Matrix (Fin p) (Fin p) ℝ} (hT : T.IsSymm) {a : ℝ}
    (ha : 0 < a) {S : Matrix (Fin p) (Fin p) ℝ} (hS : S.PosDef)
    (hb : (S - a • (1 : Matrix (Fin p) (Fin p) ℝ)).PosSemidef) :
    (truncatedCovariance eigh order T a).PosDef ∧
    Real.log (truncatedCovariance eigh order T a).det + ((truncatedCovariance eigh order T a)⁻¹ * T).trace ≤
      Real.log S.det + (S⁻¹ * T).trace := by
  have hpd : (truncatedCovariance eigh order T a).PosDef := by
    have h1 := (C33_bound eigh order T a).2
    have h2 : (a • (1 : Matrix (Fin p) (Fin p) ℝ)).PosDef := Matrix.PosDef.one.smul ha
    have := h2.add_posSemidef h1
    rwa [add_sub_cancel] at this
  refine ⟨hpd, ?_⟩
  set S0 := truncatedCovariance eigh order T a with hS0
  have heq := truncated_eq eigh order T a
  rw [← hS0] at heq
  have hdec := (eigh (symPart T) (symPart_isSymm T)).decomp
  have horth := (eigh (symPart T) (symPart_isSymm T)).orth
  set V := (eigh (symPart T) (symPart_isSymm T)).V
  set w := (eigh (symPart T) (symPart_isSymm T)).w
  rw [symPart_of_symm hT] at hdec
  have hVV : V * Vᵀ = 1 := mul_eq_one_comm.1 horth
  have hdiff : S0 - T = V * Matrix.diagonal (fun i => max (w i) a - w i) * Vᵀ := by
    rw [heq, hdec, ← Matrix.sub_mul, ← Matrix.mul_sub, Matrix.diagonal_sub]
  have hinv : S0⁻¹ = V * Matrix.diagonal (fun i => (max (w i) a)⁻¹) * Vᵀ := by
    refine Matrix.inv_eq_right_inv ?_
    have hm : ∀ i, max (w i) a ≠ 0 := fun i => (lt_of_lt_of_le ha (le_max_right _ _)).ne'
    calc S0 * (V * Matrix.diagonal (fun i => (max (w i) a)⁻¹) * Vᵀ)
        = V * Matrix.diagonal (fun i => max (w i) a) * (Vᵀ * V) *
            Matrix.diagonal (fun i => (max (w i) a)⁻¹) * Vᵀ := by
          rw [heq]; simp only [Matrix.mul_assoc]
      _ = 1 := by
          rw [horth, Matrix.mul_one, Matrix.mul_assoc V, Matrix.diagonal_mul_diagonal]
          simp only [mul_inv_cancel₀ (hm _), Matrix.diagonal_one, Matrix.mul_one]
          exact hVV
  have h1 := log_det_mul_le_trace hS.inv hpd
  rw [Matrix.det_nonsing_inv, Ring.inverse_eq_inv', Real.log_inv] at h1
  have h2 : (S⁻¹ * (S0 - T)).trace ≤ (S0⁻¹ * (S0 - T)).trace := by
    have hcol : ∀ i, (fun k => V k i) ⬝ᵥ (fun k => V k i) = 1 := fun i => by
      have := congrFun (congrFun horth i) i
      rw [Matrix.mul_apply, Matrix.one_apply_eq] at this
      exact this
    have hq0 : ∀ i, quadForm S0⁻¹ (fun k => V k i) = (max (w i) a)⁻¹ := fun i => by
      have : (Vᵀ * S0⁻¹ * V) i i = (max (w i) a)⁻¹ := by
        rw [hinv]
        have : Vᵀ * (V * Matrix.diagonal (fun i => (max (w i) a)⁻¹) * Vᵀ) * V =
            (Vᵀ * V) * Matrix.diagonal (fun i => (max (w i) a)⁻¹) * (Vᵀ * V) := by
          simp only [Matrix.mul_assoc]
        rw [this, horth, Matrix.one_mul, Matrix.mul_one, Matrix.diagonal_apply_eq]
      rw [← this, quadForm_eq, Matrix.mul_assoc, Matrix.mul_apply]
      simp only [Matrix.transpose_apply, dotProduct, Matrix.mul_apply, Matrix.mulVec]
    rw [hdiff, trace_mul_conj_diagonal, trace_mul_conj_diagonal]
    refine Finset.sum_le_sum fun i _ => ?_
    rw [hq0]
    rcases le_total (w i) a with h | h
    · rw [max_eq_right h]
      refine mul_le_mul_of_nonneg_left ?_ (sub_nonneg.2 h)
      have := quadForm_inv_le hS ha hb (fun k => V k i)
      rwa [hcol, one_div] at this
    · rw [max_eq_left h, sub_self, zero_mul, zero_mul]
  rw [Matrix.mul_sub, Matrix.mul_sub, Matrix.trace_sub, Matrix.trace_sub,
    Matrix.nonsing_inv_mul _ hpd.det_pos.ne'.isUnit, Matrix.trace_one] at h2
  linarith

end Robpy
