import Verif.Lemmas.LinAlg
import Mathlib.Algebra.Order.Ring.Rat
import Mathlib.Algebra.Field.Rat
import Mathlib.Analysis.InnerProductSpace.PiL2

/-! # Properties C31-C34: distances, inverse submatrices, eigenvalue truncation, correlation -/

namespace Robpy
open Matrix

section
variable {m : Type} [Fintype m] [DecidableEq m]

/-! ## C31 -/

/-- **C31**: affine invariance, including the LinAlgError of a singular covariance. -/
theorem C31_affine_invariant (A S : Matrix m m ℝ) (hA : A.det ≠ 0) (b loc : m → ℝ) (X : List (m → ℝ)) :
    mahalanobis (X.map fun x => A *ᵥ x + b) (A *ᵥ loc + b) (A * S * Aᵀ) = mahalanobis X loc S := by
  unfold mahalanobis
  rw [sqMahalanobis_affine A S hA]

/-- **C31**: for a positive definite matrix the function returns normally; distance `i` is non-negative
and is 0 exactly when row `i` is the centre. -/
theorem C31_distance (S : Matrix m m ℝ) (hS : S.PosDef) (loc : m → ℝ) (X : List (m → ℝ)) :
    ∃ d : (m → ℝ) → ℝ, mahalanobis X loc S = .ok (X.map d) ∧ ∀ x, 0 ≤ d x ∧ (d x = 0 ↔ x = loc) := by
  refine ⟨fun x => Real.sqrt (quadForm S⁻¹ (x - loc)), ?_, fun x => ⟨Real.sqrt_nonneg _, ?_⟩⟩
  · unfold mahalanobis sqMahalanobis
    rw [npInv_eq S hS.det_pos.ne']
    simp only [Except.map, List.map_map]
    rfl
  · have hi := hS.inv
    constructor
    · intro h
      by_contra hne
      have hx : x - loc ≠ 0 := sub_ne_zero.2 hne
      have := hi.dotProduct_mulVec_pos hx
      rw [Real.sqrt_eq_zero'] at h
      rw [quadForm_eq] at h
      simp only [star_trivial] at this
      linarith
    · rintro rfl
      simp [quadForm_eq]

/-- **C31**: the distance to the centre is a metric: it is symmetric in data point and centre and
satisfies the triangle inequality. -/
theorem C31_triangle (S : Matrix m m ℝ) (hS : S.PosDef) :
    ∃ dist : (m → ℝ) → (m → ℝ) → ℝ,
      (∀ loc X, mahalanobis X loc S = .ok (X.map fun x => dist x loc)) ∧
      (∀ x y, dist x y = dist y x) ∧ ∀ x y z, dist x z ≤ dist x y + dist y z := by
  obtain ⟨B, hB, -⟩ := posDef_inv_factor hS
  have hq : ∀ c : m → ℝ, Real.sqrt (quadForm S⁻¹ c) = ‖(WithLp.toLp 2 (B *ᵥ c) : EuclideanSpace ℝ m)‖ := by
    intro c
    rw [quadForm_eq, hB, ← Matrix.mulVec_mulVec, Matrix.dotProduct_mulVec, Matrix.vecMul_transpose,
      EuclideanSpace.norm_eq]
    congr 1
    simp only [dotProduct, Real.norm_eq_abs, sq_abs]
    exact Finset.sum_congr rfl fun i _ => by ring
  refine ⟨fun x y => Real.sqrt (quadForm S⁻¹ (x - y)), fun loc X => ?_, fun x y => ?_, fun x y z => ?_⟩
  · unfold mahalanobis sqMahalanobis
    rw [npInv_eq S hS.det_pos.ne']
    simp only [Except.map, List.map_map]
    rfl
  · simp only [hq]
    rw [← neg_sub y x, Matrix.mulVec_neg, WithLp.toLp_neg, norm_neg]
  · simp only [hq]
    have : B *ᵥ (x - z) = B *ᵥ (x - y) + B *ᵥ (y - z) := by rw [← Matrix.mulVec_add]; congr 1; abel
    rw [this, WithLp.toLp_add]
    exact norm_add_le _ _

end

/-- A positive definite matrix and an invertible map that is not a scaling. -/
example : (!![2, 0; 0, 3] : Matrix (Fin 2) (Fin 2) ℝ).PosDef ∧
    (!![1, 1; 0, 2] : Matrix (Fin 2) (Fin 2) ℝ).det ≠ 0 := by
  refine ⟨?_, by rw [Matrix.det_fin_two]; norm_num⟩
  have : (!![2, 0; 0, 3] : Matrix (Fin 2) (Fin 2) ℝ) = Matrix.diagonal ![2, 3] := by
    ext i j; fin_cases i <;> fin_cases j <;> simp
  rw [this]
  refine Matrix.PosDef.diagonal fun i => ?_
  fin_cases i <;> norm_num

/-! ## C32 -/

section
variable {K : Type} [Field K] [DecidableEq K]

/-- Full statement of C32 over the field `K`. -/
def C32_statement (K : Type) [Field K] [DecidableEq K] : Prop :=
  ∀ (k p : ℕ) (A Ainv : Matrix (Fin p) (Fin p) K) (idx : Fin k → Fin p), Function.Injective idx →
    A * Ainv = 1 → (A.submatrix idx idx).det ≠ 0 →
    ∃ R, inverseSubmatrix A Ainv idx = .ok R ∧ A.submatrix idx idx * R = 1

/-- **C32 is violated** when all indices are requested in another order: `A_inv` is returned unpermuted. -/
theorem C32_violated : ¬ C32_statement ℚ := by
  intro h
  obtain ⟨R, h1, h2⟩ := h 2 2 !![1, 0; 0, 2] !![1, 0; 0, 1 / 2] ![1, 0] (by decide) (by decide +kernel)
    (by decide +kernel)
  unfold inverseSubmatrix at h1
  simp only [lt_irrefl, false_and, if_false, dite_true] at h1
  rw [← Except.ok.inj h1] at h2
  have := congrFun (congrFun h2 0) 0
  revert this
  decide +kernel

omit [DecidableEq K] in
/-- Block inversion: if `A` and `B` are inverse to each other and indices are split by `e`, then the Schur
complement in `B` inverts the block of `A`. -/
theorem schur_block {m n q : Type} [Fintype m] [Fintype n] [Fintype q] [DecidableEq m] [DecidableEq n]
    [DecidableEq q] (e : m ⊕ n ≃ q) (A B : Matrix q q K) (h : A * B = 1)
    (D : Matrix n n K) (hD : B.submatrix (e ∘ Sum.inr) (e ∘ Sum.inr) * D = 1) :
    A.submatrix (e ∘ Sum.inl) (e ∘ Sum.inl) *
      (B.submatrix (e ∘ Sum.inl) (e ∘ Sum.inl) -
        B.submatrix (e ∘ Sum.inl) (e ∘ Sum.inr) * D * B.submatrix (e ∘ Sum.inr) (e ∘ Sum.inl)) = 1 := by
  have split : ∀ {r s : Type} (f : r → q) (g : s → q),
      (A * B).submatrix f g = A.submatrix f (e ∘ Sum.inl) * B.submatrix (e ∘ Sum.inl) g +
        A.submatrix f (e ∘ Sum.inr) * B.submatrix (e ∘ Sum.inr) g := by
    intro r s f g
    ext i j
    simp only [Matrix.submatrix_apply, Matrix.mul_apply, Matrix.add_apply, Function.comp_apply]
    rw [← Equiv.sum_comp e, Fintype.sum_sum_type]
  have h1 := split (e ∘ Sum.inl) (e ∘ Sum.inl)
  have h2 := split (e ∘ Sum.inl) (e ∘ Sum.inr)
  rw [h] at h1 h2
  have e1 : (1 : Matrix q q K).submatrix (e ∘ Sum.inl) (e ∘ Sum.inl) = (1 : Matrix m m K) :=
    Matrix.submatrix_one _ (e.injective.comp Sum.inl_injective)
  have e2 : (1 : Matrix q q K).submatrix (e ∘ Sum.inl) (e ∘ Sum.inr) = (0 : Matrix m n K) := by
    ext i j
    rw [Matrix.submatrix_apply, Matrix.one_apply_ne]
    · rfl
    · intro hh; simpa using e.injective hh
  rw [e1] at h1
  rw [e2] at h2
  have h3 : A.submatrix (e ∘ Sum.inl) (e ∘ Sum.inl) * B.submatrix (e ∘ Sum.inl) (e ∘ Sum.inr) =
      -(A.submatrix (e ∘ Sum.inl) (e ∘ Sum.inr) * B.submatrix (e ∘ Sum.inr) (e ∘ Sum.inr)) :=
    eq_neg_of_add_eq_zero_left h2.symm
  rw [Matrix.mul_sub, ← Matrix.mul_assoc, ← Matrix.mul_assoc, h3, Matrix.neg_mul, Matrix.neg_mul,
    Matrix.mul_assoc _ _ D, hD, Matrix.mul_one, sub_neg_eq_add]
  exact h1.symm

/-- The index split used by `inverse_submatrix`. -/
noncomputable def idxEquiv {k p : ℕ} (idx : Fin k → Fin p) (hi : Function.Injective idx) :
    Fin k ⊕ IdxCompl idx ≃ Fin p :=
  Equiv.ofBijective (Sum.elim idx Subtype.val) (by
    constructor
    · rintro (a | ⟨a, ha⟩) (b | ⟨b, hb⟩) h
      · exact congrArg _ (hi h)
      · exact absurd h (hb a)
      · exact absurd h.symm (ha b)
      · simp only [Sum.elim_inr] at h; subst h; rfl
    · intro j
      by_cases hj : ∃ i, idx i = j
      · obtain ⟨i, rfl⟩ := hj; exact ⟨Sum.inl i, rfl⟩
      · exact ⟨Sum.inr ⟨j, not_exists.1 hj⟩, rfl⟩)

/-- **C32**, what does hold: for every proper sub-list of distinct indices in any order, and for the full
list in increasing order (the only one the package passes), the result is the inverse of the
submatrix, whichever of the three branches is taken.  Missing: the full list in another order
(see `C32_violated`). -/
theorem C32_inverse_partial (k p : ℕ) (A Ainv : Matrix (Fin p) (Fin p) K) (idx : Fin k → Fin p)
    (hi : Function.Injective idx) (hA : A * Ainv = 1) (hdet : (A.submatrix idx idx).det ≠ 0)
    (hord : k < p ∨ StrictMono idx) :
    ∃ R, inverseSubmatrix A Ainv idx = .ok R ∧ A.submatrix idx idx * R = 1 ∧ R * A.submatrix idx idx = 1 := by
  have hkp : k ≤ p := by simpa using Fintype.card_le_of_injective idx hi
  have both : ∀ R, A.submatrix idx idx * R = 1 → A.submatrix idx idx * R = 1 ∧ R * A.submatrix idx idx = 1 :=
    fun R h => ⟨h, mul_eq_one_comm.1 h⟩
  unfold inverseSubmatrix
  split_ifs with h1 h2 h3
  · set e := idxEquiv idx hi with he
    have el : e ∘ Sum.inl = idx := rfl
    have er : e ∘ Sum.inr = (Subtype.val : IdxCompl idx → Fin p) := rfl
    have hA' : Ainv * A = 1 := mul_eq_one_comm.1 hA
    have hu : IsUnit (A.submatrix idx idx).det := isUnit_iff_ne_zero.2 hdet
    -- the complementary block of the inverse is invertible
    have key := schur_block ((Equiv.sumComm _ _).trans e) Ainv A hA' (A.submatrix idx idx)⁻¹
      (by
        have : ((Equiv.sumComm (IdxCompl idx) (Fin k)).trans e) ∘ Sum.inr = idx := rfl
        rw [this]
        exact Matrix.mul_nonsing_inv _ hu)
    have hneg : ((Equiv.sumComm (IdxCompl idx) (Fin k)).trans e) ∘ Sum.inl =
        (Subtype.val : IdxCompl idx → Fin p) := rfl
    rw [hneg] at key
    have hdn : (Ainv.submatrix (Subtype.val : IdxCompl idx → Fin p) Subtype.val).det ≠ 0 := by
      intro h0
      have := congrArg Matrix.det key
      rw [Matrix.det_mul, h0, zero_mul, Matrix.det_one] at this
      exact zero_ne_one this
    simp only
    rw [npInv_eq _ hdn]
    refine ⟨_, rfl, both _ ?_⟩
    have := schur_block e A Ainv hA (Ainv.submatrix (Subtype.val : IdxCompl idx → Fin p) Subtype.val)⁻¹
      (by rw [er]; exact Matrix.mul_nonsing_inv _ (isUnit_iff_ne_zero.2 hdn))
    rw [el, er] at this
    exact this
  · rw [npInv_eq _ hdet]
    exact ⟨_, rfl, both _ (Matrix.mul_nonsing_inv _ (isUnit_iff_ne_zero.2 hdet))⟩
  · subst h3
    rcases hord with h | h
    · exact absurd h (lt_irrefl _)
    · have hid : idx = id := by
        have hr : Set.range idx = Set.range (id : Fin k → Fin k) := by
          rw [Set.range_id]
          exact (Finite.injective_iff_surjective.1 hi).range_eq
        exact (StrictMono.range_inj h strictMono_id).1 hr
      subst hid
      refine ⟨_, rfl, both _ ?_⟩
      simpa using hA
  · omega

end

/-- The three branches are all met by matrices as in `C32_inverse_partial`. -/
example : (!![2, 1, 0; 1, 2, 1; 0, 1, 2] : Matrix (Fin 3) (Fin 3) ℚ) *
      !![3/4, -1/2, 1/4; -1/2, 1, -1/2; 1/4, -1/2, 3/4] = 1 ∧
    ((!![2, 1, 0; 1, 2, 1; 0, 1, 2] : Matrix (Fin 3) (Fin 3) ℚ).submatrix ![2, 0] ![2, 0]).det ≠ 0 ∧
    ((!![2, 1, 0; 1, 2, 1; 0, 1, 2] : Matrix (Fin 3) (Fin 3) ℚ).submatrix ![1] ![1]).det ≠ 0 ∧
    ((!![2, 1, 0; 1, 2, 1; 0, 1, 2] : Matrix (Fin 3) (Fin 3) ℚ).submatrix id id).det ≠ 0 := by
  refine ⟨?_, ?_, ?_, ?_⟩ <;> decide +kernel

/-! ## C33 -/

section
variable {p : ℕ}

/-- The contract of `eigh` can be met: the spectral theorem. -/
noncomputable def eighSpectral (A : Matrix (Fin p) (Fin p) ℝ) (h : A.IsSymm) : Eigh A :=
  have hH : A.IsHermitian := by
    unfold Matrix.IsHermitian; rw [Matrix.conjTranspose_eq_transpose_of_trivial]; exact h
  { w := hH.eigenvalues
    V := hH.eigenvectorUnitary
    orth := by
      have := Unitary.coe_star_mul_self hH.eigenvectorUnitary
      exact this
    decomp := by
      have := hH.spectral_theorem
      rw [Unitary.conjStarAlgAut_apply] at this
      exact this }

theorem symPart_isSymm (cov : Matrix (Fin p) (Fin p) ℝ) : (symPart cov).IsSymm := by
  unfold symPart Matrix.IsSymm
  rw [Matrix.transpose_smul, Matrix.transpose_add, Matrix.transpose_transpose, add_comm]

theorem symPart_of_symm {cov : Matrix (Fin p) (Fin p) ℝ} (h : cov.IsSymm) : symPart cov = cov := by
  unfold symPart
  rw [h.eq]
  ext i j
  simp only [Matrix.smul_apply, Matrix.add_apply, smul_eq_mul]
  ring

/-- The reordering of the eigenpairs has no effect. -/
theorem truncated_eq (eigh : ∀ A : Matrix (Fin p) (Fin p) ℝ, A.IsSymm → Eigh A)
    (order : (Fin p → ℝ) → Equiv.Perm (Fin p)) (cov : Matrix (Fin p) (Fin p) ℝ) (minEig : ℝ) :
    truncatedCovariance eigh order cov minEig =
      (eigh (symPart cov) (symPart_isSymm cov)).V *
        Matrix.diagonal (fun i => max ((eigh (symPart cov) (symPart_isSymm cov)).w i) minEig) *
        (eigh (symPart cov) (symPart_isSymm cov)).Vᵀ := by
  unfold truncatedCovariance
  simp only
  set e := eigh (symPart cov) (symPart_isSymm cov)
  set σ := order e.w
  have h1 : Matrix.diagonal (fun i => if e.w (σ i) < minEig then minEig else e.w (σ i)) =
      (Matrix.diagonal fun i => max (e.w i) minEig).submatrix σ σ := by
    rw [Matrix.submatrix_diagonal_equiv]
    congr 1
    funext i
    simp only [Function.comp_apply]
    split_ifs with h
    · rw [max_eq_right h.le]
    · rw [max_eq_left (not_lt.1 h)]
  rw [h1, Matrix.transpose_submatrix, Matrix.submatrix_mul_equiv, Matrix.submatrix_mul_equiv,
    Matrix.submatrix_id_id]

/-- **C33**: the result is symmetric and `result - min_eigenvalue * I` is positive semidefinite, for every
matrix (symmetric or not), every bound and every implementation of `eigh`. -/
theorem C33_bound (eigh : ∀ A : Matrix (Fin p) (Fin p) ℝ, A.IsSymm → Eigh A)
    (order : (Fin p → ℝ) → Equiv.Perm (Fin p)) (cov : Matrix (Fin p) (Fin p) ℝ) (minEig : ℝ) :
    (truncatedCovariance eigh order cov minEig).IsSymm ∧
    (truncatedCovariance eigh order cov minEig - minEig • (1 : Matrix (Fin p) (Fin p) ℝ)).PosSemidef := by
  rw [truncated_eq]
  set e := eigh (symPart cov) (symPart_isSymm cov)
  constructor
  · unfold Matrix.IsSymm
    rw [Matrix.transpose_mul, Matrix.transpose_mul, Matrix.transpose_transpose, Matrix.diagonal_transpose,
      mul_assoc]
  · have hVV : e.V * e.Vᵀ = 1 := mul_eq_one_comm.1 e.orth
    have h1 : minEig • (1 : Matrix (Fin p) (Fin p) ℝ) = e.V * Matrix.diagonal (fun _ => minEig) * e.Vᵀ := by
      rw [← Matrix.smul_one_eq_diagonal, Matrix.mul_smul, Matrix.smul_mul, mul_one, hVV]
    rw [h1, ← Matrix.sub_mul, ← Matrix.mul_sub, Matrix.diagonal_sub]
    have := Matrix.PosSemidef.mul_mul_conjTranspose_same
      (Matrix.PosSemidef.diagonal (d := fun i => max (e.w i) minEig - minEig) (fun i => by
        simp)) e.V
    simpa using this

/-- **C33**: a symmetric matrix that already satisfies the bound is returned unchanged. -/
theorem C33_unchanged (eigh : ∀ A : Matrix (Fin p) (Fin p) ℝ, A.IsSymm → Eigh A)
    (order : (Fin p → ℝ) → Equiv.Perm (Fin p)) (cov : Matrix (Fin p) (Fin p) ℝ) (minEig : ℝ)
    (hs : cov.IsSymm) (hb : (cov - minEig • (1 : Matrix (Fin p) (Fin p) ℝ)).PosSemidef) :
    truncatedCovariance eigh order cov minEig = cov := by
  rw [truncated_eq]
  set e := eigh (symPart cov) (symPart_isSymm cov)
  have hd : symPart cov = e.V * Matrix.diagonal e.w * e.Vᵀ := e.decomp
  have hw : ∀ i, minEig ≤ e.w i := by
    intro i
    have h1 := hb.conjTranspose_mul_mul_same e.V
    have h2 : e.Vᵀ * (cov - minEig • (1 : Matrix (Fin p) (Fin p) ℝ)) * e.V =
        Matrix.diagonal e.w - minEig • 1 := by
      rw [Matrix.mul_sub, Matrix.sub_mul, Matrix.mul_smul, Matrix.smul_mul, mul_one, e.orth]
      congr 1
      have h3 : e.Vᵀ * cov * e.V = e.Vᵀ * (e.V * Matrix.diagonal e.w * e.Vᵀ) * e.V :=
        congrArg (fun M => e.Vᵀ * M * e.V) ((symPart_of_symm hs).symm.trans hd)
      rw [h3, ← mul_assoc, ← mul_assoc, e.orth, one_mul, mul_assoc, e.orth, mul_one]
    rw [Matrix.conjTranspose_eq_transpose_of_trivial, h2] at h1
    have := h1.diag_nonneg (i := i)
    simp at this
    linarith
  have hm : (fun i => max (e.w i) minEig) = e.w := by
    funext i; exact max_eq_left (hw i)
  rw [hm, ← hd, symPart_of_symm hs]

/-- **C33**: the operation is idempotent. -/
theorem C33_idempotent (eigh : ∀ A : Matrix (Fin p) (Fin p) ℝ, A.IsSymm → Eigh A)
    (order : (Fin p → ℝ) → Equiv.Perm (Fin p)) (cov : Matrix (Fin p) (Fin p) ℝ) (minEig : ℝ) :
    truncatedCovariance eigh order (truncatedCovariance eigh order cov minEig) minEig =
      truncatedCovariance eigh order cov minEig :=
  C33_unchanged eigh order _ _ (C33_bound eigh order cov minEig).1 (C33_bound eigh order cov minEig).2

end

/-- Hypotheses of `C33_unchanged` met by the identity with bound 1/2; `eigh` exists by `eighSpectral`. -/
example : ((1 : Matrix (Fin 2) (Fin 2) ℝ) - (1 / 2 : ℝ) • 1).PosSemidef := by
  have : (1 : Matrix (Fin 2) (Fin 2) ℝ) - (1 / 2 : ℝ) • 1 = (1 / 2 : ℝ) • 1 := by
    nth_rewrite 1 [← one_smul ℝ (1 : Matrix (Fin 2) (Fin 2) ℝ)]
    rw [← sub_smul]; norm_num
  rw [this]
  exact Matrix.PosSemidef.one.smul (by norm_num)

/-! ## C34 -/

section
variable {m : Type} [Fintype m] [DecidableEq m]

/-- **C34**: for a positive semidefinite matrix with positive diagonal the result is symmetric, positive
semidefinite, has unit diagonal and entries in [-1, 1]. -/
theorem C34_correlation (cov : Matrix m m ℝ) (h : cov.PosSemidef) (hd : ∀ i, 0 < cov i i) :
    (covarianceToCorrelation cov).IsSymm ∧ (covarianceToCorrelation cov).PosSemidef ∧
    (∀ i, covarianceToCorrelation cov i i = 1) ∧
    ∀ i j, -1 ≤ covarianceToCorrelation cov i j ∧ covarianceToCorrelation cov i j ≤ 1 := by
  have hsq : ∀ i, 0 < Real.sqrt (cov i i) := fun i => Real.sqrt_pos.2 (hd i)
  have hsym : ∀ i j, cov j i = cov i j := fun i j => by simpa using h.1.apply i j
  have hD : covarianceToCorrelation cov =
      Matrix.diagonal (fun i => (Real.sqrt (cov i i))⁻¹) * cov * (Matrix.diagonal fun i => (Real.sqrt (cov i i))⁻¹)ᴴ := by
    ext i j
    rw [Matrix.diagonal_conjTranspose, Matrix.mul_diagonal, Matrix.diagonal_mul]
    simp only [covarianceToCorrelation, Pi.star_apply, star_trivial]
    field_simp
  have hps : (covarianceToCorrelation cov).PosSemidef := by
    rw [hD]; exact h.mul_mul_conjTranspose_same _
  have hone : ∀ i, covarianceToCorrelation cov i i = 1 := by
    intro i
    unfold covarianceToCorrelation
    rw [Real.mul_self_sqrt (hd i).le, div_self (hd i).ne']
  have hsymm : (covarianceToCorrelation cov).IsSymm := by
    have := hps.1
    unfold Matrix.IsHermitian at this
    rwa [Matrix.conjTranspose_eq_transpose_of_trivial] at this
  refine ⟨hsymm, hps, hone, fun i j => ?_⟩
  by_cases hij : i = j
  · subst hij; rw [hone]; norm_num
  have key : ∀ s : ℝ, 0 ≤ 1 + s * covarianceToCorrelation cov i j + s * (covarianceToCorrelation cov i j + s * 1) := by
    intro s
    have h0 := hps.dotProduct_mulVec_nonneg (Pi.single i 1 + s • Pi.single j 1)
    simp only [star_trivial, Matrix.mulVec_add, Matrix.mulVec_smul, Matrix.mulVec_single_one,
      add_dotProduct, smul_dotProduct, single_one_dotProduct, Pi.add_apply, Pi.smul_apply,
      Matrix.col_apply, smul_eq_mul, hone] at h0
    rw [show covarianceToCorrelation cov j i = covarianceToCorrelation cov i j from hsymm.apply i j] at h0
    linarith
  have k1 := key 1
  have k2 := key (-1)
  constructor <;> linarith

omit [Fintype m] [DecidableEq m] in
/-- **C34**: rescaling the variables by positive factors does not change the correlation. -/
theorem C34_rescale (cov : Matrix m m ℝ) (a : m → ℝ) (ha : ∀ i, 0 < a i) :
    covarianceToCorrelation (fun i j => a i * a j * cov i j) = covarianceToCorrelation cov := by
  ext i j
  unfold covarianceToCorrelation
  rw [Real.sqrt_mul (mul_self_nonneg _), Real.sqrt_mul (mul_self_nonneg _), Real.sqrt_mul_self (ha i).le,
    Real.sqrt_mul_self (ha j).le]
  have hi := (ha i).ne'
  have hj := (ha j).ne'
  rw [show a i * Real.sqrt (cov i i) * (a j * Real.sqrt (cov j j)) =
    (a i * a j) * (Real.sqrt (cov i i) * Real.sqrt (cov j j)) by ring,
    mul_div_mul_left _ _ (mul_ne_zero hi hj)]

end

/-- A positive semidefinite matrix with positive diagonal that is singular. -/
example : (Matrix.vecMulVec ![1, 2] ![1, 2] : Matrix (Fin 2) (Fin 2) ℝ).PosSemidef ∧
    ∀ i, 0 < (Matrix.vecMulVec ![1, 2] ![1, 2] : Matrix (Fin 2) (Fin 2) ℝ) i i := by
  refine ⟨by simpa using Matrix.posSemidef_vecMulVec_self_star (![1, 2] : Fin 2 → ℝ), fun i => ?_⟩
  fin_cases i <;> simp [Matrix.vecMulVec_apply]

end Robpy
