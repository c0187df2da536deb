import Verif.Model.Basics
import Mathlib.LinearAlgebra.Matrix.NonsingularInverse
import Mathlib.Analysis.SpecialFunctions.Sqrt

/-! Model of the linear algebra used by the multivariate estimators: column means, `np.cov`,
`np.linalg.inv`, `robpy/utils/distance.py`, `robpy/utils/general.py`,
`robpy/covariance/utils/alter_covariance.py`.
A data matrix is the list of its rows; a row is a function on the (finite) set of columns. -/

namespace Robpy
open Matrix

section
variable {K : Type} [Field K] {m : Type} [Fintype m] [DecidableEq m]

/-- `X.mean(axis=0)`, robpy/covariance/mcd.py 250, robpy/covariance/base.py 77 (NaN for no rows: here
0, callers have at least one row). -/
def meanRow (X : List (m → K)) : m → K := fun j => mean (X.map fun x => x j)

/-- `np.cov(X, rowvar=False)`, robpy/covariance/mcd.py 251: denominator `n - 1`.  Simplifications: for a
single row numpy returns NaN, here 0; for a single column numpy returns a 0-d array, see `npDetCov`. -/
def npCov (X : List (m → K)) : Matrix m m K := fun i j =>
  (X.map fun x => (x i - meanRow X i) * (x j - meanRow X j)).sum / ((X.length : K) - 1)

/-- `np.linalg.inv(A)`, robpy/utils/distance.py 21: LinAlgError for a singular matrix.  Exact
arithmetic: adjugate over determinant. -/
def npInv [DecidableEq K] (A : Matrix m m K) : Except PyErr (Matrix m m K) :=
  if A.det = 0 then .error .linAlgError else .ok (A.det⁻¹ • A.adjugate)

/-- One entry of `np.sum(centered_data.dot(cov_inv) * centered_data, axis=1)`,
robpy/utils/distance.py 24. -/
def quadForm (covInv : Matrix m m K) (c : m → K) : K := (c ᵥ* covInv) ⬝ᵥ c

/-- The squared distances, `mahalanobis_distance(...) ** 2`: robpy/utils/distance.py 19-24 before the
square root. -/
def sqMahalanobis [DecidableEq K] (X : List (m → K)) (loc : m → K) (cov : Matrix m m K) :
    Except PyErr (List K) :=
  (npInv cov).map fun ci => X.map fun x => quadForm ci (x - loc)

end

/-- `mahalanobis_distance`, robpy/utils/distance.py 5-24.  Simplification: the square root of a negative
number is NaN in numpy and 0 here; it does not occur for a positive definite matrix. -/
noncomputable def mahalanobis {m : Type} [Fintype m] [DecidableEq m] (X : List (m → ℝ)) (loc : m → ℝ)
    (cov : Matrix m m ℝ) : Except PyErr (List ℝ) :=
  (sqMahalanobis X loc cov).map fun d => d.map Real.sqrt

section
variable {K : Type} [Field K] [DecidableEq K]

/-- The indices not selected, `np.setdiff1d(np.arange(p), indices)`, robpy/utils/general.py 16. -/
abbrev IdxCompl {k p : ℕ} (idx : Fin k → Fin p) : Type := {j : Fin p // ∀ i, idx i ≠ j}

/-- `inverse_submatrix`, robpy/utils/general.py 4-31, for the index array `idx`; `k > p / 2.0` is
written `p < 2 * k`.  Simplification: the complement is a subtype instead of a sorted index array (the
products on lines 21-24 do not depend on its order). In the last branch the code returns `A_inv`
itself, whatever the order of the indices; the model requires `k = p` there (a longer list cannot have
distinct entries). -/
def inverseSubmatrix {k p : ℕ} (A Ainv : Matrix (Fin p) (Fin p) K) (idx : Fin k → Fin p) :
    Except PyErr (Matrix (Fin k) (Fin k) K) :=
  if k < p ∧ p < 2 * k then
    let neg : IdxCompl idx → Fin p := Subtype.val
    (npInv (Ainv.submatrix neg neg)).map fun B =>
      Ainv.submatrix idx idx - Ainv.submatrix idx neg * B * Ainv.submatrix neg idx
  else if k < p then npInv (A.submatrix idx idx)
  else if h : k = p then .ok (Ainv.submatrix (Fin.cast h) (Fin.cast h))
  else .error .valueError

end

/-- Contract of `np.linalg.eigh` on a symmetric matrix (robpy/covariance/utils/alter_covariance.py 15,
robpy/covariance/ogk.py 75): eigenvalues and an orthogonal matrix of eigenvectors (columns), with
`A = V diag(w) Vᵀ`.  The order of the eigenvalues is not used. -/
structure Eigh {p : ℕ} (A : Matrix (Fin p) (Fin p) ℝ) where
  w : Fin p → ℝ
  V : Matrix (Fin p) (Fin p) ℝ
  orth : Vᵀ * V = 1
  decomp : A = V * Matrix.diagonal w * Vᵀ

/-- The symmetrised argument `0.5 * (cov + cov.T)`, robpy/covariance/utils/alter_covariance.py 15. -/
noncomputable def symPart {p : ℕ} (cov : Matrix (Fin p) (Fin p) ℝ) : Matrix (Fin p) (Fin p) ℝ :=
  (0.5 : ℝ) • (cov + covᵀ)

/-- `truncated_covariance`, robpy/covariance/utils/alter_covariance.py 4-18; `order` is the permutation
`np.argsort(eigvals)[::-1]` applied to the columns. -/
noncomputable def truncatedCovariance {p : ℕ} (eigh : ∀ A : Matrix (Fin p) (Fin p) ℝ, A.IsSymm → Eigh A)
    (order : (Fin p → ℝ) → Equiv.Perm (Fin p)) (cov : Matrix (Fin p) (Fin p) ℝ) (minEig : ℝ) :
    Matrix (Fin p) (Fin p) ℝ :=
  let e := eigh (symPart cov) (by
    unfold symPart Matrix.IsSymm
    rw [Matrix.transpose_smul, Matrix.transpose_add, Matrix.transpose_transpose, add_comm])
  let w := fun i => if e.w i < minEig then minEig else e.w i
  let σ := order e.w
  e.V.submatrix id σ * Matrix.diagonal (fun i => w (σ i)) * (e.V.submatrix id σ)ᵀ

/-- `covariance_to_correlation`, robpy/covariance/utils/alter_covariance.py 21-31 (a zero standard
deviation gives inf/NaN in numpy, 0 here). -/
noncomputable def covarianceToCorrelation {m : Type} (cov : Matrix m m ℝ) : Matrix m m ℝ :=
  fun i j => cov i j / (Real.sqrt (cov i i) * Real.sqrt (cov j j))

end Robpy
