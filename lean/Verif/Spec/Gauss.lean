import Mathlib.LinearAlgebra.Matrix.NonsingularInverse
import Mathlib.Analysis.SpecialFunctions.Log.Basic
import Mathlib.Analysis.Real.Pi.Bounds

/-! Gaussian likelihood of a part of the coordinates and Gaussian conditioning, independent of the model. -/

namespace Spec
open Matrix

/-- Minus twice the log-density of `N(mu_w, S_ww)` at `x_w`, where `w` marks the coordinates used. -/
noncomputable def negTwoLogLik {p : ℕ} (S : Matrix (Fin p) (Fin p) ℝ) (mu x : Fin p → ℝ) (w : Fin p → Bool) : ℝ :=
  let A : Matrix {j // w j = true} {j // w j = true} ℝ := S.submatrix (fun j => j.1) fun j => j.1
  let z : {j // w j = true} → ℝ := fun j => x j.1 - mu j.1
  z ⬝ᵥ (A⁻¹ *ᵥ z) + Real.log A.det +
    Fintype.card {j // w j = true} * Real.log (2 * Real.pi)

/-- The penalised observed likelihood that CellMCD minimises: the Gaussian terms of the clean cells of every
row plus `q j` for every flagged cell of column `j`. -/
noncomputable def cellObjective {n p : ℕ} (X : Fin n → Fin p → Option ℝ) (q : Fin p → ℝ)
    (W : Fin n → Fin p → Bool) (mu : Fin p → ℝ) (S : Matrix (Fin p) (Fin p) ℝ) : ℝ :=
  ∑ i, (negTwoLogLik S mu (fun j => (X i j).getD 0) (W i) + ∑ j, if W i j = true then 0 else q j)

/-- No missing cell is marked as clean. -/
def NoMissing {n p : ℕ} (X : Fin n → Fin p → Option ℝ) (W : Fin n → Fin p → Bool) : Prop :=
  ∀ i j, W i j = true → X i j ≠ none

/-- Every column has at least `h` clean cells. -/
def AtLeast {n p : ℕ} (h : ℕ) (W : Fin n → Fin p → Bool) : Prop :=
  ∀ j, h ≤ (Finset.univ.filter fun i => W i j = true).card

/-- `pred` and `var` are the mean and variance of coordinate `j` given the coordinates marked by `P`, under
`N(mu, S)`: the regression coefficients solve the normal equations. -/
def IsConditional {p : ℕ} (S : Matrix (Fin p) (Fin p) ℝ) (mu x : Fin p → ℝ) (P : Fin p → Bool) (j : Fin p)
    (pred var : ℝ) : Prop :=
  ∃ b : Fin p → ℝ, (∀ k, P k = false → b k = 0) ∧ (∀ k, P k = true → ∑ l, S k l * b l = S k j) ∧
    pred = mu j + ∑ k, b k * (x k - mu k) ∧ var = S j j - ∑ k, b k * S k j

end Spec
