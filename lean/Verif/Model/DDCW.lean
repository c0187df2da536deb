import Verif.Model.DDC
import Verif.Model.CellMCD
import Verif.Model.Scaling
import Verif.Lemmas.LinAlg

/-! Model of `robpy/covariance/initial_ddcw.py` (class `InitialDDCW`), in exact arithmetic with NaN as `none`.
`DDC` is the model of `Verif/Model/DDC.lean`. -/

namespace Robpy
open Matrix

/-- What `InitialDDCW` takes from numpy, scipy and the other modules: `np.linalg.eigh` and the order of the
eigenvalues in `truncated_covariance`, `OneStepWrapping` (initial_ddcw.py 63, 85, 117; location and scale,
`none` is NaN), the constants of `wrapping_transformation` (preprocessing/utils.py 9-12), `chi2.ppf(0.5, p)` and
`chi2.ppf(0.99, p)` (107), `np.round(., 3)`, `chi2.cdf(., 1)` and the cutoff of `DDC` (63), and `np.argsort`
(67; indices of one column, see `NanArgSort` for its contract). -/
structure DDCWEnv (p : ℕ) where
  eigh : ∀ A : Matrix (Fin p) (Fin p) ℝ, A.IsSymm → Eigh A
  order : (Fin p → ℝ) → Equiv.Perm (Fin p)
  est : List ℝ → Option ℝ × Option ℝ
  b : ℝ
  c : ℝ
  q1 : ℝ
  q2 : ℝ
  chi50 : ℝ
  chi99 : ℝ
  round3 : ℝ → ℝ
  cdf : ℝ → ℝ
  ddcCutoff : ℝ
  argsort : {n : ℕ} → (Fin n → Option ℝ) → List (Fin n)

/-- The contract of `np.argsort` on a column that may contain NaN (initial_ddcw.py 67): every index once, values
not decreasing, NaN at the end. -/
structure NanArgSort (argsort : {n : ℕ} → (Fin n → Option ℝ) → List (Fin n)) : Prop where
  nodup : ∀ {n : ℕ} (x : Fin n → Option ℝ), (argsort x).Nodup
  mem : ∀ {n : ℕ} (x : Fin n → Option ℝ) (i : Fin n), i ∈ argsort x
  sorted : ∀ {n : ℕ} (x : Fin n → Option ℝ), (argsort x).Pairwise fun i j =>
    x j = none ∨ ∃ a b, x i = some a ∧ x j = some b ∧ a ≤ b

/-- One column of `W`, initial_ddcw.py 64-69: the flags of `DDC`, or, if they are more than `1 - alpha` of the
column, the first `int(n * 0.25)` indices of the reversed ordering. -/
noncomputable def capColumn {n : ℕ} (argsort : (Fin n → Option ℝ) → List (Fin n)) (alpha : ℝ)
    (flags : Fin n → Bool) (res : Fin n → Option ℝ) : Fin n → Bool :=
  if 1 - alpha < ((Finset.univ.filter fun k => flags k = true).card : ℝ) / n then
    let ordering := (argsort fun k => (res k).map fun r => |r|).reverse
    fun k => decide (k ∈ ordering.take (n / 4))
  else flags

/-- `(X - ddc.location_) / ddc.scale_` for one cell, initial_ddcw.py 74-75.  Simplification: a division by zero
gives NaN. -/
noncomputable def stdCell (x l s : Option ℝ) : Option ℝ :=
  x.bind fun x => l.bind fun l => s.bind fun s => if s = 0 then none else some ((x - l) / s)

open Classical in
/-- The rows of a matrix if there is no NaN in them (`eigh` raises LinAlgError on a matrix with NaN, and
`np.cov` of data with NaN contains NaN; initial_ddcw.py 80, 112). -/
noncomputable def completeRows {p : ℕ} (rows : List (Fin p → Option ℝ)) : Option (List (Fin p → ℝ)) :=
  if ∀ r ∈ rows, ∀ j, r j ≠ none then some (rows.map fun r j => (r j).getD 0) else none

/-- The projection `Zimp @ eigenvectors` on the eigenvectors with eigenvalue above the bound,
initial_ddcw.py 81-82, 113-114.  Simplification: the columns are indexed by the selected eigenvalues, not by
their rank (`cov` on lines 100 and 132 does not depend on the order). -/
noncomputable def projectRows {p : ℕ} (a : ℝ) {A : Matrix (Fin p) (Fin p) ℝ} (e : Eigh A)
    (rows : List (Fin p → ℝ)) : List ({i // a < e.w i} → ℝ) :=
  rows.map fun z i => ∑ j, z j * e.V j i.1

/-- Location and scale of the projected data, initial_ddcw.py 85-90, 117-122: scales below the bound are
replaced by it. -/
noncomputable def flooredEst (est : List ℝ → Option ℝ × Option ℝ) (a : ℝ) (col : List ℝ) : Option ℝ × Option ℝ :=
  ((est col).1, (est col).2.map fun s => if s < a then a else s)

/-- The wrapped rows, initial_ddcw.py 91-98, 123-130 (`wrapping_transformation` with given location and scale). -/
noncomputable def wrapRows {κ : Type} (env : List ℝ → Option ℝ × Option ℝ) (b c q1 q2 : ℝ)
    (rows : List (κ → ℝ)) : List (κ → ℝ) :=
  let cols : κ → List ℝ := fun j =>
    let col := rows.map fun z => z j
    wrapColumn b c q1 q2 true ((env col).1.getD 0) ((env col).2.getD 0) col
  (List.range rows.length).map fun i j => (cols j).getD i 0

open Classical in
/-- Lines 80-102 and 112-134 of initial_ddcw.py: from the (imputed, standardised) rows to the covariance in the
units of the data.
* NaN in the rows, fewer than two rows: `np.cov` contains NaN, `eigh` raises LinAlgError.
* One column: `np.cov` is a 0-d array, `eigh` raises LinAlgError.
* One eigenvalue above the bound: `Zimp_proj_wrapped_cov` is a 0-d array, the matrix product raises ValueError.
* NaN in a location or scale, or a variance 0 (no eigenvalue above the bound, for example): the correlation
  matrix contains NaN, `eigh` in `truncated_covariance` raises LinAlgError. -/
noncomputable def ddcwStage {p : ℕ} (env : DDCWEnv p) (a : ℝ) (scale : Fin p → Option ℝ)
    (rows : List (Fin p → Option ℝ)) : Except PyErr (Matrix (Fin p) (Fin p) ℝ) :=
  match completeRows rows with
  | none => .error .linAlgError
  | some R =>
    if p = 1 ∨ R.length < 2 then .error .linAlgError
    else
      let e := env.eigh (npCov R) (npCov_isSymm R)
      let P := projectRows a e R
      let est := flooredEst env.est a
      if Fintype.card {i // a < e.w i} = 1 then .error .valueError
      else if ∃ i, (est (P.map fun z => z i)).1 = none ∨ (est (P.map fun z => z i)).2 = none then
        .error .linAlgError
      else
        let V : Matrix (Fin p) {i // a < e.w i} ℝ := fun j i => e.V j i.1
        let cov := V * npCov (wrapRows est env.b env.c env.q1 env.q2 P) * Vᵀ
        if ∃ j, cov j j = 0 then .error .linAlgError
        else
          let T := truncatedCovariance env.eigh env.order (covarianceToCorrelation cov) a
          .ok fun i j => T i j * (scale j).getD 0 * (scale i).getD 0

/-- `np.minimum(np.maximum(Z, -2), 2)`, initial_ddcw.py 105 (NaN stays NaN). -/
noncomputable def clip2 (z : Option ℝ) : Option ℝ := z.map fun v => min (max v (-2)) 2

open Classical in
/-- `RD`, initial_ddcw.py 106: NaN for a row with a missing cell. -/
noncomputable def ddcwDistance {p : ℕ} (covInv : Matrix (Fin p) (Fin p) ℝ) (z : Fin p → Option ℝ) : Option ℝ :=
  if ∀ j, z j ≠ none then some (quadForm covInv fun j => (clip2 (z j)).getD 0) else none

open Classical in
/-- `RD / np.median(RD) * chi2.ppf(0.5, p) > chi2.ppf(0.99, p)`, initial_ddcw.py 107: the median of an array
with NaN is NaN, and a comparison with NaN is false; `x / 0` is infinite for `x > 0` and NaN for 0. -/
noncomputable def casewiseOutlier (chi50 chi99 : ℝ) {n : ℕ} (RD : Fin n → Option ℝ) (i : Fin n) : Bool :=
  match allSome (List.ofFn RD) with
  | none => false
  | some l =>
    match npMedian l, RD i with
    | some m, some d => if m = 0 then decide (0 < d) else decide (chi99 < d / m * chi50)
    | _, _ => false

/-- What `calculate_covariance` reads from the fitted `DDC` object, initial_ddcw.py 63-77, 136:
`location_`, `scale_`, `cellwise_outliers_`, `standardized_residuals_`, `row_outliers_` and the result of
`impute`. -/
structure DDCOutput (n p : ℕ) where
  location : Fin p → Option ℝ
  scale : Fin p → Option ℝ
  cellwise : Fin n → Fin p → Bool
  stdRes : Fin n → Fin p → Option ℝ
  rowOut : Fin n → Bool
  imputed : Fin n → Fin p → Option ℝ

/-- `W`, initial_ddcw.py 64-69. -/
noncomputable def ddcwFlags {n p : ℕ} (argsort : (Fin n → Option ℝ) → List (Fin n)) (alpha : ℝ)
    (d : DDCOutput n p) : Fin n → Fin p → Bool :=
  fun k i => capColumn argsort alpha (fun k => d.cellwise k i) (fun k => d.stdRes k i) k

/-- `Zimp` in standardised units, initial_ddcw.py 70-75. -/
noncomputable def ddcwImputed {n p : ℕ} (argsort : (Fin n → Option ℝ) → List (Fin n)) (alpha : ℝ)
    (d : DDCOutput n p) (X : Cells n p) : Cells n p := fun k i =>
  stdCell (if ddcwFlags argsort alpha d k i || (X k i).isNone then d.imputed k i else X k i)
    (d.location i) (d.scale i)

/-- `calculate_covariance` after the call of `DDC`, initial_ddcw.py 64-138: location and covariance. -/
noncomputable def ddcwFrom {n p : ℕ} (env : DDCWEnv p) (alpha a : ℝ) (d : DDCOutput n p) (X : Cells n p) :
    Except PyErr ((Fin p → ℝ) × Matrix (Fin p) (Fin p) ℝ) :=
  let Z : Cells n p := fun k i => stdCell (X k i) (d.location i) (d.scale i)
  let Zimp := ddcwImputed env.argsort alpha d X
  (ddcwStage env a d.scale (((List.finRange n).filter fun k => !d.rowOut k).map Zimp)).bind fun cov =>
    (npInv cov).bind fun covInv =>
      let RD := fun k => ddcwDistance covInv (Z k)
      (ddcwStage env a d.scale (((List.finRange n).filter fun k =>
        !casewiseOutlier env.chi50 env.chi99 RD k).map Zimp)).map fun cov =>
          (fun j => (d.location j).getD 0, cov)

/-- `pd.DataFrame(X)`, initial_ddcw.py 63, 72. -/
def frameOf {n p : ℕ} (X : Cells n p) : CellFrame (Option ℝ) :=
  { n := n, p := p, numeric := true
    cell := fun k i => if h : k < n ∧ i < p then X ⟨k, h.1⟩ ⟨i, h.2⟩ else none }

/-- The numbers `DDC` works with inside `InitialDDCW`, initial_ddcw.py 63: exact arithmetic with
`OneStepWrapping` as scale estimator (`DDC` removes the NaN before it calls the estimator, ddc.py 315). -/
noncomputable def ddcwNumbers {p : ℕ} (env : DDCWEnv p) : DDCEnv (Option ℝ) :=
  realEnv env.round3 env.cdf fun l => .ok (env.est (l.filterMap id))

/-- `DDC(chi2_quantile=0.9, scale_estimator=OneStepWrapping()).fit(...)` and `impute`, initial_ddcw.py 63, 71-73;
`min_correlation` has its default 0.5 (ddc.py 33). -/
noncomputable def ddcwDDC {n p : ℕ} (env : DDCWEnv p) (X : Cells n p) : Except PyErr (DDCOutput n p) := by
  classical exact
  let cfg : DDCConfig (Option ℝ) := ⟨some env.ddcCutoff, some 0.5⟩
  match ddcFit (ddcwNumbers env) cfg false {} (frameOf X) with
  | (.error e, _) => .error e
  | (.ok (), st) =>
    match ddcImpute (ddcwNumbers env) cfg st (frameOf X) true with
    | (.error e, _) => .error e
    | (.ok R, _) =>
      match st.location, st.scale, st.cellwise, st.stdRes, st.rowOut with
      | some ls, some ss, some (_, flags), some res, some rows =>
        .ok { location := fun j => ls.getD j none, scale := fun j => ss.getD j none
              cellwise := fun k i => flags k i, stdRes := fun k i => res k i
              rowOut := fun k => rows k, imputed := fun k i => R k i }
      | _, _, _, _, _ => .error .attributeError

/-- `calculate_covariance`, initial_ddcw.py 48-138; `alpha` is checked and raised as in `CellMCD` (52-60). -/
noncomputable def ddcwCalc {n p : ℕ} (env : DDCWEnv p) (alpha a : ℝ) (X : Cells n p) :
    Except PyErr ((Fin p → ℝ) × Matrix (Fin p) (Fin p) ℝ) :=
  (cellAlpha alpha n).bind fun alpha => (ddcwDDC env X).bind fun d => ddcwFrom env alpha a d X

open Classical in
/-- `InitialDDCW(alpha, min_eigenvalue).fit(X)`, covariance/base.py 53-90: location, covariance and precision.
`pinvh` of a nonsingular matrix is its inverse.  Line 86 of base.py inverts `np.cov(X)`, which raises if the data are
complete and the matrix is singular.  Simplification: with missing cells the NaN in that matrix make `inv`
return without an exception. -/
noncomputable def ddcwFit {n p : ℕ} (env : DDCWEnv p) (alpha a : ℝ) (X : Cells n p) :
    Except PyErr ((Fin p → ℝ) × Matrix (Fin p) (Fin p) ℝ × Matrix (Fin p) (Fin p) ℝ) :=
  (ddcwCalc env alpha a X).bind fun r =>
    match completeRows (List.ofFn X) with
    | some R => if (npCov R).det = 0 then .error .linAlgError else .ok (r.1, r.2, r.2⁻¹)
    | none => .ok (r.1, r.2, r.2⁻¹)

end Robpy
