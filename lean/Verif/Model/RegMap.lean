import Verif.Model.Covariance
import Verif.Model.OneStepM
import Verif.Model.LTS

/-! Model of `RobustRegression.outlier_map` (robpy/regression/base.py 39-122) with `return_data=True`, in exact
arithmetic on finite data.  The plot is not modelled. -/

namespace Robpy
open Matrix

/-- A float of numpy: the quotients of regression/base.py 84-91 may be infinite or NaN. -/
inductive NpFloat where
  | num (x : ℝ)
  | posInf
  | negInf
  | nan

open Classical in
/-- Division of numpy floats, regression/base.py 84-91: `x / 0` is infinite, `0 / 0` is NaN. -/
noncomputable def npDivide (x s : ℝ) : NpFloat :=
  if s ≠ 0 then .num (x / s) else if 0 < x then .posInf else if x < 0 then .negInf else .nan

/-- The scale of the residuals, regression/base.py 86-90: `median_abs_deviation(residuals, scale="normal")` or
`np.std(residuals)`; `none` (NaN) for an empty array. -/
noncomputable def residScale (robustScaling : Bool) (res : List ℝ) : Option ℝ :=
  if robustScaling then (madRaw res).map fun s => s / normalQuartile
  else if res = [] then none else some (npStd res)

/-- `standardized_residuals`, regression/base.py 83-91. -/
noncomputable def stdResiduals (robustScaling : Bool) (res : List ℝ) : List NpFloat :=
  match residScale robustScaling res with
  | none => res.map fun _ => .nan
  | some s => res.map fun r => npDivide r s

/-- How the caller passes `X` and `y`: numpy arrays or pandas objects (regression/base.py 39-43). -/
structure Containers where
  xIsFrame : Bool
  yIsSeries : Bool

/-- `distances`, regression/base.py 93-100.  `FastMCD().fit(X)` may raise.  Without `robust_distance` a single column
makes `np.cov` a 0-d array (LinAlgError in `mahalanobis_distance`), and the mean of a DataFrame is a Series, which has
no method `flatten` (utils/distance.py 23; AttributeError, after the inverse on line 21).  Simplification: for fewer
than two rows `np.cov` is NaN and `inv` returns NaN; the model raises LinAlgError. -/
noncomputable def mapDistances {p : ℕ} {G : Type} (srt : ArgSort ℝ) (rng : Rng G) (cfg : MCDConfig ℝ) (fuel : ℕ) (g : G)
    (xIsFrame robustDistance : Bool) (X : List (Fin p → ℝ)) : Except PyErr (List ℝ) :=
  if robustDistance then
    match covFit false (fastMCDCalc srt rng cfg fuel g) CovState.new (X.map fun x j => some (x j)) with
    | (.error e, _) => .error e
    | (.ok (), st) =>
      match st.location_, st.covariance_ with
      | some loc, some cov => mahalanobis X loc cov
      | _, _ => .error .attributeError
  else if p = 1 then .error .linAlgError
  else
    (npInv (npCov X)).bind fun _ =>
      if xIsFrame then .error .attributeError else mahalanobis X (meanRow X) (npCov X)

/-- What `outlier_map` returns, regression/base.py 115-122. -/
structure RegMap where
  residuals : List ℝ
  standardized : List NpFloat
  distances : List ℝ
  verticalThreshold : ℝ
  leverageThreshold : ℝ

/-- `outlier_map(X, y, robust_scaling, robust_distance, vertical_outlier_threshold, ..., return_data=True)`,
regression/base.py 39-122.  `predict` is the method of the fitted model, `chi` is `chi2.ppf(percentile, p)`, `cfg` are the
default settings of `FastMCD`.  `y.reshape` on a Series raises AttributeError (81).  Simplification: residuals of arrays
of different lengths raise ValueError (numpy broadcasts a single prediction). -/
noncomputable def regOutlierMap {p : ℕ} {G : Type} (srt : ArgSort ℝ) (rng : Rng G) (cfg : MCDConfig ℝ) (fuel : ℕ) (g : G)
    (predict : List (Fin p → ℝ) → Except PyErr (List ℝ)) (robustScaling robustDistance : Bool) (vt chi : ℝ)
    (c : Containers) (X : List (Fin p → ℝ)) (y : List ℝ) : Except PyErr RegMap :=
  if c.yIsSeries then .error .attributeError
  else
    (predict X).bind fun f =>
      if y.length ≠ f.length then .error .valueError
      else
        let res := List.zipWith (fun a b => a - b) y f
        (mapDistances srt rng cfg fuel g c.xIsFrame robustDistance X).map fun d =>
          { residuals := res, standardized := stdResiduals robustScaling res, distances := d
            verticalThreshold := vt, leverageThreshold := Real.sqrt chi }

end Robpy
