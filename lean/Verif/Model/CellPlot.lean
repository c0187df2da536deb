import Verif.Model.CellMCD
import Verif.Model.PowerTransform

/-! Model of the standardised residuals of `CellMCD` (robpy/covariance/cellmcd.py 122-126) and of what
`cell_MCD_plot` shows (139-281 and robpy/covariance/utils/cellmcd_visualization_utils.py), in exact arithmetic.
Colours, labels and titles are not modelled. -/

namespace Robpy
open Matrix

variable {n p : ℕ}

/-- The values of column `j` without NaN, as `fit(..., ignore_nan=True)` uses them (univariate/base.py 31-32). -/
def presentCells (X : Cells n p) (j : Fin p) : List ℝ := (List.ofFn fun i => X i j).filterMap id

/-- `(X - predictions) / conditional_stds`, cellmcd.py 123; `none` is NaN or infinite. -/
noncomputable def rawResiduals (X : Cells n p) (r : CellResult n p) : Cells n p := fun i j =>
  (X i j).bind fun x => (r.predictions i j).bind fun v => npDiv (x - v) (r.stds i j)

/-- `self.residuals`, cellmcd.py 123-126, 133: every column is divided by its robust scale; `est` is
`OneStepWrapping().fit(.)`, location and scale. -/
noncomputable def cellResiduals (est : List ℝ → Option ℝ × Option ℝ) (X : Cells n p) (r : CellResult n p) : Cells n p :=
  fun i j => (rawResiduals X r i j).bind fun v => ((est (presentCells (rawResiduals X r) j)).2).bind fun s => npDiv v s

/-- `get_thresholds`, cellmcd_visualization_utils.py 88-90; `none` is NaN. -/
noncomputable def getThresholds (est : List ℝ → Option ℝ × Option ℝ) (cutoff : ℝ) (x : Fin n → Option ℝ) :
    Option ℝ × Option ℝ :=
  match est ((List.ofFn x).filterMap id) with
  | (some l, some s) => (some (l - cutoff * s), some (l + cutoff * s))
  | _ => (none, none)

/-- `(v < t[0]) or (v > t[1])`, cellmcd_visualization_utils.py 31-34; a comparison with NaN is false. -/
noncomputable def outsideLines (t : Option ℝ × Option ℝ) (v : Option ℝ) : Bool :=
  match v with
  | none => false
  | some v => (match t.1 with | some a => decide (v < a) | none => false) ||
      (match t.2 with | some b => decide (b < v) | none => false)

/-- `annote_outliers`, cellmcd_visualization_utils.py 9-37: the rows whose name is written into the plot. -/
noncomputable def annoteOutliers (h : Option ℝ × Option ℝ) (v : Option (Option ℝ × Option ℝ)) (x y : Fin n → Option ℝ) :
    List (Fin n) :=
  (List.finRange n).filter fun i => outsideLines h (y i) || (match v with | some t => outsideLines t (x i) | none => false)

/-- Rows and columns `variable`, `second_variable` of the covariance, cellmcd.py 246,
cellmcd_visualization_utils.py 68. -/
def pairCov (S : Matrix (Fin p) (Fin p) ℝ) (a b : Fin p) : Matrix (Fin 2) (Fin 2) ℝ := S.submatrix ![a, b] ![a, b]

/-- The distances of cellmcd_visualization_utils.py 65-69; NaN (`none`) if a cell is missing. -/
noncomputable def pairDistance (ci : Matrix (Fin 2) (Fin 2) ℝ) (loc : Fin 2 → ℝ) (x y : Option ℝ) : Option ℝ :=
  match x, y with
  | some x, some y => some (Real.sqrt (quadForm ci (![x, y] - loc)))
  | _, _ => none

/-- `annote_outliers_ellipse`, cellmcd_visualization_utils.py 40-72; `radius` is `np.sqrt(chi2.ppf(quantile, 2))`. -/
noncomputable def annoteEllipse (radius : ℝ) (loc : Fin 2 → ℝ) (cov : Matrix (Fin 2) (Fin 2) ℝ) (x y : Fin n → Option ℝ) :
    Except PyErr (List (Fin n)) :=
  (npInv cov).map fun ci =>
    (List.finRange n).filter fun i =>
      match pairDistance ci loc (x i) (y i) with
      | some d => decide (radius < d)
      | none => false

/-- `shape`, cellmcd_visualization_utils.py 79-80 (for non-negative eigenvalues). -/
noncomputable def ellipseShape {A : Matrix (Fin 2) (Fin 2) ℝ} (e : Eigh A) : Matrix (Fin 2) (Fin 2) ℝ :=
  e.V * Matrix.diagonal (fun i => Real.sqrt (e.w i)) * e.Vᵀ

/-- The point of the curve for one angle, cellmcd_visualization_utils.py 81-84.  Simplification: the curve for all
angles; the plot joins 201 of its points by line segments. -/
noncomputable def ellipsePoint {A : Matrix (Fin 2) (Fin 2) ℝ} (e : Eigh A) (radius : ℝ) (center : Fin 2 → ℝ) (t : ℝ) :
    Fin 2 → ℝ :=
  (radius • ![Real.cos t, Real.sin t]) ᵥ* ellipseShape e + center

/-- The argument `plottype`, cellmcd.py 146-152; `other` is any other string. -/
inductive PlotType where
  | indexplot | residualsVsVariable | residualsVsPredictions | variableVsPredictions | bivariate | other

/-- The cutoffs of one call, cellmcd.py 189-194, 245-250, 267-277: `line` is `np.sqrt(chi2.ppf(self.quantile, 1))`, `annot` the same for
`annotation_quantile` (`none` if it is not given), `radius` and `annotRadius` with two degrees of freedom. -/
structure PlotCutoffs where
  line : ℝ
  annot : Option ℝ
  radius : ℝ
  annotRadius : Option ℝ

/-- What a plot shows: the points, the dashed lines and the rows that are named. -/
structure PlotOut (n : ℕ) where
  x : Fin n → Option ℝ
  y : Fin n → Option ℝ
  hLines : Option ℝ × Option ℝ
  vLines : Option (Option ℝ × Option ℝ)
  named : List (Fin n)

/-- The plots with two numbers per row that are named by lines, cellmcd.py 196-237, 257-265, 279. -/
noncomputable def linePlot (named : Bool) (x y : Fin n → Option ℝ) (h ha : Option ℝ × Option ℝ)
    (v va : Option (Option ℝ × Option ℝ)) : PlotOut n :=
  { x := x, y := y, hLines := h, vLines := v, named := if named then annoteOutliers ha va x y else [] }

/-- `cell_MCD_plot`, cellmcd.py 139-281, of an object fitted to `X` with result `r` (`none`: not fitted); `named` says whether
`row_names` are given, one for each row.  An unknown `plottype` leaves `x` unbound. -/
noncomputable def cellPlot (est : List ℝ → Option ℝ × Option ℝ) (fitted : Option (Cells n p × CellResult n p)) (cut : PlotCutoffs)
    (named : Bool) (type : PlotType) (j : Fin p) (second : Option (Fin p)) : Except PyErr (PlotOut n) :=
  match fitted with
  | none => .error .notFittedError
  | some (X, r) =>
    let res := fun i => cellResiduals est X r i j
    let obs := fun i => X i j
    let pred := fun i => r.predictions i j
    let c := cut.line
    let ca := cut.annot.getD cut.line
    let sym := fun c : ℝ => (some (-c), some c)
    match type with
    | .indexplot => .ok (linePlot named (fun i => some (i.1 : ℝ)) res (sym c) (sym ca) none none)
    | .residualsVsVariable =>
      .ok (linePlot named obs res (sym c) (sym ca) (some (getThresholds est c obs)) (some (getThresholds est ca obs)))
    | .residualsVsPredictions =>
      .ok (linePlot named pred res (sym c) (sym ca) (some (getThresholds est c pred)) (some (getThresholds est ca pred)))
    | .variableVsPredictions =>
      .ok (linePlot named pred obs (getThresholds est c obs) (getThresholds est ca obs) (some (getThresholds est c pred))
        (some (getThresholds est ca pred)))
    | .bivariate =>
      match second with
      | none => .error .valueError
      | some k =>
        (if named then
            annoteEllipse (cut.annotRadius.getD cut.radius) ![r.location j, r.location k] (pairCov r.covariance j k) obs fun i => X i k
          else .ok []).map fun l =>
          { x := obs, y := fun i => X i k, hLines := getThresholds est c fun i => X i k
            vLines := some (getThresholds est c obs), named := l }
    | .other => .error .unboundLocalError

end Robpy
