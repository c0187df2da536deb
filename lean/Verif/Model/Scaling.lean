import Verif.Model.Basics
import Verif.Model.Rho
import Mathlib.Analysis.Complex.Trigonometric
import Mathlib.Analysis.Real.Sqrt

/-! Model of `robpy/preprocessing/scaling.py` and `robpy/preprocessing/utils.py`.
Data matrices are lists of columns; a cell is `none` for NaN. -/

namespace Robpy

section
variable {K : Type} [Field K] [DecidableEq K]

/-- Fitted attributes of `RobustScaler` (robpy/preprocessing/scaling.py 39-40): one location and one
scale per column. -/
structure ScalerState (K : Type) where
  locations_ : List K
  scales_ : List K

/-- The scale estimator handed to `RobustScaler`: location and scale of one column, or an exception
(robpy/preprocessing/scaling.py 43; the estimators themselves are modelled elsewhere). -/
abbrev ColEst (K : Type) := List (Option K) → Bool → Except PyErr (K × K)

/-- The column loop of `RobustScaler.fit`, robpy/preprocessing/scaling.py 42-47, from the columns not
yet visited; the attribute arrays are filled in place, the rest still holds the initial 0 and 1, so
an exception leaves a partly filled state. -/
def scalerFitLoop (est : ColEst K) (centering scaling ignoreNan : Bool) :
    List (List (Option K)) → Except PyErr Unit × ScalerState K
  | [] => (.ok (), ⟨[], []⟩)
  | c :: cs =>
    match est c ignoreNan with
    | .error e => (.error e, ⟨0 :: cs.map fun _ => 0, 1 :: cs.map fun _ => 1⟩)
    | .ok (l, s) =>
      let r := scalerFitLoop est centering scaling ignoreNan cs
      (r.1, ⟨(if centering then l else 0) :: r.2.locations_, (if scaling then s else 1) :: r.2.scales_⟩)

/-- `RobustScaler.fit`, robpy/preprocessing/scaling.py 34-49 (a one-dimensional array is one column).
The previous state is overwritten before the loop (lines 39-40). -/
def scalerFit (est : ColEst K) (centering scaling ignoreNan : Bool) (_st : ScalerState K)
    (X : List (List (Option K))) : Except PyErr Unit × ScalerState K :=
  scalerFitLoop est centering scaling ignoreNan X

/-- One cell of line 57, robpy/preprocessing/scaling.py: NaN stays NaN, division by zero gives inf or
NaN (`none`). -/
def scaleCell (l s : K) (x : Option K) : Option K :=
  x.bind fun x => if s = 0 then none else some ((x - l) / s)

/-- One cell of line 65, robpy/preprocessing/scaling.py. -/
def unscaleCell (l s : K) (x : Option K) : Option K := x.map fun x => x * s + l

/-- `RobustScaler.transform`, robpy/preprocessing/scaling.py 51-57.  Numpy broadcasting of a single
column against several is not modelled: a different number of columns raises ValueError. -/
def scalerTransform (st : ScalerState K) (X : List (List (Option K))) :
    Except PyErr (List (List (Option K))) :=
  if X.length = st.locations_.length then
    .ok (List.zipWith (fun c ls => c.map (scaleCell ls.1 ls.2)) X (st.locations_.zip st.scales_))
  else .error .valueError

/-- `RobustScaler.inverse_transform`, robpy/preprocessing/scaling.py 59-65. -/
def scalerInverse (st : ScalerState K) (X : List (List (Option K))) :
    Except PyErr (List (List (Option K))) :=
  if X.length = st.locations_.length then
    .ok (List.zipWith (fun c ls => c.map (unscaleCell ls.1 ls.2)) X (st.locations_.zip st.scales_))
  else .error .valueError

end

/-! ### Wrapping -/

/-- The wrapping function of one standardised value, robpy/preprocessing/utils.py 65-69. -/
noncomputable def wrapPsi (b c q1 q2 z : ℝ) : ℝ :=
  if |z| < b then z
  else if |z| ≤ c then q1 * Real.tanh (q2 * (c - |z|)) * npSign z
  else 0

/-- `scales_no_zero` / `z_wrapped_std_no_zero`, robpy/preprocessing/utils.py 61 and 73. -/
noncomputable def noZero (s : ℝ) : ℝ := if s = 0 then 1 else s

/-- `z_wrapped` for one column, robpy/preprocessing/utils.py 63-69. -/
noncomputable def zWrapped (b c q1 q2 loc scale : ℝ) (X : List ℝ) : List ℝ :=
  X.map fun x => wrapPsi b c q1 q2 ((x - loc) / noZero scale)

/-- `wrapping_transformation` for one column with given location and scale,
robpy/preprocessing/utils.py 59-80.  The estimators (lines 59-60) are parameters. -/
noncomputable def wrapColumn (b c q1 q2 : ℝ) (rescale : Bool) (loc scale : ℝ) (X : List ℝ) : List ℝ :=
  let z := zWrapped b c q1 q2 loc scale X
  if rescale then
    let m := mean z
    let sd := noZero (Real.sqrt (var z))
    z.map fun v => v * (scale / sd) + loc - m * (scale / sd)
  else z.map fun v => v * scale + loc

/-- `wrapping_transformation` on a matrix of columns, robpy/preprocessing/utils.py 7-80. -/
noncomputable def wrappingTransformation (b c q1 q2 : ℝ) (rescale : Bool) (locEst scaleEst : List ℝ → ℝ)
    (X : List (List ℝ)) : List (List ℝ) :=
  X.map fun col => wrapColumn b c q1 q2 rescale (locEst col) (scaleEst col) col

end Robpy
