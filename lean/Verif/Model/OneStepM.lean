import Verif.Model.Tau
import Verif.Model.Rho
import Verif.Model.UnivariateMCD
import Mathlib.Analysis.Complex.Trigonometric

/-! Model of `robpy/univariate/onestep_m.py`. -/

namespace Robpy

section
variable {K : Type} [Field K] [LinearOrder K]

/-- The divisor of `median_abs_deviation(..., scale="normal")`: scipy divides by
0.6744897501960817, robpy/univariate/onestep_m.py 49. -/
def normalQuartile : K := 6744897501960817 / 10000000000000000

/-- Weights of lines 54-56, robpy/univariate/onestep_m.py, for one residual. -/
def oneStepWeight (loc : Rho K) (r : K) : K := if 1 / 100000 < |r| then loc.psi r / r else 1

/-- `safe_mad`, robpy/univariate/onestep_m.py 50. -/
def safeMad (minAbs mad : K) : K := if mad < minAbs then 1 else mad

/-- `mu_new` of `OneStepM._calculate`, robpy/univariate/onestep_m.py 48-57. `none` is NaN (empty
sample or zero weight sum).  Modelled for `min_abs_scale > 0`, so that `safe_mad` is not 0. -/
def oneStepLocation (loc : Rho K) (minAbs : K) (X : List K) : Option K :=
  match npMedian X, madRaw X with
  | some med, some s =>
    weightedMean (fun x => oneStepWeight loc ((x - med) / safeMad minAbs (s / normalQuartile))) X
  | _, _ => none

end

/-- `s_new` of `OneStepM._calculate`, robpy/univariate/onestep_m.py 59-65. -/
noncomputable def oneStepScale (scale : Rho ℝ) (delta minAbs : ℝ) (X : List ℝ) : Option ℝ :=
  match npMedian X, madRaw X with
  | some med, some s =>
    let mad := s / normalQuartile
    if mad < minAbs then some 0
    else some (mad * Real.sqrt (1 / delta * mean (X.map fun x => scale.psi ((x - med) / mad) ^ 2)))
  | _, _ => none

/-- `OneStepM._calculate`, robpy/univariate/onestep_m.py 39-70, with the NaN check of line 45; a NaN
cell is `none`.  The result is the pair (location_, scale_). -/
noncomputable def oneStepM (loc scale : Rho ℝ) (delta minAbs : ℝ) (X : List (Option ℝ)) :
    Except PyErr (Option ℝ × Option ℝ) :=
  if X.any Option.isNone then .error .valueError
  else
    let Y := X.filterMap id
    .ok (oneStepLocation loc minAbs Y, oneStepScale scale delta minAbs Y)

/-- `OneStepWrapping._tanh_weights`, robpy/univariate/onestep_m.py 122-137. -/
noncomputable def tanhWeight (v : ℝ) : ℝ :=
  if |v| < 1.5 then 1
  else if |v| > 4 then 0
  else Real.sqrt (0.7532528 * (4.1517212 - 1)) *
    Real.tanh (0.5 * Real.sqrt ((4.1517212 - 1) * 0.8430849 ^ 2 / 0.7532528) * (4 - |v|)) / |v|

/-- `OneStepWrapping._calculate`, robpy/univariate/onestep_m.py 105-120: (location_, scale_).
The initial estimator is `UnivariateMCD()` (h = n // 2 + 1).  `none` is NaN; a zero initial scale
makes every standardised value inf or NaN (NaN weight), the location is then NaN unless every
value differs from the initial location; that degenerate case is simplified to `none`. -/
noncomputable def oneStepWrapping (cutoff : ℝ) (corrRaw : ℕ → ℕ → ℝ) (corr : ℝ → ℝ) (X : List ℝ) :
    Option ℝ × Option ℝ :=
  match mcdCalculate cutoff corrRaw corr (X.length / 2 + 1) X with
  | some { variance := some v, location := some l, .. } =>
    let s := Real.sqrt v
    (if s = 0 then none else weightedMean (fun x => tanhWeight ((x - l) / s)) X, some s)
  | _ => (none, none)

end Robpy
