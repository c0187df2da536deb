import Verif.Model.Basics
import Mathlib.Analysis.Real.Sqrt

/-! Model of `robpy/univariate/tau.py`. -/

namespace Robpy

section
variable {K : Type} [Field K] [LinearOrder K]

/-- `Tau._weight_function` on one number, robpy/univariate/tau.py 55-60. -/
def tauWeight (c1 x : K) : K := if |x| ≤ c1 then (1 - (x / c1) ^ 2) ^ 2 else 0

/-- `Tau._rho_function` on one number, robpy/univariate/tau.py 62-63. -/
def tauRho (c2 x : K) : K := if x ^ 2 ≤ c2 ^ 2 then x ^ 2 else c2 ^ 2

/-- `np.sum(X * weights) / np.sum(weights)` with weights computed entry by entry;
`none` is NaN (0/0). robpy/univariate/tau.py 45, robpy/univariate/onestep_m.py 57. -/
def weightedMean (w : K → K) (X : List K) : Option K :=
  if (X.map w).sum = 0 then none else some ((X.map fun x => w x * x).sum / (X.map w).sum)

/-- `self.location_` of `Tau._calculate`, robpy/univariate/tau.py 43-45.  `none` is NaN.  With a
zero MAD the standardised values are inf or NaN, every comparison with `c1` is False and all
weights are 0, so the location is 0/0. -/
def tauLocation (c1 : K) (X : List K) : Option K :=
  match npMedian X, madRaw X with
  | some m, some s => if s = 0 then none else weightedMean (fun x => tauWeight c1 ((x - m) / s)) X
  | _, _ => none

end

/-- Consistency correction of robpy/univariate/tau.py 49-53: `none` is
`consistency_correction=False`, otherwise `scale / sqrt(corr)`. -/
noncomputable def tauCorrect (corr : Option ℝ) (scale : ℝ) : ℝ :=
  match corr with
  | none => scale
  | some c => scale / Real.sqrt c

/-- `Tau._calculate`, robpy/univariate/tau.py 36-53: the pair (location_, scale_).
`corr = none` is `consistency_correction=False`; otherwise the constant of lines 49-52 (a positive
number depending only on c2).  An empty sample raises ZeroDivisionError at `1 / n`.  If the location
is NaN the comparison `X**2 <= c2**2` is False everywhere, so each term is `c2**2`. -/
noncomputable def tauCalculate (c1 c2 : ℝ) (corr : Option ℝ) (X : List ℝ) :
    Except PyErr (Option ℝ × ℝ) :=
  match madRaw X with
  | none => .error .zeroDivisionError
  | some s =>
    let loc := tauLocation c1 X
    let terms := match loc with
      | some l => if s = 0 then X.map fun _ => c2 ^ 2 else X.map fun x => tauRho c2 ((x - l) / s)
      | none => X.map fun _ => c2 ^ 2
    let scale := s * Real.sqrt (1 / (X.length : ℝ) * terms.sum)
    .ok (loc, tauCorrect corr scale)

end Robpy
