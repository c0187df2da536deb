import Verif.Model.Basics
import Mathlib.Analysis.SpecialFunctions.Exp

/-! Model of `robpy/univariate/adjusted_boxplot.py` (the statistics, not the drawing). -/

namespace Robpy

section
variable {K : Type} [Field K] [LinearOrder K]

/-- Linear interpolation in a sorted array at the fractional index `pos / den`
(contract of `np.percentile`, robpy/univariate/adjusted_boxplot.py 62-63). -/
def lerpAt (s : List K) (den pos : ℕ) : K :=
  let i := pos / den
  s.getD i 0 + ((pos % den : ℕ) : K) / (den : K) * (s.getD (min (i + 1) (s.length - 1)) 0 - s.getD i 0)

/-- `np.percentile(X, 100 * num / den)` with numpy's default linear method,
robpy/univariate/adjusted_boxplot.py 62-63.  `none`: empty input. -/
def percentile (num den : ℕ) (X : List K) : Option K :=
  if X.length = 0 then none else some (lerpAt (npSort X) den ((X.length - 1) * num))

/-- `np.min(X, axis=0)` of one column, robpy/univariate/adjusted_boxplot.py 69. -/
def npMin (X : List K) : Option K := X.min?

/-- `np.max(X, axis=0)` of one column, robpy/univariate/adjusted_boxplot.py 78. -/
def npMax (X : List K) : Option K := X.max?

end

/-- `Boxplot`, robpy/univariate/adjusted_boxplot.py 11-19. -/
structure Boxplot where
  median : ℝ
  q1 : ℝ
  q3 : ℝ
  upperWhisker : ℝ
  lowerWhisker : ℝ

/-- The statistics of one column, robpy/univariate/adjusted_boxplot.py 61-88.  `mc` is the
medcouple of the column (statsmodels, not modelled). -/
noncomputable def boxplotColumn (mc : ℝ) (X : List ℝ) : Option Boxplot :=
  match npMedian X, percentile 1 4 X, percentile 3 4 X, npMin X, npMax X with
  | some m, some q1, some q3, some mn, some mx =>
    let lo := q1 - 1.5 * Real.exp ((if mc ≥ 0 then -4 else -3) * mc) * (q3 - q1)
    let up := q3 + 1.5 * Real.exp ((if mc ≥ 0 then 3 else 4) * mc) * (q3 - q1)
    some { median := m, q1 := q1, q3 := q3, upperWhisker := min mx up, lowerWhisker := max mn lo }
  | _, _, _, _, _ => none

/-- The `fliers` entry, robpy/univariate/adjusted_boxplot.py 100. -/
noncomputable def fliers (bp : Boxplot) (X : List ℝ) : List ℝ :=
  X.filter fun x => decide (x < bp.lowerWhisker ∨ x > bp.upperWhisker)

/-- `adjusted_boxplot` on a data matrix given by its columns, robpy/univariate/adjusted_boxplot.py
21-109 without plotting; `mc` is applied per column (line 64). -/
noncomputable def adjustedBoxplot (mc : List ℝ → ℝ) (cols : List (List ℝ)) : Option (List Boxplot) :=
  cols.mapM fun X => boxplotColumn (mc X) X

end Robpy
