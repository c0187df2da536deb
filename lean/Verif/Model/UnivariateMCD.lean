import Verif.Model.Basics
import Mathlib.Algebra.Order.Floor.Semiring

/-! Model of `robpy/univariate/mcd.py`. -/

namespace Robpy

/-- The argument `alpha` of the MCD estimators: `None`, a Python int or a Python float
(robpy/univariate/mcd.py 9, robpy/covariance/mcd.py 30). -/
inductive Alpha (K : Type) where
  | none
  | int (z : ℤ)
  | float (a : K)

section hsize
variable {K : Type} [Field K] [LinearOrder K] [IsStrictOrderedRing K] [FloorSemiring K]

/-- `UnivariateMCD._set_h_size`, robpy/univariate/mcd.py 76-96.  The log message is not
modelled.  `int(alpha * n)` is the floor of the exact product; `n / 2 <= alpha` is written
`n ≤ 2 * alpha`.  An int `alpha` which fails the first test reaches line 86 and is accepted
there only if it equals 1. -/
def setHSize (alpha : Alpha K) (n : ℕ) : Except PyErr ℕ :=
  match alpha with
  | .none => .ok (n / 2 + 1)
  | .int z =>
    if (n : ℤ) ≤ 2 * z ∧ z ≤ n then .ok (max z.toNat (n / 2 + 1))
    else if z = 1 then .ok (max n (n / 2 + 1))
    else .error .valueError
  | .float a =>
    if (1 / 2 ≤ a ∧ a ≤ 1) ∨ a = 1 then .ok (max ⌊a * n⌋₊ (n / 2 + 1))
    else .error .valueError

end hsize

variable {K : Type} [Field K] [LinearOrder K]

/-- `X[i : (i + h)]` of the sorted data, robpy/univariate/mcd.py 54. -/
def window (s : List K) (h i : ℕ) : List K := (s.drop i).take h

/-- Loop body of lines 53-57, robpy/univariate/mcd.py: `var_best` is `none` for `np.inf`. -/
def rawStep (s : List K) (h : ℕ) (st : Option K × ℕ) (i : ℕ) : Option K × ℕ :=
  let varNew := var (window s h i)
  match st.1 with
  | none => (some varNew, i)
  | some vb => if varNew < vb then (some varNew, i) else st

/-- Lines 48-59 of robpy/univariate/mcd.py (before the consistency factor): smallest window
variance and the mean of the first window attaining it.  `none`: the loop body never ran
(`h > n`, cannot happen after `_set_h_size` for `n ≥ 1`), numpy returns inf/NaN then. -/
def rawEstimates (h : ℕ) (X : List K) : Option (K × K) :=
  let s := npSort X
  let st := (List.range (X.length - h + 1)).foldl (rawStep s h) (none, 1)
  match st.1 with
  | none => none
  | some v => some (v, mean (window s h st.2))

/-- The mask of line 67, robpy/univariate/mcd.py: `(X - loc)**2 / var < cutoff`.  For
`var = 0` numpy yields inf or NaN and the comparison is False. -/
def rewMask (cutoff loc v x : K) : Bool :=
  if v = 0 then false else decide ((x - loc) ^ 2 / v < cutoff)

/-- `UnivariateMCD._reweighting`, robpy/univariate/mcd.py 65-74.  `corr` is the Croux &
Haesbroeck factor as a function of the fraction of retained points (a parameter, constant 1
if `consistency_correction=False`).  `none` is NaN: the mean of an empty selection. -/
def reweighting (cutoff : K) (corr : K → K) (rawVar rawLoc : K) (X : List K) : Option (K × K) :=
  let sel := X.filter (rewMask cutoff rawLoc rawVar)
  if sel.length = 0 then none
  else
    let delta : K := (sel.length : K) / (X.length : K)
    some (var sel * corr delta, mean sel)

/-- Attributes set by `UnivariateMCD._calculate`; `none` is NaN. -/
structure MCDFit (K : Type) where
  rawVariance : K
  rawLocation : K
  variance : Option K
  location : Option K

/-- `UnivariateMCD._calculate`, robpy/univariate/mcd.py 35-46 (variances instead of their
square roots).  `corrRaw h n` is the factor of line 62 (1 without correction). -/
def mcdCalculate (cutoff : K) (corrRaw : ℕ → ℕ → K) (corr : K → K) (h : ℕ) (X : List K) :
    Option (MCDFit K) :=
  if h = X.length then
    some { rawVariance := var X, rawLocation := mean X, variance := some (var X),
           location := some (mean X) }
  else
    match rawEstimates h X with
    | none => none
    | some (v, l) =>
      let rv := v * corrRaw h X.length
      let rw := reweighting cutoff corr rv l X
      some { rawVariance := rv, rawLocation := l, variance := rw.map Prod.fst,
             location := rw.map Prod.snd }

end Robpy
