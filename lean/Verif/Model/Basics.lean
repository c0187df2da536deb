import Mathlib.Data.List.Sort
import Mathlib.Data.Finset.Card
import Mathlib.Algebra.Order.Field.Basic
import Mathlib.Algebra.BigOperators.Group.Finset.Basic

/-!
# Primitives shared by all models

Python exceptions are values of `PyErr`; a function that may raise has result type
`Except PyErr α`.  Floating point numbers are elements of a linearly ordered field `K`
(exact arithmetic, see DESIGN.md); a NaN/inf result is modelled explicitly where the code
can produce one.
-/

namespace Robpy

/-- The Python exceptions the modelled code can raise. -/
inductive PyErr where
  | valueError | typeError | keyError | indexError | unboundLocalError
  | notFittedError | attributeError | linAlgError | zeroDivisionError
  deriving DecidableEq, Repr

section Loop
variable {σ α : Type*}

/-- `while` loop with fuel.  One call of `step` is one execution of the loop body: it
raises (`.error`), continues with a new state (`.ok (.inl s)`) or leaves the loop with a
result (`.ok (.inr a)`).  `none` means that the fuel ran out, so "the Python loop does not
terminate from `s`" is `∀ fuel, runLoop step fuel s = none`.
Models the Python statements `while True:` / `while cond:` themselves
(e.g. robpy/utils/median.py 17-25, robpy/univariate/qn.py 58-73). -/
def runLoop (step : σ → Except PyErr (σ ⊕ α)) : ℕ → σ → Option (Except PyErr α)
  | 0, _ => none
  | fuel + 1, s =>
    match step s with
    | .error e => some (.error e)
    | .ok (.inl s') => runLoop step fuel s'
    | .ok (.inr a) => some (.ok a)

end Loop

section Order
variable {K : Type*} [LinearOrder K]

/-- `np.sort(X)` for finite values (robpy/univariate/qn.py 49, robpy/univariate/mcd.py 50).
Simplification: the sorting algorithm is insertion sort, only the sorted result matters. -/
def npSort (xs : List K) : List K := xs.insertionSort (· ≤ ·)

/-- `np.partition(X, k - 1)[:k].max()`: the k-th smallest element
(robpy/utils/median.py 50-52, robpy/univariate/qn.py 81).  `none` when `k` is not in `1..n`:
numpy raises ValueError there (kth out of bounds, or max of an empty slice). -/
def npPartitionMax (xs : List K) (k : ℕ) : Option K :=
  if k = 0 then none else (npSort xs)[k - 1]?

/-- `np.searchsorted(a, v, "left")` on an ascending array: the number of elements `< v`
(robpy/univariate/qn.py 63). Simplification: binary search replaced by its contract. -/
def searchsortedLeft (a : List K) (v : K) : ℕ := a.countP (fun x => x < v)

/-- `np.searchsorted(a, v, "right")` on an ascending array: the number of elements `≤ v`
(robpy/univariate/qn.py 64). Simplification: binary search replaced by its contract. -/
def searchsortedRight (a : List K) (v : K) : ℕ := a.countP (fun x => x ≤ v)

end Order

/-- Python/numpy integer indexing into an axis of length `n`: negative indices count from
the end, anything outside `-n .. n-1` raises IndexError
(used by `y[n - jhelp]`, robpy/univariate/qn.py 61). -/
def pyIndex (n : ℕ) (i : ℤ) : Except PyErr ℕ :=
  if 0 ≤ i ∧ i < n then .ok i.toNat
  else if -(n : ℤ) ≤ i ∧ i < 0 then .ok (i + n).toNat
  else .error .indexError

section Field
variable {K : Type*} [Field K]

/-- `np.mean(xs)` for a non-empty list; callers guard the empty case (NaN in numpy).
(robpy/univariate/mcd.py 59). -/
def mean (xs : List K) : K := xs.sum / (xs.length : K)

/-- `np.var(xs)` (population variance, ddof = 0) for a non-empty list
(robpy/univariate/mcd.py 54). -/
def var (xs : List K) : K := mean (xs.map fun x => (x - mean xs) ^ 2)

end Field

section Median
variable {K : Type*} [Field K] [LinearOrder K]

/-- `np.median(xs)`: middle order statistic, or the mean of the two middle ones.
`none` is numpy's NaN for an empty input. (robpy/univariate/onestep_m.py 48,
robpy/univariate/tau.py 44). -/
def npMedian (xs : List K) : Option K :=
  let n := xs.length
  let s := npSort xs
  if n = 0 then none
  else if n % 2 = 1 then s[n / 2]?
  else match s[n / 2 - 1]?, s[n / 2]? with
    | some a, some b => some ((a + b) / 2)
    | _, _ => none

/-- `scipy.stats.median_abs_deviation(xs)` (scale = 1.0): median of `|x - median|`
(robpy/univariate/tau.py 43, robpy/univariate/onestep_m.py 49). -/
def madRaw (xs : List K) : Option K :=
  match npMedian xs with
  | none => none
  | some m => npMedian (xs.map fun x => |x - m|)

end Median

end Robpy
