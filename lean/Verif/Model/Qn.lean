import Verif.Model.WeightedMedian
import Mathlib.Algebra.BigOperators.Intervals

/-! Model of `robpy/univariate/qn.py`. -/

namespace Robpy

variable {K : Type} [Field K] [LinearOrder K]

/-- The loop variables `left`, `right`, `nL`, `nR` of `Qn._calculate`
(robpy/univariate/qn.py 50-56); arrays of length `n` are functions on `0..n-1`. -/
structure QnState where
  left : ℕ → ℤ
  right : ℕ → ℤ
  nL : ℤ
  nR : ℤ

/-- Initial values, robpy/univariate/qn.py 50-56: `left = n + 1 - arange(n)`,
`right = full(n, n)`, `nL = n(n+1)//2`, `nR = n*n`. -/
def qnInit (n : ℕ) : QnState where
  left := fun i => (n : ℤ) + 1 - i
  right := fun _ => n
  nL := ((n * (n + 1) / 2 : ℕ) : ℤ)
  nR := ((n * n : ℕ) : ℤ)

/-- `y[i]` for an index already known to be in `0..n-1` (the sorted data as a function). -/
def arr (ys : List K) (i : ℕ) : K := ys.getD i 0

/-- `work = y - y[n - jhelp]` zipped with `weight`, robpy/univariate/qn.py 59-61, where
`weight = right - left + 1` and `jhelp = left + weight // 2`.  Fancy indexing raises
IndexError when an index is out of range; index `-1` means the last element. -/
def qnWork (n : ℕ) (ys : List K) (s : QnState) : Except PyErr (List (K × ℤ)) :=
  (List.range n).mapM fun i => do
    let w := s.right i - s.left i + 1
    let j ← pyIndex n ((n : ℤ) - (s.left i + w / 2))
    return (arr ys i - arr ys j, w)

/-- `P = np.searchsorted(-np.flip(y), trial - y, "left", np.arange(n))`,
robpy/univariate/qn.py 63 (`sorter = arange(n)` is the identity). -/
def qnP (ys : List K) (trial : K) (i : ℕ) : ℤ :=
  (searchsortedLeft (ys.reverse.map fun a => -a) (trial - arr ys i) : ℤ)

/-- `Q = np.searchsorted(-np.flip(y), trial - y, "right", np.arange(n)) + 1`,
robpy/univariate/qn.py 64. -/
def qnQ (ys : List K) (trial : K) (i : ℕ) : ℤ :=
  (searchsortedRight (ys.reverse.map fun a => -a) (trial - arr ys i) : ℤ) + 1

/-- One execution of the loop test and body, robpy/univariate/qn.py 58-73.
`.inr (.inl trial)`: left with `found`; `.inr (.inr s)`: left because the loop test failed. -/
def qnStep (n : ℕ) (ys : List K) (knew : ℤ) (s : QnState) :
    Except PyErr (QnState ⊕ (K ⊕ QnState)) :=
  if s.nR - s.nL > n then do
    let work ← qnWork n ys s
    let trial ← weightedMedian work
    let sumP := ∑ i ∈ Finset.range n, qnP ys trial i
    let sumQ := ∑ i ∈ Finset.range n, qnQ ys trial i
    if knew ≤ sumP then
      return .inl { s with right := qnP ys trial, nR := sumP }
    else if knew > sumQ - n then
      return .inl { s with left := qnQ ys trial, nL := sumQ - n }
    else
      return .inr (.inl trial)
  else
    return .inr (.inr s)

/-- `range(int(a), int(b + 1))` for the integers `a..b` (empty if `b < a`),
robpy/univariate/qn.py 78. -/
def pyRangeIncl (a b : ℤ) : List ℤ :=
  (List.range (b - a + 1).toNat).map fun (t : ℕ) => a + t

/-- The list `work` built after the loop, robpy/univariate/qn.py 75-79: rows `1..n-1`,
columns `left[i]..right[i]`, entries `y[i] - y[n - jj - 1 + 1]`. -/
def qnFinalWork (n : ℕ) (ys : List K) (s : QnState) : Except PyErr (List K) := do
  let rows ← (List.range' 1 (n - 1)).mapM fun i =>
    (pyRangeIncl (s.left i) (s.right i)).mapM fun jj => do
      let j ← pyIndex n ((n : ℤ) - jj - 1 + 1)
      return arr ys i - arr ys j
  return rows.flatten

/-- The code after the loop, robpy/univariate/qn.py 74-81.  Simplification: for `k < 1` or
`k > len(work)` the model reports ValueError (numpy: kth out of bounds / max of an empty
slice); the property theorems show that this never happens for `n ≥ 2`. -/
def qnFinish (n : ℕ) (ys : List K) (knew : ℤ) (r : K ⊕ QnState) : Except PyErr K :=
  match r with
  | .inl trial => .ok trial
  | .inr s => do
    let work ← qnFinalWork n ys s
    match npPartitionMax work (knew - s.nL).toNat with
    | some v => .ok v
    | none => .error .valueError

/-- The uncorrected Qn, robpy/univariate/qn.py 46-81 (`h = n // 2 + 1`,
`k = h * (h - 1) // 2`, `knew = k + n * (n + 1) // 2`); `none` = loop still running after
`fuel` iterations. -/
def qnRaw (fuel : ℕ) (X : List K) : Option (Except PyErr K) :=
  let n := X.length
  let h := n / 2 + 1
  let k := h * (h - 1) / 2
  let ys := npSort X
  let knew : ℤ := ((k + n * (n + 1) / 2 : ℕ) : ℤ)
  match runLoop (qnStep n ys knew) fuel (qnInit n) with
  | none => none
  | some (.error e) => some (.error e)
  | some (.ok r) => some (qnFinish n ys knew r)

/-- `_get_small_sample_dn(n)`, robpy/univariate/qn.py 94-117; `none` is Python's `None`
(returned for `n < 2`). -/
def smallSampleDn (n : ℕ) : Option K :=
  if n ≤ 9 then
    match n with
    | 2 => some (399 / 1000)
    | 3 => some (994 / 1000)
    | 4 => some (512 / 1000)
    | 5 => some (844 / 1000)
    | 6 => some (611 / 1000)
    | 7 => some (857 / 1000)
    | 8 => some (669 / 1000)
    | 9 => some (872 / 1000)
    | _ => none
  else if n % 2 ≠ 0 then some ((n : K) / ((n : K) + 14 / 10))
  else some ((n : K) / ((n : K) + 38 / 10))

/-- `Qn._calculate` scale part, robpy/univariate/qn.py 39-91; `None * float` raises
TypeError. -/
def qnScale (finiteCorrection consistencyCorrection : Bool) (fuel : ℕ) (X : List K) :
    Option (Except PyErr K) :=
  match qnRaw fuel X with
  | none => none
  | some (.error e) => some (.error e)
  | some (.ok q) =>
    let r1 : Except PyErr K :=
      if finiteCorrection then
        match smallSampleDn (K := K) X.length with
        | some dn => .ok (dn * q)
        | none => .error .typeError
      else .ok q
    match r1 with
    | .error e => some (.error e)
    | .ok q1 =>
      some (.ok (if consistencyCorrection then (2219144 / 1000000) * q1 else q1))

end Robpy
