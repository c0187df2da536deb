import Verif.Model.LinAlg
import Verif.Model.UnivariateMCD

/-! Model of `robpy/covariance/mcd.py`: FastMCD and DetMCD.

Data: a list of rows, a row is a function on the columns `m`; `p = Fintype.card m`.  Index arrays are
`List ℕ`.  Random draws come from an arbitrary generator `Rng`; `np.argsort` (not a stable sort) is an
arbitrary `ArgSort`.  The chi-square quantiles and the gamma factor are parameters.
Simplification: the code sorts and compares Mahalanobis distances, the model their squares; the square
root is strictly increasing, so the order and the comparison with a square root are the same. -/

namespace Robpy
open Matrix

/-- `xs[idx]` with an index array (mcd.py 250, 150).  Indices that are out of range are dropped
(numpy raises IndexError); the index arrays of the code are always in range. -/
def takeAt {α : Type} (xs : List α) (idx : List ℕ) : List α := idx.filterMap fun i => xs[i]?

/-- `np.argsort` (mcd.py 192): any function that returns a permutation of the positions in which the
values are non-decreasing; nothing is assumed about ties. -/
structure ArgSort (K : Type) [LE K] where
  toFun : List K → List ℕ
  perm : ∀ d, (toFun d).Perm (List.range d.length)
  sorted : ∀ d, (takeAt d (toFun d)).Pairwise (· ≤ ·)

/-- `np.random.default_rng` (mcd.py 104): `sample` models `rng.choice(n, k, replace=False)` (265), `pick`
models `rng.choice(array)` (255); arbitrary apart from the documented contract. -/
structure Rng (G : Type) where
  sample : G → ℕ → ℕ → List ℕ × G
  pick : G → List ℕ → ℕ × G
  sample_length : ∀ g n k, k ≤ n → (sample g n k).1.length = k
  sample_nodup : ∀ g n k, k ≤ n → (sample g n k).1.Nodup
  sample_lt : ∀ g n k, k ≤ n → ∀ i ∈ (sample g n k).1, i < n
  pick_mem : ∀ g l, l ≠ [] → (pick g l).1 ∈ l

/-- An execution: `none` if a loop does not end within the given number of rounds, otherwise the value
or the exception. -/
abbrev Run (α : Type) := Option (Except PyErr α)

/-- Sequencing of executions (statement after statement in every function of mcd.py). -/
def Run.andThen {α β : Type} : Run α → (α → Run β) → Run β
  | none, _ => none
  | some (.error e), _ => some (.error e)
  | some (.ok a), f => f a

/-- A list comprehension whose body may raise (mcd.py 112-115, 119-122): left to right, the first
exception ends it. -/
def mapExcept {α β : Type} (f : α → Except PyErr β) : List α → Except PyErr (List β)
  | [] => .ok []
  | a :: l => (f a).bind fun b => (mapExcept f l).map fun bs => b :: bs

section
variable {K : Type} [Field K] [LinearOrder K] {m : Type} [Fintype m] [DecidableEq m]

/-- `HSubset`, mcd.py 18-24. -/
structure HSubset (K m : Type) where
  indices : List ℕ
  location : m → K
  scale : Matrix m m K
  determinant : K
  nCSteps : ℕ

/-- `np.linalg.det(np.cov(rows, rowvar=False))`, mcd.py 251-252: for a single column `np.cov` returns a
0-dimensional array, for which `np.linalg.det` raises LinAlgError. -/
def npDetCov (cov : Matrix m m K) : Except PyErr K :=
  if Fintype.card m = 1 then .error .linAlgError else .ok cov.det

/-- `_get_subset` without resampling, mcd.py 250-252 and 260 (FastMCD), 485-487 and 495 (DetMCD). -/
def getSubset (X : List (m → K)) (idx : List ℕ) (steps : ℕ) : Except PyErr (HSubset K m) :=
  (npDetCov (npCov (takeAt X idx))).map fun d =>
    { indices := idx, location := meanRow (takeAt X idx), scale := npCov (takeAt X idx),
      determinant := d, nCSteps := steps }

/-- One pass of the `while` loop of `_get_subset` with `ensure_non_singular=True`, mcd.py 253-259.
`math.isclose(det, 0)` has no absolute tolerance and holds only for `det == 0`; choosing from an empty
array raises ValueError. -/
def growStep {G : Type} (rng : Rng G) (X : List (m → K)) (st : List ℕ × G) :
    Except PyErr ((List ℕ × G) ⊕ (HSubset K m × G)) :=
  (getSubset X st.1 0).bind fun s =>
    if s.determinant = 0 then
      if (List.range X.length).filter (fun i => i ∉ st.1) = [] then .error .valueError
      else
        .ok (.inl (st.1 ++ [(rng.pick st.2 ((List.range X.length).filter fun i => i ∉ st.1)).1],
          (rng.pick st.2 ((List.range X.length).filter fun i => i ∉ st.1)).2))
    else .ok (.inr (s, st.2))

/-- One element of `_get_initial_subsets`, mcd.py 263-270: `p + 1` distinct rows, extended until the
covariance is not singular.  Sampling more rows than there are raises ValueError. -/
def initialSubset {G : Type} (rng : Rng G) (X : List (m → K)) (fuel : ℕ) (g : G) :
    Run (HSubset K m × G) :=
  if X.length < Fintype.card m + 1 then some (.error .valueError)
  else runLoop (growStep rng X) fuel (rng.sample g X.length (Fintype.card m + 1))

/-- `_get_initial_subsets`, mcd.py 262-270. -/
def initialSubsets {G : Type} (rng : Rng G) (X : List (m → K)) (fuel : ℕ) :
    ℕ → G → Run (List (HSubset K m) × G)
  | 0, g => some (.ok ([], g))
  | n + 1, g => (initialSubset rng X fuel g).andThen fun r =>
      (initialSubsets rng X fuel n r.2).andThen fun rs => some (.ok (r.1 :: rs.1, rs.2))

/-- `int((n + p + 1) / 2)`, mcd.py 199. -/
def hMin (n p : ℕ) : ℕ := (n + p + 1) / 2

/-- `_get_h`, mcd.py 196-221 (FastMCD), 438-463 (DetMCD), warnings not modelled.  `n / 2 <= alpha` is
written `n ≤ 2 * alpha`; an int `alpha` outside `[n/2, n]` is accepted only if it equals 1. -/
def mcdGetH [FloorSemiring K] (alpha : Alpha K) (n p : ℕ) : Except PyErr ℕ :=
  match alpha with
  | .none => .ok (hMin n p)
  | .int z =>
    if (n : ℤ) ≤ 2 * z ∧ z ≤ n then .ok (max z.toNat (hMin n p))
    else if z = 1 then .ok (max n (hMin n p))
    else .error .valueError
  | .float a =>
    if 1 ≤ 2 * a ∧ a ≤ 1 then .ok (max ⌊a * (n : K)⌋₊ (hMin n p)) else .error .valueError

/-- `_perform_c_step`, mcd.py 177-194 (FastMCD), 497-513 (DetMCD). -/
def cStep [FloorSemiring K] (srt : ArgSort K) (alpha : Alpha K) (X : List (m → K)) (s : HSubset K m) :
    Except PyErr (HSubset K m) :=
  (sqMahalanobis X s.location s.scale).bind fun d =>
    (mcdGetH alpha X.length (Fintype.card m)).bind fun h =>
      getSubset X ((srt.toFun d).take h) (s.nCSteps + 1)

/-- `_perform_multiple_c_steps`, mcd.py 170-175. -/
def multiCSteps [FloorSemiring K] (srt : ArgSort K) (alpha : Alpha K) (X : List (m → K)) :
    ℕ → HSubset K m → Except PyErr (HSubset K m)
  | 0, s => .ok s
  | k + 1, s => (cStep srt alpha X s).bind (multiCSteps srt alpha X k)

/-- `sorted(subsets, key=lambda x: x.determinant)[:n_best]`, mcd.py 117, 124.  The sort is stable, as
Python's. -/
def nBest (k : ℕ) (l : List (HSubset K m)) : List (HSubset K m) :=
  (l.insertionSort fun a b => a.determinant ≤ b.determinant).take k

/-- `np.all(new_subset.indices == subset.indices)`, mcd.py 131: numpy (1.26 in poetry.lock) raises ValueError when the shapes
cannot be broadcast (different lengths, none of them 1). -/
def indicesEqual (a b : List ℕ) : Except PyErr Bool :=
  if a.length = b.length then .ok (decide (a = b))
  else if a.length = 1 then .ok (b.all fun j => a.all fun i => i == j)
  else if b.length = 1 then .ok (a.all fun i => b.all fun j => i == j)
  else .error .valueError

/-- One pass of the `while True` loop, mcd.py 128-135 (FastMCD), 339-346 (DetMCD). -/
def convergeStep [FloorSemiring K] (srt : ArgSort K) (alpha : Alpha K) (tol : K) (X : List (m → K))
    (s : HSubset K m) : Except PyErr (HSubset K m ⊕ HSubset K m) :=
  (cStep srt alpha X s).bind fun new =>
    (indicesEqual new.indices s.indices).bind fun eq =>
      if eq = true ∨ new.determinant - s.determinant < tol then .ok (.inr s) else .ok (.inl new)

/-- The `for subset in best_subsets` loop, mcd.py 127-137 (FastMCD), 338-348 (DetMCD); `best` is the best
subset so far. -/
def convergeAll [FloorSemiring K] (srt : ArgSort K) (alpha : Alpha K) (tol : K) (X : List (m → K))
    (fuel : ℕ) : List (HSubset K m) → HSubset K m → Run (HSubset K m)
  | [], best => some (.ok best)
  | s :: l, best => Run.andThen (runLoop (convergeStep srt alpha tol X) fuel s) fun s' =>
      convergeAll srt alpha tol X fuel l (if s'.determinant < best.determinant then s' else best)

/-- Lines 124-138: `best_subsets[0]` raises IndexError if there is no candidate. -/
def convergeFrom [FloorSemiring K] (srt : ArgSort K) (alpha : Alpha K) (tol : K) (X : List (m → K))
    (fuel : ℕ) : List (HSubset K m) → Run (HSubset K m)
  | [] => some (.error .indexError)
  | s :: l => convergeAll srt alpha tol X fuel (s :: l) s

/-- Constructor arguments of FastMCD and DetMCD used after validation, mcd.py 27-97, 274-317, and the
external constants: `chi50`, `chi975` = `chi2.ppf(0.5 / 0.975, p)`, `gammaFactor` (156-158). -/
structure MCDConfig (K : Type) where
  alpha : Alpha K
  nInitialSubsets : ℕ
  nInitialCSteps : ℕ
  nBestSubsets : ℕ
  nPartitions : Option ℕ
  tol : K
  correct : Bool
  reweighting : Bool
  chi50 : K
  chi975 : K
  gammaFactor : K

/-- Lengths of the parts made by `np.array_split(X, k)`, mcd.py 229: the first `n % k` parts have one
row more. -/
def splitSizes (n k : ℕ) : List ℕ :=
  List.replicate (n % k) (n / k + 1) ++ List.replicate (k - n % k) (n / k)

/-- Consecutive parts of the given lengths (helper for `np.array_split`, mcd.py 229). -/
def splitBy {α : Type} : List ℕ → List α → List (List α)
  | [], _ => []
  | k :: ks, xs => xs.take k :: splitBy ks (xs.drop k)

/-- Number of partitions, mcd.py 224-227. -/
def numPartitions (nPartitions : Option ℕ) (n : ℕ) : ℕ :=
  match nPartitions with
  | some k => k
  | none => if 600 < n then 5 else 1

/-- `_partition_data`, mcd.py 223-229: `np.array_split` raises ValueError for 0 parts. -/
def partitionData {α : Type} (nPartitions : Option ℕ) (X : List α) : Except PyErr (List (List α)) :=
  if numPartitions nPartitions X.length = 0 then .error .valueError
  else .ok (splitBy (splitSizes X.length (numPartitions nPartitions X.length)) X)

/-- The body of the loop over the partitions, mcd.py 112-117. -/
def partitionBest [FloorSemiring K] {G : Type} (srt : ArgSort K) (rng : Rng G) (cfg : MCDConfig K)
    (n0 : ℕ) (data : List (m → K)) (g : G) : Run (List (HSubset K m) × G) :=
  (initialSubsets rng data (data.length + 1) n0 g).andThen fun r =>
    some ((mapExcept (multiCSteps srt cfg.alpha data cfg.nInitialCSteps) r.1).map fun ss =>
      (nBest cfg.nBestSubsets ss, r.2))

/-- The loop over the partitions, mcd.py 109-117. -/
def partitionsBest [FloorSemiring K] {G : Type} (srt : ArgSort K) (rng : Rng G) (cfg : MCDConfig K)
    (n0 : ℕ) : List (List (m → K)) → G → Run (List (HSubset K m) × G)
  | [], g => some (.ok ([], g))
  | data :: ps, g => (partitionBest srt rng cfg n0 data g).andThen fun r =>
      (partitionsBest srt rng cfg n0 ps r.2).andThen fun rs => some (.ok (r.1 ++ rs.1, rs.2))

/-- The search for the best subset, mcd.py 104-138. -/
def fastSearch [FloorSemiring K] {G : Type} (srt : ArgSort K) (rng : Rng G) (cfg : MCDConfig K)
    (X : List (m → K)) (fuel : ℕ) (g : G) : Run (HSubset K m) :=
  Run.andThen (some (partitionData cfg.nPartitions X)) fun ps =>
    (partitionsBest srt rng cfg (cfg.nInitialSubsets / ps.length) ps g).andThen fun r =>
      Run.andThen (some (mapExcept (multiCSteps srt cfg.alpha X cfg.nInitialCSteps) r.1)) fun ss =>
        convergeFrom srt cfg.alpha cfg.tol X fuel (nBest cfg.nBestSubsets ss)

/-- What `calculate_covariance` leaves behind: `location_`, the returned matrix, `best_subset` and
`_mask` (absent on the early return). -/
structure CovFit (K m : Type) where
  location : m → K
  covariance : Matrix m m K
  best : Option (HSubset K m)
  mask : Option (List Bool)

/-- `_correct_covariance`, mcd.py 163-168, 515-520 (there is at least one row, so the median exists). -/
def correctCovariance (chi50 : K) (X : List (m → K)) (s : HSubset K m) : Except PyErr (Matrix m m K) :=
  (sqMahalanobis X s.location s.scale).map fun d => ((npMedian d).getD 0 / chi50) • s.scale

/-- The rows selected by a mask, `X[mask]` (mcd.py 150). -/
def maskRows {α : Type} (mask : List Bool) (X : List α) : List α :=
  ((mask.zip X).filter fun t => t.1).map fun t => t.2

/-- reweighting, mcd.py 146-159, 357-370.  With fewer than two selected rows the covariance is NaN, which
`_set_covariance` rejects with ValueError; the model raises it here. -/
def reweight (cfg : MCDConfig K) (X : List (m → K)) (s : HSubset K m) (scale : Matrix m m K) :
    Except PyErr (CovFit K m) :=
  (sqMahalanobis X s.location scale).bind fun d =>
    let mask := d.map fun v => decide (v < cfg.chi975)
    let rows := maskRows mask X
    if rows.length < 2 then .error .valueError
    else .ok { location := meanRow rows,
               covariance := if cfg.correct then cfg.gammaFactor • npCov rows else npCov rows,
               best := some s, mask := some mask }

/-- Post processing, mcd.py 140-161, 352-372. -/
def postProcess (cfg : MCDConfig K) (X : List (m → K)) (s : HSubset K m) : Except PyErr (CovFit K m) :=
  (if cfg.correct then correctCovariance cfg.chi50 X s else .ok s.scale).bind fun scale =>
    if cfg.reweighting then reweight cfg X s scale
    else .ok { location := s.location, covariance := scale, best := some s, mask := none }

/-- `self.alpha == 1 or self.alpha == X.shape[0]`, mcd.py 100, 320. -/
def alphaIsAll (alpha : Alpha K) (n : ℕ) : Bool :=
  match alpha with
  | .none => false
  | .int z => decide (z = 1 ∨ z = n)
  | .float a => decide (a = 1 ∨ a = (n : K))

/-- Lines 101-103, 321-323: mean and classical covariance. -/
def classicalFit (X : List (m → K)) : CovFit K m :=
  { location := meanRow X, covariance := npCov X, best := none, mask := none }

/-- `FastMCD.calculate_covariance`, mcd.py 99-161.  `g` is the state of the generator made from
`random_seed`. -/
def fastMCD [FloorSemiring K] {G : Type} (srt : ArgSort K) (rng : Rng G) (cfg : MCDConfig K)
    (X : List (m → K)) (fuel : ℕ) (g : G) : Run (CovFit K m) :=
  if alphaIsAll cfg.alpha X.length then some (.ok (classicalFit X))
  else (fastSearch srt rng cfg X fuel g).andThen fun s => some (postProcess cfg X s)

/-- `DetMCD.calculate_covariance`, mcd.py 319-372, from line 426 on: `inits` are the six index arrays
`idx_h0` of line 429; how they are computed from the data (lines 327-429) is `detInits` in
`Verif/Model/DetMCD.lean`. -/
def detMCD [FloorSemiring K] (srt : ArgSort K) (cfg : MCDConfig K) (X : List (m → K)) (fuel : ℕ)
    (inits : List (List ℕ)) : Run (CovFit K m) :=
  if alphaIsAll cfg.alpha X.length then some (.ok (classicalFit X))
  else
    Run.andThen (some (mapExcept (fun idx => (getSubset X idx 0).bind (cStep srt cfg.alpha X)) inits))
      fun ss => (convergeFrom srt cfg.alpha cfg.tol X fuel ss).andThen fun s =>
        some (postProcess cfg X s)

end
end Robpy
