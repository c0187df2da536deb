import Verif.Model.MCD
import Verif.Model.Scaling

/-! Model of `robpy/covariance/base.py` (the common `fit`), `kendall.py`, `ogk.py` and `wrapping.py`. -/

namespace Robpy
open Matrix

/-! ### `RobustCovariance.fit` -/

section
variable {K : Type} [Field K] [LinearOrder K] {m : Type} [Fintype m] [DecidableEq m]

/-- The fitted attributes of a `RobustCovariance` (robpy/covariance/base.py 74-88), `none` = absent.
`precision_` is a function of `covariance_` and is not stored separately; distances are stored squared. -/
structure CovState (K m : Type) where
  location_ : Option (m → K)
  covariance_ : Option (Matrix m m K)
  correlation_ : Option (Matrix m m K)
  robustDist : Option (List K)
  classicDist : Option (List K)

/-- The method `calculate_covariance` (base.py 92-93) as seen by `fit`: it may change attributes, and it
raises or returns a matrix; `.ok none` is an array that `_set_covariance` rejects: it contains a NaN or is
0-dimensional. -/
abbrev CalcCov (K m : Type) :=
  List (m → K) → CovState K m → Except PyErr (Option (Matrix m m K)) × CovState K m

/-- `fit`, base.py 74-90, on validated data.  `_set_covariance` of scikit-learn (79) rejects a matrix with NaN with
ValueError.  `pinvh` (81) does not raise on finite matrices and is not modelled.  For a single column `np.cov` (82) is
a 0-d array and `np.linalg.inv` in line 86 raises LinAlgError. -/
def covFitValid (assumeCentered : Bool) (calcCov : CalcCov K m) (st : CovState K m) (X : List (m → K)) :
    Except PyErr Unit × CovState K m :=
  let st1 := { st with location_ := some (if assumeCentered then fun _ => 0 else meanRow X) }
  match calcCov X st1 with
  | (.error e, st2) => (.error e, st2)
  | (.ok none, st2) => (.error .valueError, st2)
  | (.ok (some cov), st2) =>
    let st3 := { st2 with covariance_ := some cov }
    let loc := st3.location_.getD fun _ => 0
    match sqMahalanobis X loc cov with
    | .error e => (.error e, st3)
    | .ok d =>
      let st4 := { st3 with robustDist := some d }
      if Fintype.card m = 1 then (.error .linAlgError, st4)
      else
        match sqMahalanobis X loc (npCov X) with
        | .error e => (.error e, st4)
        | .ok d' => (.ok (), { st4 with classicDist := some d' })

/-- `fit` of an estimator with `nans_allowed=False`, base.py 53-90.  A cell `none` is a NaN; the
validation (66-72) rejects NaN cells and empty data with ValueError. -/
def covFit (assumeCentered : Bool) (calcCov : CalcCov K m) (st : CovState K m) (cells : List (m → Option K)) :
    Except PyErr Unit × CovState K m :=
  if cells = [] ∨ ∃ r ∈ cells, ∃ j, r j = none then (.error .valueError, st)
  else covFitValid assumeCentered calcCov st (cells.map fun r j => (r j).getD 0)

/-- A new object: no fitted attributes (base.py 27-51). -/
def CovState.new : CovState K m := ⟨none, none, none, none, none⟩

/-- A history of `fit` calls, exceptions caught by the caller (base.py 53-90). -/
def covRun (assumeCentered : Bool) (calcCov : CalcCov K m) (st : CovState K m) :
    List (List (m → Option K)) → CovState K m
  | [] => st
  | X :: l => covRun assumeCentered calcCov (covFit assumeCentered calcCov st X).2 l

/-- Property `covariance`, base.py 95-99. -/
def CovState.covariance (st : CovState K m) : Except PyErr (Matrix m m K) :=
  match st.covariance_ with
  | none => .error .notFittedError
  | some c => .ok c

/-- Property `correlation`, base.py 101-105. -/
def CovState.correlation (st : CovState K m) : Except PyErr (Matrix m m K) :=
  match st.correlation_ with
  | none => .error .attributeError
  | some c => .ok c

/-- `FastMCD.calculate_covariance` as a method (mcd.py 99-161): on success it sets `location_`.  For a
single column only the branch of lines 100-103 succeeds; `np.cov` is then a 0-d array, which `_set_covariance`
rejects with ValueError (`.ok none`).  A run
that fails in the reweighting step has already set it to the location of the best subset; the model
keeps the location set by `fit` in that case.  `fuel` bounds the convergence loop (see `C76_loop_ends`); a
run that exceeds it is not described (LinAlgError is returned here). -/
def fastMCDCalc [FloorSemiring K] {G : Type} (srt : ArgSort K) (rng : Rng G) (cfg : MCDConfig K) (fuel : ℕ)
    (g : G) : CalcCov K m := fun X st =>
  match fastMCD srt rng cfg X fuel g with
  | some (.ok fit) =>
    (.ok (if Fintype.card m = 1 then none else some fit.covariance), { st with location_ := some fit.location })
  | some (.error e) => (.error e, st)
  | none => (.error .linAlgError, st)

end

/-! ### Kendall -/

section
variable {p : ℕ}

/-- Column `j` of the data, `X.T` / `X[:, j]` (robpy/covariance/kendall.py 16, 21; ogk.py 71). -/
def column {K : Type} (X : List (Fin p → K)) (j : Fin p) : List K := X.map fun x => x j

/-- Number of concordant minus number of discordant pairs (contract of `scipy.stats.kendalltau`, called at
robpy/covariance/kendall.py 21). -/
noncomputable def conMinusDis : List (ℝ × ℝ) → ℝ
  | [] => 0
  | a :: l => (l.map fun b => npSign (a.1 - b.1) * npSign (a.2 - b.2)).sum + conMinusDis l

/-- Number of pairs that are not tied (contract of `scipy.stats.kendalltau`). -/
noncomputable def untied : List ℝ → ℝ
  | [] => 0
  | a :: l => (l.countP fun b => a ≠ b : ℕ) + untied l

/-- `kendalltau(x, y).statistic` (tau-b, scipy), robpy/covariance/kendall.py 21: NaN (`none`) if one of
the samples is constant.  scipy also clips the value to [-1, 1], which only concerns rounding. -/
noncomputable def kendallTau (x y : List ℝ) : Option ℝ :=
  if untied x = 0 ∨ untied y = 0 then none
  else some (conMinusDis (x.zip y) / Real.sqrt (untied x) / Real.sqrt (untied y))

/-- `KendallTau.calculate_covariance`, robpy/covariance/kendall.py 14-25; `scale` is `Qn().fit(col).scale`
(line 16), which may raise.  `correlation_` is set (line 25) also when it contains a NaN, which is stored as 0
here; the result then contains a NaN. -/
noncomputable def kendallCalc (scale : List ℝ → Except PyErr ℝ) : CalcCov ℝ (Fin p) := fun X st =>
  match mapExcept scale ((List.finRange p).map (column X)) with
  | .error e => (.error e, st)
  | .ok scales =>
    let s : Fin p → ℝ := fun i => scales.getD i 0
    let tau : Fin p → Fin p → Option ℝ := fun i j =>
      if i = j then some 1
      else if j < i then kendallTau (column X i) (column X j)
      else kendallTau (column X j) (column X i)
    let cor : Matrix (Fin p) (Fin p) ℝ := fun i j => (tau i j).getD 0
    let cov : Matrix (Fin p) (Fin p) ℝ := fun i j => if i = j then s i ^ 2 else
      if j < i then cor i j * s i * s j else cor i j * s j * s i
    let st' := { st with correlation_ := some cor }
    if ∃ i j, tau i j = none then (.ok none, st') else (.ok (some cov), st')

/-! ### OGK -/

/-- The matrix `U` of robpy/covariance/ogk.py 65-74: unit diagonal, the entries below the diagonal are computed
and copied above it. -/
def ogkU (cor : Fin p → Fin p → ℝ) : Matrix (Fin p) (Fin p) ℝ := fun i j =>
  if i = j then 1 else if j < i then cor i j else cor j i

theorem ogkU_isSymm (cor : Fin p → Fin p → ℝ) : (ogkU cor).IsSymm := by
  refine Matrix.IsSymm.ext fun i j => ?_
  unfold ogkU
  rcases lt_trichotomy i j with h | h | h
  · rw [if_neg (Ne.symm h.ne), if_pos h, if_neg h.ne, if_neg h.not_gt]
  · rw [if_pos h, if_pos h.symm]
  · rw [if_neg h.ne, if_neg h.not_gt, if_neg (Ne.symm h.ne), if_pos h]

/-- `_, E = np.linalg.eigh(U)` and `E = E[:, ::-1]`, robpy/covariance/ogk.py 75-76. -/
noncomputable def ogkE (eigh : ∀ A : Matrix (Fin p) (Fin p) ℝ, A.IsSymm → Eigh A) (cor : Fin p → Fin p → ℝ) :
    Matrix (Fin p) (Fin p) ℝ :=
  (eigh (ogkU cor) (ogkU_isSymm cor)).V.submatrix id Fin.rev

/-- One pass of the loop of `OGK.calculate_covariance`, robpy/covariance/ogk.py 62-78: the new data and
the matrix `D @ E`; `none` when a scale is 0 or a correlation is 0/0 (numpy goes on with inf/NaN, from
which `eigh` or `_set_covariance` raises).  `est` is the scale estimator, applied to columns. -/
noncomputable def ogkStep (eigh : ∀ A : Matrix (Fin p) (Fin p) ℝ, A.IsSymm → Eigh A) (est : List ℝ → ℝ)
    (Z : List (Fin p → ℝ)) : Option (List (Fin p → ℝ) × Matrix (Fin p) (Fin p) ℝ) :=
  let s : Fin p → ℝ := fun i => est (column Z i)
  let Y := Z.map fun z j => z j / s j
  let sum : Fin p → Fin p → ℝ := fun i j => est (Y.map fun y => y i + y j)
  let diff : Fin p → Fin p → ℝ := fun i j => est (Y.map fun y => y i - y j)
  let cor : Fin p → Fin p → ℝ := fun i j =>
    (sum i j ^ 2 - diff i j ^ 2) / (sum i j ^ 2 + diff i j ^ 2)
  if (∃ i, s i = 0) ∨ ∃ i j, j < i ∧ sum i j ^ 2 + diff i j ^ 2 = 0 then none
  else
    let E := ogkE eigh cor
    some (Y.map fun y => y ᵥ* E, Matrix.diagonal s * E)

/-- The loop of ogk.py 61-78: the final data and the list `DE`. -/
noncomputable def ogkLoop (eigh : ∀ A : Matrix (Fin p) (Fin p) ℝ, A.IsSymm → Eigh A) (est : List ℝ → ℝ) :
    ℕ → List (Fin p → ℝ) → Option (List (Fin p → ℝ) × List (Matrix (Fin p) (Fin p) ℝ))
  | 0, Z => some (Z, [])
  | k + 1, Z => (ogkStep eigh est Z).bind fun r => (ogkLoop eigh est k r.1).map fun q => (q.1, r.2 :: q.2)

/-- Raw location and covariance, ogk.py 58-86. -/
noncomputable def ogkRaw (eigh : ∀ A : Matrix (Fin p) (Fin p) ℝ, A.IsSymm → Eigh A) (loc est : List ℝ → ℝ)
    (iterations : ℕ) (X : List (Fin p → ℝ)) : Option ((Fin p → ℝ) × Matrix (Fin p) (Fin p) ℝ) :=
  (ogkLoop eigh est iterations X).map fun r =>
    r.2.foldr (fun mat q => (mat *ᵥ q.1, mat * q.2 * matᵀ))
      (fun i => loc (column r.1 i), Matrix.diagonal fun i => est (column r.1 i) ^ 2)

/-- Reweighting, ogk.py 87-94; `ratio` is `sqrt(chi2.ppf(beta, p) / chi2.ppf(0.5, p))`.  The matrix is `none`
when `_set_covariance` rejects it with ValueError: NaN for fewer than two selected rows, a 0-d array for a single
column.  The mean of no rows is NaN in numpy and 0 here. -/
noncomputable def ogkReweight (ratio : ℝ) (X : List (Fin p → ℝ)) (mu : Fin p → ℝ)
    (cov : Matrix (Fin p) (Fin p) ℝ) :
    Except PyErr ((Fin p → ℝ) × Option (Matrix (Fin p) (Fin p) ℝ)) :=
  (mahalanobis X mu cov).map fun d =>
    let cutoff := ratio * (npMedian d).getD 0
    let rows := maskRows (d.map fun v => decide (v < cutoff)) X
    (meanRow rows, if rows.length < 2 ∨ p = 1 then none else some (npCov rows))

/-- `OGK.calculate_covariance`, robpy/covariance/ogk.py 58-97. -/
noncomputable def ogkCalc (eigh : ∀ A : Matrix (Fin p) (Fin p) ℝ, A.IsSymm → Eigh A) (loc est : List ℝ → ℝ)
    (iterations : ℕ) (reweighting : Bool) (ratio : ℝ) : CalcCov ℝ (Fin p) := fun X st =>
  match ogkRaw eigh loc est iterations X with
  | none => (.ok none, st)
  | some (mu, cov) =>
    if reweighting then
      match ogkReweight ratio X mu cov with
      | .error e => (.error e, st)
      | .ok (mu', cov') => (.ok cov', { st with location_ := some mu' })
    else (.ok (some cov), { st with location_ := some mu })

/-! ### Wrapping -/

/-- The wrapped data as rows, `wrapping_transformation(X, ..., rescale=True)`, robpy/covariance/wrapping.py
77-79: median and MAD of each column, see `wrapColumn`. -/
noncomputable def wrappedRows (b c q1 q2 : ℝ) (locEst scaleEst : List ℝ → ℝ) (X : List (Fin p → ℝ)) :
    List (Fin p → ℝ) :=
  let cols : Fin p → List ℝ := fun j =>
    wrapColumn b c q1 q2 true (locEst (column X j)) (scaleEst (column X j)) (column X j)
  (List.range X.length).map fun i j => (cols j).getD i 0

/-- `WrappingCovariance.calculate_covariance`, robpy/covariance/wrapping.py 67-81.  With a single column
`np.cov` is a 0-d array, which `_set_covariance` rejects with ValueError (as it rejects NaN). `np.corrcoef`
has NaN entries for a constant wrapped column (0 here); it is only stored. -/
noncomputable def wrappingCalc (b c q1 q2 : ℝ) (locEst scaleEst : List ℝ → ℝ) : CalcCov ℝ (Fin p) :=
  fun X st =>
    let W := wrappedRows b c q1 q2 locEst scaleEst X
    let st' := { st with correlation_ := some (covarianceToCorrelation (npCov W)) }
    if Fintype.card (Fin p) = 1 ∨ X.length < 2 then (.ok none, st') else (.ok (some (npCov W)), st')

end
end Robpy
