import Verif.Model.LinAlg
import Verif.Model.MCD
import Mathlib.Data.Finset.Sort
import Mathlib.Data.Fintype.Sort
import Mathlib.Data.List.FinRange
import Mathlib.Analysis.SpecialFunctions.Log.Basic
import Mathlib.Analysis.Real.Pi.Bounds
import Mathlib.Order.WithBot

/-! Model of `robpy/covariance/cellmcd.py` (without the plots) and
`robpy/covariance/utils/cellmcd_utils.py`.

A data matrix is a function of row and column, `none` is NaN; infinite cells are not modelled.  The flag
matrix `W` of zeros and ones is a Boolean matrix (`true` is 1).  Index arrays `np.where(w == 1)[0]` are
replaced by the type of the positions where the pattern is 1; all of them are increasing in the code and
the products of lines 305-317, 419-432, 495-508, 533-590 and 607-616 do not depend on the order.
The code treats rows with the same pattern together (293, 480); in `deltaCell` and `predictRow` each row is
treated alone with the same formula, in `objectiveFunction` the grouping is kept. -/

namespace Robpy
open Matrix

/-- A data matrix with missing cells, the array `X` of cellmcd.py 74 (NaN is `none`). -/
abbrev Cells (n p : ℕ) := Fin n → Fin p → Option ℝ

/-- The flag matrix `W` of cellmcd.py 356: `true` for 1 (clean). -/
abbrev CellFlags (n p : ℕ) := Fin n → Fin p → Bool

/-- The positions of a pattern in increasing order, `np.where(w)[0]` (cellmcd_utils.py 26, cellmcd.py 295,
296, 412, 413, 491). -/
noncomputable def posEquiv {p : ℕ} (P : Fin p → Bool) :
    Fin (Finset.univ.filter fun j => P j = true).card ≃ {j // P j = true} :=
  ((Finset.univ.filter fun j => P j = true).orderIsoOfFin rfl).toEquiv.trans
    (Equiv.subtypeEquivRight fun j => by simp)

/-- `inverse_submatrix(sigma, sigma_inv, np.where(w)[0])`, cellmcd_utils.py 30, cellmcd.py 496, 533, 575,
613, re-indexed by the positions themselves. -/
noncomputable def patInv {p : ℕ} (A Ainv : Matrix (Fin p) (Fin p) ℝ) (P : Fin p → Bool) :
    Except PyErr (Matrix {j // P j = true} {j // P j = true} ℝ) :=
  (inverseSubmatrix A Ainv fun k => (posEquiv P k).1).map fun R =>
    R.submatrix (posEquiv P).symm (posEquiv P).symm

/-- The cells of a row at the positions of a pattern (cellmcd_utils.py 32, cellmcd.py 427, 500, 546, 586,
614): `none` if one of them is NaN, in which case every number computed from them is NaN. -/
def obsVals {p : ℕ} (x : Fin p → Option ℝ) (P : Fin p → Bool) : Option ({j // P j = true} → ℝ) :=
  if ∀ j : {j // P j = true}, (x j.1).isSome = true then some fun j => (x j.1).getD 0 else none

/-- A sum of numbers some of which may be NaN (`np.sum`, cellmcd_utils.py 34). -/
def optSum (l : List (Option ℝ)) : Option ℝ :=
  if l.all Option.isSome then some (l.map fun a => a.getD 0).sum else none

/-- `np.unique(W, axis=0)`, cellmcd_utils.py 23: the different rows in lexicographic order. -/
def uniqueRows {n p : ℕ} (W : CellFlags n p) : List (Fin p → Bool) :=
  (List.ofFn W).dedup.mergeSort fun a b => decide (List.ofFn a ≤ List.ofFn b)

/-- The addend of one pattern, cellmcd_utils.py 25-36 (`slogdet` of a singular matrix is `-inf` in numpy,
0 here). -/
noncomputable def patternTerm {n p : ℕ} (X : Cells n p) (W : CellFlags n p) (loc : Fin p → ℝ)
    (cov covInv : Matrix (Fin p) (Fin p) ℝ) (w : Fin p → Bool) : Except PyErr (Option ℝ) :=
  (patInv cov covInv w).map fun R =>
    optSum (((List.finRange n).filter fun i => decide (W i = w)).map fun i =>
      (obsVals (X i) w).map fun x =>
        quadForm R (fun j => x j - loc j.1) +
          Real.log (cov.submatrix (fun j : {j // w j = true} => j.1) fun j => j.1).det +
          Real.log (2 * Real.pi) * Fintype.card {j // w j = true})

/-- `objective_function`, cellmcd_utils.py 6-38. -/
noncomputable def objectiveFunction {n p : ℕ} (X : Cells n p) (W : CellFlags n p) (loc : Fin p → ℝ)
    (cov covInv : Matrix (Fin p) (Fin p) ℝ) : Except PyErr (Option ℝ) :=
  (mapExcept (patternTerm X W loc cov covInv) (uniqueRows W)).map optSum

/-- `np.sum(q * np.sum(1 - W, axis=0))`, cellmcd.py 363 and 380. -/
noncomputable def flagPenalty {n p : ℕ} (q : Fin p → ℝ) (W : CellFlags n p) : ℝ :=
  ∑ j, q j * ∑ i, (1 - if W i j = true then (1 : ℝ) else 0)

/-- Prediction of variable `j` from the positions of a pattern, cellmcd.py 501, 545-549, 584-589, 616;
`R` is the inverse of the block of the pattern. -/
noncomputable def regress {p : ℕ} (mu : Fin p → ℝ) (sigma : Matrix (Fin p) (Fin p) ℝ) {P : Fin p → Bool}
    (R : Matrix {j // P j = true} {j // P j = true} ℝ) (y : {j // P j = true} → ℝ) (j : Fin p) : ℝ :=
  mu j + ((fun k => y k - mu k.1) ᵥ* R) ⬝ᵥ fun k => sigma k.1 j

/-- Variance of variable `j` given the positions of a pattern, cellmcd.py 503-508, 534-539, 576-581. -/
noncomputable def regVar {p : ℕ} (sigma : Matrix (Fin p) (Fin p) ℝ) {P : Fin p → Bool}
    (R : Matrix {j // P j = true} {j // P j = true} ℝ) (j : Fin p) : ℝ :=
  sigma j j - ((fun k : {j // P j = true} => sigma j k.1) ᵥ* R) ⬝ᵥ fun k => sigma k.1 j

/-- One entry of `_calculate_delta`, cellmcd.py 466-517: `inf` (the inner `⊤`) for a missing cell (478),
NaN (the outer `⊤`, which `np.argsort` sorts last) when a cell of the pattern is missing. -/
noncomputable def deltaCell {n p : ℕ} (X : Cells n p) (W : CellFlags n p)
    (sigma sigmaInv : Matrix (Fin p) (Fin p) ℝ) (mu : Fin p → ℝ) (j : Fin p) (i : Fin n) :
    Except PyErr (WithTop (WithTop ℝ)) :=
  match X i j with
  | none => .ok ((⊤ : WithTop ℝ) : WithTop (WithTop ℝ))
  | some x =>
    let w0 := Function.update (W i) j false
    if ∃ k, w0 k = true then
      (patInv sigma sigmaInv w0).map fun R =>
        match obsVals (X i) w0 with
        | none => ⊤
        | some y =>
          let c := regVar sigma R j
          (((x - regress mu sigma R y j) ^ 2 / c + Real.log c + Real.log (2 * Real.pi) : ℝ) : WithTop ℝ)
    else
      .ok ((((x - mu j) ^ 2 / sigma j j + Real.log (sigma j j) + Real.log (2 * Real.pi) : ℝ) : WithTop ℝ) :
        WithTop (WithTop ℝ))

/-- A loop over the rows that fills an array and may raise (cellmcd.py 411, 480). -/
def collect {α : Type} : {n : ℕ} → (Fin n → Except PyErr α) → Except PyErr (Fin n → α)
  | 0, _ => .ok Fin.elim0
  | _ + 1, f => (f 0).bind fun a => (collect fun i => f i.succ).map fun g => Fin.cons a g

/-- The cells of one column that are set to 1, cellmcd.py 456-459. -/
noncomputable def goodCells {n : ℕ} (delta : Fin n → WithTop (WithTop ℝ)) (q : ℝ) (h : ℕ) : List (Fin n) :=
  let good := (List.finRange n).filter fun i => decide (delta i ≤ ((q : WithTop ℝ) : WithTop (WithTop ℝ)))
  if good.length < h then
    ((List.finRange n).mergeSort fun a b => decide (delta a ≤ delta b)).take h
  else good

/-- `np.argsort(np.sum(W, axis=0), kind="stable")`, cellmcd.py 453. -/
def columnOrder {n p : ℕ} (W : CellFlags n p) : List (Fin p) :=
  (List.finRange p).mergeSort fun a b =>
    decide ((Finset.univ.filter fun i => W i a = true).card ≤ (Finset.univ.filter fun i => W i b = true).card)

/-- One pass of the loop of `_update_W`, cellmcd.py 455-462: the column is replaced in place. -/
noncomputable def updateColumn {n p : ℕ} (X : Cells n p) (sigma sigmaInv : Matrix (Fin p) (Fin p) ℝ)
    (mu q : Fin p → ℝ) (h : ℕ) (W : CellFlags n p) (j : Fin p) : Except PyErr (CellFlags n p) :=
  (collect fun i => deltaCell X W sigma sigmaInv mu j i).map fun delta =>
    fun i k => if k = j then decide (i ∈ goodCells delta (q j) h) else W i k

/-- The loop of `_update_W` over the columns in the given order, cellmcd.py 454-462. -/
noncomputable def updateColumns {n p : ℕ} (X : Cells n p) (sigma sigmaInv : Matrix (Fin p) (Fin p) ℝ)
    (mu q : Fin p → ℝ) (h : ℕ) : List (Fin p) → CellFlags n p → Except PyErr (CellFlags n p)
  | [], W => .ok W
  | j :: js, W =>
    (updateColumn X sigma sigmaInv mu q h W j).bind (updateColumns X sigma sigmaInv mu q h js)

/-- `_update_W`, cellmcd.py 439-464. -/
noncomputable def updateW {n p : ℕ} (X : Cells n p) (sigma sigmaInv : Matrix (Fin p) (Fin p) ℝ)
    (mu q : Fin p → ℝ) (h : ℕ) (W : CellFlags n p) : Except PyErr (CellFlags n p) :=
  updateColumns X sigma sigmaInv mu q h (columnOrder W) W

/-- The imputed row and its contribution to `bias`, one pass of the loop cellmcd.py 411-432.
Simplification: if a cell marked as clean is NaN, the code obtains a NaN location and covariance and the
eigendecomposition of line 378 fails on it; the model raises LinAlgError here. -/
noncomputable def imputeRow {p : ℕ} (mu : Fin p → ℝ) (sigma sigmaInv : Matrix (Fin p) (Fin p) ℝ)
    (w : Fin p → Bool) (x : Fin p → Option ℝ) :
    Except PyErr ((Fin p → ℝ) × Matrix (Fin p) (Fin p) ℝ) :=
  match obsVals x w with
  | none => .error .linAlgError
  | some y =>
    if ∀ j, w j = true then .ok (fun j => (x j).getD 0, 0)
    else if ∀ j, w j = false then .ok (mu, sigma)
    else
      let mis := fun j : {j // ¬ w j = true} => j.1
      let obs := fun j : {j // w j = true} => j.1
      (npInv (sigmaInv.submatrix mis mis)).map fun D =>
        (fun j => if hj : w j = true then y ⟨j, hj⟩
          else mu j - ((D * sigmaInv.submatrix mis obs) *ᵥ fun k => y k - mu k.1) ⟨j, hj⟩,
         fun j k => if hj : w j = true then 0 else if hk : w k = true then 0 else D ⟨j, hj⟩ ⟨k, hk⟩)

/-- `_C_step` after the update of `W`, cellmcd.py 409-435: the new location and covariance. -/
noncomputable def emStep {n p : ℕ} (X : Cells n p) (W : CellFlags n p) (mu : Fin p → ℝ)
    (sigma sigmaInv : Matrix (Fin p) (Fin p) ℝ) :
    Except PyErr ((Fin p → ℝ) × Matrix (Fin p) (Fin p) ℝ) :=
  (collect fun i => imputeRow mu sigma sigmaInv (W i) (X i)).map fun r =>
    let rows := List.ofFn fun i => (r i).1
    (meanRow rows,
      (((n : ℝ) - 1) / n) • npCov rows + (n : ℝ)⁻¹ • ∑ i, (r i).2)

/-- What `_C_steps_until_convergence` takes from numpy and scipy: `np.linalg.eigh` and the ordering of the
eigenvalues (alter_covariance.py 15-17), `chi2.ppf(0.99, 1)` (cellmcd.py 361). -/
structure CellEnv (p : ℕ) where
  eigh : ∀ A : Matrix (Fin p) (Fin p) ℝ, A.IsSymm → Eigh A
  order : (Fin p → ℝ) → Equiv.Perm (Fin p)
  chi99 : ℝ

/-- The variables carried from one C-step to the next, cellmcd.py 369-372 and 385-389. -/
structure CellState (n p : ℕ) where
  W : CellFlags n p
  location : Fin p → ℝ
  cov : Matrix (Fin p) (Fin p) ℝ
  covInv : Matrix (Fin p) (Fin p) ℝ
  objective : Option ℝ

/-- `objective_function(...) + penalty`, cellmcd.py 364-367 and 380-381. -/
noncomputable def penalised {n p : ℕ} (X : Cells n p) (q : Fin p → ℝ) (W : CellFlags n p) (loc : Fin p → ℝ)
    (cov covInv : Matrix (Fin p) (Fin p) ℝ) : Except PyErr (Option ℝ) :=
  (objectiveFunction X W loc cov covInv).map fun o => o.map fun v => v + flagPenalty q W

/-- The body of the `while` loop up to line 381 of cellmcd.py: the new state and
`np.max(np.abs(cov - cov_old))`, taken before the truncation. -/
noncomputable def cellIter {n p : ℕ} (env : CellEnv p) (minEig : ℝ) (X : Cells n p) (q : Fin p → ℝ) (h : ℕ)
    (s : CellState n p) : Except PyErr (CellState n p × ℝ) :=
  (updateW X s.cov s.covInv s.location q h s.W).bind fun W =>
    (emStep X W s.location s.cov s.covInv).bind fun r =>
      let conv := ⨆ jk : Fin p × Fin p, |r.2 jk.1 jk.2 - s.cov jk.1 jk.2|
      let cov := truncatedCovariance env.eigh env.order r.2 minEig
      (npInv cov).bind fun covInv =>
        (penalised X q W r.1 cov covInv).map fun obj =>
          ({ W := W, location := r.1, cov := cov, covInv := covInv, objective := obj }, conv)

/-- `objective_value > objective_values[step]`, cellmcd.py 382: false if one of them is NaN. -/
noncomputable def objGreater : Option ℝ → Option ℝ → Bool
  | some a, some b => decide (b < a)
  | _, _ => false

/-- The `while` loop, cellmcd.py 373-391, with the number of C-steps left.  `_update_W` works in place
(462), so `W` and `W_old` are one array: the early return on line 383 returns the old location and
covariance together with the new `W`. -/
noncomputable def cellLoop {n p : ℕ} (env : CellEnv p) (minEig crit : ℝ) (X : Cells n p) (q : Fin p → ℝ)
    (h : ℕ) : ℕ → CellState n p → Except PyErr (CellState n p)
  | 0, s => .ok s
  | k + 1, s =>
    (cellIter env minEig X q h s).bind fun r =>
      if objGreater r.1.objective s.objective then .ok { s with W := r.1.W }
      else if crit < r.2 then cellLoop env minEig crit X q h k r.1
      else .ok r.1

/-- Python's `round` to an integer (halves to even), cellmcd.py 355. -/
noncomputable def pyRound (x : ℝ) : ℤ :=
  if x - ⌊x⌋ < 1 / 2 then ⌊x⌋
  else if 1 / 2 < x - ⌊x⌋ then ⌊x⌋ + 1
  else if Even ⌊x⌋ then ⌊x⌋ else ⌊x⌋ + 1

/-- `h`, cellmcd.py 355. -/
noncomputable def cellH (alpha : ℝ) (n : ℕ) : ℕ := (pyRound (alpha * n)).toNat

/-- `initial_W`, cellmcd.py 356-357. -/
def initialW {n p : ℕ} (X : Cells n p) : CellFlags n p := fun i j => (X i j).isSome

/-- The penalties `q`, cellmcd.py 360-362. -/
noncomputable def cellQ {p : ℕ} (env : CellEnv p) (covInv0 : Matrix (Fin p) (Fin p) ℝ) (j : Fin p) : ℝ :=
  env.chi99 - Real.log (covInv0 j j) + Real.log (2 * Real.pi)

/-- The parameters of `CellMCD` that the C-steps use, cellmcd.py 66-70 (`max_c_steps` may be any integer).
`cutoff` is `np.sqrt(chi2.ppf(quantile, 1))` of line 645. -/
structure CellConfig where
  cutoff : ℝ
  crit : ℝ
  maxSteps : ℤ
  minEig : ℝ

/-- `_C_steps_until_convergence`, cellmcd.py 338-391.  A negative `max_c_steps` fails on line 358 or 364;
if the loop body is never executed, `location` is not bound on line 391. -/
noncomputable def cStepsUntilConvergence {n p : ℕ} (env : CellEnv p) (cfg : CellConfig) (alpha : ℝ)
    (X : Cells n p) (loc0 : Fin p → ℝ) (cov0 covInv0 : Matrix (Fin p) (Fin p) ℝ) :
    Except PyErr (CellState n p) :=
  if cfg.maxSteps < -1 then .error .valueError
  else
    (penalised X (cellQ env covInv0) (initialW X) loc0 cov0 covInv0).bind fun obj =>
      if cfg.maxSteps = -1 then .error .indexError
      else if cfg.maxSteps = 0 ∨ 1 ≤ cfg.crit then .error .unboundLocalError
      else
        cellLoop env cfg.minEig cfg.crit X (cellQ env covInv0) (cellH alpha n) cfg.maxSteps.toNat
          { W := initialW X, location := loc0, cov := cov0, covInv := covInv0, objective := obj }

/-- The predictions and conditional variances of one row, `_make_predictions`, cellmcd.py 283-336 and
519-634.  NaN (`none`) if a cell that is marked as clean is missing. -/
noncomputable def predictRow {p : ℕ} (mu : Fin p → ℝ) (sigma sigmaInv : Matrix (Fin p) (Fin p) ℝ)
    (w : Fin p → Bool) (x : Fin p → Option ℝ) : Except PyErr (Fin p → Option ℝ × ℝ) :=
  if ∀ j, w j = true then
    -- `_predict_no_missing`, 594-619
    collect fun j =>
      (patInv sigma sigmaInv fun k => decide (k ≠ j)).map fun R =>
        ((obsVals x fun k => decide (k ≠ j)).map fun y => regress mu sigma R y j, 1 / sigmaInv j j)
  else if ∀ j, w j = false then
    -- `_predict_all_missing`, 621-634
    .ok fun j => (some (mu j), sigmaInv j j)
  else
    -- `_predict_missing_values`, 519-551
    (patInv sigma sigmaInv w).bind fun R =>
      collect fun j =>
        if w j = true then
          -- `_predict_observed_values`, 553-592
          if Fintype.card {k // w k = true} = 1 then .ok (some (mu j), sigma j j)
          else
            let others := Function.update w j false
            (patInv sigma sigmaInv others).map fun Ro =>
              ((obsVals x others).map fun y => regress mu sigma Ro y j, regVar sigma Ro j)
        else .ok ((obsVals x w).map fun y => regress mu sigma R y j, regVar sigma R j)

/-- `_make_predictions`, cellmcd.py 283-336. -/
noncomputable def makePredictions {n p : ℕ} (X : Cells n p) (sigma sigmaInv : Matrix (Fin p) (Fin p) ℝ)
    (mu : Fin p → ℝ) (W : CellFlags n p) : Except PyErr (Fin n → Fin p → Option ℝ × ℝ) :=
  collect fun i => predictRow mu sigma sigmaInv (W i) (X i)

/-- The number of cells of column `j` beyond the cutoff, cellmcd.py 646 (a comparison with NaN is false). -/
noncomputable def marginalOutliers {n p : ℕ} (cutoff : ℝ) (X : Cells n p) (j : Fin p) : ℕ :=
  (Finset.univ.filter fun i => ∃ x, X i j = some x ∧ cutoff < |x|).card

/-- The number of cells of column `j` that are missing or beyond the cutoff, cellmcd.py 653-654. -/
noncomputable def badCells {n p : ℕ} (cutoff : ℝ) (X : Cells n p) (j : Fin p) : ℕ :=
  (Finset.univ.filter fun i => X i j = none ∨ ∃ x, X i j = some x ∧ cutoff < |x|).card

open Classical in
/-- `_check_data`, cellmcd.py 636-665 (at least one row and one column). -/
noncomputable def cellCheck {n p : ℕ} (cutoff alpha : ℝ) (X : Cells n p) : Except PyErr Unit :=
  if ∃ j, 1 - alpha < (marginalOutliers cutoff X j : ℝ) / n then .error .valueError
  else if ∃ j, 1 - alpha < (badCells cutoff X j : ℝ) / n then .error .valueError
  else if n < 5 * p then .error .valueError
  else .ok ()

/-- `self.alpha = np.max([self.alpha, (int(n / 2) + 1.0) / n])`, cellmcd.py 77-85: the attribute is
overwritten; outside `[0.5, 1]` ValueError. -/
noncomputable def cellAlpha (alpha : ℝ) (n : ℕ) : Except PyErr ℝ :=
  if 0.5 ≤ alpha ∧ alpha ≤ 1 then .ok (max alpha (((n / 2 : ℕ) + 1.0) / n)) else .error .valueError

/-- Line 105 of cellmcd.py: cells beyond 3 are set to NaN. -/
noncomputable def clearBeyond3 {n p : ℕ} (X : Cells n p) : Cells n p := fun i j =>
  (X i j).bind fun x => if 3 < |x| then none else some x

/-- Line 93 of cellmcd.py, `scaler.transform(X)`. -/
noncomputable def scaleCells {n p : ℕ} (ls : Fin p → ℝ × ℝ) (X : Cells n p) : Cells n p := fun i j =>
  (X i j).bind fun x => if (ls j).2 = 0 then none else some ((x - (ls j).1) / (ls j).2)

/-- Results stored by `fit`, cellmcd.py 128-135 (the residuals, 122-126, are in
Model/CellPlot.lean). -/
structure CellResult (n p : ℕ) where
  W : CellFlags n p
  location : Fin p → ℝ
  covariance : Matrix (Fin p) (Fin p) ℝ
  predictions : Fin n → Fin p → Option ℝ
  stds : Fin n → Fin p → ℝ
  imputed : Cells n p

/-- What `calculate_covariance` calls besides: the robust scale estimator of one column (91, with
`ignore_nan=True`) and `InitialDDCW` (100-104: location, covariance, precision). -/
structure CellExt (p : ℕ) where
  est : List (Option ℝ) → Except PyErr (ℝ × ℝ)
  ddcw : {n : ℕ} → ℝ → ℝ → Cells n p →
    Except PyErr ((Fin p → ℝ) × Matrix (Fin p) (Fin p) ℝ × Matrix (Fin p) (Fin p) ℝ)

/-- Steps 4 and 5 of `calculate_covariance`, cellmcd.py 111-123: back to the original units. -/
noncomputable def cellBack {n p : ℕ} (X : Cells n p) (ls : Fin p → ℝ × ℝ) (s : CellState n p)
    (pr : Fin n → Fin p → Option ℝ × ℝ) : CellResult n p :=
  { W := s.W
    location := fun j => (ls j).1 + s.location j * (ls j).2
    covariance := Matrix.diagonal (fun j => (ls j).2) * s.cov * Matrix.diagonal fun j => (ls j).2
    predictions := fun i j => (pr i j).1.map fun v => (ls j).1 + v * (ls j).2
    stds := fun i j => Real.sqrt (pr i j).2 * (ls j).2
    imputed := fun i j =>
      if s.W i j = true then X i j else (pr i j).1.map fun v => (ls j).1 + v * (ls j).2 }

/-- `calculate_covariance`, cellmcd.py 86-137, after the check of `alpha`; `madRaw` models
`median_abs_deviation(X, nan_policy="omit")` (88; NaN for a column without values, whose comparison on
line 89 is false). -/
noncomputable def cellFitFrom {n p : ℕ} (env : CellEnv p) (ext : CellExt p) (cfg : CellConfig) (alpha : ℝ)
    (X : Cells n p) : Except PyErr (CellResult n p) :=
  if ∃ j, ∃ s, madRaw ((List.ofFn fun i => X i j).filterMap id) = some s ∧ s < 1e-8 then .error .valueError
  else
    (collect fun j => ext.est (List.ofFn fun i => X i j)).bind fun ls =>
      (cellCheck cfg.cutoff alpha (scaleCells ls X)).bind fun _ =>
        (ext.ddcw alpha cfg.minEig (scaleCells ls X)).bind fun init =>
          (cStepsUntilConvergence env cfg alpha (clearBeyond3 (scaleCells ls X)) init.1 init.2.1 init.2.2).bind
            fun s =>
              (makePredictions (clearBeyond3 (scaleCells ls X)) s.cov s.covInv s.location s.W).map fun pr =>
                cellBack X ls s pr

/-- A fitted or unfitted object: `alpha` is overwritten by `fit` (83), the results are stored at the end
(128-135). -/
structure CellObj (p : ℕ) where
  alpha : ℝ
  result : Option (Σ n, CellResult n p)

/-- `fit` of `CellMCD`, cellmcd.py 74-137 called from base.py 53-90, and the object afterwards. -/
noncomputable def cellFit {n p : ℕ} (env : CellEnv p) (ext : CellExt p) (cfg : CellConfig) (obj : CellObj p)
    (X : Cells n p) : Except PyErr (CellResult n p) × CellObj p :=
  match cellAlpha obj.alpha n with
  | .error e => (.error e, obj)
  | .ok a =>
    match cellFitFrom env ext cfg a X with
    | .error e => (.error e, { obj with alpha := a })
    | .ok r => (.ok r, { alpha := a, result := some ⟨n, r⟩ })

end Robpy
