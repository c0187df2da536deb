import Verif.Model.OneStepM
import Verif.Model.MCD

/-!
Model of `robpy/outliers/ddc.py` (class `DDC`; the plotting method `cellmap` and its colour map are in
`Model/CellMap.lean`).

Numbers: the code is modelled over an arbitrary type `F` of numbers with the operations the code uses
(`DDCEnv`), so the theorems about `DDCEnv` hold for IEEE arithmetic (with NaN and infinities, and with any
rounding) as well as for the exact arithmetic `realEnv` at the end of this file, where NaN is `none`.
-/

namespace Robpy

/-- A `pd.DataFrame` as `ddc.py` reads it: the shape, whether every column has a numeric dtype
(`X.select_dtypes(include=np.number).shape == X.shape`, ddc.py 126 and 307), and the cells.
Simplification: column names and the row index are not modelled (the code works by position); `cell` is
total, only `k < n`, `i < p` is meaningful. -/
structure CellFrame (F : Type) where
  n : ℕ
  p : ℕ
  numeric : Bool
  cell : ℕ → ℕ → F

/-- The operations and external routines used by ddc.py: arithmetic and comparisons of numpy (`lt`, `le`,
`eqb` are `<`, `<=`, `==`, false on NaN), `np.isnan`, the infinities (ddc.py 61), `.round(3)` (ddc.py 213),
`np.clip(., -0.99, 0.99)` (ddc.py 349-359), `np.median` (ddc.py 370), the correlation `np.corrcoef(.)[0, 1]`
of a list of pairs (ddc.py 364), `mahalanobis_distance` of a pair from the origin under
`[[1, c], [c, 1]]` (ddc.py 360-362), `np.linalg.lstsq` with one regressor (ddc.py 375), `chi2.cdf(., df=1)`
and `np.nanmean` of a row (ddc.py 186), the user's `scale_estimator` (ddc.py 315) and `CellwiseOneStepM()`
(ddc.py 163, 188, 352-353, 372), both returning `(location, scale)` or raising. -/
structure DDCEnv (F : Type) where
  nan : F
  zero : F
  one : F
  half : F
  four : F
  isNaN : F → Bool
  isInf : F → Bool
  add : F → F → F
  sub : F → F → F
  mul : F → F → F
  div : F → F → F
  abs : F → F
  lt : F → F → Bool
  le : F → F → Bool
  eqb : F → F → Bool
  round3 : F → F
  clip : F → F
  median : List F → F
  corrcoef : List (F × F) → F
  mahal : F → F × F → F
  lstsq : List (F × F) → F
  chi2cdf : F → F
  nanmean : List F → F
  est : List F → Except PyErr (F × F)
  osm : List F → Except PyErr (F × F)

/-- `__init__`, ddc.py 54-57: `self.cutoff` and `self.min_correlation` (the scale estimator is in
`DDCEnv`).  Simplification: `cutoff = sqrt(chi2.ppf(chi2_quantile, 1))` is a parameter. -/
structure DDCConfig (F : Type) where
  cutoff : F
  minCorrelation : F

/-- The attributes set by `fit` (ddc.py 72-98, 161, 188, 313); `none`: the object has no such attribute
(`__init__` sets none of them, ddc.py 54-57).  `cellwise_outliers_` keeps its number of columns, which
`predict` reads (ddc.py 121). -/
structure DDCState (F : Type) where
  location : Option (List F) := none
  scale : Option (List F) := none
  corr : Option (ℕ → ℕ → F) := none
  slopes : Option (ℕ → ℕ → F) := none
  rawPred : Option (ℕ → ℕ → F) := none
  deshrink : Option (ℕ → F) := none
  pred : Option (ℕ → ℕ → F) := none
  resScales : Option (ℕ → F) := none
  cellwise : Option (ℕ × (ℕ → ℕ → Bool)) := none
  stdRes : Option (ℕ → ℕ → F) := none
  tScale : Option (F × F) := none
  rowOut : Option (ℕ → Bool) := none
  isFitted : Option Bool := none
  rescaled : Option (ℕ → ℕ → F) := none

section
variable {F : Type} (env : DDCEnv F)

/-- A loop over `range(p)` that fills an array and may raise (ddc.py 79-87, 161-168): the array as a
function of the index. -/
def tabulate (p : ℕ) (f : ℕ → Except PyErr F) : Except PyErr (ℕ → F) :=
  (mapExcept f (List.range p)).map fun l i => l.getD i env.nan

/-- The double loop that fills a matrix and may raise (ddc.py 336-364, 379-389), row by row. -/
def tabulate2 (p : ℕ) (f : ℕ → ℕ → Except PyErr F) : Except PyErr (ℕ → ℕ → F) :=
  (mapExcept (fun i => tabulate env p (f i)) (List.range p)).map fun l i => l.getD i fun _ => env.nan

/-- `X.replace([np.inf, -np.inf], np.nan)`, ddc.py 61, 128, 203. -/
def replaceInf (X : CellFrame F) : CellFrame F :=
  { X with cell := fun k i => if env.isInf (X.cell k i) then env.nan else X.cell k i }

/-- `~np.isnan`. -/
def DDCEnv.ok (x : F) : Bool := !env.isNaN x

/-- Column `i` of a frame as a list, in row order (`X.iloc[:, i]`, ddc.py 315; `raw_residuals[:, i]`,
ddc.py 164). -/
def colList (n : ℕ) (c : ℕ → ℕ → F) (i : ℕ) : List F := (List.range n).map fun k => c k i

/-- `X.nunique()` of one column (ddc.py 309): the number of distinct values, NaN not counted; an infinite
value counts. -/
def distinctCells [DecidableEq F] (X : CellFrame F) (i : ℕ) : ℕ :=
  ((colList X.n X.cell i).filter env.ok).dedup.length

/-- `_check_data_conditions`, ddc.py 306-310. -/
def ddcCheck [DecidableEq F] (X : CellFrame F) : Except PyErr Unit :=
  if !X.numeric then .error .valueError
  else if (List.range X.p).any fun i => decide (distinctCells env X i ≤ 3) then .error .valueError
  else .ok ()

/-- `_fit_scaler`, ddc.py 313-317: the lists `location_`, `scale_` as far as they were filled, and the
exception, if any. -/
def fitScaler (X : CellFrame F) : List ℕ → List F → List F → Except PyErr Unit × List F × List F
  | [], ls, ss => (.ok (), ls, ss)
  | i :: is, ls, ss =>
    match env.est ((colList X.n X.cell i).filter env.ok) with
    | .error e => (.error e, ls, ss)
    | .ok (l, s) => fitScaler X is (ls ++ [l]) (ss ++ [s])

/-- `_standardize`, ddc.py 319-322.  pandas raises ValueError when the length of the list differs from the
number of columns. -/
def standardize (st : DDCState F) (X : CellFrame F) : Except PyErr (ℕ → ℕ → F) :=
  match st.location, st.scale with
  | some ls, some ss =>
    if ls.length = X.p ∧ ss.length = X.p then
      .ok fun k i => env.div (env.sub (X.cell k i) (ls.getD i env.nan)) (ss.getD i env.nan)
    else .error .valueError
  | _, _ => .error .valueError

/-- `np.where(np.abs(Z) > self.cutoff, np.nan, Z)`, ddc.py 66-70, 131-135, 206-210. -/
def univariateFlag (cutoff z : F) : F := if env.lt cutoff (env.abs z) then env.nan else z

/-- The rows of two columns in which neither cell is NaN, ddc.py 343-344 and 383-384. -/
def commonRows (n : ℕ) (U : ℕ → ℕ → F) (i j : ℕ) : List (F × F) :=
  ((List.range n).map fun k => (U k i, U k j)).filter fun xy => env.ok xy.1 && env.ok xy.2

/-- The correlation of one pair of columns, ddc.py 343-364. -/
def pairCorr (cutoff : F) (xy : List (F × F)) : Except PyErr F :=
  if xy.isEmpty then .ok env.zero
  else
    (env.osm (xy.map fun q => env.add q.1 q.2)).bind fun sp =>
    (env.osm (xy.map fun q => env.sub q.1 q.2)).map fun sm =>
      let c := env.clip (env.div (env.sub (env.mul sp.2 sp.2) (env.mul sm.2 sm.2)) env.four)
      env.corrcoef (xy.filter fun q => env.lt (env.mahal c q) cutoff)

/-- `_robust_correlation`, ddc.py 335-365.  With `verbose`, line 337 computes `i % (X.shape[1] // 10)`:
for fewer than ten columns the divisor is 0.  The printed progress is not modelled. -/
def robustCorrelation (cutoff : F) (n p : ℕ) (U : ℕ → ℕ → F) (verbose : Bool) :
    Except PyErr (ℕ → ℕ → F) :=
  if verbose = true ∧ 0 < p ∧ p / 10 = 0 then .error .zeroDivisionError
  else tabulate2 env p fun i j =>
    if i = j then .ok env.one else pairCorr env cutoff (commonRows env n U (min i j) (max i j))

/-- `_robust_slope`, ddc.py 367-375, on a list of pairs `(x, y)`. -/
def robustSlope (cutoff : F) (xy : List (F × F)) : Except PyErr F :=
  if xy.all fun q => env.eqb q.1 env.zero then .ok env.zero
  else
    let slope := env.median ((xy.filter fun q => !env.eqb q.1 env.zero).map fun q => env.div q.2 q.1)
    let res := fun q : F × F => env.sub q.2 (env.mul slope q.1)
    (env.osm (xy.map res)).map fun s =>
      env.lstsq (xy.filter fun q => env.le (env.abs (res q)) (env.mul cutoff s.2))

/-- `_get_slopes`, ddc.py 378-390. -/
def getSlopes (cfg : DDCConfig F) (n p : ℕ) (U corr : ℕ → ℕ → F) : Except PyErr (ℕ → ℕ → F) :=
  tabulate2 env p fun i j =>
    if i = j then .ok env.nan
    else if env.lt (env.abs (corr i j)) cfg.minCorrelation then .ok env.nan
    else robustSlope env cfg.cutoff (commonRows env n U i j)

/-- A numpy boolean used as a factor, ddc.py 398 and 404. -/
def DDCEnv.ofBool (b : Bool) : F := if b then env.one else env.zero

/-- The weight of variable `j` for the prediction of variable `i` in a row before normalisation, ddc.py
395-404 (the constant 0.5 is in the code). -/
def predWeight (corr : ℕ → ℕ → F) (row : ℕ → F) (i j : ℕ) : F :=
  env.mul
    (env.mul (env.mul (env.abs (corr j i)) (env.ofBool (env.le env.half (env.abs (corr j i)))))
      (env.ofBool (decide (j ≠ i))))
    (env.ofBool (env.ok (row j)))

/-- `weights.sum(axis=1)`, ddc.py 406. -/
def predWeightSum (p : ℕ) (corr : ℕ → ℕ → F) (row : ℕ → F) (i : ℕ) : F :=
  ((List.range p).map (predWeight env corr row i)).foldl env.add env.zero

/-- The prediction of one cell from its row, ddc.py 406-413. -/
def predictCell (p : ℕ) (corr slopes : ℕ → ℕ → F) (row : ℕ → F) (i : ℕ) : F :=
  let s := predWeightSum env p corr row i
  let w := fun j => if env.eqb s env.zero then env.zero else env.div (predWeight env corr row i j) s
  (List.range p).foldl
    (fun acc j =>
      if env.isNaN (slopes j i) then acc
      else env.add acc (env.mul (env.mul (w j) (slopes j i)) (if env.isNaN (row j) then env.zero else row j)))
    env.zero

/-- `_get_predicted_values`, ddc.py 392-414. -/
def predictedValues (p : ℕ) (corr slopes : ℕ → ℕ → F) (U : ℕ → ℕ → F) : ℕ → ℕ → F :=
  fun k i => predictCell env p corr slopes (U k) i

/-- `self.deshrinkage_`, ddc.py 79-87. -/
def deshrinkage (cutoff : F) (n p : ℕ) (Z raw : ℕ → ℕ → F) : Except PyErr (ℕ → F) :=
  tabulate env p fun i =>
    robustSlope env cutoff (((List.range n).filter fun k => env.ok (Z k i)).map fun k => (raw k i, Z k i))

/-- `_cellwise_outliers`, ddc.py 159-172; with `fit` the scales of the residuals are stored first.
`none` for `residual_scales` is a missing attribute. -/
def cellwiseOutliers (cutoff : F) (st : DDCState F) (n p : ℕ) (Z pred : ℕ → ℕ → F) (fit : Bool) :
    Except PyErr ((ℕ → ℕ → Bool) × (ℕ → ℕ → F)) × DDCState F :=
  let raw := fun k i => env.sub (Z k i) (pred k i)
  let finish := fun st : DDCState F =>
    match st.resScales with
    | none => (.error .attributeError, st)
    | some s =>
      let std := fun k i => env.div (raw k i) (s i)
      (.ok (fun k i => env.lt cutoff (env.abs (std k i)), std), st)
  if fit then
    match tabulate env p fun i => (env.osm ((colList n raw i).filter env.ok)).map Prod.snd with
    | .error e => (.error e, st)
    | .ok s => finish { st with resScales := some s }
  else finish st

/-- `_rowwise_outliers`, ddc.py 186-193; with `fit` the scale of the row values is stored first. -/
def rowwiseOutliers (cutoff : F) (st : DDCState F) (n p : ℕ) (std : ℕ → ℕ → F) (fit : Bool) :
    Except PyErr (ℕ → Bool) × DDCState F :=
  let t := fun k => env.nanmean ((List.range p).map fun i => env.chi2cdf (env.mul (std k i) (std k i)))
  let finish := fun st : DDCState F =>
    match st.tScale with
    | none => (.error .attributeError, st)
    | some (l, s) => (.ok (fun k => env.lt cutoff (env.div (env.sub (t k) l) s)), st)
  if fit then
    match env.osm ((List.range n).map t) with
    | .error e => (.error e, st)
    | .ok ls => finish { st with tScale := some ls }
  else finish st

/-- Lines 98, 213: `predictions * self.scale_ + self.location_` (before rounding). -/
def rescale (ls ss : List F) (pred : ℕ → ℕ → F) : ℕ → ℕ → F :=
  fun k i => env.add (env.mul (pred k i) (ss.getD i env.nan)) (ls.getD i env.nan)

/-- `fit` from step 2 on, ddc.py 66-99; `ls`, `ss` are `location_` and `scale_`, already stored. -/
def fitFrom (cfg : DDCConfig F) (verbose : Bool) (n p : ℕ) (Z : ℕ → ℕ → F) (ls ss : List F)
    (st : DDCState F) : Except PyErr Unit × DDCState F :=
  let U := fun k i => univariateFlag env cfg.cutoff (Z k i)
  match robustCorrelation env cfg.cutoff n p U verbose with
  | .error e => (.error e, st)
  | .ok corr =>
    let st := { st with corr := some corr }
    match getSlopes env cfg n p U corr with
    | .error e => (.error e, st)
    | .ok slopes =>
      let raw := predictedValues env p corr slopes U
      let st := { st with slopes := some slopes, rawPred := some raw }
      match deshrinkage env cfg.cutoff n p Z raw with
      | .error e => (.error e, st)
      | .ok d =>
        let pred := fun k i => env.mul (raw k i) (d i)
        let st := { st with deshrink := some d, pred := some pred }
        match cellwiseOutliers env cfg.cutoff st n p Z pred true with
        | (.error e, st) => (.error e, st)
        | (.ok (flags, std), st) =>
          let st := { st with cellwise := some (p, flags), stdRes := some std }
          match rowwiseOutliers env cfg.cutoff st n p std true with
          | (.error e, st) => (.error e, st)
          | (.ok rows, st) =>
            (.ok (), { st with rowOut := some rows, isFitted := some true,
                               rescaled := some (rescale env ls ss pred) })

/-- `fit`, ddc.py 59-99: the outcome and the state of the object afterwards (also after an exception). -/
def ddcFit [DecidableEq F] (cfg : DDCConfig F) (verbose : Bool) (st : DDCState F) (X : CellFrame F) :
    Except PyErr Unit × DDCState F :=
  match ddcCheck env X with
  | .error e => (.error e, st)
  | .ok () =>
    let X := replaceInf env X
    match fitScaler env X (List.range X.p) [] [] with
    | (.error e, ls, ss) => (.error e, { st with location := some ls, scale := some ss })
    | (.ok (), ls, ss) =>
      let st := { st with location := some ls, scale := some ss }
      match standardize env st X with
      | .error e => (.error e, st)
      | .ok Z => fitFrom env cfg verbose X.n X.p Z ls ss st

/-- The part shared by `predict` (ddc.py 130-136) and `impute` (ddc.py 204-212): the standardised data and
the predictions.  Reading an attribute that does not exist raises AttributeError. -/
def ddcPredictions (cfg : DDCConfig F) (st : DDCState F) (X : CellFrame F) :
    Except PyErr ((ℕ → ℕ → F) × (ℕ → ℕ → F)) :=
  (standardize env st X).bind fun Z =>
    match st.corr, st.slopes, st.deshrink with
    | some corr, some slopes, some d =>
      let raw := predictedValues env X.p corr slopes fun k i => univariateFlag env cfg.cutoff (Z k i)
      .ok (Z, fun k i => env.mul (raw k i) (d i))
    | _, _, _ => .error .attributeError

/-- The guards of `predict` (ddc.py 119-125) and `impute` (ddc.py 196-202): `self.is_fitted_` must exist
and be true, the number of columns must be that of the last completed `fit`. -/
def ddcGuards (st : DDCState F) (X : CellFrame F) : Except PyErr Unit :=
  match st.isFitted with
  | none => .error .attributeError
  | some false => .error .valueError
  | some true =>
    match st.cellwise with
    | none => .error .attributeError
    | some (p, _) => if X.p = p then .ok () else .error .valueError

/-- What `predict` returns: the rows (`rowwise=True`) or the cells with their residuals, ddc.py 139-142. -/
inductive DDCPrediction (F : Type) where
  | rows (flags : ℕ → Bool)
  | cells (flags : ℕ → ℕ → Bool) (residuals : ℕ → ℕ → F)

/-- `predict`, ddc.py 101-142, with the state of the object afterwards. -/
def ddcPredict (cfg : DDCConfig F) (st : DDCState F) (X : CellFrame F) (rowwise : Bool) :
    Except PyErr (DDCPrediction F) × DDCState F :=
  match ddcGuards st X with
  | .error e => (.error e, st)
  | .ok () =>
    if !X.numeric then (.error .valueError, st)
    else
      let X := replaceInf env X
      match ddcPredictions env cfg st X with
      | .error e => (.error e, st)
      | .ok (Z, pred) =>
        match cellwiseOutliers env cfg.cutoff st X.n X.p Z pred false with
        | (.error e, st) => (.error e, st)
        | (.ok (flags, std), st) =>
          if rowwise then
            match rowwiseOutliers env cfg.cutoff st X.n X.p std false with
            | (.error e, st) => (.error e, st)
            | (.ok rows, st) => (.ok (.rows rows), st)
          else (.ok (.cells flags std), st)

/-- `impute`, ddc.py 195-227: the cells of the returned frame, and the state of the object afterwards.
There is no dtype check: the arithmetic of line 204 (or `np.isnan`) raises TypeError on non-numeric columns
(simplification: boolean columns, on which it would work, count as non-numeric here). -/
def ddcImpute (cfg : DDCConfig F) (st : DDCState F) (X : CellFrame F) (imputeOutliers : Bool) :
    Except PyErr (ℕ → ℕ → F) × DDCState F :=
  match ddcGuards st X with
  | .error e => (.error e, st)
  | .ok () =>
    if !X.numeric then (.error .typeError, st) else
    let X := replaceInf env X
    match ddcPredictions env cfg st X with
    | .error e => (.error e, st)
    | .ok (_, pred) =>
      match st.location, st.scale with
      | some ls, some ss =>
        let value := fun k i => env.round3 (rescale env ls ss pred k i)
        if imputeOutliers then
          match ddcPredict env cfg st X false with
          | (.error e, st) => (.error e, st)
          | (.ok (.cells flags _), st) =>
            (.ok fun k i => if flags k i || env.isNaN (X.cell k i) then value k i else X.cell k i, st)
          | (.ok (.rows _), st) => (.error .typeError, st)
        else (.ok fun k i => if env.isNaN (X.cell k i) then value k i else X.cell k i, st)
      | _, _ => (.error .attributeError, st)

/-- One call of a public method of a `DDC` object: `fit` (ddc.py 59), `predict` (ddc.py 101) or `impute`
(ddc.py 195). -/
inductive DDCCall (F : Type) where
  | fit (verbose : Bool) (X : CellFrame F)
  | predict (rowwise : Bool) (X : CellFrame F)
  | impute (imputeOutliers : Bool) (X : CellFrame F)

/-- The state after one call (ddc.py 59-99, 101-142, 195-227), also when the call raised, and whether it
returned normally. -/
def ddcCall [DecidableEq F] (cfg : DDCConfig F) (st : DDCState F) : DDCCall F → Bool × DDCState F
  | .fit v X => ((ddcFit env cfg v st X).1.toBool, (ddcFit env cfg v st X).2)
  | .predict r X => ((ddcPredict env cfg st X r).1.toBool, (ddcPredict env cfg st X r).2)
  | .impute b X => ((ddcImpute env cfg st X b).1.toBool, (ddcImpute env cfg st X b).2)

/-- The state of a `DDC` object after a sequence of calls on a new object (ddc.py 54-57, 59-227). -/
def ddcHistory [DecidableEq F] (cfg : DDCConfig F) : DDCState F → List (DDCCall F) → DDCState F
  | st, [] => st
  | st, c :: cs => ddcHistory cfg (ddcCall env cfg st c).2 cs

end

/-! ### Exact arithmetic -/

/-- An operation on numbers extended by NaN (`none`), used by `realEnv`: NaN propagates as in numpy's
`+`, `-`, `*` (ddc.py 159, 406-413). -/
def liftNaN (f : ℝ → ℝ → ℝ) : Option ℝ → Option ℝ → Option ℝ
  | some a, some b => some (f a b)
  | _, _ => none

/-- A comparison on numbers extended by NaN, false on NaN as in numpy (ddc.py 67, 170, 387). -/
noncomputable def liftRel (r : ℝ → ℝ → Prop) : Option ℝ → Option ℝ → Bool
  | some a, some b => by classical exact decide (r a b)
  | _, _ => false

/-- The values of a list when none of them is NaN. -/
def allSome : List (Option ℝ) → Option (List ℝ)
  | [] => some []
  | none :: _ => none
  | some a :: l => (allSome l).map (a :: ·)

/-- The pairs of a list without NaN (the lists handed to `np.corrcoef` and `lstsq`, ddc.py 364, 375,
contain none). -/
def somePairs (l : List (Option ℝ × Option ℝ)) : List (ℝ × ℝ) :=
  l.filterMap fun q => match q with
    | (some a, some b) => some (a, b)
    | _ => none

/-- Sum of products about the means, the numerator and denominators of `np.corrcoef` (ddc.py 364). -/
noncomputable def centredSum (f g : ℝ × ℝ → ℝ) (l : List (ℝ × ℝ)) : ℝ :=
  (l.map fun q => (f q - mean (l.map f)) * (g q - mean (l.map g))).sum

/-- `np.corrcoef(l, rowvar=False)[0, 1]` (ddc.py 364): NaN for fewer than two rows or a constant column. -/
noncomputable def pearson (l : List (ℝ × ℝ)) : Option ℝ :=
  let vx := centredSum Prod.fst Prod.fst l
  let vy := centredSum Prod.snd Prod.snd l
  if vx = 0 ∨ vy = 0 then none
  else some (centredSum Prod.fst Prod.snd l / (Real.sqrt vx * Real.sqrt vy))

/-- `np.linalg.lstsq(x.reshape(-1, 1), y, rcond=None)[0][0]` (ddc.py 375): the minimum norm solution. -/
noncomputable def lstsq1 (l : List (ℝ × ℝ)) : ℝ :=
  if (l.map fun q => q.1 * q.1).sum = 0 then 0
  else (l.map fun q => q.1 * q.2).sum / (l.map fun q => q.1 * q.1).sum

/-- `CellwiseOneStepM().fit(x)` (onestep_m.py 83-94, base.py 26-37): TukeyBisquare(c=3), Huber(b=2.5),
delta 0.845, `min_abs_scale` 1e-12. -/
noncomputable def cellwiseOSM (l : List (Option ℝ)) : Except PyErr (Option ℝ × Option ℝ) :=
  oneStepM (.tukey 3) (.huber 2.5) 0.845 (1 / 10 ^ 12) l

/-- The exact arithmetic: real numbers extended by NaN (`none`).  Simplifications: a division by zero
gives NaN (numpy gives an infinity when the numerator is not zero); there are no infinite cells; `round3`,
`chi2.cdf` and the scale estimator are parameters.  Models the numpy calls listed at `DDCEnv`. -/
noncomputable def realEnv (round3 : ℝ → ℝ) (cdf : ℝ → ℝ)
    (est : List (Option ℝ) → Except PyErr (Option ℝ × Option ℝ)) : DDCEnv (Option ℝ) where
  nan := none
  zero := some 0
  one := some 1
  half := some (1 / 2)
  four := some 4
  isNaN := Option.isNone
  isInf := fun _ => false
  add := liftNaN (· + ·)
  sub := liftNaN (· - ·)
  mul := liftNaN (· * ·)
  div := fun a b => if b = some 0 then none else liftNaN (· / ·) a b
  abs := Option.map fun a => |a|
  lt := liftRel (· < ·)
  le := liftRel (· ≤ ·)
  eqb := liftRel (· = ·)
  round3 := Option.map round3
  clip := Option.map fun a => min (max a (-0.99)) 0.99
  median := fun l => (allSome l).bind npMedian
  corrcoef := fun l => pearson (somePairs l)
  mahal := fun c q => (liftNaN (fun x y => x ^ 2 + y ^ 2) q.1 q.2).bind fun r =>
    (liftNaN (· * ·) q.1 q.2).bind fun xy => c.map fun c => Real.sqrt ((r - 2 * c * xy) / (1 - c ^ 2))
  lstsq := fun l => some (lstsq1 (somePairs l))
  chi2cdf := Option.map cdf
  nanmean := fun l => if (l.filterMap id).isEmpty then none else some (mean (l.filterMap id))
  est := est
  osm := cellwiseOSM

end Robpy
