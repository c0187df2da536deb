import Verif.Model.Scaling
import Verif.Model.RobustScale
import Verif.Model.OneStepM
import Verif.Model.Qn

/-! The univariate estimators of the package as scale estimators of `RobustScaler`
(robpy/preprocessing/scaling.py 43-47). -/

namespace Robpy

/-- The scale estimators of the package with their settings: `UnivariateMCD` (robpy/univariate/mcd.py 8-33; `cutoff` is the chi-square
quantile of line 67, `corrRaw` and `corr` the factors of lines 62 and 73), `Tau` (robpy/univariate/tau.py 7-34; `corr` is the constant of
lines 49-53), `Qn` with the default `location_func` (robpy/univariate/qn.py 7-37), `OneStepM` and its two subclasses
(robpy/univariate/onestep_m.py 10-93), `OneStepWrapping` (robpy/univariate/onestep_m.py 96-103). -/
inductive UniEst where
  | mcd (alpha : Alpha ℝ) (cutoff : ℝ) (corrRaw : ℕ → ℕ → ℝ) (corr : ℝ → ℝ)
  | tau (c1 c2 : ℝ) (corr : Option ℝ)
  | qn (finiteCorrection consistencyCorrection : Bool)
  | oneStep (loc scale : Rho ℝ) (delta minAbs : ℝ)
  | wrapping (cutoff : ℝ) (corrRaw : ℕ → ℕ → ℝ) (corr : ℝ → ℝ)

/-- `_calculate` of each estimator on a sample without NaN: the values of `location_` and `scale_`, `none` for NaN
(robpy/univariate/mcd.py 35-46, robpy/univariate/tau.py 36-53, robpy/univariate/qn.py 39-91, robpy/univariate/onestep_m.py 39-70 and
105-120).  The loop of Qn gets as many rounds as C01 shows to be enough, so the branch for a
loop that is still running is not reached (for at least two values). -/
noncomputable def UniEst.calc : UniEst → Calc ℝ (Option ℝ)
  | .mcd alpha cutoff corrRaw corr => fun ys =>
    match setHSize alpha (ys.filterMap id).length with
    | .error e => .error e
    | .ok h =>
      match mcdCalculate cutoff corrRaw corr h (ys.filterMap id) with
      | none => .ok (none, none)
      | some f => .ok (f.location, f.variance.map Real.sqrt)
  | .tau c1 c2 corr => fun ys => (tauCalculate c1 c2 corr (ys.filterMap id)).map fun r => (r.1, some r.2)
  | .qn fc cc => fun ys =>
    match qnScale fc cc ((ys.filterMap id).length * (ys.filterMap id).length + 1) (ys.filterMap id) with
    | none => .error .valueError
    | some (.error e) => .error e
    | some (.ok s) => .ok (npMedian (ys.filterMap id), some s)
  | .oneStep loc scale delta minAbs => oneStepM loc scale delta minAbs
  | .wrapping cutoff corrRaw corr => fun ys => .ok (oneStepWrapping cutoff corrRaw corr (ys.filterMap id))

/-- `self.scale_estimator.fit(X[:, j], ignore_nan)` followed by reading `location` and `scale`, robpy/preprocessing/scaling.py 43-47 with
robpy/univariate/base.py 24-51.  Simplification: NaN estimates, which the code stores and divides by, count as an error here; the
theorems about this function only speak of columns for which both estimates are numbers.  The state of the estimator before the call
does not matter: a fit that returns sets both attributes. -/
noncomputable def UniEst.column (e : UniEst) : ColEst ℝ := fun c ig =>
  match (ScaleState.new : ScaleState (Option ℝ)).fit false e.calc (.oneD c) ig with
  | (.error er, _) => .error er
  | (.ok _, st) =>
    match st.location, st.scale with
    | .ok (some l), .ok (some s) => .ok (l, s)
    | _, _ => .error .valueError

end Robpy
