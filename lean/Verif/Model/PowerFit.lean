import Verif.Model.PowerTransform
import Verif.Model.OneStepM

/-! Model of the estimation of lambda in `robpy/preprocessing/transfo.py` (475-586) and of the whole
`RobustPowerTransformer.fit`.  The numerical optimiser is a parameter. -/

namespace Robpy

/-- What the estimation takes from scipy: `minimize_scalar(f, bounds=range, method="bounded").x`
(transfo.py 516-522, 584), `norm.ppf` (503) and `np.sqrt(chi2.ppf(quantile, 1))` (541).  `none` is a value of
the objective that is not a finite number. -/
structure PTNum where
  minimize : (ℝ → Option ℝ) → ℝ × ℝ → ℝ
  ppf : ℝ → ℝ
  cutoff : ℝ

/-- `_transf_boxcox` and `_transf_yeojohnson` of an array (strictly positive for Box-Cox), transfo.py 321-362. -/
noncomputable def plainArr (fam : PTMethod) (lam : ℝ) (x : List ℝ) : List ℝ :=
  match fam with
  | .boxcox => x.map (boxcox lam)
  | .yeojohnson => x.map (yeojohnson lam)

/-- The rectified transformations of a sorted array, transfo.py 257-286, 364-410, with the defaults of lines 297
and 421.  `none`: the change point is not finite (not reached for |lambda| up to 1e5, see C22). -/
noncomputable def rectArr (fam : PTMethod) (lam : ℝ) (x : List ℝ) : Option (List ℝ) :=
  match fam with
  | .boxcox => rectBoxcoxArr lam 1.5 1e-5 x
  | .yeojohnson => rectYeojohnsonArr lam 1.5 1e-5 x

/-- Location and scale of `HuberOneStepM().fit(x)`, robpy/univariate/onestep_m.py 73-80. -/
noncomputable def huberOneStep (x : List ℝ) : Option (ℝ × ℝ) :=
  match oneStepLocation (.huber 1.5) 1e-12 x, oneStepScale (.huber 1.5) 0.7784655 1e-12 x with
  | some l, some s => some (l, s)
  | _, _ => none

/-- Lines 498-507 of transfo.py: the criterion of transformed data. -/
noncomputable def normalityCrit (num : PTNum) (y : List ℝ) : Option ℝ :=
  (huberOneStep y).map fun ls =>
    ((y.zipIdx).map fun v =>
      (Rho.tukey (1 / 2)).rho ((v.1 - ls.1) / (if ls.2 = 0 then 1 else ls.2) -
        num.ppf (((v.2 : ℝ) + 1 - 1 / 3) / ((y.length : ℝ) + 1 / 3)))).sum

/-- `_robnormality` with a rectified transformation, transfo.py 475-507 (`x` is sorted there). -/
noncomputable def robnormalityRect (num : PTNum) (fam : PTMethod) (lam : ℝ) (x : List ℝ) : Option ℝ :=
  (rectArr fam lam (npSort x)).bind (normalityCrit num)

/-- `_robnormality` with a plain transformation, transfo.py 475-507. -/
noncomputable def robnormality (num : PTNum) (fam : PTMethod) (lam : ℝ) (x : List ℝ) : Option ℝ :=
  normalityCrit num (plainArr fam lam (npSort x))

/-- `_calculate_lambda_0`, transfo.py 509-522. -/
noncomputable def lambdaRaw (num : PTNum) (fam : PTMethod) (range : ℝ × ℝ) (x : List ℝ) : ℝ :=
  num.minimize (fun lam => robnormalityRect num fam lam x) range

/-- The logarithm of the derivative, `np.log(x)` (transfo.py 569) and `np.sign(x) * np.log(1 + np.abs(x))`
(577-579). -/
noncomputable def logJacobian (fam : PTMethod) (x : ℝ) : ℝ :=
  match fam with
  | .boxcox => Real.log x
  | .yeojohnson => npSign x * Real.log (1 + |x|)

/-- `obj_func`, transfo.py 565-569, 573-579; `log(0)` and the mean of an empty array are not finite. -/
noncomputable def mlObjective (fam : PTMethod) (x : List ℝ) (lam : ℝ) : Option ℝ :=
  if x = [] ∨ var (plainArr fam lam x) = 0 then none
  else some ((x.length : ℝ) / 2 * Real.log (var (plainArr fam lam x)) - (lam - 1) * (x.map (logJacobian fam)).sum)

/-- `_estimate_max_likelihood`, transfo.py 554-586: for Box-Cox `np.min` of an empty array raises ValueError. -/
noncomputable def estimateML (num : PTNum) (fam : PTMethod) (range : ℝ × ℝ) (x : List ℝ) : Except PyErr ℝ :=
  if fam = .boxcox ∧ x = [] then .error .valueError else .ok (num.minimize (mlObjective fam x) range)

/-- `x[w]` for a boolean array `w`, transfo.py 542, 549, 550. -/
def maskTake {α : Type} (w : List Bool) (x : List α) : List α := ((x.zip w).filter (·.2)).map (·.1)

/-- `w`, transfo.py 541: a comparison with NaN is false. -/
noncomputable def inlierMask (cutoff : ℝ) (zt : List (Option ℝ)) : List Bool :=
  zt.map fun z => match z with
    | some v => decide (|v| ≤ cutoff)
    | none => false

/-- `(xt - np.mean(xt)) / np.std(xt)`, transfo.py 547. -/
noncomputable def plainStd (xt : List ℝ) : List (Option ℝ) :=
  xt.map fun v => npDiv (v - mean xt) (Real.sqrt (var xt))

/-- `zt` of the rectified transformation, transfo.py 535-538, 288-292, 412-416. -/
noncomputable def robustStd (fam : PTMethod) (lam : ℝ) (x : List ℝ) : List (Option ℝ) :=
  match (rectArr fam lam x).bind fun xt => (huberOneStep xt).map fun ls => (xt, ls) with
  | some (xt, l, s) => xt.map fun v => npDiv (v - l) s
  | none => x.map fun _ => none

/-- One pass of the loop transfo.py 540-547: lambda, the transformed data, the weights. -/
noncomputable def rewStep (num : PTNum) (fam : PTMethod) (range : ℝ × ℝ) (x : List ℝ) (zt : List (Option ℝ)) :
    Except PyErr (ℝ × List ℝ × List Bool) :=
  let w := inlierMask num.cutoff zt
  (estimateML num fam range (maskTake w x)).map fun lam => (lam, plainArr fam lam x, w)

/-- The loop transfo.py 540-547: `last` are the values of the local variables `lambda_rew`, `xt` and `w`, `none`
if they are not bound. -/
noncomputable def rewLoop (num : PTNum) (fam : PTMethod) (range : ℝ × ℝ) (x : List ℝ) :
    ℕ → List (Option ℝ) → Option (ℝ × List ℝ × List Bool) → Except PyErr (Option (ℝ × List ℝ × List Bool))
  | 0, _, last => .ok last
  | k + 1, zt, _ => (rewStep num fam range x zt).bind fun r => rewLoop num fam range x k (plainStd r.2.1) (some r)

/-- `_reweighted_max_likelihood_robust`, transfo.py 524-552.  If no observation has weight 1 the location and the
scale are NaN in the code; here they are 0, and a scale 0 makes `transform` return `none` as well. -/
noncomputable def reweightedML (num : PTNum) (fam : PTMethod) (nsteps : ℕ) (range : ℝ × ℝ) (x : List ℝ) :
    Except PyErr (ℝ × ℝ × ℝ) :=
  (rewLoop num fam range x nsteps (robustStd fam (lambdaRaw num fam range x) x) none).bind fun
    | none => .error .unboundLocalError
    | some (lam, xt, w) => .ok (lam, mean (maskTake w xt), Real.sqrt (var (maskTake w xt)))

/-- The likelihood part of one pass of the fitting loops, transfo.py 165-173, 197-209. -/
noncomputable def ptOpt (num : PTNum) (fam : PTMethod) (nsteps : ℕ) : PTOpt := fun x range =>
  reweightedML num fam nsteps range x

/-- `median_abs_deviation(x, scale="normal")`, transfo.py 193. -/
noncomputable def madNormal (x : List ℝ) : ℝ := (madRaw x).getD 0 / normalQuartile

/-- The constructor arguments, transfo.py 15-22. -/
structure PTArgs where
  standardize : Bool
  range : ℝ × ℝ
  nsteps : ℕ

/-- The two fitting routines and the criterion of `RobustPowerTransformer.fit`, transfo.py 60-74.  Two passes of the
`while` loops are more than they make.
Simplification: for Yeo-Johnson with a median absolute deviation 0 the code goes on with NaN and infinities; the
model divides by 0 with result 0 there, and no theorem speaks about that case. -/
noncomputable def ptEnv (num : PTNum) (args : PTArgs) : PTEnv where
  fitBC x := (fitBoxcox (ptOpt num .boxcox args.nsteps) args.standardize args.range 2 x).getD (.error .typeError)
  fitYJ x :=
    (fitYeojohnson (ptOpt num .yeojohnson args.nsteps) madNormal args.standardize args.range 2 x).getD (.error .typeError)
  crit x f := (robnormality num f.method f.lam x).getD 0

/-- `RobustPowerTransformer(method, ...).fit(x)` for a non-empty `x`, transfo.py 50-96. -/
noncomputable def powerFit (num : PTNum) (args : PTArgs) (m : PTChoice) (x : List ℝ) : Except PyErr PTFit :=
  match ptFit (ptEnv num args) ⟨m, none⟩ x with
  | (.error e, _) => .error e
  | (.ok _, ⟨_, some f⟩) => .ok f
  | (.ok _, ⟨_, none⟩) => .error .attributeError

end Robpy
