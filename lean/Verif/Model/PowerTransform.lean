import Verif.Model.Basics
import Mathlib.Analysis.SpecialFunctions.Pow.Real
import Mathlib.Algebra.Order.Round

/-! Model of `robpy/preprocessing/transfo.py` (`RobustPowerTransformer`).
Floats are real numbers; `none` is a non-finite result (NaN or inf).  The numerical optimiser
(`scipy.optimize.minimize_scalar`) and the likelihood steps around it are a parameter. -/

namespace Robpy

/-- `base ** e` on floats (robpy/preprocessing/transfo.py 450, 461, 465-470): a zero base with a
negative exponent is inf and a negative base is NaN, both `none`.  Simplification: for a negative base
and an integer exponent numpy would return a number; the proofs show that case is not reached. -/
noncomputable def npPow (base e : ℝ) : Option ℝ :=
  if 0 < base then some (base ^ e)
  else if base = 0 ∧ 0 < e then some 0
  else none

/-- `_transf_boxcox` of one strictly positive value, robpy/preprocessing/transfo.py 327-330. -/
noncomputable def boxcox (lam x : ℝ) : ℝ :=
  if lam = 0 then Real.log x else (x ^ lam - 1) / lam

/-- `_transf_yeojohnson` of one value, robpy/preprocessing/transfo.py 343-354. -/
noncomputable def yeojohnson (lam x : ℝ) : ℝ :=
  if lam = 0 then
    if 0 ≤ x then Real.log (1 + x) else -((1 - x) ^ (2 - lam) - 1) / (2 - lam)
  else if lam = 2 then
    if 0 ≤ x then ((1 + x) ^ lam - 1) / lam else -Real.log (1 - x)
  else
    if 0 ≤ x then ((1 + x) ^ lam - 1) / lam else -((1 - x) ^ (2 - lam) - 1) / (2 - lam)

/-- `_inv_transf_boxcox`, robpy/preprocessing/transfo.py 445-451. -/
noncomputable def invBoxcox (lam y : ℝ) : Option ℝ :=
  if lam = 0 then some (Real.exp y) else npPow (y * lam + 1) (1 / lam)

/-- `_inv_transf_yeojohnson`, robpy/preprocessing/transfo.py 453-473. -/
noncomputable def invYeojohnson (lam y : ℝ) : Option ℝ :=
  if lam = 0 then
    if 0 ≤ y then some (Real.exp y - 1)
    else (npPow (1 + (lam - 2) * y) (1 / (2 - lam))).map fun p => 1 - p
  else if lam = 2 then
    if 0 ≤ y then (npPow (lam * y + 1) (1 / lam)).map fun p => p - 1
    else some (1 - Real.exp (-y))
  else
    if 0 ≤ y then (npPow (lam * y + 1) (1 / lam)).map fun p => p - 1
    else (npPow (1 + (lam - 2) * y) (1 / (2 - lam))).map fun p => 1 - p

/-- The two transformation families (`self.method` after a fit). -/
inductive PTMethod where
  | boxcox | yeojohnson
  deriving DecidableEq

/-- The fitted attributes, robpy/preprocessing/transfo.py 82-94.  `std` is `some (location_pre,
scale_pre, location_post, scale_post)` when `standardize` is set (`location_pre` is not used by
Box-Cox and is 0 there), `none` otherwise. -/
structure PTFit where
  method : PTMethod
  lam : ℝ
  std : Option (ℝ × ℝ × ℝ × ℝ)

/-- `_calculate_bounds`, robpy/preprocessing/transfo.py 218-232: (lower, upper). -/
noncomputable def ptBounds (f : PTFit) : Option ℝ × Option ℝ :=
  if f.method = .boxcox ∧ 0 < f.lam then (some (-1 / |f.lam|), none)
  else if f.method = .boxcox ∧ f.lam < 0 then (none, some (1 / |f.lam|))
  else if f.method = .yeojohnson ∧ 2 < f.lam then (some (-1 / |f.lam - 2|), none)
  else if f.method = .yeojohnson ∧ f.lam < 0 then (none, some (1 / |f.lam|))
  else (none, none)

/-- `_handle_bounds` below the range, robpy/preprocessing/transfo.py 237-244, on an array.  The
replacement happens only if the minimum is below the bound, `np.where` then acts per element. -/
noncomputable def handleLower (lower : Option ℝ) (X : List ℝ) : List ℝ :=
  match lower with
  | none => X
  | some l => if ∃ x ∈ X, x < l then X.map fun x => if x < l then 0.95 * l else x else X

/-- `_handle_bounds` above the range, robpy/preprocessing/transfo.py 246-253, on an array. -/
noncomputable def handleUpper (upper : Option ℝ) (X : List ℝ) : List ℝ :=
  match upper with
  | none => X
  | some u => if ∃ x ∈ X, u < x then X.map fun x => if u < x then 0.95 * u else x else X

/-- `_handle_bounds`, robpy/preprocessing/transfo.py 234-255.  Simplification: `np.min` of an empty
array (ValueError) is not modelled. -/
noncomputable def handleBounds (f : PTFit) (X : List ℝ) : List ℝ :=
  handleUpper (ptBounds f).2 (handleLower (ptBounds f).1 X)

/-- Division `a / b` of floats; by zero it is inf or NaN. -/
noncomputable def npDiv (a b : ℝ) : Option ℝ := if b = 0 then none else some (a / b)

/-- The standardisation steps of `transform`, robpy/preprocessing/transfo.py 111-121, around the plain
transform `g`. -/
noncomputable def ptCell (f : PTFit) (g : ℝ → ℝ) (x : ℝ) : Option ℝ :=
  match f.std with
  | none => some (g x)
  | some (lpre, spre, lpost, spost) =>
    (npDiv (x - lpre) spre).bind fun z => npDiv (g z - lpost) spost

/-- `transform`, robpy/preprocessing/transfo.py 98-123.  For Box-Cox a non-positive value raises
ValueError (lines 106-110); the pre-scaling divides without centring (line 112). -/
noncomputable def ptTransform (f : PTFit) (X : List ℝ) : Except PyErr (List (Option ℝ)) :=
  match f.method with
  | .boxcox =>
    if X = [] ∨ ∃ x ∈ X, x ≤ 0 then .error .valueError
    else .ok (X.map (ptCell { f with std := f.std.map fun s => (0, s.2) } (boxcox f.lam)))
  | .yeojohnson => .ok (X.map (ptCell f (yeojohnson f.lam)))

/-- Undoing the post-standardisation, robpy/preprocessing/transfo.py 134-135 and 142-143. -/
noncomputable def ptUnpost (f : PTFit) (y : ℝ) : ℝ :=
  match f.std with
  | none => y
  | some (_, _, lpost, spost) => y * spost + lpost

/-- Undoing the pre-standardisation, robpy/preprocessing/transfo.py 138-139 and 146-147. -/
noncomputable def ptUnpre (f : PTFit) (y : ℝ) : ℝ :=
  match f.std, f.method with
  | none, _ => y
  | some (_, spre, _, _), .boxcox => y * spre
  | some (lpre, spre, _, _), .yeojohnson => y * spre + lpre

/-- `inverse_transform`, robpy/preprocessing/transfo.py 125-149. -/
noncomputable def ptInverse (f : PTFit) (Y : List ℝ) : List (Option ℝ) :=
  let Z := handleBounds f (Y.map (ptUnpost f))
  match f.method with
  | .boxcox => Z.map fun z => (invBoxcox f.lam z).map (ptUnpre f)
  | .yeojohnson => Z.map fun z => (invYeojohnson f.lam z).map (ptUnpre f)

/-! ### Integer arrays -/

/-- Assignment into an integer array truncates towards zero (`np.zeros_like(x)` of an integer `x`,
robpy/preprocessing/transfo.py 344 and 457). -/
noncomputable def truncInt (y : ℝ) : ℤ := if 0 ≤ y then ⌊y⌋ else ⌈y⌉

/-- `_transf_yeojohnson` on an integer array, robpy/preprocessing/transfo.py 340-362 (reached by
`transform` with `standardize=False`). -/
noncomputable def yeojohnsonInt (lam : ℝ) (X : List ℤ) : List ℤ :=
  X.map fun x => truncInt (yeojohnson lam x)

/-! ### Rectified transforms -/

/-- The Box-Cox part between lines 268 and 286 of robpy/preprocessing/transfo.py for one value and a
given change point. -/
noncomputable def rectBoxcox (lam cp x : ℝ) : ℝ :=
  if lam = 1 then x - 1
  else
    if (if 1 < lam then x < cp else cp < x) then
      if lam = 0 then Real.log cp + (x - cp) / cp
      else (cp ^ lam - 1) / lam + (x - cp) * cp ^ (lam - 1)
    else
      if lam = 0 then Real.log x else (x ^ lam - 1) / lam

/-- The Yeo-Johnson part between lines 371 and 410 of robpy/preprocessing/transfo.py for one value and
a given change point; later assignments to the same cell win, as in the code. -/
noncomputable def rectYeojohnson (lam cp x : ℝ) : ℝ :=
  if lam = 1 then x
  else if 1 < lam then
    if x < cp then
      if lam = 2 then -Real.log (1 - cp) + (x - cp) * 1 / (1 - cp)
      else yeojohnson lam cp + (x - cp) * (1 + |cp|) ^ (1 - lam)
    else if cp ≤ x ∧ x < 0 then
      if lam = 2 then -Real.log (1 - x) else -((1 - x) ^ (2 - lam) - 1) / (2 - lam)
    else ((1 + x) ^ lam - 1) / lam
  else
    if cp < x then
      if lam = 0 then Real.log (1 + cp) + (x - cp) * 1 / (1 + cp)
      else yeojohnson lam cp + (x - cp) * (1 + |cp|) ^ (lam - 1)
    else if 0 ≤ x ∧ x ≤ cp then
      if lam = 0 then Real.log (1 + x) else ((1 + x) ^ lam - 1) / lam
    else -((1 - x) ^ (2 - lam) - 1) / (2 - lam)

/-- `Q1 = x[int(np.ceil(n / 4.0) - 1.0)]` of a sorted array, robpy/preprocessing/transfo.py 301, 425. -/
noncomputable def rectQ1 (x : List ℝ) : ℝ := x.getD ((x.length + 3) / 4 - 1) 0

/-- `Q3 = x[int(n - np.ceil(n / 4.0))]` of a sorted array, robpy/preprocessing/transfo.py 302, 426. -/
noncomputable def rectQ3 (x : List ℝ) : ℝ := x.getD (x.length - (x.length + 3) / 4) 0

/-- `min(max(changepoint, x[0]), x[n - 1])`, robpy/preprocessing/transfo.py 317, 441. -/
noncomputable def rectClamp (x : List ℝ) (cp : ℝ) : ℝ := min (max cp (x.getD 0 0)) (x.getD (x.length - 1) 0)

/-- `_get_rectified_boxcox_changepoint`, robpy/preprocessing/transfo.py 296-319, for a non-empty
sorted array.  `none`: lambda 1 (ValueError) or a non-finite inverse. -/
noncomputable def boxcoxChangepoint (x : List ℝ) (lam factor eps : ℝ) : Option ℝ :=
  if lam = 1 then none
  else
    let c0 := (if lam < 1 then boxcox lam (rectQ3 x) else boxcox lam (rectQ1 x)) * factor
    let c1 := if lam < 0 then min c0 (|1 / lam| - eps)
      else if 0 < lam then max c0 (-1 / lam + eps) else c0
    (invBoxcox lam c1).map (rectClamp x)

/-- `_get_rectified_yeojohnson_changepoint`, robpy/preprocessing/transfo.py 420-443. -/
noncomputable def yeojohnsonChangepoint (x : List ℝ) (lam factor eps : ℝ) : Option ℝ :=
  if lam = 1 then none
  else
    let c0 := (if lam < 1 then yeojohnson lam (rectQ3 x) else yeojohnson lam (rectQ1 x)) * factor
    let c1 := if lam < 0 then min c0 (|1 / lam| - eps)
      else if 2 < lam then max c0 (1 / (2 - lam) + eps) else c0
    (invYeojohnson lam c1).map (rectClamp x)

/-- `_transf_boxcox_rectified` on a sorted strictly positive array (without `standardize_too`),
robpy/preprocessing/transfo.py 257-286. -/
noncomputable def rectBoxcoxArr (lam factor eps : ℝ) (x : List ℝ) : Option (List ℝ) :=
  if lam = 1 then some (x.map (rectBoxcox lam 1))
  else (boxcoxChangepoint x lam factor eps).map fun cp => x.map (rectBoxcox lam cp)

/-- `_transf_yeojohnson_rectified` on a sorted array (without `standardize_too`),
robpy/preprocessing/transfo.py 364-410. -/
noncomputable def rectYeojohnsonArr (lam factor eps : ℝ) (x : List ℝ) : Option (List ℝ) :=
  if lam = 1 then some (x.map (rectYeojohnson lam 0))
  else (yeojohnsonChangepoint x lam factor eps).map fun cp => x.map (rectYeojohnson lam cp)

/-! ### Fitting -/

/-- The likelihood part of one pass of the fitting loop (robpy/preprocessing/transfo.py 165-173 and
197-209): standardised data and search range give (lambda_rew, mu_rew, sd_rew) or an exception.
A parameter: the optimiser is not modelled. -/
abbrev PTOpt := List ℝ → ℝ × ℝ → Except PyErr (ℝ × ℝ × ℝ)

/-- `np.min(np.abs(lambda_rew - lambdarange)) > np.diff(lambdarange) * 0.05`,
robpy/preprocessing/transfo.py 174, 210. -/
def ptConverged (range : ℝ × ℝ) (lam : ℝ) : Prop :=
  min |lam - range.1| |lam - range.2| > (range.2 - range.1) * 0.05

/-- One pass of the `while` loop of `_fit_boxcox`, robpy/preprocessing/transfo.py 159-178.
`self.lambda_range` is a Python list (line 45), so `lambdarange - 1` on line 176 raises TypeError:
the loop never reaches a second pass. -/
noncomputable def fitBoxcoxStep (opt : PTOpt) (standardize : Bool) (s : List ℝ × (ℝ × ℝ)) :
    Except PyErr ((List ℝ × (ℝ × ℝ)) ⊕ PTFit) :=
  let sc := (npMedian s.1).getD 0
  let x := if standardize then s.1.map fun v => v / sc else s.1
  match opt x s.2 with
  | .error e => .error e
  | .ok (lam, mu, sd) =>
    open Classical in
    if ptConverged s.2 lam then
      .ok (.inr ⟨.boxcox, lam, if standardize then some (0, sc, mu, sd) else none⟩)
    else .error .typeError

/-- One pass of the `while` loop of `_fit_yeojohnson`, robpy/preprocessing/transfo.py 190-214;
`mad` is `median_abs_deviation(x, scale="normal")` (line 193). -/
noncomputable def fitYeojohnsonStep (opt : PTOpt) (mad : List ℝ → ℝ) (standardize : Bool)
    (s : List ℝ × (ℝ × ℝ)) : Except PyErr ((List ℝ × (ℝ × ℝ)) ⊕ PTFit) :=
  let loc := (npMedian s.1).getD 0
  let sc := mad s.1
  let x := if standardize then s.1.map fun v => (v - loc) / sc else s.1
  match opt x s.2 with
  | .error e => .error e
  | .ok (lam, mu, sd) =>
    open Classical in
    if ptConverged s.2 lam then
      .ok (.inr ⟨.yeojohnson, lam, if standardize then some (loc, sc, mu, sd) else none⟩)
    else .error .typeError

/-- `_fit_boxcox`, robpy/preprocessing/transfo.py 151-180. -/
noncomputable def fitBoxcox (opt : PTOpt) (standardize : Bool) (range : ℝ × ℝ) (fuel : ℕ) (x : List ℝ) :
    Option (Except PyErr PTFit) := runLoop (fitBoxcoxStep opt standardize) fuel (x, range)

/-- `_fit_yeojohnson`, robpy/preprocessing/transfo.py 182-216. -/
noncomputable def fitYeojohnson (opt : PTOpt) (mad : List ℝ → ℝ) (standardize : Bool) (range : ℝ × ℝ)
    (fuel : ℕ) (x : List ℝ) : Option (Except PyErr PTFit) :=
  runLoop (fitYeojohnsonStep opt mad standardize) fuel (x, range)

/-- `self.method`, robpy/preprocessing/transfo.py 43; `other` is any unsupported string. -/
inductive PTChoice where
  | auto | boxcox | yeojohnson | other
  deriving DecidableEq

/-- A `RobustPowerTransformer` object: the `method` attribute and the fitted attributes, if any. -/
structure PTState where
  method : PTChoice
  fitted : Option PTFit

/-- The parts of `fit` that are parameters: the two fitting routines on the sorted data (modelled by
`fitBoxcox`, `fitYeojohnson`) and the normality criterion `_robnormality`
(robpy/preprocessing/transfo.py 475-507). -/
structure PTEnv where
  fitBC : List ℝ → Except PyErr PTFit
  fitYJ : List ℝ → Except PyErr PTFit
  crit : List ℝ → PTFit → ℝ

/-- `_get_method`, robpy/preprocessing/transfo.py 588-599: the new value of `self.method`. -/
noncomputable def getMethod (m : PTChoice) (x : List ℝ) : Except PyErr PTChoice :=
  match m with
  | .boxcox => open Classical in if x = [] ∨ ∃ v ∈ x, v ≤ 0 then .error .valueError else .ok .boxcox
  | .auto =>
    open Classical in
    if x = [] then .error .valueError
    else if ∃ v ∈ x, v ≤ 0 then .ok .yeojohnson else .ok .auto
  | .yeojohnson => .ok .yeojohnson
  | .other => .error .valueError

/-- `RobustPowerTransformer.fit`, robpy/preprocessing/transfo.py 50-96: exception or success and the
new object state.  `self.method` is overwritten (lines 57, 78, 80) and the overwritten value is what
the next `fit` sees. -/
noncomputable def ptFit (env : PTEnv) (st : PTState) (x : List ℝ) : Except PyErr Unit × PTState :=
  match getMethod st.method x with
  | .error e => (.error e, st)
  | .ok .boxcox =>
    match env.fitBC (npSort x) with
    | .error e => (.error e, ⟨.boxcox, st.fitted⟩)
    | .ok f => (.ok (), ⟨.boxcox, some f⟩)
  | .ok .yeojohnson =>
    match env.fitYJ (npSort x) with
    | .error e => (.error e, ⟨.yeojohnson, st.fitted⟩)
    | .ok f => (.ok (), ⟨.yeojohnson, some f⟩)
  | .ok m =>
    match env.fitBC (npSort x) with
    | .error e => (.error e, ⟨m, st.fitted⟩)
    | .ok f =>
      match env.fitYJ (npSort x) with
      | .error e => (.error e, ⟨m, st.fitted⟩)
      | .ok g =>
        open Classical in
        if env.crit x f < env.crit x g then (.ok (), ⟨.boxcox, some f⟩)
        else (.ok (), ⟨.yeojohnson, some g⟩)

/-- A history of `fit` calls on one object; exceptions are caught by the caller. -/
noncomputable def ptRun (env : PTEnv) (st : PTState) : List (List ℝ) → PTState
  | [] => st
  | x :: xs => ptRun env (ptFit env st x).2 xs

end Robpy
