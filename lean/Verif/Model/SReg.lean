import Verif.Model.LTS
import Verif.Model.Rho

/-! Model of `robpy/regression/s.py` (S-regression), `robpy/regression/mm.py` (MM-regression) and `scale` of `robpy/regression/base.py`.
The targets are one-dimensional.  The numbers of iterations (`n_iter`) and the log messages are not modelled. -/

namespace Robpy

/-- `x @ beta` for one row: `WLS(...).predict`, robpy/regression/s.py 103, 134, 173. -/
def dotRow {k : ℕ} (x beta : Fin k → ℝ) : ℝ := ∑ j, x j * beta j

/-- The objective of `WLS(endog=y, exog=X, weights=weights)`, s.py 162, 172: rows are (features, target, weight). -/
def wssr {k : ℕ} (D : List ((Fin k → ℝ) × ℝ × ℝ)) (beta : Fin k → ℝ) : ℝ := (D.map fun d => d.2.2 * (d.2.1 - dotRow d.1 beta) ^ 2).sum

/-- Contract of `WLS(...).fit().params` (s.py 162, 172) for weights that are finite and not negative: weighted least squares without an
intercept, the shortest solution if there are several (`fit` multiplies by the pseudo-inverse). -/
structure WLSReg where
  fit : {k : ℕ} → List ((Fin k → ℝ) × ℝ × ℝ) → Fin k → ℝ
  isMin : ∀ {k : ℕ} (D : List ((Fin k → ℝ) × ℝ × ℝ)), (∀ d ∈ D, 0 ≤ d.2.2) → ∀ beta, wssr D (fit D) ≤ wssr D beta
  minNorm : ∀ {k : ℕ} (D : List ((Fin k → ℝ) × ℝ × ℝ)), (∀ d ∈ D, 0 ≤ d.2.2) → ∀ beta, wssr D beta = wssr D (fit D) →
    ∑ j, fit D j ^ 2 ≤ ∑ j, beta j ^ 2

/-- The parameters of `SRegression`, s.py 13-25.  The counts and the seed are not negative; `b` and the constant of `rho` are meant to
be positive. -/
structure SConfig where
  rho : Rho ℝ
  nInitialSubsets : ℕ
  nInitialISteps : ℕ
  nBestSubsets : ℕ
  maxScaleIterations : ℕ
  b : ℝ
  fitIntercept : Bool
  relativeTolerance : ℝ
  scaleTolerance : ℝ
  randomState : ℕ

/-- The default parameters, s.py 15-24. -/
noncomputable def sDefault : SConfig :=
  { rho := .tukey 1.547, nInitialSubsets := 500, nInitialISteps := 2, nBestSubsets := 5, maxScaleIterations := 2, b := 0.5,
    fitIntercept := true, relativeTolerance := 1e-7, scaleTolerance := 1e-10, randomState := 101 }

/-- `np.mean(self.rho.rho(residuals / s0))` for a scale that is not 0, s.py 138. -/
noncomputable def sRhoMean (R : Rho ℝ) (res : List ℝ) (s : ℝ) : ℝ := (res.map fun r => R.rho (r / s)).sum / res.length

/-- One pass of the loop of `_get_scale`, s.py 138; `none` is NaN.  With `s0 = 0` the quotients are inf or NaN.  `TukeyBisquare.rho` is
then `c**2 / 6`, since a comparison with NaN is false, and `0 * sqrt(...)` is 0.  `Huber.rho` is then inf or NaN and the product is NaN. -/
noncomputable def sScaleStep (R : Rho ℝ) (b : ℝ) (res : List ℝ) (s : ℝ) : Option ℝ :=
  if s = 0 then
    match R with
    | .tukey _ => some 0
    | .huber _ => none
  else some (s * Real.sqrt (sRhoMean R res s / b))

/-- `_get_scale`, s.py 136-142, with the number of iterations as first argument.  Without an iteration `new_s` is unbound; NaN stays NaN. -/
noncomputable def sGetScale (R : Rho ℝ) (b tol : ℝ) (res : List ℝ) : ℕ → ℝ → Except PyErr (Option ℝ)
  | 0, _ => .error .unboundLocalError
  | k + 1, s =>
    match sScaleStep R b res s with
    | none => .ok none
    | some s' => if |s - s'| < tol ∨ k = 0 then .ok (some s') else sGetScale R b tol res k s'

/-- `np.finfo(np.float64).eps`, s.py 160. -/
noncomputable def npEps : ℝ := 1 / 2 ^ 52

/-- The weight of a residual, s.py 160-161.  With scale 0 the quotient is infinite and `psi / inf` is 0 for both score functions. -/
noncomputable def sWeight (R : Rho ℝ) (s r : ℝ) : ℝ :=
  if s = 0 then 0 else R.psi ((if r = 0 then npEps else r) / s) / ((if r = 0 then npEps else r) / s)

/-- `np.median(np.abs(residuals)) / 0.6745`, s.py 158, 174; there is at least one residual. -/
noncomputable def sInitialScale (res : List ℝ) : ℝ := (npMedian (res.map fun r => |r|)).getD 0 / 0.6745

section
variable {k : ℕ}

/-- `model.predict(X) - y`, s.py 103, 173. -/
def sRes (D : List ((Fin k → ℝ) × ℝ)) (beta : Fin k → ℝ) : List ℝ := D.map fun d => dotRow d.1 beta - d.2

/-- The sample with weights, s.py 162. -/
def sWeighted (D : List ((Fin k → ℝ) × ℝ)) (w : List ℝ) : List ((Fin k → ℝ) × ℝ × ℝ) := List.zipWith (fun d v => (d.1, d.2, v)) D w

/-- `_i_step` without `initial_scale` (no caller passes it), s.py 150-164: coefficients and scale.  NaN weights make the singular value
decomposition inside `WLS.fit` raise LinAlgError.  Only `params` and `resid` of the fitted model are modelled. -/
noncomputable def sIStep (W : WLSReg) (cfg : SConfig) (D : List ((Fin k → ℝ) × ℝ)) (res : List ℝ) : Except PyErr ((Fin k → ℝ) × ℝ) :=
  match sGetScale cfg.rho cfg.b cfg.scaleTolerance res cfg.maxScaleIterations (sInitialScale res) with
  | .error e => .error e
  | .ok none => .error .linAlgError
  | .ok (some s) => .ok (W.fit (sWeighted D (res.map (sWeight cfg.rho s))), s)

/-- The i-steps on an initial model, s.py 176-178: `residuals` is `predict - y` before the first step and `model.resid`, which is
`y - predict`, afterwards. -/
noncomputable def sISteps (W : WLSReg) (cfg : SConfig) (D : List ((Fin k → ℝ) × ℝ)) :
    ℕ → (Fin k → ℝ) × ℝ → List ℝ → Except PyErr ((Fin k → ℝ) × ℝ)
  | 0, c, _ => .ok c
  | j + 1, _, res => (sIStep W cfg D res).bind fun c => sISteps W cfg D j c ((sRes D c.1).map fun r => -r)

/-- One pass of the loop in `_get_initial_models`, s.py 169-182: pass `i` uses the seed `random_state + i`; `none` is a start that is
dropped because of a LinAlgError.  Drawing more rows than there are raises ValueError. -/
noncomputable def sInitial (W : WLSReg) (ch : Choice ℕ) (cfg : SConfig) (D : List ((Fin k → ℝ) × ℝ)) (i : ℕ) :
    Except PyErr (Option ((Fin k → ℝ) × ℝ)) :=
  if D.length < k + 1 then .error .valueError
  else
    let beta := W.fit ((takeAt D (ch.pick (cfg.randomState + i) D.length (k + 1))).map fun d => (d.1, d.2, 1))
    match sISteps W cfg D cfg.nInitialISteps (beta, sInitialScale (sRes D beta)) (sRes D beta) with
    | .error .linAlgError => .ok none
    | .error e => .error e
    | .ok c => .ok (some c)

/-- `_converged`, s.py 144-148. -/
noncomputable def sConverged (tol : ℝ) (prev cur : Fin k → ℝ) : Bool := decide (vecNorm (cur - prev) ≤ tol * max tol (vecNorm cur))

/-- One pass of `while True`, s.py 101-121.  The state is the previous model, the previous scale and whether the local variable `m` is
bound; the handler of LinAlgError reads `m`. -/
noncomputable def sStep (W : WLSReg) (cfg : SConfig) (D : List ((Fin k → ℝ) × ℝ)) (s : ((Fin k → ℝ) × ℝ) × Bool) :
    Except PyErr ((((Fin k → ℝ) × ℝ) × Bool) ⊕ (((Fin k → ℝ) × ℝ) × Bool)) :=
  match sIStep W cfg D (sRes D s.1.1) with
  | .error .linAlgError => if s.2 then .ok (.inr s) else .error .unboundLocalError
  | .error e => .error e
  | .ok c => if sConverged cfg.relativeTolerance s.1.1 c.1 then .ok (.inr (c, true)) else .ok (.inl (c, true))

/-- The loop over the best starts, s.py 94-121; the results in order. -/
noncomputable def sImprove (W : WLSReg) (cfg : SConfig) (D : List ((Fin k → ℝ) × ℝ)) (fuel : ℕ) :
    List ((Fin k → ℝ) × ℝ) → Bool → Run (List ((Fin k → ℝ) × ℝ))
  | [], _ => some (.ok [])
  | c :: l, bound => Run.andThen (runLoop (sStep W cfg D) fuel (c, bound)) fun r =>
      Run.andThen (sImprove W cfg D fuel l r.2) fun cs => some (.ok (r.1 :: cs))

/-- `best_idx = np.argmin(best_scales)` and the entries there, s.py 123-125: the first smallest. -/
noncomputable def sBest (c : (Fin k → ℝ) × ℝ) (l : List ((Fin k → ℝ) × ℝ)) : (Fin k → ℝ) × ℝ :=
  l.foldl (fun b c => if c.2 < b.2 then c else b) c

/-- `fit` on the design matrix, s.py 89-125: coefficients and scale.  `np.argmin` of an empty list raises ValueError. -/
noncomputable def sSearch (W : WLSReg) (srt : ArgSort ℝ) (ch : Choice ℕ) (cfg : SConfig) (D : List ((Fin k → ℝ) × ℝ)) (fuel : ℕ) :
    Run ((Fin k → ℝ) × ℝ) :=
  Run.andThen (some (mapExcept (sInitial W ch cfg D) (List.range cfg.nInitialSubsets))) fun os =>
    let cands := os.filterMap id
    Run.andThen (sImprove W cfg D fuel (takeAt cands ((srt.toFun (cands.map Prod.snd)).take cfg.nBestSubsets)) false) fun cs =>
      match cs with
      | [] => some (.error .valueError)
      | c :: l => some (.ok (sBest c l))

end

section
variable {p : ℕ}

/-- A column of a matrix that is constant and not 0, as tested by `add_constant` of statsmodels. -/
def hasConstant (X : List (Fin p → ℝ)) : Prop := ∃ j, ∃ v : ℝ, v ≠ 0 ∧ ∀ x ∈ X, x j = v

/-- `add_constant(X)` of statsmodels with its default `has_constant="skip"`, s.py 88, 133: a matrix with a constant non-zero column is
returned as it is; a matrix without rows raises ValueError.  The number of columns is part of the result. -/
noncomputable def addConstant (X : List (Fin p → ℝ)) : Except PyErr (Σ k : ℕ, List (Fin k → ℝ)) :=
  open Classical in
  if X = [] then .error .valueError
  else if hasConstant X then .ok ⟨p, X⟩ else .ok ⟨p + 1, X.map fun x => Fin.cons 1 x⟩

/-- The design matrix, s.py 87-88, 132-133. -/
noncomputable def sDesign (fitIntercept : Bool) (X : List (Fin p → ℝ)) : Except PyErr (Σ k : ℕ, List (Fin k → ℝ)) :=
  if fitIntercept then addConstant X else .ok ⟨p, X⟩

/-- Attributes of an `SRegression`: `model` (its coefficients) and `_scale`, s.py 77, 124-125. -/
structure SState where
  model : Option (Σ k : ℕ, Fin k → ℝ)
  scale_ : Option ℝ

/-- `SRegression.fit`, s.py 83-126: features and targets of the same length; result and state. -/
noncomputable def sFit (W : WLSReg) (srt : ArgSort ℝ) (ch : Choice ℕ) (cfg : SConfig) (st : SState) (X : List (Fin p → ℝ)) (y : List ℝ)
    (fuel : ℕ) : Option (Except PyErr Unit × SState) :=
  match sDesign cfg.fitIntercept X with
  | .error e => some (.error e, st)
  | .ok ⟨k, Z⟩ =>
    match sSearch (k := k) W srt ch cfg (Z.zip y) fuel with
    | none => none
    | some (.error e) => some (.error e, st)
    | some (.ok c) => some (.ok (), { model := some ⟨k, c.1⟩, scale_ := some c.2 })

/-- `SRegression.predict`, s.py 128-134: a wrong number of columns raises ValueError. -/
noncomputable def sPredict (cfg : SConfig) (st : SState) (X : List (Fin p → ℝ)) : Except PyErr (List ℝ) :=
  match st.model with
  | none => .error .notFittedError
  | some ⟨k, beta⟩ =>
    match sDesign cfg.fitIntercept X with
    | .error e => .error e
    | .ok ⟨k', Z⟩ => if h : k' = k then .ok (Z.map fun x => dotRow x (fun j => beta (Fin.cast h j))) else .error .valueError

/-- `RobustRegression.scale`, robpy/regression/base.py 32-37. -/
def scaleProperty (scale_ : Option ℝ) : Except PyErr ℝ :=
  match scale_ with
  | none => .error .notFittedError
  | some s => .ok s

/-! MM-regression -/

/-- The weight of a residual, robpy/regression/mm.py 53-54; `none` is NaN.  `psi(0) / 0` is NaN.  With scale 0 the quotient of a
non-zero residual is infinite and its weight `psi(inf) / inf` is 0. -/
noncomputable def mmWeight (R : Rho ℝ) (s r : ℝ) : Option ℝ :=
  if r = 0 then none else if s = 0 then some 0 else some (R.psi (r / s) / (r / s))

/-- `(np.sqrt(w) * x, np.sqrt(w) * y)` for one observation, mm.py 55-57. -/
noncomputable def mmRow (w : ℝ) (d : (Fin p → ℝ) × ℝ) : (Fin p → ℝ) × ℝ := (fun j => Real.sqrt w * d.1 j, Real.sqrt w * d.2)

/-- Lines 52-57 of mm.py: the model fitted from the residuals of the previous one.  `LinearRegression.fit` raises ValueError on NaN.
Weights are not negative. -/
noncomputable def mmFitStep (LR : LinReg p) (R : Rho ℝ) (s : ℝ) (D : List ((Fin p → ℝ) × ℝ)) (res : List ℝ) : Except PyErr (LinModel p) :=
  match res.mapM (mmWeight R s) with
  | none => .error .valueError
  | some w => lrFit LR (List.zipWith mmRow w D)

/-- `np.max(np.abs(new_residuals - residuals)) < self.epsilon`, mm.py 60; there is at least one observation. -/
noncomputable def mmConverged (eps : ℝ) (res res' : List ℝ) : Bool := (List.zipWith (fun a b => decide (|b - a| < eps)) res res').all id

/-- The loop of `MMRegression.fit`, mm.py 51-61, with the number of iterations left: the last model if there was an iteration. -/
noncomputable def mmLoop (LR : LinReg p) (R : Rho ℝ) (s eps : ℝ) (D : List ((Fin p → ℝ) × ℝ)) :
    ℕ → Option (LinModel p) → List ℝ → Except PyErr (Option (LinModel p))
  | 0, m, _ => .ok m
  | i + 1, _, res => (mmFitStep LR R s D res).bind fun m =>
      if mmConverged eps res (D.map (resid m)) then .ok (some m) else mmLoop LR R s eps D i (some m) (D.map (resid m))

/-- What `MMRegression.fit` uses of the fitted initial estimator, mm.py 48-52: its predictions on the training rows and its scale. -/
structure InitialFit where
  predictions : List ℝ
  scale : ℝ

/-- `MMRegression.fit`, mm.py 46-62, after the initial estimator has been fitted: the final `LinearRegression`, or `none` if the
initial estimator itself is the model (`max_iterations = 0`). -/
noncomputable def mmFit (LR : LinReg p) (R : Rho ℝ) (eps : ℝ) (maxIter : ℕ) (init : InitialFit) (D : List ((Fin p → ℝ) × ℝ)) :
    Except PyErr (Option (LinModel p)) :=
  mmLoop LR R init.scale eps D maxIter none (List.zipWith (fun d f => d.2 - f) D init.predictions)

end
end Robpy
