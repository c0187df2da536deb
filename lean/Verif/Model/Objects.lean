import Verif.Model.SReg

/-! Objects: `sklearn.base.clone` applied to the estimators of robpy, and `MMRegression` objects that share their initial estimator. -/

namespace Robpy

/-! Cloning -/

/-- The estimator classes of robpy: covariance/mcd.py 27, 273, covariance/ogk.py 9, covariance/wrapping.py 7, covariance/kendall.py 7,
covariance/cellmcd.py 25, covariance/initial_ddcw.py 16, pca/robpca.py 13, pca/spca.py 10, preprocessing/data_cleaner.py 14,
preprocessing/transfo.py 15, preprocessing/scaling.py 13, outliers/ddc.py 29, regression/mm.py 14, regression/lts.py 15,
regression/s.py 12. -/
inductive EstClass where
  | fastMCD | detMCD | ogk | wrapping | kendall | cellMCD | initialDDCW | robpca | locantore | dataCleaner | powerTransformer
  | scaler | ddc | mm | lts | s
  deriving DecidableEq

/-- A value of a parameter: a number, a list or tuple, an estimator with its parameters, anything else (strings, None, functions,
univariate estimators and other objects without `get_params`).  Simplification: values have no identity; what matters of it is in
`Attr`.  Models the arguments of the constructors cited at `EstClass`. -/
inductive PyVal where
  | num (x : ℝ)
  | other (k : ℕ)
  | seq (isTuple : Bool) (l : List PyVal)
  | est (c : EstClass) (params : List PyVal)

/-- Parameter names in the order of the constructors: mcd.py 31-42, 277-281, ogk.py 13-19, wrapping.py 10-15, kendall.py 8-10,
cellmcd.py 29-34, initial_ddcw.py 20-22, robpca.py 17-22, spca.py 14-15, data_cleaner.py 17-22, transfo.py 18-22, scaling.py 16-18,
ddc.py 32-34, mm.py 17-20, lts.py 18-24, s.py 15-24. -/
def paramNames : EstClass → List String
  | .fastMCD => ["alpha", "n_initial_subsets", "n_initial_c_steps", "n_best_subsets", "n_partitions", "tolerance",
      "correct_covariance", "reweighting", "verbosity", "store_precision", "assume_centered", "random_seed"]
  | .detMCD => ["alpha", "tolerance", "correct_covariance", "reweighting", "verbosity"]
  | .ogk => ["store_precision", "assume_centered", "location_estimator", "scale_estimator", "n_iterations", "reweighting",
      "reweighting_beta"]
  | .wrapping => ["b", "c", "q1", "q2", "store_precision", "assume_centered"]
  | .kendall => []
  | .cellMCD => ["alpha", "quantile", "crit", "max_c_steps", "min_eigenvalue", "verbosity"]
  | .initialDDCW => ["alpha", "min_eigenvalue", "verbosity"]
  | .robpca => ["n_components", "k_min_var_explained", "alpha", "final_MCD_step", "random_seed", "verbosity"]
  | .locantore => ["n_components", "k_min_var_explained"]
  | .dataCleaner => ["max_missing_frac_cols", "max_missing_frac_rows", "min_unique_values", "min_abs_scale", "clean_na_first",
      "min_n_rows"]
  | .powerTransformer => ["method", "standardize", "lambda_range", "quantile", "nsteps"]
  | .scaler => ["scale_estimator", "with_centering", "with_scaling"]
  | .ddc => ["chi2_quantile", "min_correlation", "scale_estimator"]
  | .mm => ["initial_estimator", "rho", "max_iterations", "epsilon"]
  | .lts => ["alpha", "n_initial_subsets", "n_initial_c_steps", "n_best_models", "reweighting", "tolerance", "random_state"]
  | .s => ["rho", "n_initial_subsets", "n_initial_i_steps", "n_best_subsets", "max_scale_iterations", "b", "fit_intercept",
      "relative_tolerance", "scale_tolerance", "random_state"]

/-- Whether the class inherits `get_params` from `BaseEstimator`; `DDC(OutlierMixin)`, ddc.py 29, does not. -/
def hasGetParams : EstClass → Bool
  | .ddc => false
  | _ => true

/-- An attribute set by a constructor: its value, and whether it is the argument itself (`is`) or a new object. -/
structure Attr where
  value : PyVal
  isArg : Bool

/-- Exceptions of `clone`. -/
inductive CloneErr where
  | typeError | runtimeError | valueError
  deriving DecidableEq

/-- `list(lambda_range)`, transfo.py 45: a new list; TypeError if the value is not iterable (strings are not modelled). -/
def listOf : PyVal → Except CloneErr Attr
  | .seq _ l => .ok ⟨.seq false l, false⟩
  | _ => .error .typeError

/-- The constructors: mcd.py 86-97, 311-317, ogk.py 51-56, wrapping.py 61-65, kendall.py 12, cellmcd.py 63-72, initial_ddcw.py 42-46,
robpca.py 46-52, spca.py 32-33, data_cleaner.py 54-60, transfo.py 43-48, scaling.py 30-32, ddc.py 54-57, mm.py 40-44, lts.py 53-60,
s.py 70-81 (with covariance/base.py 46-51 and pca/base.py 19).  All but one store every argument under its own name; `CellMCD` checks
one argument first.  Simplifications: `min_eigenvalue` that is not a number raises TypeError; attributes that are not parameters are
left out. -/
noncomputable def construct (c : EstClass) (args : List PyVal) : Except CloneErr (List Attr) :=
  if args.length = (paramNames c).length then
    match c, args with
    | .cellMCD, [alpha, quantile, crit, steps, .num x, verbosity] =>
      if x < 1e-6 then .error .valueError
      else .ok [⟨alpha, true⟩, ⟨quantile, true⟩, ⟨crit, true⟩, ⟨steps, true⟩, ⟨.num x, true⟩, ⟨verbosity, true⟩]
    | .cellMCD, _ => .error .typeError
    | .powerTransformer, [method, standardize, range, quantile, nsteps] =>
      (listOf range).map fun r => [⟨method, true⟩, ⟨standardize, true⟩, r, ⟨quantile, true⟩, ⟨nsteps, true⟩]
    | _, _ => .ok (args.map fun a => ⟨a, true⟩)
  else .error .typeError

/- `sklearn.base.clone(estimator, safe=...)` and its loop over elements and parameters (library code, reached through the base classes
of transfo.py 15, regression/base.py 17, covariance/base.py 27, pca/base.py 10): containers are cloned element by element; what has no
`get_params` is copied, or refused if `safe`; of an estimator the parameters are cloned, the constructor is called, and RuntimeError is
raised if an attribute is not the very object given to the constructor. -/
mutual
/-- See above. -/
noncomputable def PyVal.clone (safe : Bool) : PyVal → Except CloneErr PyVal
  | .num x => if safe then .error .typeError else .ok (.num x)
  | .other k => if safe then .error .typeError else .ok (.other k)
  | .seq t l => (PyVal.cloneList safe l).map (.seq t)
  | .est c ps =>
    if hasGetParams c then
      (PyVal.cloneList false ps).bind fun args => (construct c args).bind fun attrs =>
        if attrs.all Attr.isArg then .ok (.est c (attrs.map Attr.value)) else .error .runtimeError
    else if safe then .error .typeError else .ok (.est c ps)
/-- See above. -/
noncomputable def PyVal.cloneList (safe : Bool) : List PyVal → Except CloneErr (List PyVal)
  | [] => .ok []
  | v :: l => (PyVal.clone safe v).bind fun v' => (PyVal.cloneList safe l).map (v' :: ·)
end

/-! Shared initial estimators -/

section
variable {p : ℕ} {σ : Type}

/-- What `MMRegression` uses of its initial estimator, mm.py 48-49, 52, 68: `fit`, `predict` and `scale` as functions of the
attributes of the object.  `fit` gives `none` if it does not end. -/
structure InitEst (p : ℕ) (σ : Type) where
  fit : σ → List (Fin p → ℝ) → List ℝ → Option (Except PyErr Unit × σ)
  predict : σ → List (Fin p → ℝ) → Except PyErr (List ℝ)
  scale : σ → Except PyErr ℝ

/-- `SRegression` as initial estimator, the default of mm.py 17; s.py 83-134. -/
noncomputable def sEst (W : WLSReg) (srt : ArgSort ℝ) (ch : Choice ℕ) (cfg : SConfig) (fuel : ℕ) : InitEst p SState where
  fit st X y := sFit W srt ch cfg st X y fuel
  predict st X := sPredict cfg st X
  scale st := scaleProperty st.scale_

/-- `self.model` of an `MMRegression`, mm.py 44, 48, 55: nothing, the initial estimator (the object, not a copy of it), or a
`LinearRegression`. -/
inductive MMModel (p : ℕ) where
  | unset
  | initial
  | linear (m : LinModel p)

/-- An `MMRegression`, mm.py 40-44: the address of its initial estimator, its number of iterations, its model.  The default
`SRegression()` of mm.py 17 is made once, when the class is defined: all objects made without `initial_estimator` have the same address. -/
structure MMObj (p : ℕ) where
  init : ℕ
  maxIter : ℕ
  model : MMModel p

/-- All initial estimators and all `MMRegression` objects of a program (mm.py 17, 40-44). -/
structure MMWorld (p : ℕ) (σ : Type) where
  heap : ℕ → σ
  objs : ℕ → MMObj p

/-- Assignment of `self.model`, mm.py 48, 55. -/
def MMWorld.setModel (w : MMWorld p σ) (i : ℕ) (m : MMModel p) : MMWorld p σ :=
  { w with objs := Function.update w.objs i { w.objs i with model := m } }

/-- What happens to an initial estimator when it is fitted, mm.py 48. -/
def MMWorld.setInit (w : MMWorld p σ) (a : ℕ) (s : σ) : MMWorld p σ := { w with heap := Function.update w.heap a s }

/-- The iterations of `MMRegression.fit`, mm.py 51-61, with the model left behind; `res` are the residuals of the model so far. -/
noncomputable def mmLoopObj (LR : LinReg p) (R : Rho ℝ) (s eps : ℝ) (D : List ((Fin p → ℝ) × ℝ)) :
    ℕ → MMModel p → List ℝ → Except PyErr Unit × MMModel p
  | 0, m, _ => (.ok (), m)
  | i + 1, m, res =>
    match mmFitStep LR R s D res with
    | .error e => (.error e, m)
    | .ok m' =>
      if mmConverged eps res (D.map (resid m')) then (.ok (), .linear m') else mmLoopObj LR R s eps D i (.linear m') (D.map (resid m'))

/-- `MMRegression.fit` of object `i`, mm.py 46-62: result and world afterwards. -/
noncomputable def mmObjFit (E : InitEst p σ) (LR : LinReg p) (R : Rho ℝ) (eps : ℝ) (w : MMWorld p σ) (i : ℕ) (X : List (Fin p → ℝ))
    (y : List ℝ) : Option (Except PyErr Unit × MMWorld p σ) :=
  let o := w.objs i
  match E.fit (w.heap o.init) X y with
  | none => none
  | some (.error e, s) => some (.error e, w.setInit o.init s)
  | some (.ok _, s) =>
    let w1 := (w.setInit o.init s).setModel i .initial
    match E.scale s with
    | .error e => some (.error e, w1)
    | .ok sc =>
      if o.maxIter = 0 then some (.ok (), w1)
      else
        match E.predict s X with
        | .error e => some (.error e, w1)
        | .ok f =>
          let r := mmLoopObj LR R sc eps (X.zip y) o.maxIter .initial (List.zipWith (fun v f => v - f) y f)
          some (r.1, w1.setModel i r.2)

/-- `MMRegression.predict` of object `i`, mm.py 64-68.  Simplification: `LinearRegression.predict` raises nothing (the number of
columns is part of the type). -/
noncomputable def mmObjPredict (E : InitEst p σ) (w : MMWorld p σ) (i : ℕ) (X : List (Fin p → ℝ)) : Except PyErr (List ℝ) :=
  match (w.objs i).model with
  | .unset => .error .notFittedError
  | .initial => E.predict (w.heap (w.objs i).init) X
  | .linear m => .ok (X.map m.predict)

/-- Calls of `fit` on objects of one program, one after the other; exceptions are caught.  `none`: a call does not end. -/
noncomputable def mmObjRun (E : InitEst p σ) (LR : LinReg p) (R : Rho ℝ) (eps : ℝ) :
    MMWorld p σ → List (ℕ × List (Fin p → ℝ) × List ℝ) → Option (MMWorld p σ)
  | w, [] => some w
  | w, (i, X, y) :: calls => (mmObjFit E LR R eps w i X y).bind fun r => mmObjRun E LR R eps r.2 calls

end
end Robpy
