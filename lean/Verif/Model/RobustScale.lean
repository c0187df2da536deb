import Verif.Model.Basics

/-! Model of `robpy/univariate/base.py` as a state machine. -/

namespace Robpy

/-- A numpy array as seen by `RobustScale.fit`: one-dimensional with cells (`none` = NaN), or of
another number of dimensions (robpy/univariate/base.py 25). -/
inductive UArray (K : Type) where
  | oneD (xs : List (Option K))
  | otherDim (ndim : ℕ)

/-- The attributes `location_`, `scale_` of a `RobustScale`, `none` = attribute absent
(robpy/univariate/base.py 41-51). -/
structure ScaleState (L : Type) where
  location_ : Option L
  scale_ : Option L

/-- The abstract method `_calculate` (robpy/univariate/base.py 36-39): it may raise; on success it
returns the values of `location_` and `scale_`. -/
abbrev Calc (K L : Type) := List (Option K) → Except PyErr (L × L)

variable {K L : Type}

/-- `RobustScale.fit`, robpy/univariate/base.py 24-34: outcome and new state.
Simplification: if `_calculate` raises, the attributes are unchanged (true for every estimator of
the package on non-empty samples: they assign both attributes after the last statement that can
raise). -/
def ScaleState.fit (canNan : Bool) (est : Calc K L) (st : ScaleState L) (X : UArray K)
    (ignoreNan : Bool) : Except PyErr Unit × ScaleState L :=
  match X with
  | .otherDim _ => (.error .valueError, st)
  | .oneD xs =>
    if !canNan && !ignoreNan && xs.any Option.isNone then (.error .valueError, st)
    else
      let ys := if ignoreNan && xs.any Option.isNone then xs.filter Option.isSome else xs
      match est ys with
      | .error e => (.error e, st)
      | .ok (l, s) => (.ok (), { location_ := some l, scale_ := some s })

/-- Property `location`, robpy/univariate/base.py 47-51. -/
def ScaleState.location (st : ScaleState L) : Except PyErr L :=
  match st.location_ with
  | none => .error .notFittedError
  | some l => .ok l

/-- Property `scale`, robpy/univariate/base.py 41-45. -/
def ScaleState.scale (st : ScaleState L) : Except PyErr L :=
  match st.scale_ with
  | none => .error .notFittedError
  | some l => .ok l

/-- A freshly constructed estimator, robpy/univariate/base.py 15-22: no fitted attributes. -/
def ScaleState.new : ScaleState L := ⟨none, none⟩

/-- A history of `fit` calls on one object: the state after it (exceptions are caught by the
user). Models repeated use of robpy/univariate/base.py 24-34. -/
def ScaleState.run (canNan : Bool) (est : Calc K L) (st : ScaleState L) :
    List (UArray K × Bool) → ScaleState L
  | [] => st
  | (X, ig) :: rest => ((st.fit canNan est X ig).2).run canNan est rest

end Robpy
