import Verif.Model.Utils
import Mathlib.Data.List.Count

/-! # Model: which log messages are shown

The `verbosity` arguments of the estimators (robpy/covariance/mcd.py 95, 316; cellmcd.py 71, 100; initial_ddcw.py 45;
robpy/pca/robpca.py 51, 108; robpy/regression/lts.py 60, 90; s.py 81, 84; mm.py 48; base.py 94) and the standard library's rules for
showing a message.  All names are children of the root logger. -/

namespace Robpy

/-- The loggers of the package that a `verbosity` argument acts on, and the root logger.  The strings are those of mcd.py 95, 316,
cellmcd.py 71, initial_ddcw.py 45, robpca.py 51, lts.py 60, s.py 81; none contains a dot, so the parent is the root. -/
inductive LogName where
  | root | fastMCD | detMCD | cellMCD | initialDDCW | robpca | fastLTS | sReg
deriving DecidableEq

/-- The parents of a logger (standard library; the names have no dots, see `LogName`). -/
def LogName.ancestors : LogName → List LogName
  | .root => []
  | _ => [.root]

/-- `logger.getEffectiveLevel()` of the standard library: the first level of the chain that is not NOTSET (0).  Used by
`self.logger.info` etc. (e.g. robpy/covariance/mcd.py 107). -/
def effectiveLevel (reg : LogRegistry LogName) (name : LogName) : ℕ :=
  (((name :: name.ancestors).map fun a => (reg a).level).find? (· ≠ 0)).getD 0

/-- How often a message of the given level is written, e.g. by `self.logger.info(...)`, robpy/covariance/mcd.py 107, lts.py 104: once
by every handler of the chain whose level does not exceed it, provided the logger is enabled; without any handler in the chain by
`logging.lastResort` from WARNING (30) on.  `propagate` and `logging.disable` have their defaults. -/
def shown (reg : LogRegistry LogName) (name : LogName) (level : ℕ) : ℕ :=
  if level < effectiveLevel reg name then 0
  else
    let hs := (name :: name.ancestors).flatMap fun a => (reg a).handlers
    if hs = [] then (if 30 ≤ level then 1 else 0) else hs.countP fun h => decide (h ≤ level)

/-- What a user does. -/
inductive UserAct where
  /-- construct an object with a `verbosity`: `FastMCD`, `DetMCD`, `CellMCD`, `InitialDDCW`, `ROBPCA` -/
  | new (name : LogName) (verbosity : ℕ)
  /-- `ROBPCA.fit` which reaches the final MCD step -/
  | fitRobpca
  /-- `CellMCD.fit` which reaches the initial estimate -/
  | fitCellMCD
  /-- `FastLTSRegression.fit(..., verbosity)` -/
  | fitLTS (verbosity : ℕ)
  /-- `SRegression.fit(..., verbosity)` -/
  | fitS (verbosity : ℕ)
  /-- `MMRegression.fit` with the default initial estimator -/
  | fitMM
  /-- `outlier_map` of a regression with `robust_distance=True` -/
  | outlierMap
  /-- `logging.basicConfig(level=..)` and similar: level and a handler for the root logger -/
  | configureRoot (level handler : ℕ)

/-- Effects on the registry: mcd.py 95, 316, cellmcd.py 71, initial_ddcw.py 45, robpca.py 51 (constructors); robpca.py 108 `FastMCD()`;
cellmcd.py 100 `InitialDDCW(...)` without `verbosity`; lts.py 90; s.py 84; mm.py 48 `initial_estimator.fit(X, y)`;
regression/base.py 94 `FastMCD()`. WARNING is 30. -/
def UserAct.events : UserAct → List (LogEvent LogName)
  | .new n v => [.get n v]
  | .fitRobpca => [.get .fastMCD 30]
  | .fitCellMCD => [.get .initialDDCW 30]
  | .fitLTS v => [.setLevel .fastLTS v]
  | .fitS v => [.setLevel .sReg v]
  | .fitMM => [.setLevel .sReg 30]
  | .outlierMap => [.get .fastMCD 30]
  | .configureRoot l h => [.setLevel .root l, .addHandler .root h]

/-- The registry after a sequence of actions (the functions cited at `UserAct.events`, one after the other). -/
def afterActs (reg : LogRegistry LogName) (acts : List UserAct) : LogRegistry LogName :=
  (acts.flatMap UserAct.events).foldl (LogEvent.run LogName.ancestors) reg

/-- The registry of a fresh interpreter: no handlers, root at WARNING, all others NOTSET (standard library; what robpy/utils/logging.py 15
finds). -/
def freshRegistry : LogRegistry LogName := fun n => ⟨if n = .root then 30 else 0, []⟩

end Robpy
