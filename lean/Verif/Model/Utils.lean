import Verif.Model.MCD

/-! Model of `robpy/utils/median.py` (`l1median`), `robpy/utils/outlyingness.py` and `robpy/utils/logging.py`. -/

namespace Robpy

section L1
variable {p : ℕ}

/-- `np.sqrt(np.sum(centered_X * centered_X, axis=1))` for one row, robpy/utils/median.py 18-19. -/
noncomputable def rowDist (x mu : Fin p → ℝ) : ℝ := Real.sqrt (∑ j, (x j - mu j) * (x j - mu j))

/-- `np.sum(W)`, median.py 20-21: the sum of the inverse distances. -/
noncomputable def l1WeightSum (X : List (Fin p → ℝ)) (mu : Fin p → ℝ) : ℝ := (X.map fun x => 1 / rowDist x mu).sum

/-- The next iterate, median.py 18-21.  `none` is a vector of NaN.  If an observation is at distance 0 its weight is
infinite and every entry of `mu_1` contains `inf / inf`, so it is NaN; from a NaN vector every distance is NaN and
so is the next iterate.  Without rows the sum over an empty axis is 0.  Data without columns is not modelled. -/
noncomputable def l1Next (X : List (Fin p → ℝ)) : Option (Fin p → ℝ) → Option (Fin p → ℝ)
  | none => if X = [] then some fun _ => 0 else none
  | some mu =>
    open Classical in
    if ∃ x ∈ X, rowDist x mu = 0 then none
    else some fun j => (X.map fun x => x j * (1 / rowDist x mu) / l1WeightSum X mu).sum

/-- One pass of `while True`, median.py 17-25; a comparison with NaN is false. -/
noncomputable def l1Step (eps : ℝ) (X : List (Fin p → ℝ)) (mu0 : Option (Fin p → ℝ)) :
    Except PyErr (Option (Fin p → ℝ) ⊕ (Fin p → ℝ)) :=
  match mu0, l1Next X mu0 with
  | some a, some b => if ∑ j, |a j - b j| < eps then .ok (.inr b) else .ok (.inl (some b))
  | _, mu1 => .ok (.inl mu1)

/-- `l1median`, median.py 4-25, with the constant `epsilon = 1e-7` as a parameter.  `np.mean` of no rows is NaN. -/
noncomputable def l1median (eps : ℝ) (X : List (Fin p → ℝ)) (fuel : ℕ) : Run (Fin p → ℝ) :=
  runLoop (l1Step eps X) fuel (if X = [] then none else some (meanRow X))

end L1

section SD
variable {p : ℕ}

/-- A float which may be infinite or NaN: `none` is NaN, `⊤` is inf (no negative infinities occur here). -/
abbrev ExtFloat := Option (WithTop ℝ)

/-- `a / s` for `a ≥ 0` and `s ≥ 0`, robpy/utils/outlyingness.py 48-49: `0 / 0` is NaN, `a / 0` is inf. -/
noncomputable def extDiv (a s : ℝ) : ExtFloat :=
  if s = 0 then (if a = 0 then none else some ⊤) else some ((a / s : ℝ) : WithTop ℝ)

/-- Maximum of two floats as in `np.max`, outlyingness.py 47: NaN as soon as one of them is NaN. -/
noncomputable def extMax2 : ExtFloat → ExtFloat → ExtFloat
  | some x, some y => some (max x y)
  | _, _ => none

/-- `np.max`, outlyingness.py 47-51; the value for an empty list is not used, since `np.hstack` raises before. -/
noncomputable def extMax : List ExtFloat → ExtFloat
  | [] => none
  | [a] => a
  | a :: b :: l => extMax2 a (extMax (b :: l))

/-- `np.random.default_rng(seed).choice(n, k, replace=False)`, outlyingness.py 69-70: a function of the seed. -/
structure Choice (S : Type) where
  pick : S → ℕ → ℕ → List ℕ
  length : ∀ s n k, k ≤ n → (pick s n k).length = k
  nodup : ∀ s n k, k ≤ n → (pick s n k).Nodup
  lt : ∀ s n k, k ≤ n → ∀ i ∈ pick s n k, i < n

/-- Euclidean norm, `np.linalg.norm(d)`, outlyingness.py 81. -/
noncomputable def vecNorm (d : Fin p → ℝ) : ℝ := Real.sqrt (∑ j, d j * d j)

/-- Lines 72-79 of outlyingness.py: the direction determined by the points, before it is scaled.  `svdLast` is
`np.linalg.svd(vectors)[-1][-1]`.  `points[1]` of too short an array raises IndexError, `points[0]` too; with
`n_points == 2` there are two points. -/
def rawDirection (svdLast : List (Fin p → ℝ) → Fin p → ℝ) (points : List (Fin p → ℝ)) (nPoints : ℕ) :
    Except PyErr (Fin p → ℝ) :=
  match points with
  | [] => .error .indexError
  | a :: l =>
    if nPoints = 2 then
      match l with
      | [] => .error .indexError
      | b :: _ => .ok (a - b)
    else .ok (svdLast ((a :: l).map fun x => x - a))

/-- `_get_random_direction`, outlyingness.py 54-81.  `none` is a vector of NaN: the norm of `d` is 0.  Drawing more
points than there are rows raises ValueError. -/
noncomputable def randomDirection {S : Type} (ch : Choice S) (svdLast : List (Fin p → ℝ) → Fin p → ℝ)
    (X : List (Fin p → ℝ)) (nPoints : ℕ) (seed : S) : Except PyErr (Option (Fin p → ℝ)) :=
  if X.length < nPoints then .error .valueError
  else
    (rawDirection svdLast (takeAt X (ch.pick seed X.length nPoints)) nPoints).map fun d =>
      if vecNorm d = 0 then none else some fun j => d j / vecNorm d

/-- `np.abs(projections - np.median(projections)) / median_abs_deviation(projections)` for the projections on one
direction, outlyingness.py 47-49. -/
noncomputable def sdScores (proj : List ℝ) : List ExtFloat :=
  match npMedian proj, madRaw proj with
  | some m, some s => proj.map fun v => extDiv |v - m| s
  | _, _ => proj.map fun _ => none

/-- The scores of all rows for one direction, outlyingness.py 43-49; NaN everywhere for a NaN direction. -/
noncomputable def sdColumn (X : List (Fin p → ℝ)) : Option (Fin p → ℝ) → List ExtFloat
  | none => X.map fun _ => none
  | some d => sdScores (X.map fun x => ∑ j, x j * d j)

/-- Outlyingness of each row with respect to given directions, outlyingness.py 43-51. -/
noncomputable def sdFromDirections (X : List (Fin p → ℝ)) (D : List (Option (Fin p → ℝ))) : List ExtFloat :=
  (List.range X.length).map fun i => extMax (D.map fun d => (sdColumn X d).getD i none)

/-- `stahel_donoho`, outlyingness.py 5-51.  Every direction makes a new generator: from `random_seed` if it is given,
otherwise from fresh entropy (`fresh i` for direction `i`).  `np.hstack([])` raises ValueError. -/
noncomputable def stahelDonoho {S : Type} (ch : Choice S) (svdLast : List (Fin p → ℝ) → Fin p → ℝ) (fresh : ℕ → S)
    (X : List (Fin p → ℝ)) (nPoints nDir : ℕ) (seed : Option S) : Except PyErr (List ExtFloat) :=
  if nDir = 0 then .error .valueError
  else
    (mapExcept (fun i => randomDirection ch svdLast X nPoints (seed.getD (fresh i))) (List.range nDir)).map
      (sdFromDirections X)

end SD

section Logging

/-- A logger of the standard library: its level and the levels of its own handlers
(robpy/utils/logging.py 15-21). -/
structure LoggerState where
  level : ℕ
  handlers : List ℕ

/-- The registry of loggers by name; `logging.getLogger` creates missing ones (without handlers, level NOTSET). -/
abbrev LogRegistry (N : Type) := N → LoggerState

/-- `logger.hasHandlers()`, logging.py 17: the logger itself or one of its ancestors has a handler (`ancestors` already
takes `propagate` into account). -/
def hasHandlers {N : Type} (ancestors : N → List N) (reg : LogRegistry N) (name : N) : Bool :=
  (name :: ancestors name).any fun a => !(reg a).handlers.isEmpty

/-- `get_logger`, logging.py 4-22. -/
def getLogger {N : Type} [DecidableEq N] (ancestors : N → List N) (reg : LogRegistry N) (name : N) (level : ℕ) :
    LogRegistry N :=
  let reg1 := Function.update reg name { reg name with level := level }
  let reg2 := if hasHandlers ancestors reg1 name then
      Function.update reg1 name { reg1 name with handlers := [] } else reg1
  Function.update reg2 name { reg2 name with handlers := (reg2 name).handlers ++ [level] }

/-- What can happen to the registry: a call of `get_logger`, or other code adding a handler to some logger or
changing its level (`logger.addHandler`, `logger.setLevel`; logging.py 16, 21 call the same methods). -/
inductive LogEvent (N : Type) where
  | get (name : N) (level : ℕ)
  | addHandler (name : N) (level : ℕ)
  | setLevel (name : N) (level : ℕ)

/-- Effect of an event on the registry, see `LogEvent`. -/
def LogEvent.run {N : Type} [DecidableEq N] (ancestors : N → List N) (reg : LogRegistry N) : LogEvent N → LogRegistry N
  | .get n l => getLogger ancestors reg n l
  | .addHandler n l => Function.update reg n { reg n with handlers := (reg n).handlers ++ [l] }
  | .setLevel n l => Function.update reg n { reg n with level := l }

end Logging
end Robpy
