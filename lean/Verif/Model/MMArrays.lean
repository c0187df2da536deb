import Verif.Model.SReg

/-! Numpy arrays with their shapes, and `MMRegression.fit` on them: the initial estimator may return its predictions as a vector
(`SRegression`, `MMRegression`) or as a matrix with one column (`FastLTSRegression`). -/

namespace Robpy

/-- A numpy array: its shape and its entries, `none` is NaN.  Entries outside the shape mean nothing.  Models the arrays in
robpy/regression/mm.py 46-60. -/
structure NdArr where
  shape : List ℕ
  get : List ℕ → Option ℝ

/-- Broadcasting of one dimension (numpy's rule, used in mm.py 52, 56): equal sizes, or one of them is 1. -/
def bcastDim (a b : ℕ) : Option ℕ := if a = b then some a else if a = 1 then some b else if b = 1 then some a else none

/-- Broadcasting of shapes listed from the last dimension on (numpy's rule, used in mm.py 52, 56). -/
def bcastRev : List ℕ → List ℕ → Option (List ℕ)
  | [], t => some t
  | s, [] => some s
  | a :: s, b :: t => (bcastDim a b).bind fun d => (bcastRev s t).map (d :: ·)

/-- Broadcasting of shapes (numpy's rule, used in mm.py 52, 56). -/
def bcastShape (s t : List ℕ) : Option (List ℕ) := (bcastRev s.reverse t.reverse).map List.reverse

/-- The entry of an array of shape `s` that is used at position `i` of a broadcast array (numpy's rule, used in mm.py 52, 56). -/
def bcastIndex (s i : List ℕ) : List ℕ := List.zipWith (fun d k => if d = 1 then 0 else k) s (i.drop (i.length - s.length))

/-- An elementwise operation of two arrays, mm.py 52, 56, 58, 60: ValueError if the shapes do not fit. -/
def NdArr.op (f : ℝ → ℝ → ℝ) (a b : NdArr) : Except PyErr NdArr :=
  match bcastShape a.shape b.shape with
  | none => .error .valueError
  | some s => .ok ⟨s, fun i => (a.get (bcastIndex a.shape i)).bind fun x => (b.get (bcastIndex b.shape i)).map fun y => f x y⟩

/-- An elementwise function, mm.py 53-54, 56. -/
def NdArr.map (f : ℝ → Option ℝ) (a : NdArr) : NdArr := ⟨a.shape, fun i => (a.get i).bind f⟩

/-- The position with number `k` in an array of shape `s`, last index fastest (numpy's order, used in mm.py 56). -/
def unravel : List ℕ → ℕ → List ℕ
  | [], _ => []
  | d :: s, k => (k / s.prod) % d :: unravel s k

/-- `reshape(-1, 1)`, mm.py 56. -/
def NdArr.toColumn (a : NdArr) : NdArr := ⟨[a.shape.prod, 1], fun i => a.get (unravel a.shape (i.headD 0))⟩

/-- A vector, e.g. `y` in mm.py 47 or the predictions of `SRegression` (s.py 134). -/
def NdArr.ofVec (l : List ℝ) : NdArr := ⟨[l.length], fun i => l[i.headD 0]?⟩

/-- A matrix with one column: the predictions of `FastLTSRegression`, lts.py 156. -/
def NdArr.ofCol (l : List ℝ) : NdArr := ⟨[l.length, 1], fun i => l[i.headD 0]?⟩

section
variable {p : ℕ}

/-- A data matrix with `p` columns, `X` in mm.py 47. -/
def NdArr.ofRows (X : List (Fin p → ℝ)) : NdArr :=
  ⟨[X.length, p], fun i => (X[i.headD 0]?).bind fun x => if h : i.getD 1 0 < p then some (x ⟨i.getD 1 0, h⟩) else none⟩

/-- The rows of an array of shape `(n, p)` together with a vector, if there is no NaN in them (mm.py 55-57). -/
def NdArr.sample (n : ℕ) (A b : NdArr) : Option (List ((Fin p → ℝ) × ℝ)) :=
  (List.range n).mapM fun i => (b.get [i]).bind fun v =>
    if ∀ j : Fin p, (A.get [i, j.1]).isSome then some (fun j => (A.get [i, j.1]).getD 0, v) else none

/-- `LinearRegression().fit(A, b)`, mm.py 55-57: ValueError if `A` is not a matrix, if the numbers of rows differ or if there is a
NaN.  Simplification: a matrix `b` with as many rows as `A` (several targets at once) gives `none`; it does not occur in the code
with more than one observation. -/
noncomputable def lrFitNd (LR : LinReg p) (A b : NdArr) : Run (LinModel p) :=
  match A.shape, b.shape with
  | [n, k], [n'] =>
    if n = n' ∧ k = p then
      some (match NdArr.sample n A b with
        | none => .error .valueError
        | some D => lrFit LR D)
    else some (.error .valueError)
  | [n, _], [n', _] => if n = n' then none else some (.error .valueError)
  | _, _ => some (.error .valueError)

/-- `np.max(np.abs(d)) < self.epsilon` for a vector `d`, mm.py 60; NaN compares as false. -/
noncomputable def belowNd (eps : ℝ) (d : NdArr) : Bool :=
  (List.range d.shape.prod).all fun k => (d.get (unravel d.shape k)).any fun v => decide (|v| < eps)

/-- The loop of `MMRegression.fit`, mm.py 51-61, on arrays; `pred` are the predictions of the current model. -/
noncomputable def mmLoopNd (LR : LinReg p) (R : Rho ℝ) (s eps : ℝ) (X : List (Fin p → ℝ)) (y : NdArr) :
    ℕ → Option (LinModel p) → NdArr → Run (Option (LinModel p))
  | 0, m, _ => some (.ok m)
  | i + 1, _, pred =>
    Run.andThen (some (NdArr.op (· - ·) y pred)) fun res =>
      let root := (res.map (mmWeight R s)).map fun w => some (Real.sqrt w)
      Run.andThen (some (NdArr.op (· * ·) root.toColumn (NdArr.ofRows X))) fun A =>
        Run.andThen (some (NdArr.op (· * ·) root y)) fun b =>
          (lrFitNd LR A b).andThen fun m =>
            let pred' := NdArr.ofVec (X.map m.predict)
            Run.andThen (some (NdArr.op (· - ·) y pred')) fun res' =>
              Run.andThen (some (NdArr.op (· - ·) res' res)) fun d =>
                if belowNd eps d then some (.ok (some m)) else mmLoopNd LR R s eps X y i (some m) pred'

/-- `MMRegression.fit`, mm.py 46-62, after the initial estimator has been fitted with scale `s` and predictions `pred`. -/
noncomputable def mmFitNd (LR : LinReg p) (R : Rho ℝ) (eps : ℝ) (maxIter : ℕ) (pred : NdArr) (s : ℝ) (X : List (Fin p → ℝ)) (y : List ℝ) :
    Run (Option (LinModel p)) :=
  mmLoopNd LR R s eps X (NdArr.ofVec y) maxIter none pred

end
end Robpy
