import Verif.Model.Utils
import Verif.Model.UnivariateMCD
import Mathlib.LinearAlgebra.Matrix.Rank
import Mathlib.Analysis.SpecialFunctions.Pow.Real

/-! Model of `robpy/pca/base.py`, `robpy/pca/robpca.py` and `robpy/pca/spca.py`.  A matrix whose number of columns is
found at run time is a list of columns. -/

namespace Robpy
open Matrix

section Base
variable {p : ℕ}

/-- The attributes of a `RobustPCA` object, robpy/pca/base.py 10-19, robpca.py 94-116, spca.py 37-52.  The outer `none` of
`location_`, `components_` and `explainedVariance_` means that the attribute does not exist; `location_ = some none` is
the value `None`.  `n_components` is a non-negative int or `None`. -/
structure PCAState (p : ℕ) where
  nComponents : Option ℕ
  location_ : Option (Option (Fin p → ℝ))
  components_ : Option (List (Fin p → ℝ))
  explainedVariance_ : Option (List ℝ)

/-- One row of `(X - self.location_) @ self.components_`, base.py 50. -/
def scoresRow (loc : Fin p → ℝ) (C : List (Fin p → ℝ)) (x : Fin p → ℝ) : List ℝ :=
  C.map fun c => ∑ j, (x j - loc j) * c j

/-- One row of `scores @ self.components_.T`, base.py 61. -/
def backRow (C : List (Fin p → ℝ)) (t : List ℝ) : Fin p → ℝ := fun j => (List.zipWith (fun c s => s * c j) C t).sum

/-- `RobustPCA.transform`, base.py 30-50, with the state afterwards (`location_` is set if it was `None`; for data
without rows it would be NaN, here 0). -/
noncomputable def pcaTransform (st : PCAState p) (X : List (Fin p → ℝ)) :
    Except PyErr (List (List ℝ)) × PCAState p :=
  match st.location_ with
  | none => (.error .attributeError, st)
  | some l =>
    let loc := l.getD (meanRow X)
    let st' := { st with location_ := some (some loc) }
    match st.components_ with
    | none => (.error .attributeError, st')
    | some C => (.ok (X.map (scoresRow loc C)), st')

/-- `RobustPCA.project`, base.py 52-61. -/
noncomputable def pcaProject (st : PCAState p) (X : List (Fin p → ℝ)) : Except PyErr (List (Fin p → ℝ)) × PCAState p :=
  match pcaTransform st X with
  | (.error e, st') => (.error e, st')
  | (.ok T, st') => (.ok (T.map (backRow (st.components_.getD []))), st')

/-- One entry of `np.linalg.norm((X - self.location_) - self.project(X), axis=1)`, base.py 79, robpca.py 97-99. -/
noncomputable def orthDistRow (loc : Fin p → ℝ) (C : List (Fin p → ℝ)) (x : Fin p → ℝ) : ℝ :=
  vecNorm fun j => (x j - loc j) - backRow C (scoresRow loc C x) j

/-- One row of `np.square(self.transform(X)) / self.explained_variance_`, base.py 80-82, with the broadcasting of numpy:
an array of length 1 is repeated; different lengths raise ValueError.  Division by zero (inf or NaN in numpy) is not
modelled. -/
noncomputable def broadcastDiv (t ev : List ℝ) : Except PyErr (List ℝ) :=
  if t.length = ev.length then .ok (List.zipWith (fun s v => s ^ 2 / v) t ev)
  else
    match t, ev with
    | [s], _ => .ok (ev.map fun v => s ^ 2 / v)
    | _, [v] => .ok (t.map fun s => s ^ 2 / v)
    | _, _ => .error .valueError

/-- The two distances of `RobustPCA.plot_outlier_map`, base.py 63-92 (`return_distances=True`; score distances first).  The
plot and the cutoffs are not modelled.  `X - None` raises TypeError. -/
noncomputable def outlierMap (st : PCAState p) (X : List (Fin p → ℝ)) : Except PyErr (List ℝ × List ℝ) :=
  match st.location_ with
  | none => .error .attributeError
  | some none => .error .typeError
  | some (some loc) =>
    match st.components_ with
    | none => .error .attributeError
    | some C =>
      match st.explainedVariance_ with
      | none => .error .attributeError
      | some ev =>
        (mapExcept (fun x => broadcastDiv (scoresRow loc C x) ev) X).map fun S =>
          (S.map fun l => Real.sqrt l.sum, X.map (orthDistRow loc C))

/-- `get_od_cutoff`, base.py 95-97; `none` is NaN.  `chi`, `corrRaw`, `corr` are the chi-square quantities of `UnivariateMCD`
(default arguments), `z` is `norm.ppf(0.975)`; the location is not negative. -/
noncomputable def getOdCutoff (chi z : ℝ) (corrRaw : ℕ → ℕ → ℝ) (corr : ℝ → ℝ) (od : List ℝ) : Option ℝ :=
  match mcdCalculate chi corrRaw corr (od.length / 2 + 1) (od.map fun d => d ^ (2 / 3 : ℝ)) with
  | some { variance := some v, location := some l, .. } => some ((l + Real.sqrt v * z) ^ (3 / 2 : ℝ))
  | _ => none

end Base

section ChooseK
variable {K : Type} [Field K] [LinearOrder K]

/-- `ratio >= threshold` for one entry of `cumsum / sum`, robpca.py 89-91, spca.py 47-49.  For a zero sum the ratio is inf,
-inf or NaN. -/
def ratioReaches (thr total c : K) : Bool := if total = 0 then decide (0 < c) else decide (thr ≤ c / total)

/-- `np.argmax` of a list of Booleans, robpca.py 91, spca.py 49: the first `True`, 0 if there is none; ValueError for an
empty list. -/
def argmaxBool (l : List Bool) : Except PyErr ℕ :=
  if l = [] then .error .valueError else .ok (if true ∈ l then l.findIdx id else 0)

/-- `x.cumsum()`, robpca.py 89, spca.py 47. -/
def cumsum (l : List K) : List K := (List.range l.length).map fun i => (l.take (i + 1)).sum

/-- `np.argmax(var_explained_ratio >= threshold) + 1`, robpca.py 89-91, spca.py 47-49. -/
def chooseK (thr : K) (eig : List K) : Except PyErr ℕ :=
  (argmaxBool ((cumsum eig).map (ratioReaches thr eig.sum))).map (· + 1)

/-- The number of components, robpca.py 90-93, spca.py 48-49. -/
def pickK (nComponents : Option ℕ) (thr : K) (eig : List K) : Except PyErr ℕ :=
  match nComponents with
  | some k => .ok k
  | none => chooseK thr eig

end ChooseK

/-- What `np.linalg.eigh` reads of its argument (`UPLO='L'`), robpca.py 87, 102, 109, spca.py 44: the lower triangle. -/
def symLower {p : ℕ} (A : Matrix (Fin p) (Fin p) ℝ) : Matrix (Fin p) (Fin p) ℝ :=
  fun i j => if j ≤ i then A i j else A j i

/-- Contract of `np.linalg.eigh`, robpca.py 87, 102, 109, spca.py 44: increasing eigenvalues, orthonormal eigenvectors in the
columns of `V`. -/
structure EighAsc {p : ℕ} (A : Matrix (Fin p) (Fin p) ℝ) where
  w : Fin p → ℝ
  V : Matrix (Fin p) (Fin p) ℝ
  orth : Vᵀ * V = 1
  decomp : symLower A = V * Matrix.diagonal w * Vᵀ
  mono : Monotone w

/-- The columns of a matrix, as in `eigvecs[:, i]`, robpca.py 96, 105, 111, spca.py 45. -/
def colsOf {p k : ℕ} (V : Matrix (Fin p) (Fin k) ℝ) : List (Fin p → ℝ) := (List.finRange k).map fun i j => V j i

section Locantore
variable {p : ℕ}

/-- `spatial_sign_covariance`, spca.py 38-43. -/
noncomputable def spatialSignCov (X : List (Fin p → ℝ)) (loc : Fin p → ℝ) : Matrix (Fin p) (Fin p) ℝ := fun i j =>
  (X.map fun x => ((x i - loc i) * (1 / rowDist x loc)) * ((x j - loc j) * (1 / rowDist x loc))).sum / X.length

/-- `np.square(median_abs_deviation(scores, axis=0, scale="normal"))`, spca.py 46: one value per component; `c` is the
constant by which the MAD is multiplied. -/
noncomputable def madVariances (c : ℝ) (X : List (Fin p → ℝ)) (loc : Fin p → ℝ) (C : List (Fin p → ℝ)) : List ℝ :=
  C.map fun v => (c * (madRaw (X.map fun x => ∑ j, (x j - loc j) * v j)).getD 0) ^ 2

/-- The part of `PCALocantore.fit` after the l1-median is known, spca.py 38-53.  If the centre is an observation, the weights
are infinite and `eigh` receives NaN; it is assumed to raise LinAlgError, likewise without rows (division by 0). -/
noncomputable def locantoreWith (c thr : ℝ) (eigh : ∀ A : Matrix (Fin p) (Fin p) ℝ, EighAsc A) (st : PCAState p)
    (X : List (Fin p → ℝ)) (loc : Fin p → ℝ) : Except PyErr (PCAState p) :=
  open Classical in
  if X = [] ∨ loc ∈ X then .error .linAlgError
  else
    let C := (colsOf (eigh (spatialSignCov X loc)).V).reverse
    let ev := madVariances c X loc C
    (pickK st.nComponents thr ev).map fun k =>
      { nComponents := some k, location_ := some (some loc), components_ := some (C.take k),
        explainedVariance_ := some (ev.take k) }

/-- `PCALocantore.fit`, spca.py 35-53; the state after a failing call is not modelled. -/
noncomputable def locantoreFit (eps c thr : ℝ) (eigh : ∀ A : Matrix (Fin p) (Fin p) ℝ, EighAsc A) (st : PCAState p)
    (X : List (Fin p → ℝ)) (fuel : ℕ) : Run (PCAState p) :=
  Run.andThen (l1median eps X fuel) fun loc => some (locantoreWith c thr eigh st X loc)

end Locantore

section Robpca

/-- NaN is sorted last by `np.argsort`, robpca.py 84. -/
def nanLast : ExtFloat → WithTop (WithTop ℝ)
  | none => ⊤
  | some v => (v : WithTop (WithTop ℝ))

/-- The functions called by `ROBPCA.fit`, robpca.py 54-117: `stahel_donoho` (61), `np.argsort` (84, 88, 104), `np.linalg.eigh`
(87, 102, 109), `get_od_cutoff` (100), `FastMCD().fit(...).covariance` (108). -/
structure RobpcaDeps where
  outl : ∀ {r : ℕ}, List (Fin r → ℝ) → Except PyErr (List ExtFloat)
  argsortExt : ArgSort (WithTop (WithTop ℝ))
  argsort : ArgSort ℝ
  eigh : ∀ {r : ℕ} (A : Matrix (Fin r) (Fin r) ℝ), EighAsc A
  odCutoff : List ℝ → Option ℝ
  mcdCov : ∀ {k : ℕ}, List (Fin k → ℝ) → Except PyErr (Matrix (Fin k) (Fin k) ℝ)

/-- The functions as `ROBPCA.fit` calls them: `stahel_donoho(X, random_seed=seed)` with its defaults `n_points=2`, `n_dir=250`
(robpca.py 61, utils/outlyingness.py 5-10) and `get_od_cutoff` (robpca.py 100). -/
noncomputable def stdDeps {S : Type} (ch : Choice S) (svdLast : ∀ {r : ℕ}, List (Fin r → ℝ) → Fin r → ℝ) (fresh : ℕ → S)
    (seed : Option S) (argsortExt : ArgSort (WithTop (WithTop ℝ))) (argsort : ArgSort ℝ)
    (eigh : ∀ {r : ℕ} (A : Matrix (Fin r) (Fin r) ℝ), EighAsc A) (chi z : ℝ) (corrRaw : ℕ → ℕ → ℝ) (corr : ℝ → ℝ)
    (mcdCov : ∀ {k : ℕ}, List (Fin k → ℝ) → Except PyErr (Matrix (Fin k) (Fin k) ℝ)) : RobpcaDeps where
  outl X := stahelDonoho ch svdLast fresh X 2 250 seed
  argsortExt := argsortExt
  argsort := argsort
  eigh := eigh
  odCutoff := getOdCutoff chi z corrRaw corr
  mcdCov := mcdCov

variable {p r : ℕ}

/-- `h`, robpca.py 63-82.  `int(alpha * n)` is the floor of the exact product; warnings are not modelled. -/
noncomputable def robpcaH (alpha : ℝ) (n : ℕ) (nComponents : Option ℕ) : Except PyErr ℕ :=
  if ¬ (0.5 ≤ alpha ∧ alpha ≤ 1) then .error .valueError
  else .ok (max ⌊alpha * n⌋₊ ((n + nComponents.getD 10 + 1) / 2))

/-- `np.cov` followed by `np.linalg.eigh`, robpca.py 85-88, 101-104: the eigenvalues in decreasing order, the eigenvectors in
this order, and the matrix.  A single column gives a 0-d array and fewer than two rows give NaN: `eigh` raises. -/
noncomputable def sortedEigen (D : RobpcaDeps) (X : List (Fin r → ℝ)) :
    Except PyErr (List ℝ × List (Fin r → ℝ) × Matrix (Fin r) (Fin r) ℝ) :=
  if r ≤ 1 ∨ X.length ≤ 1 then .error .linAlgError
  else
    let E := D.eigh (npCov X)
    let w := List.ofFn E.w
    let idx := (D.argsort.toFun w).reverse
    .ok (takeAt w idx, takeAt (colsOf E.V) idx, npCov X)

/-- `orth_dist < cutoff`, robpca.py 100; false for NaN. -/
noncomputable def belowCutoff (cut : Option ℝ) (d : ℝ) : Bool :=
  match cut with
  | none => false
  | some c => decide (d < c)

/-- `eigvecs[:, -k:]`, robpca.py 111: for `k = 0` all columns. -/
def lastCols {α : Type} (k : ℕ) (l : List α) : List α := if k = 0 then l else l.drop (l.length - k)

/-- `components @ E`, robpca.py 111: `e` holds one column of `E`. -/
def combine (C : List (Fin r → ℝ)) (e : Fin C.length → ℝ) : Fin r → ℝ := fun j => ∑ i, C[i] j * e i

/-- The final MCD step, robpca.py 106-111: number of components and components.  `np.linalg.matrix_rank` is the exact
rank. -/
noncomputable def finalMcdStep (D : RobpcaDeps) (T : List (Fin r → ℝ)) (loc : Fin r → ℝ) (k : ℕ)
    (C : List (Fin r → ℝ)) : Except PyErr (ℕ × List (Fin r → ℝ)) :=
  (D.mcdCov (T.map fun x (i : Fin C.length) => ∑ j, (x j - loc j) * C[i] j)).map fun M =>
    let k' := min k M.rank
    (k', ((lastCols k' (colsOf (D.eigh M).V)).reverse).map (combine C))

/-- `loadings @ components`, robpca.py 115, one column. -/
def loadColumn (L : Matrix (Fin p) (Fin r) ℝ) (c : Fin r → ℝ) : Fin p → ℝ := fun j => ∑ i, L j i * c i

/-- Steps 3 to 5 of `ROBPCA.fit`, robpca.py 86-111, in the coordinates of the first PCA: number of components, components,
explained variances.  `T` holds the scores, `H` the rows of the h-subset. -/
noncomputable def robpcaCore (D : RobpcaDeps) (thr : ℝ) (finalMCD : Bool) (nComponents : Option ℕ)
    (T H : List (Fin r → ℝ)) : Except PyErr (ℕ × List (Fin r → ℝ) × List ℝ) :=
  (sortedEigen D H).bind fun (w, V, _) =>
    (pickK nComponents thr w).bind fun k =>
      let loc := meanRow T
      let od := T.map (orthDistRow loc (V.take k))
      let cut := D.odCutoff od
      (sortedEigen D (T.filter fun x => belowCutoff cut (orthDistRow loc (V.take k) x))).bind fun (_, Vv, covV) =>
        let k2 := min k covV.rank
        let C := Vv.take k2
        (if finalMCD ∧ k2 > 1 then finalMcdStep D T loc k2 C else .ok (k2, C)).map fun (k3, C3) => (k3, C3, w.take k)

/-- `ROBPCA.fit`, robpca.py 54-117.  `L` holds the loadings `pca.components_.T` which sklearn's `PCA` finds for `X` (`r` is
the smaller number of rows and columns); its scores are `(X - mean) @ L` and `inverse_transform` is `T @ L.T + mean`.  The
state after a failing call and `explained_variance_ratio` are not modelled. -/
noncomputable def robpcaFit (D : RobpcaDeps) (alpha thr : ℝ) (finalMCD : Bool) (L : Matrix (Fin p) (Fin r) ℝ)
    (st : PCAState p) (X : List (Fin p → ℝ)) : Except PyErr (PCAState p) :=
  let T := X.map fun x => (x - meanRow X) ᵥ* L
  (D.outl T).bind fun out =>
    (robpcaH alpha X.length st.nComponents).bind fun h =>
      let H := takeAt T ((D.argsortExt.toFun (out.map nanLast)).take h)
      (robpcaCore D thr finalMCD st.nComponents T H).map fun (k, C, ev) =>
        { nComponents := some k
          location_ := some (some (meanRow (T.map fun t => L *ᵥ t + meanRow X)))
          components_ := some (C.map (loadColumn L))
          explainedVariance_ := some ev }

end Robpca
end Robpy
