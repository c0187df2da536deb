import Verif.Model.MCD
import Verif.Model.Covariance
import Verif.Model.Qn
import Verif.Model.Tau
import Mathlib.Analysis.SpecialFunctions.Trigonometric.DerivHyp

/-! Model of the six starting sets of `DetMCD` (robpy/covariance/mcd.py 319-333 and 374-434) in exact
arithmetic; what happens with them afterwards is `detMCD` in `Verif/Model/MCD.lean`. -/

namespace Robpy
open Matrix

variable {p : ℕ}

/-- What `DetMCD` takes from numpy and scipy: `np.linalg.eigh` (415), `scipy.linalg.sqrtm` (421), `norm.ppf`
(400), `np.argsort` (404, 429, 511) and the consistency constant of `Tau` (univariate/tau.py 49-52). -/
structure DetEnv (p : ℕ) where
  eigh : ∀ A : Matrix (Fin p) (Fin p) ℝ, A.IsSymm → Eigh A
  sqrtm : Matrix (Fin p) (Fin p) ℝ → Matrix (Fin p) (Fin p) ℝ
  ppf : ℝ → ℝ
  srt : ArgSort ℝ
  tauCorr : ℝ

/-- `Qn().fit(col).scale`, mcd.py 376-380, for at least two rows (otherwise `Qn` raises, see `detZ`); the
number of passes of the loop is enough (C01). -/
noncomputable def qnNum (x : List ℝ) : ℝ :=
  match qnScale true true (x.length * x.length + 1) x with
  | some (.ok s) => s
  | _ => 0

/-- `Tau().fit(col).scale`, mcd.py 386-390, with the defaults of univariate/tau.py 10-12. -/
noncomputable def tauNum (corr : ℝ) (x : List ℝ) : ℝ :=
  match tauCalculate 4.5 3 (some corr) x with
  | .ok (_, s) => s
  | .error _ => 0

/-- The scale of the standardisation, mcd.py 328-331. -/
noncomputable def detScale (corr : ℝ) (n : ℕ) (x : List ℝ) : ℝ := if n < 1000 then qnNum x else tauNum corr x

/-- `np.median(., axis=0)` of one column (mcd.py 329, 423; there is at least one row). -/
noncomputable def medNum (x : List ℝ) : ℝ := (npMedian x).getD 0

open Classical in
/-- The standardised data, mcd.py 327-331.  For fewer than two rows `Qn` raises ValueError.  Simplification: with
a scale 0 the code goes on with infinities and NaN (`Qn` in `OGK` or `eigh` of `S4` raises later); the model
raises ValueError here. -/
noncomputable def detZ (corr : ℝ) (X : List (Fin p → ℝ)) : Except PyErr (List (Fin p → ℝ)) :=
  if X.length < 2 ∨ ∃ j, detScale corr X.length (column X j) = 0 then .error .valueError
  else .ok (X.map fun x j => (x j - medNum (column X j)) / detScale corr X.length (column X j))

/-- `scipy.stats.rankdata` of one value in a column (average ranks), mcd.py 398. -/
noncomputable def avgRank (l : List ℝ) (v : ℝ) : ℝ :=
  (l.countP fun a => decide (a < v) : ℕ) + ((l.countP fun a => decide (a = v) : ℕ) + 1 : ℝ) / 2

/-- `R = rankdata(Z, axis=0)`, mcd.py 398. -/
noncomputable def rankRows (Z : List (Fin p → ℝ)) : List (Fin p → ℝ) :=
  Z.map fun z j => avgRank (column Z j) (z j)

/-- `norm.ppf((R - 1 / 3) / (n + 1 / 3))`, mcd.py 400. -/
noncomputable def scoreRows (ppf : ℝ → ℝ) (Z : List (Fin p → ℝ)) : List (Fin p → ℝ) :=
  (rankRows Z).map fun r j => ppf ((r j - 1 / 3) / (Z.length + 1 / 3))

open Classical in
/-- `np.corrcoef(., rowvar=False)`, mcd.py 397, 399, 400: NaN (`none`) if a column is constant. -/
noncomputable def corrcoefRows (Y : List (Fin p → ℝ)) : Option (Matrix (Fin p) (Fin p) ℝ) :=
  if ∃ j, npCov Y j j = 0 then none else some (covarianceToCorrelation (npCov Y))

/-- `znorm` of one row, mcd.py 401. -/
noncomputable def rowNorm (z : Fin p → ℝ) : ℝ := Real.sqrt (∑ j, z j * z j)

open Classical in
/-- `S4`, mcd.py 401-403: a row of norm 0 has weight `1 / 0` and gives NaN (`none`). -/
noncomputable def spatialSigns (Z : List (Fin p → ℝ)) : Option (Matrix (Fin p) (Fin p) ℝ) :=
  if ∃ z ∈ Z, rowNorm z = 0 then none
  else some fun i j => (Z.map fun z => (z i * (1 / rowNorm z)) * (z j * (1 / rowNorm z))).sum / Z.length

/-- `S5`, mcd.py 404-405, with `math.ceil(n / 2)` rows: NaN (`none`) for fewer than two. -/
noncomputable def halfCov (srt : ArgSort ℝ) (Z : List (Fin p → ℝ)) : Option (Matrix (Fin p) (Fin p) ℝ) :=
  let idx := (srt.toFun (Z.map rowNorm)).take ((Z.length + 1) / 2)
  if idx.length < 2 then none else some (npCov (takeAt Z idx))

/-- `estimates_S`, mcd.py 396-409; `OGK` makes two passes (ogk.py 17).  A matrix with NaN makes `eigh` raise
LinAlgError on line 415 (or return NaN, for which `Qn` on line 418 raises ValueError); a single column, for which
`np.corrcoef` returns a 0-d array, does so too.
Simplifications: the code may raise LinAlgError for an earlier matrix of the list first; if `OGK` meets a scale
0, `Qn` raises ValueError because of NaN. -/
noncomputable def detScatters (env : DetEnv p) (Z : List (Fin p → ℝ)) :
    Except PyErr (List (Matrix (Fin p) (Fin p) ℝ)) :=
  if p = 1 then .error .linAlgError
  else
    match corrcoefRows (Z.map fun z j => Real.tanh (z j)), corrcoefRows (rankRows Z),
      corrcoefRows (scoreRows env.ppf Z), spatialSigns Z, halfCov env.srt Z,
      ogkRaw env.eigh medNum qnNum 2 Z with
    | some S1, some S2, some S3, some S4, some S5, some (_, S6) => .ok [S1, S2, S3, S4, S5, S6]
    | _, _, _, _, _, _ => .error .linAlgError

/-- `np.linalg.eigh` reads the lower triangle only (mcd.py 415). -/
def lowerSym (S : Matrix (Fin p) (Fin p) ℝ) : Matrix (Fin p) (Fin p) ℝ := fun i j =>
  if j ≤ i then S i j else S j i

theorem lowerSym_isSymm (S : Matrix (Fin p) (Fin p) ℝ) : (lowerSym S).IsSymm := by
  refine Matrix.IsSymm.ext fun i j => ?_
  unfold lowerSym
  rcases lt_trichotomy i j with h | h | h
  · rw [if_pos h.le, if_neg (not_le.2 h)]
  · subst h; rfl
  · rw [if_neg (not_le.2 h), if_pos h.le]

/-- `E` of line 415-416 of mcd.py: the eigenvectors in reverse order. -/
noncomputable def detE (env : DetEnv p) (S : Matrix (Fin p) (Fin p) ℝ) : Matrix (Fin p) (Fin p) ℝ :=
  (env.eigh (lowerSym S) (lowerSym_isSymm S)).V.submatrix id Fin.rev

/-- `cov` of lines 417-419 of mcd.py. -/
noncomputable def detCov (env : DetEnv p) (Z : List (Fin p → ℝ)) (S : Matrix (Fin p) (Fin p) ℝ) :
    Matrix (Fin p) (Fin p) ℝ :=
  let E := detE env S
  E * Matrix.diagonal (fun j => qnNum (column (Z.map fun z => z ᵥ* E) j) ^ 2) * Eᵀ

/-- One pass of the loop mcd.py 414-424: location and scatter. -/
noncomputable def detStart (env : DetEnv p) (Z : List (Fin p → ℝ)) (S : Matrix (Fin p) (Fin p) ℝ) :
    Except PyErr ((Fin p → ℝ) × Matrix (Fin p) (Fin p) ℝ) :=
  let cov := detCov env Z S
  let root := env.sqrtm cov
  (npInv root).map fun inv =>
    (root *ᵥ fun j => medNum (column (Z.map fun z => z ᵥ* inv) j), cov)

/-- `idx_h0`, mcd.py 429: the `math.ceil(n / 2)` rows with the smallest distances. -/
noncomputable def detIndices (env : DetEnv p) (Z : List (Fin p → ℝ))
    (s : (Fin p → ℝ) × Matrix (Fin p) (Fin p) ℝ) : Except PyErr (List ℕ) :=
  (sqMahalanobis Z s.1 s.2).map fun d => (env.srt.toFun d).take ((Z.length + 1) / 2)

/-- The six index arrays, mcd.py 327-333 and 395-429.  Simplification: the code makes the subset and the C-step of
one array before it computes the next one; only which of several exceptions is raised depends on it. -/
noncomputable def detInits (env : DetEnv p) (X : List (Fin p → ℝ)) : Except PyErr (List (List ℕ)) :=
  (detZ env.tauCorr X).bind fun Z =>
    (detScatters env Z).bind fun Ss =>
      (mapExcept (detStart env Z) Ss).bind fun starts => mapExcept (detIndices env Z) starts

/-- `DetMCD.calculate_covariance`, mcd.py 319-372. -/
noncomputable def detFit (env : DetEnv p) (cfg : MCDConfig ℝ) (X : List (Fin p → ℝ)) (fuel : ℕ) :
    Run (CovFit ℝ (Fin p)) :=
  if alphaIsAll cfg.alpha X.length then some (.ok (classicalFit X))
  else Run.andThen (some (detInits env X)) fun inits => detMCD env.srt cfg X fuel inits

end Robpy
