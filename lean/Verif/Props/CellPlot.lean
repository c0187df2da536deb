import Verif.Model.CellPlot
import Verif.Props.CellFit
import Verif.Props.TauWrapping
import Verif.Props.LinAlg
import Mathlib.Analysis.SpecialFunctions.Complex.Arg

/-! # C149 to C152: the residuals and the plots of CellMCD -/

namespace Robpy
open Matrix

variable {n p : ℕ}

/-! ## C149: the residuals -/

/-- The estimator follows changes of units: what the theorems use of `OneStepWrapping`. -/
def PlotFollowsUnits (est : List ℝ → Option ℝ × Option ℝ) : Prop :=
  ∀ (l : List ℝ) (a b : ℝ), 0 < a →
    est (l.map fun x => a * x + b) = ((est l).1.map fun m => a * m + b, (est l).2.map fun s => a * s)

/-- `OneStepWrapping` follows changes of units. -/
theorem oneStepWrapping_follows (cutoff : ℝ) (corrRaw : ℕ → ℕ → ℝ) (corr : ℝ → ℝ) :
    PlotFollowsUnits (oneStepWrapping cutoff corrRaw corr) := by
  intro l a b ha
  rcases l with _ | ⟨x, l⟩
  · have h : oneStepWrapping cutoff corrRaw corr [] = (none, none) := by
      simp [oneStepWrapping, mcdCalculate, rawEstimates, reweighting, rawStep, npSort]
    simp [h]
  · exact C71_affine cutoff corrRaw corr ha b (x :: l) (by simp)

theorem presentCells_map (X : Cells n p) (j : Fin p) (f : ℝ → ℝ) :
    presentCells (fun i k => (X i k).map f) j = (presentCells X j).map f := by
  unfold presentCells
  rw [show (List.ofFn fun i => (X i j).map f) = (List.ofFn fun i => X i j).map (Option.map f) from by
    rw [List.map_ofFn]; rfl]
  generalize (List.ofFn fun i => X i j) = l
  induction l with
  | nil => rfl
  | cons x l ih => cases x <;> simp_all

/-- **C149**: let the predictions be numbers and the conditional standard deviations positive (`C149_fit`), and let the
residuals of column `j`, before the last step, have the robust scale `s ≠ 0`.  Then the reported residual of a cell is a
number exactly if the cell was observed, it is a common positive multiple of `(observed - predicted) / std`, and the
reported residuals of the column have the robust scale 1. -/
theorem C149_scale (cutoff : ℝ) (corrRaw : ℕ → ℕ → ℝ) (corr : ℝ → ℝ) (X : Cells n p) (r : CellResult n p) (j : Fin p)
    (hpred : ∀ i, ∃ v, r.predictions i j = some v) (hstd : ∀ i, 0 < r.stds i j) (s : ℝ) (hs : s ≠ 0)
    (hscale : (oneStepWrapping cutoff corrRaw corr (presentCells (rawResiduals X r) j)).2 = some s) :
    0 < s ∧ (∀ i, cellResiduals (oneStepWrapping cutoff corrRaw corr) X r i j = none ↔ X i j = none) ∧
      (∀ i x v, X i j = some x → r.predictions i j = some v →
        cellResiduals (oneStepWrapping cutoff corrRaw corr) X r i j = some ((x - v) / r.stds i j / s)) ∧
      (oneStepWrapping cutoff corrRaw corr
        (presentCells (cellResiduals (oneStepWrapping cutoff corrRaw corr) X r) j)).2 = some 1 := by
  have hs0 : 0 < s := by
    refine lt_of_le_of_ne ?_ (Ne.symm hs)
    unfold oneStepWrapping at hscale
    split at hscale
    · rw [← Option.some.inj hscale]; exact Real.sqrt_nonneg _
    · cases hscale
  have hcell : ∀ i x v, X i j = some x → r.predictions i j = some v →
      cellResiduals (oneStepWrapping cutoff corrRaw corr) X r i j = some ((x - v) / r.stds i j / s) := by
    intro i x v hx hv
    simp [cellResiduals, rawResiduals, hx, hv, npDiv, (hstd i).ne', hs, hscale]
  refine ⟨hs0, fun i => ?_, hcell, ?_⟩
  · obtain ⟨v, hv⟩ := hpred i
    rcases hx : X i j with _ | x
    · simp [cellResiduals, rawResiduals, hx]
    · simp [hcell i x v hx hv]
  · have hcol : presentCells (cellResiduals (oneStepWrapping cutoff corrRaw corr) X r) j =
        (presentCells (rawResiduals X r) j).map fun v => s⁻¹ * v + 0 := by
      rw [← presentCells_map]
      unfold presentCells
      congr 1
      congr 1
      funext i
      rcases hx : rawResiduals X r i j with _ | v
      · simp [cellResiduals, hx]
      · simp [cellResiduals, hx, hscale, npDiv, hs]
        ring
    rw [hcol, oneStepWrapping_follows cutoff corrRaw corr _ _ _ (inv_pos.2 hs0), hscale]
    simp [hs]

/-- **C149**: the conditions on predictions and deviations hold after every successful fit. -/
theorem C149_fit {env : CellEnv p} {ext : CellExt p} (hd : DDCWContract ext)
    (he : ∀ l m s, ext.est l = .ok (m, s) → 0 < s) {cfg : CellConfig} (ha : 0 < cfg.minEig) {alpha : ℝ} {X : Cells n p}
    {r : CellResult n p} (h : cellFitFrom env ext cfg alpha X = .ok r) :
    (∀ i j, ∃ v, r.predictions i j = some v) ∧ ∀ i j, 0 < r.stds i j := by
  refine ⟨fun i j => ?_, (C120_positive hd he ha h).2⟩
  obtain ⟨ls, init, s, pr, -, h2, h3, h4, rfl⟩ := cellFitFrom_parts h
  obtain ⟨hS, hinv⟩ := hd _ _ _ _ ha h2
  rw [hinv] at h3
  obtain ⟨hW, hpd, hci⟩ := cSteps_parts ha hS h3
  rw [hci] at h4
  have hrow := collect_inv h4 i
  obtain ⟨r', e, hr'⟩ := predictRow_total s.location hpd (w := s.W i) (x := clearBeyond3 (scaleCells ls X) i)
    fun j hj => hW i j hj
  rw [e] at hrow
  have := Except.ok.inj hrow
  subst this
  obtain ⟨⟨a, haj⟩, -⟩ := hr' j
  exact ⟨_, by simp only [cellBack]; rw [haj]; rfl⟩

/-- The hypotheses of `C149_fit` are met by a fit of data with missing cells. -/
example : ∃ r, cellFitFrom (exampleEnv 2) (exampleExt 2) exampleCfg 0.55 witness122 = .ok r ∧ ∃ v, r.predictions 0 0 = some v := by
  obtain ⟨r, hr⟩ := witness122_fit (alpha := 0.55) (by norm_num)
  exact ⟨r, hr, (C149_fit (exampleExt_contract 2) (exampleExt_pos 2) (by norm_num [exampleCfg]) hr).1 0 0⟩

/-- Three rows, one of them missing, predicted by 1 with standard deviation 1/2. -/
noncomputable def c149Result : CellResult 3 1 :=
  { W := fun _ _ => true, location := 0, covariance := 1, predictions := fun _ _ => some 1, stds := fun _ _ => 1 / 2
    imputed := fun _ _ => none }

/-- The hypotheses of `C149_scale` are met: the observed values 0 and 2 have residuals -2 and 2 with scale 2. -/
example : (oneStepWrapping 5 (fun _ _ => 1) (fun _ => 1)
    (presentCells (rawResiduals (fun i _ => ![some 0, none, some 2] i) c149Result) 0)).2 = some 2 := by
  have h : presentCells (rawResiduals (fun i _ => ![some 0, none, some 2] i) c149Result) 0 =
      ([-1, 1] : List ℝ).map fun x => 2 * x + 0 := by
    simp [presentCells, rawResiduals, c149Result, npDiv, List.ofFn_succ]
    norm_num
  have h2 : ([-1, 1] : List ℝ) = ([0, 2] : List ℝ).map fun x => 1 * x + -1 := by norm_num
  have hv : var ([0, 2] : List ℝ) = 1 := by norm_num [var, mean]
  have h3 : (oneStepWrapping 5 (fun _ _ => 1) (fun _ => 1) [0, 2]).2 = some 1 := by
    simp only [oneStepWrapping, mcdCalculate, List.length_cons, List.length_nil]
    norm_num [hv]
  rw [h, oneStepWrapping_follows _ _ _ _ _ _ two_pos, h2, oneStepWrapping_follows _ _ _ _ _ _ one_pos, h3]
  norm_num

/-! ## C150: units -/

theorem rawResiduals_units (X : Cells n p) (r : CellResult n p) {c d : Fin p → ℝ} (hc : ∀ j, 0 < c j) :
    rawResiduals (changeUnits c d X) (r.changeUnits c d) = rawResiduals X r := by
  funext i j
  have h0 := (hc j).ne'
  rcases hx : X i j with _ | x
  · simp [rawResiduals, changeUnits, hx]
  rcases hv : r.predictions i j with _ | v
  · simp [rawResiduals, changeUnits, CellResult.changeUnits, hx, hv]
  have e1 : rawResiduals (changeUnits c d X) (r.changeUnits c d) i j =
      npDiv (c j * x + d j - (c j * v + d j)) (c j * r.stds i j) := by
    simp [rawResiduals, changeUnits, CellResult.changeUnits, hx, hv]
  have e2 : rawResiduals X r i j = npDiv (x - v) (r.stds i j) := by simp [rawResiduals, hx, hv]
  rw [e1, e2]
  unfold npDiv
  by_cases hs : r.stds i j = 0
  · simp [hs]
  · rw [if_neg hs, if_neg (mul_ne_zero h0 hs)]
    congr 1
    field_simp
    ring

/-- **C150**: the residuals after a fit in other units are the same, provided no column has a median absolute deviation
below 1e-8 in either units (C121). -/
theorem C150_residuals (env : CellEnv p) {ext : CellExt p} (he : UnitEquivariant ext.est) (cfg : CellConfig)
    (alpha : ℝ) (X : Cells n p) {c d : Fin p → ℝ} (hc : ∀ j, 0 < c j)
    (hmad : ∀ j s, madRaw ((List.ofFn fun i => X i j).filterMap id) = some s → 1e-8 ≤ s)
    (hmad' : ∀ j s, madRaw ((List.ofFn fun i => changeUnits c d X i j).filterMap id) = some s → 1e-8 ≤ s)
    (est : List ℝ → Option ℝ × Option ℝ) :
    (cellFitFrom env ext cfg alpha (changeUnits c d X)).map (cellResiduals est (changeUnits c d X)) =
      (cellFitFrom env ext cfg alpha X).map (cellResiduals est X) := by
  rw [C121_units_partial env he cfg alpha X hc hmad hmad']
  cases cellFitFrom env ext cfg alpha X with
  | error e => rfl
  | ok r =>
    simp only [Except.map]
    congr 1
    unfold cellResiduals
    rw [rawResiduals_units X r hc]

theorem filterMap_affine (x : Fin n → Option ℝ) (a b : ℝ) :
    (List.ofFn fun i => (x i).map fun v => a * v + b).filterMap id =
      ((List.ofFn x).filterMap id).map fun v => a * v + b := by
  rw [show (List.ofFn fun i => (x i).map fun v => a * v + b) = (List.ofFn x).map (Option.map fun v => a * v + b) from by
    rw [List.map_ofFn]; rfl]
  generalize List.ofFn x = l
  induction l with
  | nil => rfl
  | cons x l ih => cases x <;> simp_all

theorem getThresholds_units {est : List ℝ → Option ℝ × Option ℝ} (he : PlotFollowsUnits est) (c : ℝ) (x : Fin n → Option ℝ)
    {a : ℝ} (ha : 0 < a) (b : ℝ) :
    getThresholds est c (fun i => (x i).map fun v => a * v + b) =
      ((getThresholds est c x).1.map fun v => a * v + b, (getThresholds est c x).2.map fun v => a * v + b) := by
  unfold getThresholds
  rw [filterMap_affine, he _ _ _ ha]
  rcases est ((List.ofFn x).filterMap id) with ⟨_ | l, _ | s⟩
  · rfl
  · rfl
  · rfl
  · simp only [Option.map_some, Prod.mk.injEq, Option.some.injEq]
    constructor <;> ring

theorem outsideLines_units (t : Option ℝ × Option ℝ) (v : Option ℝ) {a : ℝ} (ha : 0 < a) (b : ℝ) :
    outsideLines (t.1.map fun v => a * v + b, t.2.map fun v => a * v + b) (v.map fun v => a * v + b) = outsideLines t v := by
  rcases t with ⟨_ | l, _ | u⟩ <;> rcases v with _ | v <;> simp [outsideLines, ha]

theorem quadForm_units (S : Matrix (Fin p) (Fin p) ℝ) (loc : Fin p → ℝ) {c : Fin p → ℝ} (d : Fin p → ℝ) (hc : ∀ j, 0 < c j)
    {j k : Fin p} (hS : (pairCov S j k).det ≠ 0) (x y : ℝ) :
    npInv (pairCov (fun i l => c i * S i l * c l) j k) = .ok (pairCov (fun i l => c i * S i l * c l) j k)⁻¹ ∧
    quadForm (pairCov (fun i l => c i * S i l * c l) j k)⁻¹
      (![c j * x + d j, c k * y + d k] - ![c j * loc j + d j, c k * loc k + d k]) =
      quadForm (pairCov S j k)⁻¹ (![x, y] - ![loc j, loc k]) := by
  set D : Matrix (Fin 2) (Fin 2) ℝ := Matrix.diagonal ![c j, c k] with hD
  have hdet : D.det ≠ 0 := by
    rw [hD, Matrix.det_diagonal, Fin.prod_univ_two]
    exact (mul_pos (hc j) (hc k)).ne'
  have h1 : pairCov (fun i l => c i * S i l * c l) j k = D * pairCov S j k * Dᵀ := by
    rw [hD, Matrix.diagonal_transpose]
    ext a b
    rw [Matrix.mul_diagonal, Matrix.diagonal_mul]
    fin_cases a <;> fin_cases b <;> rfl
  have hne : (D * pairCov S j k * Dᵀ).det ≠ 0 := by
    rw [Matrix.det_mul, Matrix.det_mul, Matrix.det_transpose]
    exact mul_ne_zero (mul_ne_zero hdet hS) hdet
  refine ⟨by rw [h1]; exact npInv_eq _ hne, ?_⟩
  have h2 := sqMahalanobis_affine D (pairCov S j k) hdet ![d j, d k] ![loc j, loc k] [![x, y]]
  have hv : ∀ u w : ℝ, D *ᵥ ![u, w] + ![d j, d k] = ![c j * u + d j, c k * w + d k] := by
    intro u w
    rw [hD]
    ext a
    fin_cases a <;> simp [Matrix.mulVec_diagonal]
  rw [h1]
  unfold sqMahalanobis at h2
  rw [npInv_eq _ hne, npInv_eq _ hS, List.map_cons, List.map_nil, hv, hv] at h2
  exact (List.cons.inj (Except.ok.inj h2)).1

/-- **C150**: every plot of the results in other units names the same rows (and raises the same errors).  For the
bivariate plot the covariance of the two variables has to be regular, which holds for two different variables after a
successful fit (`C151_plot`). -/
theorem C150_plots {est : List ℝ → Option ℝ × Option ℝ} (he : PlotFollowsUnits est) (X : Cells n p) (r : CellResult n p)
    {c d : Fin p → ℝ} (hc : ∀ j, 0 < c j) (cut : PlotCutoffs) (named : Bool) (type : PlotType) (j : Fin p) (second : Option (Fin p))
    (hS : ∀ k, second = some k → (pairCov r.covariance j k).det ≠ 0) :
    (cellPlot est (some (changeUnits c d X, r.changeUnits c d)) cut named type j second).map PlotOut.named =
      (cellPlot est (some (X, r)) cut named type j second).map PlotOut.named := by
  have hres : cellResiduals est (changeUnits c d X) (r.changeUnits c d) = cellResiduals est X r := by
    unfold cellResiduals
    rw [rawResiduals_units X r hc]
  have hobs : ∀ k c', getThresholds est c' (fun i => changeUnits c d X i k) =
      ((getThresholds est c' fun i => X i k).1.map fun v => c k * v + d k,
        (getThresholds est c' fun i => X i k).2.map fun v => c k * v + d k) := fun k c' =>
    getThresholds_units he c' (fun i => X i k) (hc k) (d k)
  have hpred : ∀ k c', getThresholds est c' (fun i => (r.changeUnits c d).predictions i k) =
      ((getThresholds est c' fun i => r.predictions i k).1.map fun v => c k * v + d k,
        (getThresholds est c' fun i => r.predictions i k).2.map fun v => c k * v + d k) := fun k c' =>
    getThresholds_units he c' (fun i => r.predictions i k) (hc k) (d k)
  have ho : ∀ t k i, outsideLines (t.1.map fun v => c k * v + d k, t.2.map fun v => c k * v + d k) (changeUnits c d X i k) =
      outsideLines t (X i k) := fun t k i => outsideLines_units t _ (hc k) _
  have hp : ∀ t k i, outsideLines (t.1.map fun v => c k * v + d k, t.2.map fun v => c k * v + d k)
      ((r.changeUnits c d).predictions i k) = outsideLines t (r.predictions i k) := fun t k i => outsideLines_units t _ (hc k) _
  cases type with
  | indexplot => simp only [cellPlot, hres]
  | residualsVsVariable =>
    simp only [cellPlot, hres, linePlot, Except.map, annoteOutliers, hobs, ho]
  | residualsVsPredictions =>
    simp only [cellPlot, hres, linePlot, Except.map, annoteOutliers, hpred, hp]
  | variableVsPredictions =>
    simp only [cellPlot, linePlot, Except.map, annoteOutliers, hobs, ho, hpred, hp]
  | other => rfl
  | bivariate =>
    rcases second with _ | k
    · rfl
    · cases named with
      | false => rfl
      | true =>
        have h := hS k rfl
        simp only [cellPlot, if_true, annoteEllipse, CellResult.changeUnits]
        rw [(quadForm_units r.covariance r.location d hc h 0 0).1, npInv_eq _ h]
        simp only [Except.map]
        congr 1
        refine List.filter_congr fun i _ => ?_
        rcases hx : X i j with _ | x
        · simp [pairDistance, changeUnits, hx]
        rcases hy : X i k with _ | y
        · simp [pairDistance, changeUnits, hx, hy]
        simp only [pairDistance, changeUnits, hx, hy, Option.map_some]
        rw [(quadForm_units r.covariance r.location d hc h x y).2]

/-- The hypothesis of `C150_plots` is met by `OneStepWrapping`. -/
example : PlotFollowsUnits (oneStepWrapping 5 (fun _ _ => 1) fun _ => 1) := oneStepWrapping_follows _ _ _

/-! ## C151: the ellipse -/

theorem ellipseShape_sq {A : Matrix (Fin 2) (Fin 2) ℝ} (hA : A.PosDef) (e : Eigh A) :
    ellipseShape e * A⁻¹ * ellipseShape e = 1 ∧ (ellipseShape e)ᵀ = ellipseShape e ∧ ellipseShape e * ellipseShape e = A := by
  have hVV : e.V * e.Vᵀ = 1 := mul_eq_one_comm.1 e.orth
  have hw : ∀ i, 0 ≤ e.w i := by
    intro i
    have h1 := hA.posSemidef.dotProduct_mulVec_nonneg (e.V *ᵥ Pi.single i 1)
    have h2 : star (e.V *ᵥ Pi.single i 1) ⬝ᵥ A *ᵥ (e.V *ᵥ Pi.single i 1) = e.w i := by
      have h3 : A * e.V = e.V * Matrix.diagonal e.w := by
        calc A * e.V = e.V * Matrix.diagonal e.w * e.Vᵀ * e.V := congrArg (· * e.V) e.decomp
          _ = e.V * Matrix.diagonal e.w := by rw [Matrix.mul_assoc, e.orth, Matrix.mul_one]
      rw [star_trivial, Matrix.mulVec_mulVec, h3, Matrix.dotProduct_mulVec, ← Matrix.vecMul_transpose, Matrix.vecMul_vecMul,
        ← Matrix.mul_assoc, e.orth, Matrix.one_mul]
      simp
    rwa [h2] at h1
  have hS2 : ellipseShape e * ellipseShape e = A := by
    unfold ellipseShape
    refine Eq.trans ?_ e.decomp.symm
    calc e.V * Matrix.diagonal (fun i => Real.sqrt (e.w i)) * e.Vᵀ * (e.V * Matrix.diagonal (fun i => Real.sqrt (e.w i)) * e.Vᵀ)
        = e.V * Matrix.diagonal (fun i => Real.sqrt (e.w i)) * (e.Vᵀ * e.V) * Matrix.diagonal (fun i => Real.sqrt (e.w i)) * e.Vᵀ := by
          simp only [Matrix.mul_assoc]
      _ = e.V * (Matrix.diagonal (fun i => Real.sqrt (e.w i)) * Matrix.diagonal (fun i => Real.sqrt (e.w i))) * e.Vᵀ := by
          rw [e.orth, Matrix.mul_one, Matrix.mul_assoc e.V]
      _ = e.V * Matrix.diagonal e.w * e.Vᵀ := by
          rw [Matrix.diagonal_mul_diagonal]
          congr 3
          funext i
          exact Real.mul_self_sqrt (hw i)
  have hdet : IsUnit (ellipseShape e).det := by
    have : (ellipseShape e).det * (ellipseShape e).det ≠ 0 := by
      rw [← Matrix.det_mul, hS2]; exact hA.det_pos.ne'
    exact (left_ne_zero_of_mul this).isUnit
  refine ⟨?_, ?_, hS2⟩
  · generalize ellipseShape e = S at hS2 hdet
    rw [← hS2, Matrix.mul_inv_rev, ← Matrix.mul_assoc, Matrix.mul_nonsing_inv _ hdet, Matrix.one_mul,
      Matrix.nonsing_inv_mul _ hdet]
  · unfold ellipseShape
    rw [Matrix.transpose_mul, Matrix.transpose_mul, Matrix.transpose_transpose, Matrix.diagonal_transpose, Matrix.mul_assoc]

theorem quadForm_vecMul_shape {A : Matrix (Fin 2) (Fin 2) ℝ} (hA : A.PosDef) (e : Eigh A) (u : Fin 2 → ℝ) :
    quadForm A⁻¹ (u ᵥ* ellipseShape e) = u ⬝ᵥ u := by
  obtain ⟨h1, h2, -⟩ := ellipseShape_sq hA e
  unfold quadForm
  rw [Matrix.vecMul_vecMul]
  conv_lhs => rw [← h2, Matrix.vecMul_transpose, Matrix.dotProduct_mulVec, Matrix.vecMul_vecMul, h2, h1, Matrix.vecMul_one]

/-- **C151**: every point of the drawn curve has the Mahalanobis distance `radius` from the centre. -/
theorem C151_curve {A : Matrix (Fin 2) (Fin 2) ℝ} (hA : A.PosDef) (e : Eigh A) {radius : ℝ} (hr : 0 ≤ radius)
    (center : Fin 2 → ℝ) (t : ℝ) :
    mahalanobis [ellipsePoint e radius center t] center A = .ok [radius] := by
  unfold mahalanobis sqMahalanobis
  rw [npInv_eq _ hA.det_pos.ne']
  simp only [Except.map, List.map_cons, List.map_nil]
  congr 2
  rw [ellipsePoint, add_sub_cancel_right, quadForm_vecMul_shape hA]
  have : (radius • ![Real.cos t, Real.sin t]) ⬝ᵥ (radius • ![Real.cos t, Real.sin t]) = radius ^ 2 := by
    simp [dotProduct, Fin.sum_univ_two]
    linear_combination radius ^ 2 * Real.cos_sq_add_sin_sq t
  rw [this, Real.sqrt_sq hr]

theorem exists_angle {u : Fin 2 → ℝ} (h : u ⬝ᵥ u = 1) : ∃ t, u = ![Real.cos t, Real.sin t] := by
  have h' : u 0 * u 0 + u 1 * u 1 = 1 := by simpa [dotProduct, Fin.sum_univ_two] using h
  set z : ℂ := ⟨u 0, u 1⟩ with hz
  have hn : ‖z‖ = 1 := by
    have : ‖z‖ ^ 2 = 1 := by rw [Complex.sq_norm, Complex.normSq_apply]; exact h'
    nlinarith [norm_nonneg z]
  have h0 : z ≠ 0 := by
    intro h0; rw [h0] at hn; simp at hn
  refine ⟨Complex.arg z, ?_⟩
  ext i
  fin_cases i
  · change u 0 = Real.cos (Complex.arg z)
    rw [Complex.cos_arg h0, hn, div_one]
  · change u 1 = Real.sin (Complex.arg z)
    rw [Complex.sin_arg, hn, div_one]

/-- The region that the drawn curve encloses. -/
def Spec.Inside {A : Matrix (Fin 2) (Fin 2) ℝ} (e : Eigh A) (radius : ℝ) (center z : Fin 2 → ℝ) : Prop :=
  ∃ t s : ℝ, 0 ≤ s ∧ s ≤ 1 ∧ z = center + s • (ellipsePoint e radius center t - center)

theorem inside_iff {A : Matrix (Fin 2) (Fin 2) ℝ} (hA : A.PosDef) (e : Eigh A) {radius : ℝ} (hr : 0 < radius)
    (center z : Fin 2 → ℝ) : Spec.Inside e radius center z ↔ Real.sqrt (quadForm A⁻¹ (z - center)) ≤ radius := by
  obtain ⟨h1, h2, h3⟩ := ellipseShape_sq hA e
  constructor
  · rintro ⟨t, s, hs0, hs1, rfl⟩
    have : center + s • (ellipsePoint e radius center t - center) - center =
        (s • radius • ![Real.cos t, Real.sin t]) ᵥ* ellipseShape e := by
      rw [ellipsePoint, add_sub_cancel_right, add_sub_cancel_left, ← Matrix.smul_vecMul]
    rw [this, quadForm_vecMul_shape hA]
    have h : (s • radius • ![Real.cos t, Real.sin t]) ⬝ᵥ (s • radius • ![Real.cos t, Real.sin t]) = (s * radius) ^ 2 := by
      simp [dotProduct, Fin.sum_univ_two]
      linear_combination (s * radius) ^ 2 * Real.cos_sq_add_sin_sq t
    rw [h, Real.sqrt_sq (mul_nonneg hs0 hr.le)]
    exact mul_le_of_le_one_left hr.le hs1
  · intro h
    set u := (z - center) ᵥ* (A⁻¹ * ellipseShape e) with hu
    have hAS : A⁻¹ * ellipseShape e * ellipseShape e = 1 := by
      rw [Matrix.mul_assoc, h3, Matrix.nonsing_inv_mul _ hA.det_pos.ne'.isUnit]
    have hz : u ᵥ* ellipseShape e = z - center := by
      rw [hu, Matrix.vecMul_vecMul, hAS, Matrix.vecMul_one]
    rw [← hz, quadForm_vecMul_shape hA] at h
    set q := Real.sqrt (u ⬝ᵥ u) with hq
    have huu : 0 ≤ u ⬝ᵥ u := by
      simp only [dotProduct, Fin.sum_univ_two]
      nlinarith [mul_self_nonneg (u 0), mul_self_nonneg (u 1)]
    have hq2 : q * q = u ⬝ᵥ u := Real.mul_self_sqrt huu
    rcases eq_or_lt_of_le (Real.sqrt_nonneg (u ⬝ᵥ u)) with h0 | h0
    · have hu0 : u ⬝ᵥ u = 0 := by rw [← hq2, hq, ← h0, mul_zero]
      have : u = 0 := dotProduct_self_eq_zero.1 hu0
      refine ⟨0, 0, le_refl _, zero_le_one, ?_⟩
      rw [this, Matrix.zero_vecMul] at hz
      rw [zero_smul, add_zero, ← sub_eq_zero, ← hz]
    · have hq0 : q ≠ 0 := h0.ne'
      obtain ⟨t, ht⟩ := exists_angle (u := q⁻¹ • u) (by
        rw [smul_dotProduct, dotProduct_smul, smul_eq_mul, smul_eq_mul, ← hq2]
        field_simp)
      refine ⟨t, q / radius, div_nonneg h0.le hr.le, (div_le_one hr).2 h, ?_⟩
      rw [ellipsePoint, add_sub_cancel_right, ← ht, ← Matrix.smul_vecMul, smul_smul, smul_smul,
        show q / radius * radius * q⁻¹ = 1 by field_simp, one_smul, hz]
      abel

/-- **C151**: `annote_outliers_ellipse` names exactly the rows with both cells observed that lie outside the curve drawn
with the same radius. -/
theorem C151_named {A : Matrix (Fin 2) (Fin 2) ℝ} (hA : A.PosDef) (e : Eigh A) {radius : ℝ} (hr : 0 < radius)
    (center : Fin 2 → ℝ) (x y : Fin n → Option ℝ) :
    ∃ l, annoteEllipse radius center A x y = .ok l ∧
      ∀ i, i ∈ l ↔ ∃ a b, x i = some a ∧ y i = some b ∧ ¬ Spec.Inside e radius center ![a, b] := by
  refine ⟨_, by unfold annoteEllipse; rw [npInv_eq _ hA.det_pos.ne']; rfl, fun i => ?_⟩
  rw [List.mem_filter]
  rcases x i with _ | a
  · simp [pairDistance]
  rcases y i with _ | b
  · simp [pairDistance]
  simp [pairDistance, inside_iff hA e hr]

theorem pairCov_posDef {S : Matrix (Fin p) (Fin p) ℝ} (hS : S.PosDef) {j k : Fin p} (h : j ≠ k) : (pairCov S j k).PosDef := by
  refine hS.submatrix ?_
  intro a b hab
  fin_cases a <;> fin_cases b <;> simp_all

/-- **C151**: after every successful fit the bivariate plot of two different variables with row names, and without
`annotation_quantile`, names exactly the rows outside the drawn ellipse. -/
theorem C151_plot {env : CellEnv p} {ext : CellExt p} (hd : DDCWContract ext)
    (he : ∀ l m s, ext.est l = .ok (m, s) → 0 < s) {cfg : CellConfig} (ha : 0 < cfg.minEig) {alpha : ℝ} {X : Cells n p}
    {r : CellResult n p} (h : cellFitFrom env ext cfg alpha X = .ok r) (est : List ℝ → Option ℝ × Option ℝ) (cut : PlotCutoffs)
    (hr : 0 < cut.radius) (hann : cut.annotRadius = none) {j k : Fin p} (hjk : j ≠ k) (e : Eigh (pairCov r.covariance j k)) :
    ∃ out, cellPlot est (some (X, r)) cut true .bivariate j (some k) = .ok out ∧
      ∀ i, i ∈ out.named ↔ ∃ a b, X i j = some a ∧ X i k = some b ∧
        ¬ Spec.Inside e cut.radius ![r.location j, r.location k] ![a, b] := by
  have hpd := pairCov_posDef (C120_positive hd he ha h).1 hjk
  obtain ⟨l, hl, hm⟩ := C151_named hpd e hr ![r.location j, r.location k] (fun i => X i j) fun i => X i k
  refine ⟨_, by simp only [cellPlot, if_true, hann, Option.getD_none]; rw [hl]; rfl, hm⟩

/-- The hypotheses of `C151_plot` are met by a fit of two variables. -/
example : ∃ r, cellFitFrom (exampleEnv 2) (exampleExt 2) exampleCfg 0.55 witness122 = .ok r ∧
    (pairCov r.covariance 0 1).PosDef ∧ (0 : Fin 2) ≠ 1 := by
  obtain ⟨r, hr⟩ := witness122_fit (alpha := 0.55) (by norm_num)
  exact ⟨r, hr, pairCov_posDef (C120_positive (exampleExt_contract 2) (exampleExt_pos 2) (by norm_num [exampleCfg]) hr).1
    (by decide), by decide⟩

/-- The hypotheses of `C151_curve` and `C151_named` are met by the unit matrix. -/
example : Nonempty (Eigh (1 : Matrix (Fin 2) (Fin 2) ℝ)) ∧ (1 : Matrix (Fin 2) (Fin 2) ℝ).PosDef :=
  ⟨⟨{ w := 1, V := 1, orth := by simp, decomp := by simp }⟩, Matrix.PosDef.one⟩

/-! ## C152: the other plots -/

/-- `v` is a number outside the strip between two lines (which may be NaN). -/
def Spec.OutsideStrip (t : Option ℝ × Option ℝ) (v : Option ℝ) : Prop :=
  ∃ z, v = some z ∧ ((∃ a, t.1 = some a ∧ z < a) ∨ ∃ b, t.2 = some b ∧ b < z)

theorem outsideLines_iff (t : Option ℝ × Option ℝ) (v : Option ℝ) : outsideLines t v = true ↔ Spec.OutsideStrip t v := by
  rcases t with ⟨_ | a, _ | b⟩ <;> rcases v with _ | v <;> simp [outsideLines, Spec.OutsideStrip]

/-- **C152**: without `annotation_quantile`, the named rows of the four other plots are exactly those outside the
drawn lines. -/
theorem C152_lines (est : List ℝ → Option ℝ × Option ℝ) (X : Cells n p) (r : CellResult n p) (cut : PlotCutoffs)
    (hann : cut.annot = none) (type : PlotType) (hb : type ≠ .bivariate) (j : Fin p) (second : Option (Fin p))
    (out : PlotOut n) (h : cellPlot est (some (X, r)) cut true type j second = .ok out) (i : Fin n) :
    i ∈ out.named ↔ Spec.OutsideStrip out.hLines (out.y i) ∨ ∃ t, out.vLines = some t ∧ Spec.OutsideStrip t (out.x i) := by
  cases type with
  | bivariate => exact absurd rfl hb
  | other => cases h
  | _ =>
    rw [← Except.ok.inj h]
    simp [linePlot, annoteOutliers, hann, ← outsideLines_iff]

/-- **C152**: the index plot names exactly the rows whose residual exceeds the cutoff in absolute value. -/
theorem C152_index (est : List ℝ → Option ℝ × Option ℝ) (X : Cells n p) (r : CellResult n p) (cut : PlotCutoffs) (j : Fin p)
    (second : Option (Fin p)) :
    ∃ out, cellPlot est (some (X, r)) cut true .indexplot j second = .ok out ∧
      ∀ i, i ∈ out.named ↔ ∃ v, cellResiduals est X r i j = some v ∧ cut.annot.getD cut.line < |v| := by
  refine ⟨_, rfl, fun i => ?_⟩
  simp only [linePlot, if_true, annoteOutliers, List.mem_filter, List.mem_finRange, true_and, Bool.or_false, outsideLines_iff]
  constructor
  · rintro ⟨z, hz, ⟨a, ha, h⟩ | ⟨b, hb, h⟩⟩
    · refine ⟨z, hz, lt_abs.2 (Or.inr ?_)⟩
      have := Option.some.inj ha; linarith
    · refine ⟨z, hz, lt_abs.2 (Or.inl ?_)⟩
      have := Option.some.inj hb; linarith
  · rintro ⟨v, hv, h⟩
    refine ⟨v, hv, ?_⟩
    rcases lt_abs.1 h with h | h
    · exact Or.inr ⟨_, rfl, h⟩
    · exact Or.inl ⟨_, rfl, by linarith⟩

/-- **C152**: a value is outside the lines of `get_thresholds` exactly if its distance from the robust location exceeds
`cutoff` robust scales. -/
theorem C152_thresholds (est : List ℝ → Option ℝ × Option ℝ) (c : ℝ) (x : Fin n → Option ℝ) (v : Option ℝ) :
    Spec.OutsideStrip (getThresholds est c x) v ↔
      ∃ z l s, v = some z ∧ est ((List.ofFn x).filterMap id) = (some l, some s) ∧ c * s < |z - l| := by
  unfold getThresholds
  rcases est ((List.ofFn x).filterMap id) with ⟨_ | l, _ | s⟩
  · simp [Spec.OutsideStrip]
  · simp [Spec.OutsideStrip]
  · simp [Spec.OutsideStrip]
  · constructor
    · rintro ⟨z, rfl, ⟨a, ha, h⟩ | ⟨b, hb, h⟩⟩
      · refine ⟨z, l, s, rfl, rfl, lt_abs.2 (Or.inr ?_)⟩
        have := Option.some.inj ha; linarith
      · refine ⟨z, l, s, rfl, rfl, lt_abs.2 (Or.inl ?_)⟩
        have := Option.some.inj hb; linarith
    · rintro ⟨z, l', s', rfl, h1, h⟩
      obtain ⟨rfl, rfl⟩ : l = l' ∧ s = s' := by simpa using h1
      refine ⟨z, rfl, ?_⟩
      rcases lt_abs.1 h with h | h
      · exact Or.inr ⟨_, rfl, by linarith⟩
      · exact Or.inl ⟨_, rfl, by linarith⟩

/-- **C152**: when a plot raises: not fitted, an unknown type, a missing second variable, or (with row names) a singular
covariance of the two variables, as for twice the same variable. -/
theorem C152_errors (est : List ℝ → Option ℝ × Option ℝ) (fitted : Option (Cells n p × CellResult n p)) (cut : PlotCutoffs)
    (named : Bool) (type : PlotType) (j : Fin p) (second : Option (Fin p)) :
    (∃ e, cellPlot est fitted cut named type j second = .error e) ↔
      fitted = none ∨ type = .other ∨ (type = .bivariate ∧ (second = none ∨ ∃ X r k, fitted = some (X, r) ∧ second = some k ∧
        named = true ∧ (pairCov r.covariance j k).det = 0)) := by
  rcases fitted with _ | ⟨X, r⟩
  · simp [cellPlot]
  cases type with
  | bivariate =>
    rcases second with _ | k
    · simp [cellPlot]
    · cases named with
      | false => simp [cellPlot, Except.map]
      | true =>
        by_cases h : (pairCov r.covariance j k).det = 0
        · simp [cellPlot, annoteEllipse, npInv, h, Except.map]
        · simp [cellPlot, annoteEllipse, npInv, h, Except.map]
  | other => simp [cellPlot]
  | _ => simp [cellPlot]

/-- Twice the same variable raises when row names are given. -/
theorem C152_same (est : List ℝ → Option ℝ × Option ℝ) (X : Cells n p) (r : CellResult n p) (cut : PlotCutoffs) (j : Fin p) :
    cellPlot est (some (X, r)) cut true .bivariate j (some j) = .error .linAlgError := by
  have h : (pairCov r.covariance j j).det = 0 := by
    rw [Matrix.det_fin_two]; simp [pairCov]
  simp [cellPlot, annoteEllipse, npInv, h, Except.map]

/-- The hypotheses of `C152_lines` are met by the plot of the residuals against the variable. -/
example (est : List ℝ → Option ℝ × Option ℝ) (X : Cells 3 1) :
    ∃ out, cellPlot est (some (X, c149Result)) ⟨2.5, none, 3, none⟩ true .residualsVsVariable 0 none = .ok out := ⟨_, rfl⟩

end Robpy
