import Verif.Props.MM
import Verif.Props.LTSOrder
import Verif.Props.SOrder

/-! C197, C198: MM-regression, the order of the rows and changes of the columns. -/

namespace Robpy
open Matrix

/-! ## The order of the rows -/

section
variable {p : ℕ}

theorem mmFitStep_zip (LR : LinReg p) (R : Rho ℝ) (s : ℝ) (Z : List (((Fin p → ℝ) × ℝ) × ℝ)) :
    mmFitStep LR R s (Z.map Prod.fst) (Z.map Prod.snd) =
      if 0 ∈ Z.map Prod.snd then .error .valueError else lrFit LR (Z.map fun z => mmRow (mmW R s z.2) z.1) := by
  unfold mmFitStep
  rw [mapM_mmWeight]
  by_cases h : 0 ∈ Z.map Prod.snd
  · rw [if_pos h, if_pos h]
  · rw [if_neg h, if_neg h]
    simp only
    rw [List.map_map, List.zipWith_map, List.zipWith_self]
    rfl

theorem mmFitStep_perm (LR : LinReg p) (R : Rho ℝ) (s : ℝ) {Z Z' : List (((Fin p → ℝ) × ℝ) × ℝ)} (h : Z.Perm Z') :
    mmFitStep LR R s (Z'.map Prod.fst) (Z'.map Prod.snd) = mmFitStep LR R s (Z.map Prod.fst) (Z.map Prod.snd) := by
  rw [mmFitStep_zip, mmFitStep_zip, lrFit_perm LR (h.map _)]
  exact if_congr (h.map Prod.snd).mem_iff.symm rfl rfl

theorem mmConverged_zip (eps : ℝ) (f : (Fin p → ℝ) × ℝ → ℝ) (Z : List (((Fin p → ℝ) × ℝ) × ℝ)) :
    mmConverged eps (Z.map Prod.snd) ((Z.map Prod.fst).map f) = Z.all fun z => decide (|f z.1 - z.2| < eps) := by
  unfold mmConverged
  rw [List.map_map, List.zipWith_map, List.zipWith_self, List.all_map]
  rfl

theorem mmLoop_perm (LR : LinReg p) (R : Rho ℝ) (s eps : ℝ) (k : ℕ) : ∀ (m : Option (LinModel p)) {Z Z' : List (((Fin p → ℝ) × ℝ) × ℝ)},
    Z.Perm Z' → mmLoop LR R s eps (Z'.map Prod.fst) k m (Z'.map Prod.snd) = mmLoop LR R s eps (Z.map Prod.fst) k m (Z.map Prod.snd) := by
  induction k with
  | zero => intro m Z Z' _; rfl
  | succ k ih =>
    intro m Z Z' h
    unfold mmLoop
    rw [mmFitStep_perm LR R s h]
    congr 1
    funext m'
    rw [mmConverged_zip, mmConverged_zip, h.all_eq]
    have := ih (some m') (h.map fun z => (z.1, resid m' z.1))
    simp only [List.map_map, Function.comp_def] at this ⊢
    rw [this]

/-- **C197**: MM-regression does not depend on the order of the observations: features, targets and initial predictions reordered together
give the same model, or the same error, for every rho, tolerance and number of iterations. -/
theorem C197_order (LR : LinReg p) (R : Rho ℝ) (eps s : ℝ) (maxIter : ℕ) (Z Z' : List (((Fin p → ℝ) × ℝ) × ℝ)) (h : Z.Perm Z') :
    mmFit LR R eps maxIter ⟨Z'.map Prod.snd, s⟩ (Z'.map Prod.fst) = mmFit LR R eps maxIter ⟨Z.map Prod.snd, s⟩ (Z.map Prod.fst) := by
  unfold mmFit
  simp only [List.zipWith_map, List.zipWith_self]
  have := mmLoop_perm LR R s eps maxIter none (h.map fun z => (z.1, z.1.2 - z.2))
  simpa only [List.map_map, Function.comp_def] using this

/-- `MMRegression.fit` with an `SRegression` as initial estimator, mm.py 46-62: `design` adds the constant column of `SRegression` (s.py
87-88) or leaves the row as it is. -/
noncomputable def mmFromS {k : ℕ} (W : WLSReg) (srt : ArgSort ℝ) (ch : Choice ℕ) (cfg : SConfig) (design : (Fin p → ℝ) → Fin k → ℝ)
    (LR : LinReg p) (R : Rho ℝ) (eps : ℝ) (maxIter : ℕ) (D : List ((Fin p → ℝ) × ℝ)) (fuel : ℕ) : Run (Option (LinModel p)) :=
  (sSearch W srt ch cfg (D.map fun d => (design d.1, d.2)) fuel).andThen fun c =>
    some (mmFit LR R eps maxIter ⟨D.map fun d => dotRow (design d.1) c.1, c.2⟩ D)

/-- **C197** with its usual initial estimator: the order of the rows matters through the draws of the S-regression only. -/
theorem C197_sregression {k : ℕ} (W : WLSReg) (srt : ArgSort ℝ) (ch ch' : Choice ℕ) (cfg : SConfig) (hc : 0 < cfg.rho.const)
    (design : (Fin p → ℝ) → Fin k → ℝ) (LR : LinReg p) (R : Rho ℝ) (eps : ℝ) (maxIter : ℕ) (D D' : List ((Fin p → ℝ) × ℝ)) (h : D'.Perm D)
    (hdraw : ∀ i < cfg.nInitialSubsets,
      (takeAt (D'.map fun d => (design d.1, d.2)) (ch'.pick (cfg.randomState + i) D'.length (k + 1))).Perm
        (takeAt (D.map fun d => (design d.1, d.2)) (ch.pick (cfg.randomState + i) D.length (k + 1)))) (fuel : ℕ) :
    mmFromS W srt ch' cfg design LR R eps maxIter D' fuel = mmFromS W srt ch cfg design LR R eps maxIter D fuel := by
  unfold mmFromS
  rw [C192_order W srt ch ch' cfg hc _ _ (h.map _) (by simpa using hdraw) fuel]
  congr 1
  funext c
  have := C197_order LR R eps c.2 maxIter (D.map fun d => (d, dotRow (design d.1) c.1)) (D'.map fun d => (d, dotRow (design d.1) c.1)) (h.symm.map _)
  simp only [List.map_map, Function.comp_def, List.map_id'] at this
  rw [this]

/-! ## Changes of the columns -/

/-- The rows with their features rotated by `A` and shifted by `b`. -/
def Spec.moveColumns (A : Matrix (Fin p) (Fin p) ℝ) (b : Fin p → ℝ) (D : List ((Fin p → ℝ) × ℝ)) : List ((Fin p → ℝ) × ℝ) :=
  D.map fun d => (A *ᵥ d.1 + b, d.2)

/-- The model with the same predictions on the moved rows. -/
def Spec.movedModel (A : Matrix (Fin p) (Fin p) ℝ) (b : Fin p → ℝ) (m : LinModel p) : LinModel p :=
  ⟨m.intercept - b ⬝ᵥ (A *ᵥ m.coef), A *ᵥ m.coef⟩

/-- **C198** (full statement): MM-regression follows rotations, reflections and shifts of the features, if its initial estimator does. -/
def C198_statement : Prop :=
  ∀ (p : ℕ) (LR : LinReg p) (R : Rho ℝ) (eps : ℝ) (maxIter : ℕ) (init : InitialFit) (D : List ((Fin p → ℝ) × ℝ))
    (A : Matrix (Fin p) (Fin p) ℝ) (b : Fin p → ℝ), A * Aᵀ = 1 → 0 < R.const → 0 < init.scale → init.predictions.length = D.length →
    mmFit LR R eps maxIter init (Spec.moveColumns A b D) = (mmFit LR R eps maxIter init D).map (Option.map (Spec.movedModel A b))

variable {A : Matrix (Fin p) (Fin p) ℝ}

theorem dot_orth (hA : A * Aᵀ = 1) (x y : Fin p → ℝ) : (A *ᵥ x) ⬝ᵥ (A *ᵥ y) = x ⬝ᵥ y := by
  have hA' : Aᵀ * A = 1 := mul_eq_one_comm.1 hA
  rw [dotProduct_mulVec, vecMul_mulVec, hA', vecMul_one]

theorem resid_orth (hA : A * Aᵀ = 1) (m : LinModel p) (d : (Fin p → ℝ) × ℝ) :
    resid (Spec.movedModel A 0 m) (A *ᵥ d.1 + 0, d.2) = resid m d := by
  have h := dot_orth hA d.1 m.coef
  unfold resid LinModel.predict Spec.movedModel
  simp only [dotProduct] at h
  simp only [add_zero, zero_dotProduct, sub_zero, h]

theorem ssr_orth (hA : A * Aᵀ = 1) (m : LinModel p) (D : List ((Fin p → ℝ) × ℝ)) :
    ssr (Spec.moveColumns A 0 D) (Spec.movedModel A 0 m) = ssr D m := by
  unfold ssr Spec.moveColumns
  rw [List.map_map]
  congr 1
  refine List.map_congr_left fun d _ => ?_
  simp only [Function.comp]
  rw [resid_orth hA]

theorem LinReg.fit_orth (LR : LinReg p) (hA : A * Aᵀ = 1) {D : List ((Fin p → ℝ) × ℝ)} (hD : D ≠ []) :
    LR.fit (Spec.moveColumns A 0 D) = Spec.movedModel A 0 (LR.fit D) := by
  have hD' : Spec.moveColumns A 0 D ≠ [] := by simpa [Spec.moveColumns] using hD
  have hinv : ∀ m : LinModel p, m = Spec.movedModel A 0 ⟨m.intercept, Aᵀ *ᵥ m.coef⟩ := by
    intro m
    unfold Spec.movedModel
    refine LinModel.ext (by simp) ?_
    simp [mulVec_mulVec, hA]
  have hc : ∀ m : LinModel p, ∑ j, (Spec.movedModel A 0 m).coef j ^ 2 = ∑ j, m.coef j ^ 2 := by
    intro m
    have h := dot_orth hA m.coef m.coef
    simp only [dotProduct, ← pow_two] at h
    exact h
  refine leastSquares_unique hD' (LR.isMin _ hD') ?_ (LR.minNorm _ hD') ?_
  · intro m
    rw [hinv m, ssr_orth hA, ssr_orth hA]
    exact LR.isMin D hD _
  · intro m hm
    rw [hinv m, ssr_orth hA, ssr_orth hA] at hm
    rw [hinv m, hc, hc]
    exact LR.minNorm D hD _ hm

theorem mmFitStep_orth (LR : LinReg p) (R : Rho ℝ) (s : ℝ) (hA : A * Aᵀ = 1) (D : List ((Fin p → ℝ) × ℝ)) (res : List ℝ) :
    mmFitStep LR R s (Spec.moveColumns A 0 D) res = (mmFitStep LR R s D res).map (Spec.movedModel A 0) := by
  unfold mmFitStep
  rcases res.mapM (mmWeight R s) with _ | w
  · rfl
  simp only
  have hz : List.zipWith mmRow w (Spec.moveColumns A 0 D) = Spec.moveColumns A 0 (List.zipWith mmRow w D) := by
    unfold Spec.moveColumns
    rw [List.zipWith_map_right, List.map_zipWith]
    congr 1
    funext t d
    unfold mmRow
    refine Prod.ext ?_ rfl
    have : (fun j => Real.sqrt t * d.1 j) = Real.sqrt t • d.1 := rfl
    simp only [add_zero]
    rw [this, mulVec_smul]
    rfl
  rw [hz]
  unfold lrFit
  by_cases hn : List.zipWith mmRow w D = [] ∨ p = 0
  · rw [if_pos hn, if_pos (by simpa [Spec.moveColumns] using hn)]
    rfl
  · rw [if_neg hn, if_neg (by simpa [Spec.moveColumns] using hn), LR.fit_orth hA (fun h => hn (Or.inl h))]
    rfl

theorem mmLoop_orth (LR : LinReg p) (R : Rho ℝ) (s eps : ℝ) (hA : A * Aᵀ = 1) (D : List ((Fin p → ℝ) × ℝ)) :
    ∀ (k : ℕ) (m : Option (LinModel p)) (res : List ℝ),
      mmLoop LR R s eps (Spec.moveColumns A 0 D) k (m.map (Spec.movedModel A 0)) res =
        (mmLoop LR R s eps D k m res).map (Option.map (Spec.movedModel A 0)) := by
  intro k
  induction k with
  | zero => intro m res; rfl
  | succ k ih =>
    intro m res
    unfold mmLoop
    rw [mmFitStep_orth LR R s hA D res]
    rcases mmFitStep LR R s D res with e | m'
    · rfl
    · have hr : (Spec.moveColumns A 0 D).map (resid (Spec.movedModel A 0 m')) = D.map (resid m') := by
        unfold Spec.moveColumns
        rw [List.map_map]
        exact List.map_congr_left fun d _ => resid_orth hA m' d
      simp only [Except.map, Except.bind]
      rw [hr]
      split_ifs
      · rfl
      · exact ih (some m') _

/-- **C198** (partial): rotations, reflections and reorderings of the columns, without any condition on the data.  Missing: shifts, for
which the claim is false. -/
theorem C198_rotation_partial (LR : LinReg p) (R : Rho ℝ) (eps : ℝ) (maxIter : ℕ) (init : InitialFit) (D : List ((Fin p → ℝ) × ℝ))
    (hA : A * Aᵀ = 1) :
    mmFit LR R eps maxIter init (Spec.moveColumns A 0 D) = (mmFit LR R eps maxIter init D).map (Option.map (Spec.movedModel A 0)) := by
  have h := mmLoop_orth LR R init.scale eps hA D maxIter none (List.zipWith (fun d f => d.2 - f) D init.predictions)
  unfold mmFit
  have e : List.zipWith (fun (d : (Fin p → ℝ) × ℝ) f => d.2 - f) (Spec.moveColumns A 0 D) init.predictions =
      List.zipWith (fun d f => d.2 - f) D init.predictions := by
    unfold Spec.moveColumns
    rw [List.zipWith_map_left]
  rw [e]
  exact h

end

/-- Two observations on the line through the origin shifted by `t`. -/
def c198Data (t : ℝ) : List ((Fin 1 → ℝ) × ℝ) := [(![t], 1), (![t + 1], 2)]

/-- Both weights are 9/16, so that the fitted line goes through three quarters of both observations. -/
theorem step_c198 (LR : LinReg 1) (t : ℝ) :
    mmFitStep LR (.tukey 2) 1 (c198Data t) [1, 1] = .ok ⟨3 / 4 * (1 - t), fun _ => 1⟩ := by
  unfold mmFitStep
  rw [mapM_mmWeight, if_neg (by simp)]
  have hw : mmW (.tukey 2) 1 1 = (3 / 4 : ℝ) ^ 2 := by
    rw [mmW_tukey one_pos one_ne_zero]
    unfold Spec.bisquareWeight
    norm_num
  simp only [List.map_cons, List.map_nil, hw, c198Data, List.zipWith_cons_cons, List.zipWith_nil_right]
  have hq : Real.sqrt ((3 / 4 : ℝ) ^ 2) = 3 / 4 := Real.sqrt_sq (by norm_num)
  unfold mmRow
  rw [hq]
  rw [lrFit_of LR (by simp) one_ne_zero]
  congr 1
  have hz : ∀ m : LinModel 1, ssr [((fun j => 3 / 4 * (![t] : Fin 1 → ℝ) j), 3 / 4 * (1 : ℝ)), ((fun j => 3 / 4 * (![t + 1] : Fin 1 → ℝ) j), 3 / 4 * 2)] m =
      (3 / 4 - (m.intercept + 3 / 4 * t * m.coef 0)) ^ 2 + (3 / 2 - (m.intercept + 3 / 4 * (t + 1) * m.coef 0)) ^ 2 := by
    intro m
    simp [ssr, resid, LinModel.predict]
    ring
  have h1 := LR.isMin [((fun j => 3 / 4 * (![t] : Fin 1 → ℝ) j), 3 / 4 * (1 : ℝ)), ((fun j => 3 / 4 * (![t + 1] : Fin 1 → ℝ) j), 3 / 4 * 2)] (by simp)
    ⟨3 / 4 * (1 - t), fun _ => 1⟩
  rw [hz, hz] at h1
  generalize LR.fit [((fun j => 3 / 4 * (![t] : Fin 1 → ℝ) j), 3 / 4 * (1 : ℝ)), ((fun j => 3 / 4 * (![t + 1] : Fin 1 → ℝ) j), 3 / 4 * 2)] = m at h1
  have e0 : (3 / 4 - (3 / 4 * (1 - t) + 3 / 4 * t * 1)) ^ 2 + (3 / 2 - (3 / 4 * (1 - t) + 3 / 4 * (t + 1) * 1)) ^ 2 = (0 : ℝ) := by ring
  simp only at h1
  rw [e0] at h1
  have h2 : (3 / 4 - (m.intercept + 3 / 4 * t * m.coef 0)) ^ 2 = 0 :=
    le_antisymm (by nlinarith [sq_nonneg (3 / 2 - (m.intercept + 3 / 4 * (t + 1) * m.coef 0))]) (sq_nonneg _)
  have h3 : (3 / 2 - (m.intercept + 3 / 4 * (t + 1) * m.coef 0)) ^ 2 = 0 :=
    le_antisymm (by nlinarith [sq_nonneg (3 / 4 - (m.intercept + 3 / 4 * t * m.coef 0))]) (sq_nonneg _)
  have h4 := pow_eq_zero_iff (two_ne_zero) |>.1 h2
  have h5 := pow_eq_zero_iff (two_ne_zero) |>.1 h3
  have h6 : m.coef 0 = 1 := by linarith
  refine LinModel.ext (by simp only; rw [h6] at h4; linarith) ?_
  funext j
  rw [Subsingleton.elim j 0, h6]

theorem fit_c198 (t : ℝ) : mmFit (linRegExists 1) (.tukey 2) 1e-7 1 ⟨[0, 1], 1⟩ (c198Data t) = .ok (some ⟨3 / 4 * (1 - t), fun _ => 1⟩) := by
  have hr : List.zipWith (fun (d : (Fin 1 → ℝ) × ℝ) f => d.2 - f) (c198Data t) [0, 1] = [1, 1] := by norm_num [c198Data]
  unfold mmFit
  simp only
  rw [hr]
  unfold mmLoop
  rw [step_c198]
  simp only [Except.bind]
  split_ifs
  · rfl
  · rfl

/-- **C198** is violated: with the features shifted by 1 the intercept changes by 3/4 of the slope instead of the slope, since the weights
multiply the features but not the constant. -/
theorem C198_violated : ¬ C198_statement := by
  intro h
  have h1 := h 1 (linRegExists 1) (.tukey 2) 1e-7 1 ⟨[0, 1], 1⟩ (c198Data 0) 1 ![1] (by simp) (by norm_num [Rho.const]) (by simp)
    (by simp [c198Data])
  have e : Spec.moveColumns (1 : Matrix (Fin 1) (Fin 1) ℝ) ![1] (c198Data 0) = c198Data 1 := by
    norm_num [Spec.moveColumns, c198Data]
  rw [e, fit_c198, fit_c198] at h1
  simp only [Except.map, Option.map, Except.ok.injEq, Option.some.injEq, Spec.movedModel, LinModel.mk.injEq] at h1
  norm_num [dotProduct] at h1

/-! ## Examples -/

/-- C197: two observations with their initial predictions, reversed; the fit is not an error. -/
example : mmFit (linRegExists 1) (.tukey 2) 1e-7 1 ⟨[1, 0], 1⟩ [(![1], 2), (![0], 1)] = .ok (some ⟨3 / 4, fun _ => 1⟩) := by
  have h := C197_order (linRegExists 1) (.tukey 2) 1e-7 1 1 [((![0], 1), 0), ((![1], 2), 1)] [((![1], 2), 1), ((![0], 1), 0)] (List.Perm.swap _ _ _)
  have h2 := fit_c198 0
  norm_num [c198Data] at h h2
  norm_num
  rw [h, h2]

/-- C197 with an S-regression that adds a constant column, four rows reversed. -/
example (W : WLSReg) (srt : ArgSort ℝ) (ch : Choice ℕ) (fuel : ℕ) : ∃ ch' : Choice ℕ,
    mmFromS W srt ch' sDefault (fun x => Fin.cons 1 x : (Fin 1 → ℝ) → Fin 2 → ℝ) (linRegExists 1) (.tukey 3.44) 1e-7 500
        [(![5], 2), (![0], 7), (![3], 1), (![4], 4)] fuel =
      mmFromS W srt ch sDefault (fun x => Fin.cons 1 x : (Fin 1 → ℝ) → Fin 2 → ℝ) (linRegExists 1) (.tukey 3.44) 1e-7 500
        [(![4], 4), (![3], 1), (![0], 7), (![5], 2)] fuel := by
  have hp : [((![5] : Fin 1 → ℝ), (2 : ℝ)), (![0], 7), (![3], 1), (![4], 4)].Perm [(![4], 4), (![3], 1), (![0], 7), (![5], 2)] :=
    List.reverse_perm [(![4], 4), (![3], 1), (![0], 7), (![5], 2)]
  obtain ⟨ch', hch⟩ := corresponding_draws ch (hp.map fun d => ((Fin.cons 1 d.1 : Fin 2 → ℝ), d.2))
  exact ⟨ch', C197_sregression W srt ch ch' sDefault (by norm_num [sDefault, Rho.const]) _ _ _ _ _ _ _ hp
    (fun i _ => by
      have := hch (sDefault.randomState + i) 3
      rw [List.length_map, List.length_map] at this
      rw [this]) fuel⟩

/-- C198: a reflection of the feature. -/
example : (!![-1] : Matrix (Fin 1) (Fin 1) ℝ) * (!![-1] : Matrix (Fin 1) (Fin 1) ℝ)ᵀ = 1 := by
  ext i j
  fin_cases i; fin_cases j
  norm_num [Matrix.mul_apply]

/-- C198: exchanging two columns. -/
example : (!![0, 1; 1, 0] : Matrix (Fin 2) (Fin 2) ℝ) * (!![0, 1; 1, 0] : Matrix (Fin 2) (Fin 2) ℝ)ᵀ = 1 := by
  ext i j
  fin_cases i <;> fin_cases j <;> norm_num [Matrix.mul_apply]

end Robpy
