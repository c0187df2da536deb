import Verif.Props.SReg
import Verif.Lemmas.LinReg
import Verif.Props.LTS

/-! C55, C106, C107, C108: MM-regression. -/

namespace Robpy

section
variable {p : ℕ}

/-- The weight of a non-zero residual. -/
noncomputable def mmW (R : Rho ℝ) (s r : ℝ) : ℝ := if s = 0 then 0 else R.psi (r / s) / (r / s)

theorem mapM_mmWeight (R : Rho ℝ) (s : ℝ) (res : List ℝ) :
    res.mapM (mmWeight R s) = if 0 ∈ res then none else some (res.map (mmW R s)) := by
  induction res with
  | nil => simp
  | cons r res ih =>
    rw [List.mapM_cons, ih]
    by_cases hr : r = 0
    · simp [mmWeight, hr]
    · have h1 : mmWeight R s r = some (mmW R s r) := by
        unfold mmWeight mmW
        rw [if_neg hr]
        split_ifs <;> rfl
      rw [h1]
      by_cases h0 : 0 ∈ res
      · simp [h0]
      · simp [h0, Ne.symm hr]

theorem mmW_nonneg {R : Rho ℝ} (hR : 0 < R.const) {s r : ℝ} (hs : 0 ≤ s) (hr : r ≠ 0) : 0 ≤ mmW R s r ∧ mmW R s r ≤ 1 := by
  unfold mmW
  split_ifs with h
  · simp
  · have : r / s ≠ 0 := div_ne_zero hr h
    cases R with
    | tukey c => exact C13_weight c _ hR this
    | huber b => exact ⟨(C14_weight b _ hR this).1.le, (C14_weight b _ hR this).2⟩

theorem mmFitStep_ok {LR : LinReg p} {R : Rho ℝ} {s : ℝ} {D : List ((Fin p → ℝ) × ℝ)} {res : List ℝ} {m : LinModel p}
    (h : mmFitStep LR R s D res = .ok m) : 0 ∉ res ∧ List.zipWith mmRow (res.map (mmW R s)) D ≠ [] ∧ p ≠ 0 ∧
      m = LR.fit (List.zipWith mmRow (res.map (mmW R s)) D) := by
  unfold mmFitStep at h
  rw [mapM_mmWeight] at h
  split_ifs at h with h0
  exact ⟨h0, lrFit_ok h⟩

theorem zipWith_mmRow (f : ℝ → ℝ) (D : List ((Fin p → ℝ) × ℝ)) (g : (Fin p → ℝ) × ℝ → ℝ) :
    List.zipWith mmRow ((D.map g).map f) D = D.map fun d => mmRow (f (g d)) d := by
  induction D with
  | nil => rfl
  | cons d D ih => simp only [List.map_cons, List.zipWith_cons_cons, ih]

theorem ssr_mmRow (D : List ((Fin p → ℝ) × ℝ)) (w : (Fin p → ℝ) × ℝ → ℝ) (m : LinModel p) :
    ssr (D.map fun d => mmRow (w d) d) m =
      (D.map fun d => (Real.sqrt (w d) * (d.2 - ∑ j, d.1 j * m.coef j) - m.intercept) ^ 2).sum := by
  unfold ssr
  rw [List.map_map]
  congr 1
  refine List.map_congr_left fun d _ => ?_
  simp only [Function.comp, resid, LinModel.predict, mmRow]
  congr 1
  rw [mul_sub, Finset.mul_sum]
  have : ∑ j, Real.sqrt (w d) * d.1 j * m.coef j = ∑ j, Real.sqrt (w d) * (d.1 j * m.coef j) :=
    Finset.sum_congr rfl fun j _ => by ring
  rw [this]
  ring

/-- The weighted sum of squared residuals of `m`, with the bisquare weights of the residuals of `m0` at scale `s`. -/
noncomputable def Spec.reweightedSq (c s : ℝ) (D : List ((Fin p → ℝ) × ℝ)) (m0 m : LinModel p) : ℝ :=
  (D.map fun d => Spec.bisquareWeight c s (d.2 - (m0.intercept + ∑ j, d.1 j * m0.coef j)) *
    (d.2 - (m.intercept + ∑ j, d.1 j * m.coef j)) ^ 2).sum

end

/-- **C55** (full statement): an iteration from the model `m0` returns the minimiser of the weighted sum of squared residuals. -/
def C55_statement : Prop :=
  ∀ (p : ℕ) (LR : LinReg p) (c s : ℝ) (D : List ((Fin p → ℝ) × ℝ)) (m0 m : LinModel p), 0 < c → 0 < s →
    mmFitStep LR (.tukey c) s D (D.map (resid m0)) = .ok m → ∀ m', Spec.reweightedSq c s D m0 m ≤ Spec.reweightedSq c s D m0 m'

section
variable {p : ℕ}

theorem mmW_tukey {c s r : ℝ} (hs : 0 < s) (hr : r ≠ 0) : mmW (.tukey c) s r = Spec.bisquareWeight c s r := by
  unfold mmW Spec.bisquareWeight
  rw [if_neg hs.ne']
  simp only [Rho.psi, tukeyPsi]
  have h0 : r / s ≠ 0 := div_ne_zero hr hs.ne'
  have hiff : |r / s| ≤ c ↔ |r| ≤ c * s := by rw [abs_div, abs_of_pos hs, div_le_iff₀ hs]
  by_cases h : |r| ≤ c * s
  · rw [if_pos (hiff.2 h), if_pos h, mul_div_right_comm, div_self h0, one_mul, div_div, mul_comm s c]
  · rw [if_neg (fun h' => h (hiff.1 h')), if_neg h, zero_div]

/-- **C55** (partial): what an iteration minimises.  With the weight `w` of an observation the intercept is not multiplied by `√w`,
unlike the rest of the row. -/
theorem C55_minimised_partial (LR : LinReg p) (c s : ℝ) (D : List ((Fin p → ℝ) × ℝ)) (m0 m : LinModel p) (hs : 0 < s)
    (h : mmFitStep LR (.tukey c) s D (D.map (resid m0)) = .ok m) (m' : LinModel p) :
    (D.map fun d => (Real.sqrt (Spec.bisquareWeight c s (d.2 - (m0.intercept + ∑ j, d.1 j * m0.coef j))) *
        (d.2 - ∑ j, d.1 j * m.coef j) - m.intercept) ^ 2).sum ≤
      (D.map fun d => (Real.sqrt (Spec.bisquareWeight c s (d.2 - (m0.intercept + ∑ j, d.1 j * m0.coef j))) *
        (d.2 - ∑ j, d.1 j * m'.coef j) - m'.intercept) ^ 2).sum := by
  obtain ⟨h0, hne, -, rfl⟩ := mmFitStep_ok h
  have hmin := LR.isMin _ hne m'
  rw [zipWith_mmRow] at hmin ⊢
  rw [ssr_mmRow, ssr_mmRow] at hmin
  have e : ∀ m : LinModel p, (D.map fun d => (Real.sqrt (mmW (.tukey c) s (resid m0 d)) * (d.2 - ∑ j, d.1 j * m.coef j) - m.intercept) ^ 2) =
      D.map fun d => (Real.sqrt (Spec.bisquareWeight c s (d.2 - (m0.intercept + ∑ j, d.1 j * m0.coef j))) *
        (d.2 - ∑ j, d.1 j * m.coef j) - m.intercept) ^ 2 := by
    intro m
    refine List.map_congr_left fun d hd => ?_
    rw [mmW_tukey hs]
    · rfl
    · intro h
      exact h0 (h ▸ List.mem_map_of_mem hd)
  rw [e, e] at hmin
  exact hmin

/-- **C55** (partial): if all observations have the same weight `w > 0`, the slopes are right and the intercept is `√w` times the right one. -/
theorem C55_equal_partial (LR : LinReg p) (c s : ℝ) (D : List ((Fin p → ℝ) × ℝ)) (m0 m : LinModel p) (hs : 0 < s)
    (h : mmFitStep LR (.tukey c) s D (D.map (resid m0)) = .ok m) (w : ℝ) (hw : 0 < w)
    (hall : ∀ d ∈ D, Spec.bisquareWeight c s (d.2 - (m0.intercept + ∑ j, d.1 j * m0.coef j)) = w) (m' : LinModel p) :
    Spec.reweightedSq c s D m0 ⟨m.intercept / Real.sqrt w, m.coef⟩ ≤ Spec.reweightedSq c s D m0 m' := by
  have key := C55_minimised_partial LR c s D m0 m hs h ⟨m'.intercept * Real.sqrt w, m'.coef⟩
  have hq : 0 < Real.sqrt w := Real.sqrt_pos.2 hw
  have e : ∀ (b0 : ℝ) (b : Fin p → ℝ), (D.map fun d => (Real.sqrt (Spec.bisquareWeight c s (d.2 - (m0.intercept + ∑ j, d.1 j * m0.coef j))) *
        (d.2 - ∑ j, d.1 j * b j) - b0) ^ 2).sum = Spec.reweightedSq c s D m0 ⟨b0 / Real.sqrt w, b⟩ := by
    intro b0 b
    unfold Spec.reweightedSq
    congr 1
    refine List.map_congr_left fun d hd => ?_
    rw [hall d hd]
    have h2 : Real.sqrt w ^ 2 = w := Real.sq_sqrt hw.le
    have h3 : b0 = Real.sqrt w * (b0 / Real.sqrt w) := by field_simp
    calc (Real.sqrt w * (d.2 - ∑ j, d.1 j * b j) - b0) ^ 2
        = (Real.sqrt w * (d.2 - ∑ j, d.1 j * b j) - Real.sqrt w * (b0 / Real.sqrt w)) ^ 2 := by rw [← h3]
      _ = Real.sqrt w ^ 2 * (d.2 - (b0 / Real.sqrt w + ∑ j, d.1 j * b j)) ^ 2 := by ring
      _ = _ := by rw [h2]
  rw [e, e] at key
  have h4 : m'.intercept * Real.sqrt w / Real.sqrt w = m'.intercept := by field_simp
  simp only [h4] at key
  exact key

/-- **C55** (partial): with Huber's function and residuals of at most `b` times the scale all weights are 1 and an iteration is an
ordinary least-squares fit. -/
theorem C55_huber_partial (LR : LinReg p) (b s : ℝ) (D : List ((Fin p → ℝ) × ℝ)) (m0 m : LinModel p) (hs : 0 < s)
    (h : mmFitStep LR (.huber b) s D (D.map (resid m0)) = .ok m)
    (hall : ∀ d ∈ D, |d.2 - (m0.intercept + ∑ j, d.1 j * m0.coef j)| ≤ b * s) : Spec.IsLeastSquares D m := by
  obtain ⟨h0, hne, -, rfl⟩ := mmFitStep_ok h
  have hD : List.zipWith mmRow ((D.map (resid m0)).map (mmW (.huber b) s)) D = D := by
    rw [zipWith_mmRow]
    conv_rhs => rw [← List.map_id D]
    refine List.map_congr_left fun d hd => ?_
    have hr : resid m0 d ≠ 0 := fun h => h0 (h ▸ List.mem_map_of_mem hd)
    have hw : mmW (.huber b) s (resid m0 d) = 1 := by
      unfold mmW
      rw [if_neg hs.ne']
      simp only [Rho.psi, huberPsi]
      rw [if_pos (by rw [abs_div, abs_of_pos hs, div_le_iff₀ hs]; exact hall d hd), div_self (div_ne_zero hr hs.ne')]
    unfold mmRow
    rw [hw]
    simp
  rw [hD] at hne ⊢
  exact isLeastSquares_fit LR hne

end

/-- Targets 1 at 0 and 1. -/
def c55Data (t : ℝ) : List ((Fin 1 → ℝ) × ℝ) := [(![0], t), (![1], t)]

/-- The weights of residuals 1 with scale 1 and tuning constant 2 are 9/16, and the fitted intercept is 3/4 of the right one. -/
theorem step_c55 (LR : LinReg 1) (t : ℝ) : mmFitStep LR (.tukey 2) 1 (c55Data t) [1, 1] = .ok ⟨3 / 4 * t, fun _ => 0⟩ := by
  unfold mmFitStep
  rw [mapM_mmWeight, if_neg (by simp)]
  have hw : mmW (.tukey 2) 1 1 = (3 / 4 : ℝ) ^ 2 := by
    rw [mmW_tukey one_pos one_ne_zero]
    unfold Spec.bisquareWeight
    norm_num
  simp only [List.map_cons, List.map_nil, hw, c55Data, List.zipWith_cons_cons, List.zipWith_nil_right]
  have hq : Real.sqrt ((3 / 4 : ℝ) ^ 2) = 3 / 4 := Real.sqrt_sq (by norm_num)
  unfold mmRow
  rw [hq]
  rw [lrFit_of LR (by simp) one_ne_zero]
  congr 1
  have hz : ∀ m : LinModel 1, ssr [((fun j => 3 / 4 * (![0] : Fin 1 → ℝ) j), 3 / 4 * t), ((fun j => 3 / 4 * (![1] : Fin 1 → ℝ) j), 3 / 4 * t)] m =
      (3 / 4 * t - m.intercept) ^ 2 + (3 / 4 * t - (m.intercept + 3 / 4 * m.coef 0)) ^ 2 := by
    intro m
    simp [ssr, resid, LinModel.predict]
  have h1 := LR.isMin [((fun j => 3 / 4 * (![0] : Fin 1 → ℝ) j), 3 / 4 * t), ((fun j => 3 / 4 * (![1] : Fin 1 → ℝ) j), 3 / 4 * t)] (by simp)
    ⟨3 / 4 * t, fun _ => 0⟩
  rw [hz, hz] at h1
  generalize LR.fit [((fun j => 3 / 4 * (![0] : Fin 1 → ℝ) j), 3 / 4 * t), ((fun j => 3 / 4 * (![1] : Fin 1 → ℝ) j), 3 / 4 * t)] = m at h1
  simp only [sub_self, mul_zero, add_zero, ne_eq, OfNat.ofNat_ne_zero, not_false_eq_true, zero_pow] at h1
  have h2 : (3 / 4 * t - m.intercept) ^ 2 = 0 := le_antisymm (by nlinarith [sq_nonneg (3 / 4 * t - (m.intercept + 3 / 4 * m.coef 0))]) (sq_nonneg _)
  have h3 : (3 / 4 * t - (m.intercept + 3 / 4 * m.coef 0)) ^ 2 = 0 := le_antisymm (by nlinarith [sq_nonneg (3 / 4 * t - m.intercept)]) (sq_nonneg _)
  have h4 := pow_eq_zero_iff (two_ne_zero) |>.1 h2
  have h5 := pow_eq_zero_iff (two_ne_zero) |>.1 h3
  refine LinModel.ext (by simp only; linarith) ?_
  funext j
  rw [Subsingleton.elim j 0]
  linarith

theorem C55_violated : ¬ C55_statement := by
  intro h
  have h1 := h 1 (linRegExists 1) 2 1 (c55Data 1) ⟨0, fun _ => 0⟩ ⟨3 / 4 * 1, fun _ => 0⟩ (by norm_num) one_pos (by
    have : (c55Data 1).map (resid ⟨0, fun _ => 0⟩) = [1, 1] := by simp [c55Data, resid, LinModel.predict]
    rw [this]
    exact step_c55 _ 1) ⟨1, fun _ => 0⟩
  norm_num [Spec.reweightedSq, c55Data, Spec.bisquareWeight] at h1

/-- The hypotheses of the C55 theorems: both observations have weight 9/16. -/
example : ∀ d ∈ c55Data 1, Spec.bisquareWeight 2 1 (d.2 - ((0 : ℝ) + ∑ j, d.1 j * (fun _ => 0 : Fin 1 → ℝ) j)) = 9 / 16 := by
  norm_num [c55Data, Spec.bisquareWeight]

/-! Errors -/

/-- **C106** (full statement): if the initial estimator has been fitted, the fit of the MM estimator raises no error. -/
def C106_statement : Prop :=
  ∀ (p : ℕ) (LR : LinReg p) (R : Rho ℝ) (eps : ℝ) (maxIter : ℕ) (init : InitialFit) (D : List ((Fin p → ℝ) × ℝ)), p ≠ 0 → D ≠ [] →
    0 < R.const → 0 < eps → 0 < init.scale → init.predictions.length = D.length → ∃ r, mmFit LR R eps maxIter init D = .ok r

section
variable {p : ℕ}

/-- **C106**: an observation that the initial estimator fits exactly makes the fit raise ValueError, whatever its scale. -/
theorem C106_exact (LR : LinReg p) (R : Rho ℝ) (eps : ℝ) (maxIter : ℕ) (hmax : maxIter ≠ 0) (init : InitialFit)
    (D : List ((Fin p → ℝ) × ℝ)) (i : ℕ) (d : (Fin p → ℝ) × ℝ) (hd : D[i]? = some d) (hf : init.predictions[i]? = some d.2) :
    mmFit LR R eps maxIter init D = .error .valueError := by
  obtain ⟨k, rfl⟩ := Nat.exists_eq_succ_of_ne_zero hmax
  unfold mmFit mmLoop mmFitStep
  rw [mapM_mmWeight, if_pos]
  · rfl
  · refine List.mem_of_getElem? (i := i) ?_
    rw [List.getElem?_zipWith, hd, hf]
    simp

theorem mmLoop_error {LR : LinReg p} {R : Rho ℝ} {s eps : ℝ} {D : List ((Fin p → ℝ) × ℝ)} (hD : D ≠ []) (hp : p ≠ 0) :
    ∀ (k : ℕ) (m : Option (LinModel p)) (res : List ℝ) (e : PyErr), res.length = D.length → mmLoop LR R s eps D k m res = .error e →
      e = .valueError ∧ (0 ∈ res ∨ ∃ w : List ℝ, w.length = D.length ∧ ∃ d ∈ D, resid (LR.fit (List.zipWith mmRow w D)) d = 0) := by
  intro k
  induction k with
  | zero => intro m res e _ h; simp [mmLoop] at h
  | succ k ih =>
    intro m res e hlen h
    unfold mmLoop at h
    rcases hs : mmFitStep LR R s D res with e' | m'
    · rw [hs] at h
      simp only [Except.bind, Except.error.injEq] at h
      subst h
      unfold mmFitStep at hs
      rw [mapM_mmWeight] at hs
      split_ifs at hs with h0
      · exact ⟨by simpa using hs.symm, Or.inl h0⟩
      · simp only at hs
        rw [lrFit_of LR _ hp] at hs
        · simp at hs
        · intro hnil
          have := congrArg List.length hnil
          rw [List.length_zipWith, List.length_map, hlen] at this
          simp at this
          exact hD this
    · rw [hs] at h
      simp only [Except.bind] at h
      split_ifs at h with hc
      obtain ⟨h1, h2⟩ := ih _ _ e (by simp) h
      refine ⟨h1, Or.inr ?_⟩
      rcases h2 with h2 | h2
      · obtain ⟨-, -, -, rfl⟩ := mmFitStep_ok hs
        obtain ⟨d, hd, hd0⟩ := List.mem_map.1 h2
        exact ⟨_, by simp [hlen], d, hd, hd0⟩
      · exact h2

/-- **C106** (partial): the only error is a ValueError, and it occurs only if the initial estimator or a later model fits an observation
exactly. -/
theorem C106_only_partial (LR : LinReg p) (R : Rho ℝ) (eps : ℝ) (maxIter : ℕ) (init : InitialFit) (D : List ((Fin p → ℝ) × ℝ))
    (hp : p ≠ 0) (hD : D ≠ []) (hlen : init.predictions.length = D.length) (e : PyErr) (h : mmFit LR R eps maxIter init D = .error e) :
    e = .valueError ∧ ((∃ x ∈ D.zip init.predictions, x.1.2 = x.2) ∨ ∃ (m : LinModel p) (w : List ℝ),
      m = LR.fit (List.zipWith mmRow w D) ∧ ∃ d ∈ D, d.2 = m.intercept + ∑ j, d.1 j * m.coef j) := by
  obtain ⟨h1, h2⟩ := mmLoop_error hD hp maxIter none _ e (by simp [hlen]) h
  refine ⟨h1, ?_⟩
  rcases h2 with h2 | ⟨w, -, d, hd, h0⟩
  · left
    rw [← List.map_uncurry_zip_eq_zipWith] at h2
    obtain ⟨x, hx, hx0⟩ := List.mem_map.1 h2
    exact ⟨x, hx, sub_eq_zero.1 hx0⟩
  · exact Or.inr ⟨_, w, rfl, d, hd, sub_eq_zero.1 h0⟩

end

theorem C106_violated : ¬ C106_statement := by
  intro h
  obtain ⟨r, hr⟩ := h 1 (linRegExists 1) (.tukey 3.44) 1e-7 500 ⟨[1, 0], 1⟩ (c55Data 1) (by simp) (by simp [c55Data])
    (by norm_num [Rho.const]) (by norm_num) (by simp) (by simp [c55Data])
  rw [C106_exact (linRegExists 1) _ _ _ (by simp) ⟨[1, 0], 1⟩ (c55Data 1) 0 (![0], 1) (by simp [c55Data]) (by simp)] at hr
  simp at hr

/-! The result -/

/-- The models of successive iterations: the first is `step` of the residuals `res`, each next one `step` of the residuals of the one
before. -/
def Spec.Trajectory {p : ℕ} (step : List ℝ → Except PyErr (LinModel p)) (D : List ((Fin p → ℝ) × ℝ)) : List ℝ → List (LinModel p) → Prop
  | _, [] => True
  | res, m :: ms => step res = .ok m ∧ Spec.Trajectory step D (D.map fun d => d.2 - (m.intercept + ∑ j, d.1 j * m.coef j)) ms

/-- The largest absolute change of the residuals is below `eps`. -/
def Spec.Close (eps : ℝ) (res res' : List ℝ) : Prop := ∀ (i : ℕ) (a b : ℝ), res[i]? = some a → res'[i]? = some b → |b - a| < eps

section
variable {p : ℕ}

theorem mmConverged_iff (eps : ℝ) (res res' : List ℝ) : mmConverged eps res res' = true ↔ Spec.Close eps res res' := by
  unfold mmConverged Spec.Close
  rw [List.all_eq_true]
  constructor
  · intro h i a b ha hb
    have := h (decide (|b - a| < eps)) (List.mem_of_getElem? (i := i) (by rw [List.getElem?_zipWith, ha, hb]))
    simpa using this
  · intro h x hx
    obtain ⟨i, hi⟩ := List.mem_iff_getElem?.1 hx
    rw [List.getElem?_zipWith] at hi
    rcases ha : res[i]? with _ | a
    · rw [ha] at hi; simp at hi
    · rcases hb : res'[i]? with _ | b
      · rw [ha, hb] at hi; simp at hi
      · rw [ha, hb] at hi
        obtain rfl := Option.some.inj hi
        simpa using h i a b ha hb

/-- The residuals that the last model of a trajectory was fitted from. -/
def Spec.lastRes (D : List ((Fin p → ℝ) × ℝ)) (res : List ℝ) : List (LinModel p) → List ℝ
  | [] => res
  | m :: ms => Spec.lastRes D (D.map fun d => d.2 - (m.intercept + ∑ j, d.1 j * m.coef j)) ms

theorem mmLoop_result (LR : LinReg p) (R : Rho ℝ) (s eps : ℝ) (D : List ((Fin p → ℝ) × ℝ)) :
    ∀ (k : ℕ) (m0 : Option (LinModel p)) (res : List ℝ) (r : Option (LinModel p)), mmLoop LR R s eps D k m0 res = .ok r → k ≠ 0 →
      ∃ (ms : List (LinModel p)) (m : LinModel p), r = some m ∧ Spec.Trajectory (mmFitStep LR R s D) D res (ms ++ [m]) ∧
        ms.length + 1 ≤ k ∧ (ms.length + 1 = k ∨ Spec.Close eps (Spec.lastRes D res ms) (D.map (resid m))) ∧
        ∀ (n : ℕ) (m' : LinModel p), n < ms.length → ms[n]? = some m' →
          ¬ Spec.Close eps (Spec.lastRes D res (ms.take n)) (D.map (resid m')) := by
  intro k
  induction k with
  | zero => intro m0 res r _ h; exact absurd rfl h
  | succ k ih =>
    intro m0 res r h _
    unfold mmLoop at h
    rcases hs : mmFitStep LR R s D res with e | m
    · rw [hs] at h; simp [Except.bind] at h
    · rw [hs] at h
      simp only [Except.bind] at h
      split_ifs at h with hc
      · obtain rfl := Except.ok.inj h
        exact ⟨[], m, rfl, ⟨hs, trivial⟩, by simp, Or.inr ((mmConverged_iff _ _ _).1 hc), by simp⟩
      · have hc' : ¬ Spec.Close eps res (D.map (resid m)) := fun h' => hc ((mmConverged_iff _ _ _).2 h')
        rcases Nat.eq_zero_or_pos k with rfl | hk
        · obtain rfl := Except.ok.inj h
          exact ⟨[], m, rfl, ⟨hs, trivial⟩, by simp, Or.inl rfl, by simp⟩
        · obtain ⟨ms, m', g1, g2, g3, g4, g5⟩ := ih _ _ _ h hk.ne'
          refine ⟨m :: ms, m', g1, ⟨hs, g2⟩, by simpa using g3, ?_, ?_⟩
          · rcases g4 with g4 | g4
            · left; simpa using g4
            · right; exact g4
          · intro n m'' hn hm
            rcases n with _ | n
            · simp only [List.getElem?_cons_zero, Option.some.injEq] at hm
              subst hm
              exact hc'
            · simp only [List.getElem?_cons_succ] at hm
              exact g5 n m'' (by simpa using hn) hm

/-- **C108**: the model reported by the MM estimator is the last of a sequence of reweighted fits that starts from the residuals of the
initial estimator.  The sequence has at most `max_iterations` members; if it has fewer, the last fit changed no residual by `epsilon` or
more, and no fit before the last one had this property. -/
theorem C108_reported (LR : LinReg p) (R : Rho ℝ) (eps : ℝ) (maxIter : ℕ) (hmax : maxIter ≠ 0) (init : InitialFit)
    (D : List ((Fin p → ℝ) × ℝ)) (r : Option (LinModel p)) (h : mmFit LR R eps maxIter init D = .ok r) :
    ∃ (ms : List (LinModel p)) (m : LinModel p), r = some m ∧
      Spec.Trajectory (mmFitStep LR R init.scale D) D (List.zipWith (fun d f => d.2 - f) D init.predictions) (ms ++ [m]) ∧
      ms.length + 1 ≤ maxIter ∧
      (ms.length + 1 = maxIter ∨ Spec.Close eps (Spec.lastRes D (List.zipWith (fun d f => d.2 - f) D init.predictions) ms)
        (D.map fun d => d.2 - (m.intercept + ∑ j, d.1 j * m.coef j))) ∧
      ∀ (n : ℕ) (m' : LinModel p), n < ms.length → ms[n]? = some m' →
        ¬ Spec.Close eps (Spec.lastRes D (List.zipWith (fun d f => d.2 - f) D init.predictions) (ms.take n))
          (D.map fun d => d.2 - (m'.intercept + ∑ j, d.1 j * m'.coef j)) :=
  mmLoop_result LR R init.scale eps D maxIter none _ r h hmax

/-- **C108**: without iterations the initial estimator is the model. -/
theorem C108_none (LR : LinReg p) (R : Rho ℝ) (eps : ℝ) (init : InitialFit) (D : List ((Fin p → ℝ) × ℝ)) :
    mmFit LR R eps 0 init D = .ok none := rfl

end

/-! Equivariance -/

/-- The model whose predictions are those of `m` times `a`. -/
def Spec.scaleModel {p : ℕ} (a : ℝ) (m : LinModel p) : LinModel p := ⟨a * m.intercept, fun j => a * m.coef j⟩

/-- **C107** (full statement): the MM estimator is equivariant under multiplication of the targets by a positive number and addition of a
constant, given that the initial estimator is. -/
def C107_statement : Prop :=
  ∀ (p : ℕ) (LR : LinReg p) (R : Rho ℝ) (eps : ℝ) (maxIter : ℕ) (init : InitialFit) (D : List ((Fin p → ℝ) × ℝ)) (a t : ℝ), 0 < a →
    0 < R.const → 0 < init.scale → init.predictions.length = D.length →
    mmFit LR R (a * eps) maxIter ⟨init.predictions.map (fun f => a * f + t), a * init.scale⟩ (D.map fun d => (d.1, a * d.2 + t)) =
      (mmFit LR R eps maxIter init D).map (Option.map fun m => ⟨a * m.intercept + t, fun j => a * m.coef j⟩)

theorem C107_violated : ¬ C107_statement := by
  intro h
  have h1 := h 1 (linRegExists 1) (.tukey 2) 1e-7 1 ⟨[0, 0], 1⟩ (c55Data 1) 1 1 one_pos (by norm_num [Rho.const]) (by simp) (by simp [c55Data])
  have e0 : (c55Data 1).map (fun d => (d.1, 1 * d.2 + 1)) = c55Data 2 := by norm_num [c55Data]
  rw [e0] at h1
  have e1 : mmFit (linRegExists 1) (.tukey 2) (1e-7) 1 ⟨[0, 0], 1⟩ (c55Data 1) = .ok (some ⟨3 / 4 * 1, fun _ => 0⟩) := by
    have hr : List.zipWith (fun (d : (Fin 1 → ℝ) × ℝ) f => d.2 - f) (c55Data 1) [0, 0] = [1, 1] := by simp [c55Data]
    unfold mmFit
    simp only
    rw [hr]
    unfold mmLoop
    rw [step_c55]
    simp only [Except.bind]
    split_ifs
    · rfl
    · rfl
  have e2 : mmFit (linRegExists 1) (.tukey 2) (1 * 1e-7) 1 ⟨([0, 0] : List ℝ).map (fun f => 1 * f + 1), 1 * 1⟩ (c55Data 2) =
      .ok (some ⟨3 / 4 * 2, fun _ => 0⟩) := by
    have hr : List.zipWith (fun (d : (Fin 1 → ℝ) × ℝ) f => d.2 - f) (c55Data 2) (([0, 0] : List ℝ).map (fun f => 1 * f + 1)) = [1, 1] := by
      norm_num [c55Data]
    unfold mmFit
    simp only
    rw [hr]
    unfold mmLoop
    rw [mul_one, step_c55]
    simp only [Except.bind]
    split_ifs
    · rfl
    · rfl
  simp only at h1
  rw [e1, e2] at h1
  simp only [Except.map, Option.map, Except.ok.injEq, Option.some.injEq, LinModel.mk.injEq] at h1
  norm_num at h1

section
variable {p : ℕ}

theorem scaleModel_predict (a : ℝ) (m : LinModel p) (x : Fin p → ℝ) : (Spec.scaleModel a m).predict x = a * m.predict x := by
  unfold LinModel.predict Spec.scaleModel
  rw [mul_add, Finset.mul_sum]
  congr 1
  exact Finset.sum_congr rfl fun j _ => by ring

theorem ssr_scale (a : ℝ) (D : List ((Fin p → ℝ) × ℝ)) (m : LinModel p) :
    ssr (D.map fun d => (d.1, a * d.2)) (Spec.scaleModel a m) = a ^ 2 * ssr D m := by
  unfold ssr
  rw [List.map_map, ← List.sum_map_mul_left]
  congr 1
  refine List.map_congr_left fun d _ => ?_
  simp only [Function.comp, resid, scaleModel_predict]
  ring

/-- Least squares is equivariant under multiplication of the targets. -/
theorem LinReg.fit_scale (LR : LinReg p) {D : List ((Fin p → ℝ) × ℝ)} (hD : D ≠ []) {a : ℝ} (ha : a ≠ 0) :
    LR.fit (D.map fun d => (d.1, a * d.2)) = Spec.scaleModel a (LR.fit D) := by
  have hD' : (D.map fun d => (d.1, a * d.2)) ≠ [] := by simpa using hD
  have hinv : ∀ m : LinModel p, m = Spec.scaleModel a (Spec.scaleModel a⁻¹ m) := by
    intro m
    unfold Spec.scaleModel
    refine LinModel.ext (by simp only; field_simp) ?_
    funext j
    simp only
    field_simp
  have ha2 : 0 < a ^ 2 := by positivity
  have hc : ∀ m : LinModel p, ∑ j, (Spec.scaleModel a m).coef j ^ 2 = a ^ 2 * ∑ j, m.coef j ^ 2 := by
    intro m
    rw [Finset.mul_sum]
    exact Finset.sum_congr rfl fun j _ => by unfold Spec.scaleModel; ring
  refine leastSquares_unique hD' (LR.isMin _ hD') ?_ (LR.minNorm _ hD') ?_
  · intro m
    rw [hinv m, ssr_scale, ssr_scale]
    exact mul_le_mul_of_nonneg_left (LR.isMin D hD _) ha2.le
  · intro m hm
    rw [hinv m, ssr_scale, ssr_scale] at hm
    rw [hinv m, hc, hc]
    exact mul_le_mul_of_nonneg_left (LR.minNorm D hD _ (mul_left_cancel₀ ha2.ne' hm)) ha2.le

theorem mmFitStep_scale (LR : LinReg p) (R : Rho ℝ) (s : ℝ) (D : List ((Fin p → ℝ) × ℝ)) (res : List ℝ) {a : ℝ} (ha : 0 < a) :
    mmFitStep LR R (a * s) (D.map fun d => (d.1, a * d.2)) (res.map fun r => a * r) = (mmFitStep LR R s D res).map (Spec.scaleModel a) := by
  unfold mmFitStep
  rw [mapM_mmWeight, mapM_mmWeight]
  have h0 : (0 ∈ res.map fun r => a * r) ↔ 0 ∈ res := by
    simp [ha.ne']
  by_cases hz : 0 ∈ res
  · rw [if_pos (h0.2 hz), if_pos hz]
    rfl
  · rw [if_neg (h0.not.2 hz), if_neg hz]
    simp only
    have hw : (res.map fun r => a * r).map (mmW R (a * s)) = res.map (mmW R s) := by
      rw [List.map_map]
      refine List.map_congr_left fun r _ => ?_
      simp only [Function.comp, mmW]
      rw [mul_div_mul_left _ _ ha.ne']
      by_cases hs : s = 0
      · simp [hs]
      · rw [if_neg hs, if_neg (mul_ne_zero ha.ne' hs)]
    rw [hw]
    have hz2 : List.zipWith mmRow (res.map (mmW R s)) (D.map fun d => (d.1, a * d.2)) =
        (List.zipWith mmRow (res.map (mmW R s)) D).map fun d => (d.1, a * d.2) := by
      rw [List.zipWith_map_right, List.map_zipWith]
      congr 1
      funext w d
      unfold mmRow
      simp only [Prod.mk.injEq, true_and]
      ring
    rw [hz2]
    unfold lrFit
    by_cases hn : List.zipWith mmRow (res.map (mmW R s)) D = [] ∨ p = 0
    · rw [if_pos hn, if_pos (by simpa using hn)]
      rfl
    · rw [if_neg hn, if_neg (by simpa using hn), LR.fit_scale (fun h => hn (Or.inl h)) ha.ne']
      rfl

theorem resid_scale (a : ℝ) (m : LinModel p) (D : List ((Fin p → ℝ) × ℝ)) :
    (D.map fun d => (d.1, a * d.2)).map (resid (Spec.scaleModel a m)) = (D.map (resid m)).map fun r => a * r := by
  rw [List.map_map, List.map_map]
  refine List.map_congr_left fun d _ => ?_
  simp only [Function.comp, resid, scaleModel_predict]
  ring

theorem mmConverged_scale {a : ℝ} (ha : 0 < a) (eps : ℝ) (res res' : List ℝ) :
    mmConverged (a * eps) (res.map fun r => a * r) (res'.map fun r => a * r) = mmConverged eps res res' := by
  unfold mmConverged
  rw [List.zipWith_map]
  congr 2
  funext x y
  refine decide_eq_decide.2 ?_
  rw [← mul_sub, abs_mul, abs_of_pos ha, mul_lt_mul_iff_right₀ ha]

theorem mmLoop_scale (LR : LinReg p) (R : Rho ℝ) (s eps : ℝ) (D : List ((Fin p → ℝ) × ℝ)) {a : ℝ} (ha : 0 < a) :
    ∀ (k : ℕ) (m : Option (LinModel p)) (res : List ℝ),
      mmLoop LR R (a * s) (a * eps) (D.map fun d => (d.1, a * d.2)) k (m.map (Spec.scaleModel a)) (res.map fun r => a * r) =
        (mmLoop LR R s eps D k m res).map (Option.map (Spec.scaleModel a)) := by
  intro k
  induction k with
  | zero => intro m res; rfl
  | succ k ih =>
    intro m res
    unfold mmLoop
    rw [mmFitStep_scale LR R s D res ha]
    rcases mmFitStep LR R s D res with e | m'
    · rfl
    · simp only [Except.map, Except.bind]
      rw [resid_scale, mmConverged_scale ha]
      split_ifs
      · rfl
      · exact ih (some m') _

/-- **C107** (partial): equivariance under multiplication of the targets by a positive number; the tolerance, which is absolute, has to
be multiplied too.  Missing: the addition of a constant, for which the claim is false. -/
theorem C107_scale_partial (LR : LinReg p) (R : Rho ℝ) (eps : ℝ) (maxIter : ℕ) (init : InitialFit) (D : List ((Fin p → ℝ) × ℝ)) (a : ℝ)
    (ha : 0 < a) :
    mmFit LR R (a * eps) maxIter ⟨init.predictions.map (fun f => a * f), a * init.scale⟩ (D.map fun d => (d.1, a * d.2)) =
      (mmFit LR R eps maxIter init D).map (Option.map (Spec.scaleModel a)) := by
  unfold mmFit
  have h := mmLoop_scale LR R init.scale eps D ha maxIter none (List.zipWith (fun d f => d.2 - f) D init.predictions)
  have e : List.zipWith (fun (d : (Fin p → ℝ) × ℝ) f => d.2 - f) (D.map fun d => (d.1, a * d.2)) (init.predictions.map fun f => a * f) =
      (List.zipWith (fun d f => d.2 - f) D init.predictions).map fun r => a * r := by
    rw [List.zipWith_map, List.map_zipWith]
    congr 1
    funext d f
    ring
  simp only
  rw [e]
  exact h

end

/-- A fit that succeeds, for C106 and C107. -/
example : mmFitStep (linRegExists 1) (.tukey 2) 1 (c55Data 1) [1, 1] = .ok ⟨3 / 4 * 1, fun _ => 0⟩ := step_c55 _ 1

end Robpy
