import Verif.Props.DetTotal
import Verif.Props.LinAlg

/-! # DetMCD: a concrete environment, the violation of C132 and concrete cases -/

namespace Robpy
open Matrix

variable {p : ℕ}

/-! ## An environment that meets the contract -/

/-- The symmetric square root, for `detEnvSpectral`. -/
noncomputable def sqrtSpectral (A : Matrix (Fin p) (Fin p) ℝ) : Matrix (Fin p) (Fin p) ℝ := by
  classical exact if h : A.IsSymm then
    (eighSpectral A h).V * Matrix.diagonal (fun i => Real.sqrt ((eighSpectral A h).w i)) * (eighSpectral A h).Vᵀ
  else 0

theorem eigh_w_nonneg {A : Matrix (Fin p) (Fin p) ℝ} (hA : A.PosSemidef) (e : Eigh A) (i : Fin p) : 0 ≤ e.w i := by
  have h1 : e.Vᵀ * A * e.V = Matrix.diagonal e.w := by
    refine (congrArg (fun B => e.Vᵀ * B * e.V) e.decomp).trans ?_
    beta_reduce
    rw [show e.Vᵀ * (e.V * Matrix.diagonal e.w * e.Vᵀ) * e.V = (e.Vᵀ * e.V) * Matrix.diagonal e.w * (e.Vᵀ * e.V) by
      simp only [Matrix.mul_assoc], e.orth, Matrix.one_mul, Matrix.mul_one]
  have h2 := hA.conjTranspose_mul_mul_same e.V
  rw [Matrix.conjTranspose_eq_transpose_of_trivial, h1] at h2
  have := h2.diag_nonneg (i := i)
  simpa using this

theorem sqrtSpectral_sq {A : Matrix (Fin p) (Fin p) ℝ} (hA : A.PosSemidef) : sqrtSpectral A * sqrtSpectral A = A := by
  have hs : A.IsSymm := by
    have := hA.1
    rwa [Matrix.IsHermitian, Matrix.conjTranspose_eq_transpose_of_trivial] at this
  unfold sqrtSpectral
  rw [dif_pos hs]
  generalize eighSpectral A hs = e
  rw [show e.V * Matrix.diagonal (fun i => Real.sqrt (e.w i)) * e.Vᵀ *
      (e.V * Matrix.diagonal (fun i => Real.sqrt (e.w i)) * e.Vᵀ) =
      e.V * (Matrix.diagonal (fun i => Real.sqrt (e.w i)) * (e.Vᵀ * e.V) *
        Matrix.diagonal (fun i => Real.sqrt (e.w i))) * e.Vᵀ by simp only [Matrix.mul_assoc],
    e.orth, Matrix.mul_one, Matrix.diagonal_mul_diagonal]
  have : (fun i => Real.sqrt (e.w i) * Real.sqrt (e.w i)) = e.w :=
    funext fun i => Real.mul_self_sqrt (eigh_w_nonneg hA e i)
  rw [this]
  exact e.decomp.symm

/-- An environment: spectral decomposition, spectral square root, an increasing score function, stable sort. -/
noncomputable def detEnvSpectral (p : ℕ) : DetEnv p where
  eigh := eighSpectral
  sqrtm := sqrtSpectral
  ppf := id
  srt := argsortStable ℝ
  tauCorr := 1

theorem detEnvSpectral_contract (p : ℕ) : DetContract (detEnvSpectral p) where
  sqrtm _ hA := sqrtSpectral_sq hA
  ppf := strictMonoOn_id
  tau := one_pos

/-! ## The violation -/

/-- Full statement of C132: DetMCD returns a result, with a positive definite covariance, for every data set in general
position with enough rows. -/
def C132_statement : Prop :=
  ∀ (p : ℕ) (env : DetEnv p), DetContract env → ∀ (cfg : MCDConfig ℝ) (X : List (Fin p → ℝ)), 0 < cfg.tol →
    Spec.DocumentedAlpha cfg.alpha X.length → alphaIsAll cfg.alpha X.length = false → 0 < cfg.chi50 →
    cfg.correct = true → cfg.chi50 < cfg.chi975 → 0 < cfg.gammaFactor → Spec.RowsInGeneralPosition X → 2 ≤ p →
    4 * p ≤ X.length + 3 → ∃ fuel fit, detFit env cfg X fuel = some (.ok fit) ∧ fit.covariance.PosDef

/-- Five points, no three on a line; the first one consists of the medians. -/
def c132Data : List (Fin 2 → ℝ) := [![0, 0], ![1, 2], ![-1, 3], ![2, -1], ![-3, -4]]

/-- The same with another first point. -/
def c132Good : List (Fin 2 → ℝ) := [![0, 4], ![1, 2], ![-1, 3], ![2, -1], ![-3, -4]]

/-- The default settings, with two of the constants rounded. -/
noncomputable def c132Cfg : MCDConfig ℝ where
  alpha := .none
  nInitialSubsets := 500
  nInitialCSteps := 2
  nBestSubsets := 10
  nPartitions := none
  tol := 1 / 100000
  correct := true
  reweighting := true
  chi50 := 1.386
  chi975 := 7.378
  gammaFactor := 1

/-- If among five points no three satisfy an equation of a line, they are in general position. -/
theorem gp_five {a b c d e : Fin 2 → ℝ}
    (h : ∀ v k, (a ⬝ᵥ v = k ∧ b ⬝ᵥ v = k ∧ c ⬝ᵥ v = k) ∨
      (a ⬝ᵥ v = k ∧ b ⬝ᵥ v = k ∧ d ⬝ᵥ v = k) ∨
      (a ⬝ᵥ v = k ∧ b ⬝ᵥ v = k ∧ e ⬝ᵥ v = k) ∨
      (a ⬝ᵥ v = k ∧ c ⬝ᵥ v = k ∧ d ⬝ᵥ v = k) ∨
      (a ⬝ᵥ v = k ∧ c ⬝ᵥ v = k ∧ e ⬝ᵥ v = k) ∨
      (a ⬝ᵥ v = k ∧ d ⬝ᵥ v = k ∧ e ⬝ᵥ v = k) ∨
      (b ⬝ᵥ v = k ∧ c ⬝ᵥ v = k ∧ d ⬝ᵥ v = k) ∨
      (b ⬝ᵥ v = k ∧ c ⬝ᵥ v = k ∧ e ⬝ᵥ v = k) ∨
      (b ⬝ᵥ v = k ∧ d ⬝ᵥ v = k ∧ e ⬝ᵥ v = k) ∨
      (c ⬝ᵥ v = k ∧ d ⬝ᵥ v = k ∧ e ⬝ᵥ v = k) → v 0 = 0 ∧ v 1 = 0) : Spec.RowsInGeneralPosition [a, b, c, d, e] := by
  intro v hv k
  by_contra hcon
  push Not at hcon
  refine hv ?_
  suffices h' : v 0 = 0 ∧ v 1 = 0 by
    funext i
    fin_cases i
    · exact h'.1
    · exact h'.2
  refine h v k ?_
  simp only [List.countP_cons, List.countP_nil] at hcon
  generalize a ⬝ᵥ v = a' at hcon ⊢
  generalize b ⬝ᵥ v = b' at hcon ⊢
  generalize c ⬝ᵥ v = c' at hcon ⊢
  generalize d ⬝ᵥ v = d' at hcon ⊢
  generalize e ⬝ᵥ v = e' at hcon ⊢
  by_cases h1 : a' = k <;> by_cases h2 : b' = k <;> by_cases h3 : c' = k <;> by_cases h4 : d' = k <;>
    by_cases h5 : e' = k <;>
    first
    | (simp [h1, h2, h3, h4, h5]; done)
    | (simp [h1, h2, h3, h4, h5] at hcon; done)

theorem c132Data_gp : Spec.RowsInGeneralPosition c132Data := by
  refine gp_five fun v k h => ?_
  simp only [dotProduct, Fin.sum_univ_two, Matrix.cons_val_zero, Matrix.cons_val_one] at h
  rcases h with h | h | h | h | h | h | h | h | h | h <;> obtain ⟨h1, h2, h3⟩ := h <;> constructor <;> linarith

theorem c132Good_gp : Spec.RowsInGeneralPosition c132Good := by
  refine gp_five fun v k h => ?_
  simp only [dotProduct, Fin.sum_univ_two, Matrix.cons_val_zero, Matrix.cons_val_one] at h
  rcases h with h | h | h | h | h | h | h | h | h | h <;> obtain ⟨h1, h2, h3⟩ := h <;> constructor <;> linarith

theorem c132Data_median : Spec.IsMedianRow c132Data ![0, 0] := by
  intro j
  fin_cases j <;>
  · simp only [c132Data, List.map_cons, List.map_nil]
    rw [npMedian_eq_some_iff]
    refine ⟨0, 0, ?_, ?_, by norm_num⟩ <;>
    · unfold Spec.IsKthSmallest
      norm_num [List.countP_cons]

/-- **C132 is violated**: five points in the plane, no three on a line, default settings: DetMCD raises an exception
because the first point has the median in both coordinates. -/
theorem C132_violated : ¬ C132_statement := by
  intro h
  obtain ⟨fuel, fit, hfit, -⟩ := h 2 (detEnvSpectral 2) (detEnvSpectral_contract 2) c132Cfg c132Data (by norm_num [c132Cfg])
    trivial rfl (by norm_num [c132Cfg]) rfl (by norm_num [c132Cfg]) (by norm_num [c132Cfg]) c132Data_gp le_rfl
    (by simp [c132Data])
  obtain ⟨e, he⟩ := C132_median_row (detEnvSpectral 2) c132Cfg (X := c132Data) rfl (x := ![0, 0])
    (by simp [c132Data]) c132Data_median fuel
  rw [he] at hfit
  simp at hfit

theorem c132Good_median : ∀ x ∈ c132Good, ¬ Spec.IsMedianRow c132Good x := by
  have h0 : npMedian (c132Good.map fun y => y 0) = some 0 := by
    simp only [c132Good, List.map_cons, List.map_nil]
    rw [npMedian_eq_some_iff]
    refine ⟨0, 0, ?_, ?_, by norm_num⟩ <;>
    · unfold Spec.IsKthSmallest
      norm_num [List.countP_cons]
  have h1 : npMedian (c132Good.map fun y => y 1) = some 2 := by
    simp only [c132Good, List.map_cons, List.map_nil]
    rw [npMedian_eq_some_iff]
    refine ⟨2, 2, ?_, ?_, by norm_num⟩ <;>
    · unfold Spec.IsKthSmallest
      norm_num [List.countP_cons]
  intro x hx hm
  have e0 := hm 0
  have e1 := hm 1
  rw [h0] at e0
  rw [h1] at e1
  have e0 := Option.some.inj e0
  have e1 := Option.some.inj e1
  simp only [c132Good, List.mem_cons, List.not_mem_nil, or_false] at hx
  rcases hx with rfl | rfl | rfl | rfl | rfl <;> first | (norm_num at e0; done) | (norm_num at e1; done)

/-- With another first point DetMCD returns a result: `C132_partial` applies, and so does `C131_units` in a non-trivial
way. -/
theorem c132Good_returns : ∃ fit, detFit (detEnvSpectral 2) c132Cfg c132Good 1 = some (.ok fit) ∧ fit.covariance.PosDef :=
  (C132_partial (detEnvSpectral 2) (detEnvSpectral_contract 2) c132Cfg (by norm_num [c132Cfg]) trivial rfl
    (fun _ => by norm_num [c132Cfg]) (fun _ => ⟨rfl, by norm_num [c132Cfg], by norm_num [c132Cfg]⟩) c132Good_gp le_rfl
    (by simp [c132Good]) 0).2 c132Good_median

/-- C131 on these data: Celsius to Fahrenheit in the first column, metres to millimetres in the second. -/
example : ∃ fit, detFit (detEnvSpectral 2) c132Cfg c132Good 1 = some (.ok fit) ∧
    detFit (detEnvSpectral 2) c132Cfg (Spec.inUnits ![9 / 5, 1000] ![32, 0] c132Good) 1 =
      some (.ok (Spec.affFit (Matrix.diagonal ![9 / 5, 1000]) ![32, 0] fit)) := by
  obtain ⟨fit, hfit, -⟩ := c132Good_returns
  refine ⟨fit, hfit, ?_⟩
  rw [C131_units (detEnvSpectral 2) c132Cfg (by norm_num [c132Cfg]) (c := ![9 / 5, 1000])
    (fun j => by fin_cases j <;> norm_num) ![32, 0] c132Good (by simp [c132Good]) 1, hfit]
  rfl

/-- C133 on four rows in the plane, C134 on one column of three values. -/
example : (∃ e, detFit (detEnvSpectral 2) c132Cfg (c132Good.take 4) 1 = some (.error e)) ∧
    ∃ e, detFit (detEnvSpectral 1) c132Cfg [![1], ![2], ![4]] 1 = some (.error e) :=
  ⟨C133_few_rows two_pos _ _ rfl (by simp [c132Good]) 1, C134_one_column _ _ _ rfl 1⟩

end Robpy
