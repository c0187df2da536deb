import Verif.Props.PowerFit
import Mathlib.Analysis.SpecialFunctions.Pow.Deriv
import Mathlib.Analysis.SpecialFunctions.Log.Deriv

/-! # Property C148: what the second estimate of lambda maximises -/

namespace Robpy

/-- The normal density with mean `mu` and variance `v`. -/
noncomputable def Spec.normalDensity (mu v y : ℝ) : ℝ := (Real.sqrt (2 * Real.pi * v))⁻¹ * Real.exp (-(y - mu) ^ 2 / (2 * v))

/-- The negative log-likelihood of the observations `x` in the model that `g` of an observation is normal. -/
noncomputable def Spec.negLogLik (g : ℝ → ℝ) (x : List ℝ) (mu v : ℝ) : ℝ :=
  -(x.map fun u => Real.log (Spec.normalDensity mu v (g u) * deriv g u)).sum

/-- The logarithm of the derivative of the transformation. -/
theorem log_deriv_famFun (fam : PTMethod) (lam : ℝ) {x : ℝ} (hx : fam = .boxcox → 0 < x) :
    0 < deriv (famFun fam lam) x ∧ Real.log (deriv (famFun fam lam) x) = (lam - 1) * logJacobian fam x := by
  rcases fam with _ | _
  · have h0 := hx rfl
    have e : deriv (famFun .boxcox lam) x = x ^ (lam - 1) := (boxcox_hasDerivAt lam h0).deriv
    rw [e]
    exact ⟨Real.rpow_pos_of_pos h0 _, Real.log_rpow h0 _⟩
  · have e : deriv (famFun .yeojohnson lam) x = if 0 ≤ x then (1 + x) ^ (lam - 1) else (1 - x) ^ (1 - lam) :=
      (yeojohnson_hasDerivAt lam x).deriv
    rw [e]
    show _ ∧ _ = (lam - 1) * (npSign x * Real.log (1 + |x|))
    unfold npSign
    rcases lt_trichotomy x 0 with h | rfl | h
    · rw [if_neg (not_le.2 h), if_pos h, abs_of_neg h]
      refine ⟨Real.rpow_pos_of_pos (by linarith) _, ?_⟩
      rw [Real.log_rpow (by linarith), ← sub_eq_add_neg]
      ring
    · simp
    · rw [if_pos h.le, if_neg (not_lt.2 h.le), if_pos h, abs_of_pos h]
      refine ⟨Real.rpow_pos_of_pos (by linarith) _, ?_⟩
      rw [Real.log_rpow (by linarith)]
      ring

theorem sum_sq_sub (y : List ℝ) (mu : ℝ) (hy : y ≠ []) :
    (y.map fun u => (u - mu) ^ 2).sum = y.length * (var y + (mean y - mu) ^ 2) := by
  have h1 := sum_sub_mean hy
  have h2 := sum_sq_sub_mean hy
  have key : ∀ (l : List ℝ) (c : ℝ), (l.map fun u => (u - mu) ^ 2).sum =
      (l.map fun u => (u - c) ^ 2).sum + 2 * (c - mu) * (l.map fun u => u - c).sum + l.length * (c - mu) ^ 2 := by
    intro l c
    induction l with
    | nil => simp
    | cons a l ih => simp only [List.map_cons, List.sum_cons, List.length_cons, ih]; push_cast; ring
  rw [key y (mean y), h1, h2]
  ring

theorem negLogLik_eq (fam : PTMethod) (lam : ℝ) {x : List ℝ} (hx : x ≠ []) (hp : fam = .boxcox → ∀ v ∈ x, 0 < v)
    (mu : ℝ) {v : ℝ} (hv : 0 < v) :
    Spec.negLogLik (famFun fam lam) x mu v = (x.length : ℝ) / 2 * (Real.log (2 * Real.pi) + Real.log v) +
      x.length * (var (plainArr fam lam x) + (mean (plainArr fam lam x) - mu) ^ 2) / (2 * v) -
      (lam - 1) * (x.map (logJacobian fam)).sum := by
  have hcell : ∀ u ∈ x, Real.log (Spec.normalDensity mu v (famFun fam lam u) * deriv (famFun fam lam) u) =
      -(1 / 2) * (Real.log (2 * Real.pi) + Real.log v) - (famFun fam lam u - mu) ^ 2 / (2 * v) + (lam - 1) * logJacobian fam u := by
    intro u hu
    obtain ⟨hd, hlog⟩ := log_deriv_famFun fam lam (x := u) fun e => hp e u hu
    have h1 : 0 < Real.sqrt (2 * Real.pi * v) := Real.sqrt_pos.2 (by positivity)
    unfold Spec.normalDensity
    rw [Real.log_mul (by positivity) hd.ne', Real.log_mul (by positivity) (Real.exp_pos _).ne', Real.log_inv, Real.log_exp, hlog,
      Real.log_sqrt (by positivity), Real.log_mul (by positivity) hv.ne']
    ring
  unfold Spec.negLogLik
  rw [List.map_congr_left hcell]
  have hs := sum_sq_sub (x.map (famFun fam lam)) mu (by simpa using hx)
  rw [List.map_map, List.length_map] at hs
  have key : ∀ (l : List ℝ) (A : ℝ), (l.map fun u => -(1 / 2) * A - (famFun fam lam u - mu) ^ 2 / (2 * v) + (lam - 1) * logJacobian fam u).sum =
      -(l.length : ℝ) / 2 * A - (l.map ((fun u => (u - mu) ^ 2) ∘ famFun fam lam)).sum / (2 * v) +
        (lam - 1) * (l.map (logJacobian fam)).sum := by
    intro l A
    induction l with
    | nil => simp
    | cons a l ih =>
      simp only [List.map_cons, List.sum_cons, List.length_cons, ih, Function.comp]
      push_cast
      ring
  rw [key, hs, plainArr_eq]
  ring

/-- **C148**: up to a constant, the objective of the reweighted estimate is the negative log-likelihood of the
observations at the best mean and variance, in the model that the transformed observations are normal.  So minimising it
over lambda maximises the likelihood over lambda, mean and variance. -/
theorem C148_likelihood (fam : PTMethod) (lam : ℝ) {x : List ℝ} (hp : fam = .boxcox → ∀ v ∈ x, 0 < v) {o : ℝ}
    (ho : mlObjective fam x lam = some o) :
    Spec.negLogLik (famFun fam lam) x (mean (plainArr fam lam x)) (var (plainArr fam lam x)) =
      o + (x.length : ℝ) / 2 * (Real.log (2 * Real.pi) + 1) ∧
    ∀ mu v, 0 < v → o + (x.length : ℝ) / 2 * (Real.log (2 * Real.pi) + 1) ≤ Spec.negLogLik (famFun fam lam) x mu v := by
  unfold mlObjective at ho
  split_ifs at ho with h
  push Not at h
  obtain ⟨hx, hv⟩ := h
  have hv0 : 0 < var (plainArr fam lam x) := lt_of_le_of_ne (var_nonneg' _) (Ne.symm hv)
  rw [Option.some.injEq] at ho
  subst ho
  constructor
  · rw [negLogLik_eq fam lam hx hp _ hv0, sub_self]
    field_simp
    ring
  · intro mu v hv1
    rw [negLogLik_eq fam lam hx hp _ hv1]
    set s := var (plainArr fam lam x)
    set d := mean (plainArr fam lam x) - mu
    have hlog : Real.log s - Real.log v ≤ s / v - 1 := by
      rw [← Real.log_div hv0.ne' hv1.ne']
      exact Real.log_le_sub_one_of_pos (by positivity)
    have hn : (0:ℝ) ≤ x.length := Nat.cast_nonneg _
    have h1 : (x.length : ℝ) * (s + d ^ 2) / (2 * v) = x.length / 2 * (s / v) + x.length / 2 * (d ^ 2 / v) := by
      field_simp
    have h2 : 0 ≤ (x.length : ℝ) / 2 * (d ^ 2 / v) := by positivity
    rw [h1]
    nlinarith [mul_le_mul_of_nonneg_left hlog (by positivity : 0 ≤ (x.length : ℝ) / 2)]

/-- The hypotheses are met by 1, 2, 3 for Box-Cox with lambda 1. -/
example : ∃ o, mlObjective .boxcox [1, 2, 3] 1 = some o ∧ ∀ v ∈ [(1:ℝ), 2, 3], 0 < v := by
  have hv : var (plainArr .boxcox 1 [1, 2, 3]) ≠ 0 := by
    norm_num [plainArr, boxcox, var, mean]
  refine ⟨_, if_neg ?_, by simp⟩
  rintro (h | h)
  · simp at h
  · exact hv h

end Robpy
