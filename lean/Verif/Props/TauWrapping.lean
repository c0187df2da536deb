import Verif.Props.TauOneStep
import Verif.Props.UnivariateMCD
import Mathlib.Analysis.SpecialFunctions.Trigonometric.DerivHyp

/-! # Properties C70 (Tau is finite, violated) and C71 (OneStepWrapping location) -/

namespace Robpy
open Spec

/-! ## C70 -/
section
variable {K : Type} [Field K] [LinearOrder K] [IsStrictOrderedRing K]

/-- Full statement of C70: Tau gives a finite location for every non-empty finite sample. -/
def C70_statement (c1 : K) : Prop := ∀ X : List K, X ≠ [] → (tauLocation c1 X).isSome

/-- **C70 is violated**: a sample in which more than half of the values are equal has location NaN,
for every tuning constant. -/
theorem C70_violated (c1 : ℚ) : ¬ C70_statement c1 := by
  intro h
  have := h [1, 1, 1, 5] (by simp)
  have e1 : npMedian ([1, 1, 1, 5] : List ℚ) = some 1 := by decide +kernel
  have e2 : madRaw ([1, 1, 1, 5] : List ℚ) = some 0 := by decide +kernel
  simp [tauLocation, e1, e2] at this

/-- **C70**, what does hold: for `c1 > 1` the location is NaN exactly for an empty sample or a zero
MAD.  Missing with respect to C70: the zero-MAD samples. -/
theorem C70_finite_iff_partial (c1 : K) (h1 : 1 < c1) (X : List K) :
    (tauLocation c1 X).isSome ↔ X ≠ [] ∧ madRaw X ≠ some 0 := by
  constructor
  · intro h
    constructor
    · rintro rfl; simp [tauLocation, npMedian] at h
    · intro h0
      obtain ⟨m, hm, -⟩ := madRaw_spec h0
      simp [tauLocation, hm, h0] at h
  · rintro ⟨hX, h0⟩
    obtain ⟨s, hs⟩ := madRaw_isSome hX
    obtain ⟨-, l, hl, -⟩ := C07_location c1 h1 X s hs (fun h => h0 (h ▸ hs))
    rw [hl]; rfl

example : ([1, 2, 4] : List ℚ) ≠ [] ∧ madRaw ([1, 2, 4] : List ℚ) ≠ some 0 ∧ (1:ℚ) < 4.5 := by
  refine ⟨by decide, by decide +kernel, by norm_num⟩

end

/-! ## C71 -/

theorem tanh_nonneg {x : ℝ} (hx : 0 ≤ x) : 0 ≤ Real.tanh x := by
  rw [Real.tanh_eq_sinh_div_cosh]
  exact div_nonneg (Real.sinh_nonneg_iff.2 hx) (Real.cosh_pos x).le

theorem tanhWeight_nonneg (v : ℝ) : 0 ≤ tanhWeight v := by
  unfold tanhWeight
  split_ifs with h1 h2
  · exact zero_le_one
  · exact le_rfl
  · apply div_nonneg _ (abs_nonneg v)
    apply mul_nonneg (Real.sqrt_nonneg _)
    apply tanh_nonneg
    apply mul_nonneg
    · positivity
    · push Not at h2; linarith

theorem tanhWeight_even (v : ℝ) : tanhWeight (-v) = tanhWeight v := by
  unfold tanhWeight; rw [abs_neg]

theorem exists_sq_le_var (xs : List ℝ) (h : xs ≠ []) : ∃ x ∈ xs, (x - mean xs) ^ 2 ≤ var xs := by
  by_contra hc
  push Not at hc
  have hl : (0:ℝ) < xs.length := by exact_mod_cast List.length_pos_iff.2 h
  have key : ∀ ys : List ℝ, ys ≠ [] → (∀ x ∈ ys, var xs < (x - mean xs) ^ 2) →
      ys.length * var xs < (ys.map fun x => (x - mean xs) ^ 2).sum := by
    intro ys
    induction ys with
    | nil => intro h; exact absurd rfl h
    | cons y ys ih =>
      intro _ hy
      simp only [List.map_cons, List.sum_cons, List.length_cons]
      push_cast
      have h1 := hy y (by simp)
      rcases ys with _ | ⟨z, zs⟩
      · simpa using h1
      · have := ih (by simp) (fun x hx => hy x (by simp [hx]))
        linarith
  have h1 := key xs h hc
  have h2 : var xs = (xs.map fun x => (x - mean xs) ^ 2).sum / xs.length := by
    rw [var, mean, List.length_map]
  rw [h2] at h1
  field_simp at h1
  exact lt_irrefl _ h1

/-- **C71**, location: whenever the initial scale is finite and non-zero (and the consistency factor
is at least 1) the location is finite and lies between any bounds of the data. -/
theorem C71_hull (cutoff : ℝ) (corrRaw : ℕ → ℕ → ℝ) (corr : ℝ → ℝ) (hcorr : ∀ d, 1 ≤ corr d)
    (X : List ℝ) (hX : X ≠ []) (loc : Option ℝ) (s : ℝ)
    (h : oneStepWrapping cutoff corrRaw corr X = (loc, some s)) (hs : s ≠ 0) :
    ∃ l, loc = some l ∧ ∀ lo hi, (∀ x ∈ X, lo ≤ x ∧ x ≤ hi) → lo ≤ l ∧ l ≤ hi := by
  unfold oneStepWrapping at h
  rcases hm : mcdCalculate cutoff corrRaw corr (X.length / 2 + 1) X with _ | ⟨rv, rl, v, l⟩
  · rw [hm] at h; simp at h
  rcases v with _ | v
  · rw [hm] at h; simp at h
  rcases l with _ | l
  · rw [hm] at h; simp at h
  rw [hm] at h
  simp only [Prod.mk.injEq, Option.some.injEq] at h
  obtain ⟨h1, h2⟩ := h
  rw [h2, if_neg hs] at h1
  rw [← h1]
  have hspos : 0 < s := lt_of_le_of_ne (h2 ▸ Real.sqrt_nonneg v) (Ne.symm hs)
  have hvpos : 0 < v := by rw [← h2] at hspos; exact Real.sqrt_pos.1 hspos
  have hs2 : s ^ 2 = v := by rw [← h2, Real.sq_sqrt hvpos.le]
  -- a point within one scale of the initial location
  have hex : ∃ x ∈ X, (x - l) ^ 2 ≤ v := by
    unfold mcdCalculate at hm
    split_ifs at hm with hh
    · simp only [Option.some.injEq, MCDFit.mk.injEq] at hm
      obtain ⟨-, -, hv, hl⟩ := hm
      rw [← hv, ← hl]
      exact exists_sq_le_var X hX
    · rcases hr : rawEstimates (X.length / 2 + 1) X with _ | ⟨a, b⟩
      · rw [hr] at hm; simp at hm
      rw [hr] at hm
      simp only [Option.some.injEq, MCDFit.mk.injEq, Option.map_eq_some_iff] at hm
      obtain ⟨-, -, ⟨r, hr1, hr2⟩, r', hr1', hr2'⟩ := hm
      rw [hr1] at hr1'
      obtain rfl := Option.some.inj hr1'
      unfold reweighting at hr1
      simp only at hr1
      split_ifs at hr1 with hne
      simp only [Option.some.injEq] at hr1
      subst hr1
      simp only at hr2 hr2'
      obtain ⟨x, hx, hx2⟩ := exists_sq_le_var (X.filter (rewMask cutoff b
        (a * corrRaw (X.length / 2 + 1) X.length))) (fun h => hne (by rw [h]; rfl))
      refine ⟨x, (List.mem_filter.1 hx).1, ?_⟩
      rw [hr2'] at hx2
      refine hx2.trans ?_
      rw [← hr2]
      have hnn : 0 ≤ var (X.filter (rewMask cutoff b (a * corrRaw (X.length / 2 + 1) X.length))) :=
        (sq_nonneg _).trans hx2
      exact le_mul_of_one_le_right hnn (hcorr _)
  apply weightedMean_hull
  · intro x _; exact tanhWeight_nonneg _
  · obtain ⟨x, hx, hxv⟩ := hex
    refine ⟨x, hx, ?_⟩
    have : |(x - l) / s| ≤ 1 := by
      rw [abs_div, abs_of_pos hspos, div_le_one hspos]
      apply abs_le_of_sq_le_sq _ hspos.le
      rw [hs2]; exact hxv
    unfold tanhWeight
    rw [if_pos (by linarith [this])]
    exact one_pos

/-- **C71**, equivariance under `a*X + b`, `a > 0`. -/
theorem C71_affine (cutoff : ℝ) (corrRaw : ℕ → ℕ → ℝ) (corr : ℝ → ℝ) {a : ℝ} (ha : 0 < a) (b : ℝ)
    (X : List ℝ) (hX : X ≠ []) :
    oneStepWrapping cutoff corrRaw corr (X.map fun x => a * x + b) =
      (((oneStepWrapping cutoff corrRaw corr X).1).map fun l => a * l + b,
       ((oneStepWrapping cutoff corrRaw corr X).2).map fun s => a * s) := by
  have hl := List.length_pos_iff.2 hX
  unfold oneStepWrapping
  rw [List.length_map]
  have hn : X.length / 2 + 1 ≤ X.length := by omega
  rw [C06_affine ha b cutoff corrRaw corr _ X (by omega) hn]
  rcases mcdCalculate cutoff corrRaw corr (X.length / 2 + 1) X with _ | ⟨rv, rl, v, l⟩
  · rfl
  rcases v with _ | v
  · rfl
  rcases l with _ | l
  · rfl
  simp only [Option.map_some]
  have e : Real.sqrt (a ^ 2 * v) = a * Real.sqrt v := by
    rw [Real.sqrt_mul (sq_nonneg a), Real.sqrt_sq ha.le]
  rw [e]
  by_cases hs : Real.sqrt v = 0
  · rw [if_pos (by rw [hs, mul_zero]), if_pos hs]; rfl
  · rw [if_neg (mul_ne_zero ha.ne' hs), if_neg hs]
    refine Prod.ext ?_ rfl
    apply weightedMean_affine
    intro x _
    congr 1
    have : a * x + b - (a * l + b) = a * (x - l) := by ring
    rw [this, mul_div_mul_left _ _ ha.ne']

/-- The hypotheses of C71 are met by the two-point sample `[0, 2]` (mean 1, standard deviation 1)
without consistency correction. -/
example : oneStepWrapping 5 (fun _ _ => 1) (fun _ => 1) [0, 2] = (some 1, some 1) := by
  have hv : var ([0, 2] : List ℝ) = 1 := by norm_num [var, mean]
  have hm : mean ([0, 2] : List ℝ) = 1 := by norm_num [mean]
  have e1 : tanhWeight (-1) = 1 := by unfold tanhWeight; rw [if_pos]; norm_num
  have e2 : tanhWeight 1 = 1 := by unfold tanhWeight; rw [if_pos]; norm_num
  simp only [oneStepWrapping, mcdCalculate, List.length_cons, List.length_nil]
  norm_num [hv, hm, weightedMean, e1, e2]

end Robpy
