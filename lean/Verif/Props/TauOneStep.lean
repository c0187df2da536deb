import Verif.Model.OneStepM
import Verif.Lemmas.Weighted
import Verif.Props.Rho
import Mathlib.Data.Rat.Cast.Order

/-! # Properties C07, C08, C09, C12: Tau, OneStepM, median and MAD -/

namespace Robpy
open Spec

section
variable {K : Type} [Field K] [LinearOrder K] [IsStrictOrderedRing K]

/-! ## C12 -/

/-- **C12**: if more than half of the observations lie in `[lo, hi]`, so does the median, and the
MAD is at most `hi - lo`. -/
theorem C12_breakdown (X : List K) (lo hi : K)
    (hc : X.length < 2 * X.countP (fun x => decide (lo ≤ x ∧ x ≤ hi))) :
    ∃ m s, npMedian X = some m ∧ madRaw X = some s ∧ (lo ≤ m ∧ m ≤ hi) ∧ 0 ≤ s ∧ s ≤ hi - lo := by
  have hx : X ≠ [] := by rintro rfl; simp at hc
  obtain ⟨m, hm⟩ := npMedian_isSome hx
  obtain ⟨s, hs⟩ := madRaw_isSome hx
  have hmb := npMedian_between hm lo hi hc
  refine ⟨m, s, hm, hs, hmb, madRaw_nonneg hs, ?_⟩
  obtain ⟨m', hm', h2⟩ := madRaw_spec hs
  obtain rfl : m = m' := by rw [hm] at hm'; exact Option.some.inj hm'
  refine (npMedian_between h2 0 (hi - lo) ?_).2
  rw [List.length_map, List.countP_map]
  refine lt_of_lt_of_le hc (Nat.mul_le_mul_left 2 ?_)
  apply List.countP_mono_left
  intro x _ hx
  simp only [decide_eq_true_eq, Function.comp] at hx ⊢
  refine ⟨abs_nonneg _, abs_le.2 ⟨?_, ?_⟩⟩ <;> linarith [hx.1, hx.2, hmb.1, hmb.2]

example : ([1, 1000, 2, -500, 3] : List ℚ).length <
    2 * ([1, 1000, 2, -500, 3] : List ℚ).countP (fun x => decide (1 ≤ x ∧ x ≤ 3)) := by
  decide +kernel

/-! ## C07 -/

theorem tauWeight_nonneg (c1 x : K) : 0 ≤ tauWeight c1 x := by
  unfold tauWeight
  split_ifs
  · exact sq_nonneg _
  · exact le_rfl

theorem tauWeight_pos {c1 x : K} (h1 : 1 < c1) (hx : |x| ≤ 1) : 0 < tauWeight c1 x := by
  unfold tauWeight
  rw [if_pos (hx.trans h1.le)]
  have h0 : 0 < c1 := by linarith
  have : (x / c1) ^ 2 < 1 := by
    rw [div_pow, div_lt_one (by positivity)]
    have : x ^ 2 = |x| ^ 2 := (sq_abs x).symm
    have := abs_nonneg x
    nlinarith
  have : 0 < 1 - (x / c1) ^ 2 := by linarith
  positivity

theorem tauWeight_even (c1 x : K) : tauWeight c1 (-x) = tauWeight c1 x := by
  unfold tauWeight
  rw [abs_neg, neg_div, neg_sq]

/-- **C07**: with non-zero MAD the weights have a positive sum and the location lies between any
bounds of the data. -/
theorem C07_location (c1 : K) (h1 : 1 < c1) (X : List K) (s : K) (hs : madRaw X = some s)
    (h0 : s ≠ 0) :
    (∃ m, npMedian X = some m ∧ 0 < (X.map fun x => tauWeight c1 ((x - m) / s)).sum) ∧
    ∃ l, tauLocation c1 X = some l ∧
      ∀ lo hi, (∀ x ∈ X, lo ≤ x ∧ x ≤ hi) → lo ≤ l ∧ l ≤ hi := by
  obtain ⟨m, hm, -⟩ := madRaw_spec hs
  have hpos : 0 < s := lt_of_le_of_ne (madRaw_nonneg hs) (Ne.symm h0)
  obtain ⟨x, hx, hxs⟩ := exists_within_mad hm hs
  have hw : ∃ x ∈ X, 0 < tauWeight c1 ((x - m) / s) := by
    refine ⟨x, hx, tauWeight_pos h1 ?_⟩
    rw [abs_div, abs_of_pos hpos, div_le_one hpos]
    exact hxs
  have hn : ∀ x ∈ X, 0 ≤ tauWeight c1 ((x - m) / s) := fun x _ => tauWeight_nonneg _ _
  refine ⟨⟨m, hm, sum_map_pos _ X hn hw⟩, ?_⟩
  have := weightedMean_hull _ X hn hw
  simpa [tauLocation, hm, hs, h0] using this

theorem standardised_sign {a : K} (ha : a ≠ 0) (b x m s : K) :
    (a * x + b - (a * m + b)) / (|a| * s) = (x - m) / s ∨
    (a * x + b - (a * m + b)) / (|a| * s) = -((x - m) / s) := by
  have e : a * x + b - (a * m + b) = a * (x - m) := by ring
  rw [e]
  rcases lt_or_gt_of_ne ha with h | h
  · right
    rw [abs_of_neg h, neg_mul, div_neg, mul_div_mul_left _ _ ha]
  · left
    rw [abs_of_pos h, mul_div_mul_left _ _ ha]

/-- **C07**: the location is affine equivariant (also for reflections), including the NaN case. -/
theorem C07_location_affine (c1 : K) {a : K} (ha : a ≠ 0) (b : K) (X : List K) :
    tauLocation c1 (X.map fun x => a * x + b) = (tauLocation c1 X).map fun l => a * l + b := by
  unfold tauLocation
  rw [npMedian_affine, madRaw_affine]
  rcases npMedian X with _ | m
  · rfl
  rcases madRaw X with _ | s
  · rfl
  simp only [Option.map_some]
  have ha' : |a| ≠ 0 := abs_ne_zero.2 ha
  by_cases hs : s = 0
  · simp [hs]
  · rw [if_neg (mul_ne_zero ha' hs), if_neg hs]
    apply weightedMean_affine
    intro x _
    rcases standardised_sign ha b x m s with h | h <;> rw [h]
    exact tauWeight_even _ _

theorem tauRho_even (c x : K) : tauRho c (-x) = tauRho c x := by
  unfold tauRho; rw [neg_sq]

theorem tauRho_bounds (c x : K) : 0 ≤ tauRho c x ∧ tauRho c x ≤ c ^ 2 := by
  unfold tauRho
  split_ifs with h
  · exact ⟨sq_nonneg _, h⟩
  · exact ⟨sq_nonneg _, le_rfl⟩

theorem sum_le_length_mul (f : K → K) (X : List K) (c : K) (h : ∀ x ∈ X, f x ≤ c) :
    (X.map f).sum ≤ X.length * c := by
  induction X with
  | nil => simp
  | cons x X ih =>
    simp only [List.map_cons, List.sum_cons, List.length_cons]
    push_cast
    have := h x (by simp)
    have := ih fun y hy => h y (by simp [hy])
    linarith

end

/-- **C07**: the uncorrected Tau scale lies between 0 and `c2` times the MAD. -/
theorem C07_scale_bound (c1 c2 : ℝ) (hc2 : 0 < c2) (X : List ℝ) (s : ℝ) (hs : madRaw X = some s) :
    ∃ loc scale, tauCalculate c1 c2 none X = .ok (loc, scale) ∧ 0 ≤ scale ∧ scale ≤ c2 * s := by
  have hs0 := madRaw_nonneg hs
  have hX : X ≠ [] := by rintro rfl; simp [madRaw, npMedian] at hs
  have hl : (0:ℝ) < X.length := by exact_mod_cast List.length_pos_iff.2 hX
  have key : ∀ f : ℝ → ℝ, (∀ x, 0 ≤ f x ∧ f x ≤ c2 ^ 2) →
      0 ≤ s * Real.sqrt (1 / (X.length : ℝ) * (X.map f).sum) ∧
      s * Real.sqrt (1 / (X.length : ℝ) * (X.map f).sum) ≤ c2 * s := by
    intro f hf
    refine ⟨mul_nonneg hs0 (Real.sqrt_nonneg _), ?_⟩
    have h1 := sum_le_length_mul f X (c2 ^ 2) fun x _ => (hf x).2
    have h2 : 1 / (X.length : ℝ) * (X.map f).sum ≤ c2 ^ 2 := by
      rw [one_div, inv_mul_le_iff₀ hl]; exact h1
    have h3 : Real.sqrt (1 / (X.length : ℝ) * (X.map f).sum) ≤ c2 :=
      (Real.sqrt_le_sqrt h2).trans (by rw [Real.sqrt_sq hc2.le])
    nlinarith
  have hconst : ∀ x : ℝ, 0 ≤ (fun _ => c2 ^ 2 : ℝ → ℝ) x ∧ (fun _ => c2 ^ 2 : ℝ → ℝ) x ≤ c2 ^ 2 :=
    fun x => ⟨sq_nonneg _, le_rfl⟩
  simp only [tauCalculate, hs]
  rcases tauLocation c1 X with _ | l
  · exact ⟨_, _, rfl, key _ hconst⟩
  · by_cases h0 : s = 0
    · simp only [if_pos h0]; exact ⟨_, _, rfl, key _ hconst⟩
    · simp only [if_neg h0]
      exact ⟨_, _, rfl, key _ fun x => tauRho_bounds _ _⟩

/-- **C07**: location and scale of Tau are affine equivariant, for every `a ≠ 0`, with or without
consistency correction, and the error case (empty sample) is the same. -/
theorem C07_affine (c1 c2 : ℝ) (corr : Option ℝ) {a : ℝ} (ha : a ≠ 0) (b : ℝ) (X : List ℝ) :
    tauCalculate c1 c2 corr (X.map fun x => a * x + b) =
      match tauCalculate c1 c2 corr X with
      | .error e => .error e
      | .ok (l, s) => .ok (l.map fun l => a * l + b, |a| * s) := by
  unfold tauCalculate
  rw [madRaw_affine, C07_location_affine c1 ha]
  rcases madRaw X with _ | s
  · rfl
  have ha' : |a| ≠ 0 := abs_ne_zero.2 ha
  simp only [Option.map_some, List.length_map]
  have fin : ∀ T : ℝ, tauCorrect corr (|a| * s * Real.sqrt T) =
      |a| * tauCorrect corr (s * Real.sqrt T) := by
    intro T
    rcases corr with _ | c <;> simp only [tauCorrect] <;> ring
  have econst : ((X.map fun x => a * x + b).map fun _ => c2 ^ 2) = X.map fun _ => c2 ^ 2 := by
    rw [List.map_map]; rfl
  rcases tauLocation c1 X with _ | l
  · simp only [Option.map_none]
    rw [econst, fin]
  · simp only [Option.map_some]
    by_cases hs : s = 0
    · rw [if_pos (by rw [hs, mul_zero]), if_pos hs, econst, fin]
    · rw [if_neg (mul_ne_zero ha' hs), if_neg hs, fin]
      have e : ((X.map fun x => a * x + b).map fun x => tauRho c2 ((x - (a * l + b)) / (|a| * s))) =
          X.map fun x => tauRho c2 ((x - l) / s) := by
        rw [List.map_map]
        apply List.map_congr_left
        intro x _
        simp only [Function.comp]
        rcases standardised_sign ha b x l s with h | h <;> rw [h]
        exact tauRho_even _ _
      rw [e]

example : madRaw ([1, 2, 4, 100, 3] : List ℚ) = some 1 ∧ (1:ℚ) < 4.5 ∧ (0:ℝ) < 3 := by
  refine ⟨by decide +kernel, by norm_num, by norm_num⟩

/-! ## C08 -/

section
variable {K : Type} [Field K] [LinearOrder K] [IsStrictOrderedRing K]

theorem normalQuartile_pos : (0:K) < normalQuartile := by unfold normalQuartile; positivity

theorem normalQuartile_lt_one : (normalQuartile : K) < 1 := by
  unfold normalQuartile; rw [div_lt_one (by norm_num)]; norm_num

theorem oneStepWeight_nonneg (loc : Rho K) (hc : 0 < loc.const) (r : K) :
    0 ≤ oneStepWeight loc r := by
  unfold oneStepWeight
  split_ifs with h
  · have hr : r ≠ 0 := by
      rintro rfl
      rw [abs_zero] at h
      have : (0:K) < 1 / 100000 := by norm_num
      linarith
    rcases loc with c | b
    · exact (C13_weight c r hc hr).1
    · exact (C14_weight b r hc hr).1.le
  · exact zero_le_one

/-- The weights used by OneStepM never exceed 1. -/
theorem oneStepWeight_le_one (loc : Rho K) (hc : 0 < loc.const) (r : K) :
    oneStepWeight loc r ≤ 1 := by
  unfold oneStepWeight
  split_ifs with h
  · have hr : r ≠ 0 := by
      rintro rfl
      rw [abs_zero] at h
      have : (0:K) < 1 / 100000 := by norm_num
      linarith
    rcases loc with c | b
    · exact (C13_weight c r hc hr).2
    · exact (C14_weight b r hc hr).2
  · exact le_rfl

/-- Tuning constants for which the location is defined on every sample: any Huber constant
`b > 0`, any Tukey constant `c ≥ 1`. -/
def Rho.admissible : Rho K → Prop
  | .tukey c => 1 ≤ c
  | .huber b => 0 < b

theorem Rho.admissible.pos {loc : Rho K} (h : loc.admissible) : 0 < loc.const := by
  rcases loc with c | b
  · exact lt_of_lt_of_le one_pos h
  · exact h

theorem oneStepWeight_pos {loc : Rho K} (ha : loc.admissible) {r : K} (hr : |r| < 1) :
    0 < oneStepWeight loc r := by
  unfold oneStepWeight
  split_ifs with h
  · have hr0 : r ≠ 0 := by
      rintro rfl
      rw [abs_zero] at h
      have : (0:K) < 1 / 100000 := by norm_num
      linarith
    rcases loc with c | b
    · have hc : (1:K) ≤ c := ha
      have hc0 : 0 < c := by linarith
      show 0 < tukeyPsi c r / r
      unfold tukeyPsi
      rw [if_pos (hr.le.trans hc), mul_div_right_comm, div_self hr0, one_mul]
      have : (r / c) ^ 2 < 1 := by
        rw [div_pow, div_lt_one (by positivity)]
        have : r ^ 2 = |r| ^ 2 := (sq_abs r).symm
        have := abs_nonneg r
        nlinarith
      have : 0 < 1 - (r / c) ^ 2 := by linarith
      positivity
    · exact (C14_weight b r ha hr0).1
  · exact one_pos

/-- **C08**, location: for every non-empty sample the weight sum is positive and the location lies
between any bounds of the data. -/
theorem C08_location (loc : Rho K) (ha : loc.admissible) (minAbs : K) (hm0 : 0 < minAbs)
    (hm1 : minAbs ≤ 1) (X : List K) (hX : X ≠ []) :
    ∃ l, oneStepLocation loc minAbs X = some l ∧
      ∀ lo hi, (∀ x ∈ X, lo ≤ x ∧ x ≤ hi) → lo ≤ l ∧ l ≤ hi := by
  obtain ⟨m, hm⟩ := npMedian_isSome hX
  obtain ⟨s, hs⟩ := madRaw_isSome hX
  have hs0 := madRaw_nonneg hs
  obtain ⟨x, hx, hxs⟩ := exists_within_mad hm hs
  have hq := normalQuartile_pos (K := K)
  have hq1 := normalQuartile_lt_one (K := K)
  unfold oneStepLocation
  rw [hm, hs]
  apply weightedMean_hull
  · intro x _
    exact oneStepWeight_nonneg loc ha.pos _
  · refine ⟨x, hx, oneStepWeight_pos ha ?_⟩
    unfold safeMad
    split_ifs with h
    · rw [div_one]
      rw [div_lt_iff₀ hq] at h
      calc |x - m| ≤ s := hxs
        _ < minAbs * normalQuartile := h
        _ ≤ 1 := by nlinarith
    · push Not at h
      have hpos : 0 < s / normalQuartile := lt_of_lt_of_le hm0 h
      rw [abs_div, abs_of_pos hpos, div_lt_iff₀ hpos, one_mul]
      have hsp : 0 < s := by
        rcases hs0.eq_or_lt with h0 | h0
        · rw [← h0, zero_div] at hpos; exact absurd hpos (lt_irrefl _)
        · exact h0
      calc |x - m| ≤ s := hxs
        _ < s / normalQuartile := by rw [lt_div_iff₀ hq]; nlinarith

theorem psi_bounded (r : Rho K) (hc : 0 < r.const) (x : K) : |r.psi x| ≤ r.const := by
  rcases r with c | b
  · show |tukeyPsi c x| ≤ c
    have hc' : 0 < c := hc
    unfold tukeyPsi
    split_ifs with h
    · have h1 := sq_div_le_one hc' h
      have h0 : 0 ≤ (x / c) ^ 2 := sq_nonneg _
      have h2 : (1 - (x / c) ^ 2) ^ 2 ≤ 1 := pow_le_one₀ (by linarith) (by linarith)
      have h3 : 0 ≤ (1 - (x / c) ^ 2) ^ 2 := sq_nonneg _
      rw [abs_mul, abs_of_nonneg h3]
      have := abs_nonneg x
      nlinarith
    · simp [hc'.le]
  · exact C14_psi_bounded b x hc

/-- The hypothesis `1 ≤ c` for Tukey's psi is needed: for a small constant all weights vanish and
the location is NaN. -/
theorem C08_small_constant_nan :
    oneStepLocation (.tukey (1/10 : ℚ)) (1/1000000000000) [-1, 1] = none := by decide +kernel

end

/-- **C08**, scale: between 0 and `mad * b / sqrt(delta)`, and 0 if the MAD is below
`min_abs_scale`. -/
theorem C08_scale (r : Rho ℝ) (hr : 0 < r.const) (delta minAbs : ℝ) (hd : 0 < delta) (X : List ℝ)
    (s : ℝ) (hs : madRaw X = some s) :
    ∃ v, oneStepScale r delta minAbs X = some v ∧ 0 ≤ v ∧
      v ≤ s / normalQuartile * r.const / Real.sqrt delta ∧
      (s / normalQuartile < minAbs → v = 0) := by
  obtain ⟨m, hm, -⟩ := madRaw_spec hs
  have hs0 := madRaw_nonneg hs
  have hX : X ≠ [] := by rintro rfl; simp [npMedian] at hm
  have hl : (0:ℝ) < X.length := by exact_mod_cast List.length_pos_iff.2 hX
  have hq := normalQuartile_pos (K := ℝ)
  have hmad : 0 ≤ s / normalQuartile := div_nonneg hs0 hq.le
  have hsd : 0 < Real.sqrt delta := Real.sqrt_pos.2 hd
  simp only [oneStepScale, hm, hs]
  split_ifs with h
  · exact ⟨0, rfl, le_rfl, by positivity, fun _ => rfl⟩
  · refine ⟨_, rfl, by positivity, ?_, fun h' => absurd h' h⟩
    set T := mean (X.map fun x => r.psi ((x - m) / (s / normalQuartile)) ^ 2) with hT
    have hT1 : T ≤ r.const ^ 2 := by
      rw [hT, mean, List.length_map, div_le_iff₀ hl, mul_comm]
      apply sum_le_length_mul
      intro x _
      have := psi_bounded r hr ((x - m) / (s / normalQuartile))
      rw [← sq_abs]
      exact pow_le_pow_left₀ (abs_nonneg _) this 2
    have h1 : Real.sqrt (1 / delta * T) ≤ r.const / Real.sqrt delta := by
      rw [one_div_mul_eq_div, Real.sqrt_div' _ hd.le]
      apply div_le_div_of_nonneg_right _ hsd.le
      calc Real.sqrt T ≤ Real.sqrt (r.const ^ 2) := Real.sqrt_le_sqrt hT1
        _ = r.const := Real.sqrt_sq hr.le
    rw [mul_div_assoc]
    exact mul_le_mul_of_nonneg_left h1 hmad

/-- **C08**, NaN input raises ValueError, NaN-free input does not. -/
theorem C08_nan (loc scale : Rho ℝ) (delta minAbs : ℝ) (X : List (Option ℝ)) :
    (none ∈ X → oneStepM loc scale delta minAbs X = .error .valueError) ∧
    (none ∉ X → ∃ r, oneStepM loc scale delta minAbs X = .ok r) := by
  constructor
  · intro h
    unfold oneStepM
    rw [if_pos]
    rw [List.any_eq_true]
    exact ⟨none, h, rfl⟩
  · intro h
    unfold oneStepM
    rw [if_neg]
    · exact ⟨_, rfl⟩
    · rw [List.any_eq_true]
      rintro ⟨x, hx, hx'⟩
      rw [Option.isNone_iff_eq_none] at hx'
      exact h (hx' ▸ hx)

example : (Rho.tukey (3:ℚ)).admissible ∧ (Rho.huber (3/2:ℚ)).admissible ∧
    oneStepLocation (.huber (3/2 : ℚ)) (1/1000000000000) [0, 0, 0, 5] = some (5/11) := by
  refine ⟨by norm_num [Rho.admissible], by norm_num [Rho.admissible], by decide +kernel⟩

/-! ## C09 -/

section
variable {K : Type} [Field K] [LinearOrder K] [IsStrictOrderedRing K]

theorem psi_odd (r : Rho K) (x : K) : r.psi (-x) = -r.psi x := by
  rcases r with c | b
  · exact (C13_even c x).2
  · exact (C14_even b x).2

theorem oneStepWeight_even (r : Rho K) (x : K) : oneStepWeight r (-x) = oneStepWeight r x := by
  unfold oneStepWeight
  rw [abs_neg, psi_odd, neg_div_neg_eq]

/-- Full statement of C09 for the location: equivariance whenever both MADs are on the same side
of `min_abs_scale`. -/
def C09_statement (loc : Rho K) (minAbs : K) : Prop :=
  ∀ (X : List K) (a b s : K), a ≠ 0 → madRaw X = some s →
    (s / normalQuartile < minAbs ↔ |a| * s / normalQuartile < minAbs) →
    oneStepLocation loc minAbs (X.map fun x => a * x + b) =
      (oneStepLocation loc minAbs X).map fun l => a * l + b

/-- **C09 is violated** when both MADs are below `min_abs_scale` (e.g. a majority of ties): the
residuals are then not divided by any scale, so the weights depend on the measurement unit. -/
theorem C09_violated : ¬ C09_statement (.huber (3/2 : ℚ)) (1/1000000000000) := by
  intro h
  have h1 := h [0, 0, 0, 5] 10 0 0 (by norm_num) (by decide +kernel) (by norm_num)
  revert h1
  decide +kernel

/-- **C09**, location, in the case that both MADs are at least `min_abs_scale`.  Missing with
respect to the full statement: the case that both are below, which is false. -/
theorem C09_location_partial (loc : Rho K) (minAbs : K) {a : K} (ha : a ≠ 0) (b : K) (X : List K)
    (s : K) (hs : madRaw X = some s) (h1 : minAbs ≤ s / normalQuartile)
    (h2 : minAbs ≤ |a| * s / normalQuartile) :
    oneStepLocation loc minAbs (X.map fun x => a * x + b) =
      (oneStepLocation loc minAbs X).map fun l => a * l + b := by
  unfold oneStepLocation
  rw [npMedian_affine, madRaw_affine, hs]
  rcases npMedian X with _ | m
  · rfl
  simp only [Option.map_some, safeMad]
  rw [if_neg (not_lt.2 h1), if_neg (not_lt.2 h2)]
  apply weightedMean_affine
  intro x _
  rw [mul_div_assoc]
  rcases standardised_sign ha b x m (s / normalQuartile) with h | h <;> rw [h]
  exact oneStepWeight_even _ _

/-- **C09**, location under translations: equivariant without any condition. -/
theorem C09_translation (loc : Rho K) (minAbs b : K) (X : List K) :
    oneStepLocation loc minAbs (X.map fun x => 1 * x + b) =
      (oneStepLocation loc minAbs X).map fun l => 1 * l + b := by
  unfold oneStepLocation
  rw [npMedian_affine, madRaw_affine]
  rcases npMedian X with _ | m
  · rfl
  rcases madRaw X with _ | s
  · rfl
  simp only [Option.map_some, abs_one, one_mul]
  have := weightedMean_affine (K := K)
    (fun x => oneStepWeight loc ((x - m) / safeMad minAbs (s / normalQuartile)))
    (fun x => oneStepWeight loc ((x - (m + b)) / safeMad minAbs (s / normalQuartile))) 1 b X
    (by intro x _; congr 2; ring)
  simpa using this

end

/-- **C09**, scale: equivariant whenever both MADs are on the same side of `min_abs_scale`. -/
theorem C09_scale (r : Rho ℝ) (delta minAbs : ℝ) {a : ℝ} (ha : a ≠ 0) (b : ℝ) (X : List ℝ)
    (s : ℝ) (hs : madRaw X = some s)
    (hside : s / normalQuartile < minAbs ↔ |a| * s / normalQuartile < minAbs) :
    oneStepScale r delta minAbs (X.map fun x => a * x + b) =
      (oneStepScale r delta minAbs X).map fun v => |a| * v := by
  unfold oneStepScale
  rw [npMedian_affine, madRaw_affine, hs]
  rcases npMedian X with _ | m
  · rfl
  simp only [Option.map_some]
  by_cases h : s / normalQuartile < minAbs
  · rw [if_pos h, if_pos (hside.1 h)]; simp
  · rw [if_neg h, if_neg (fun h' => h (hside.2 h'))]
    simp only [Option.map_some]
    congr 1
    have e : ((X.map fun x => a * x + b).map fun x =>
        r.psi ((x - (a * m + b)) / (|a| * s / normalQuartile)) ^ 2) =
        X.map fun x => r.psi ((x - m) / (s / normalQuartile)) ^ 2 := by
      rw [List.map_map]
      apply List.map_congr_left
      intro x _
      simp only [Function.comp]
      rw [mul_div_assoc]
      rcases standardised_sign ha b x m (s / normalQuartile) with h | h <;> rw [h]
      rw [psi_odd, neg_sq]
    rw [e]
    ring

example : madRaw ([1, 2, 4, 100, 3] : List ℚ) = some 1 ∧
    (1/1000000000000 : ℚ) ≤ 1 / normalQuartile ∧ (1/1000000000000 : ℚ) ≤ |(-2)| * 1 / normalQuartile := by
  refine ⟨by decide +kernel, by norm_num [normalQuartile], by norm_num [normalQuartile]⟩

end Robpy
