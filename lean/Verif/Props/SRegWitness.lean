import Verif.Props.SReg
import Verif.Props.LTSReweight

/-! C102, C103, C105: prediction of single rows, exact fits and the error handler of S-regression. -/

namespace Robpy

/-! Exact fits -/

section
variable {k : ℕ}

/-- **C103** (partial): an i-step from coefficients that fit more than half of the observations exactly discards all observations: the
scale is 0 and so are the new coefficients, whatever the data. -/
theorem C103_i_step_partial (W : WLSReg) (cfg : SConfig) (c : ℝ) (hc : 0 < c) (hR : cfg.rho = .tukey c) (hmax : cfg.maxScaleIterations ≠ 0)
    (D : List ((Fin k → ℝ) × ℝ)) (beta : Fin k → ℝ)
    (hmaj : D.length < 2 * D.countP fun d => decide (d.2 = ∑ j, d.1 j * beta j)) :
    sIStep W cfg D (sRes D beta) = .ok (0, 0) := by
  obtain ⟨j, s, h1, h2, h3, h4⟩ := sIStep_tukey W hR hmax D (sRes D beta)
  have h0 : sInitialScale (sRes D beta) = 0 := by
    unfold sInitialScale
    rcases hm : npMedian ((sRes D beta).map fun r => |r|) with _ | m
    · simp
    · have := npMedian_between hm 0 0 (by
        unfold sRes
        rw [List.map_map, List.length_map, List.countP_map]
        refine lt_of_lt_of_le hmaj (Nat.mul_le_mul_left 2 (List.countP_mono_left ?_))
        intro d _ hd
        simp only [decide_eq_true_eq] at hd
        have : dotRow d.1 beta - d.2 = 0 := by unfold dotRow; rw [hd]; ring
        simp [this])
      simp [le_antisymm this.2 this.1]
  have hs : s = 0 := by
    rw [h2, h0]
    have : ∀ i, (Spec.scaleUpdate (tukeyRho c) cfg.b (sRes D beta))^[i] 0 = 0 := by
      intro i
      induction i with
      | zero => rfl
      | succ i ih => rw [Function.iterate_succ_apply', ih]; simp [Spec.scaleUpdate]
    exact this _
  have := sIStep_spec W hc hR hmax D beta _ h4
  have hfit := this.2.2.1 hs
  simp only at hfit
  rw [h4, hfit, hs]

end

/-- Targets 1, 1, 1, 11; the only column is constant. -/
def c103Data : List ((Fin 1 → ℝ) × ℝ) := [(![1], 1), (![1], 1), (![1], 1), (![1], 11)]

theorem fin1_eq {b : Fin 1 → ℝ} {t : ℝ} (h : b 0 = t) : b = fun _ => t := by
  funext j
  rw [Subsingleton.elim j 0, h]

theorem dotRow_one (b : Fin 1 → ℝ) : dotRow ![1] b = b 0 := by simp [dotRow]

theorem sRes_c103 (t : ℝ) : sRes c103Data (fun _ => t) = [t - 1, t - 1, t - 1, t - 11] := by
  simp [sRes, c103Data, dotRow]

/-- Fits of a constant: three weights `w` and one weight `v`. -/
theorem fit_c103 (W : WLSReg) {w v t : ℝ} (hw : 0 < w) (hv : 0 ≤ v) (ht : 3 * w * (1 - t) + v * (11 - t) = 0) :
    W.fit (sWeighted c103Data [w, w, w, v]) = fun _ => t := by
  have e : ∀ m : Fin 1 → ℝ, wssr (sWeighted c103Data [w, w, w, v]) m = 3 * w * (1 - m 0) ^ 2 + v * (11 - m 0) ^ 2 := by
    intro m
    simp [wssr, sWeighted, c103Data, dotRow_one]
    ring
  have key : ∀ m : Fin 1 → ℝ, 3 * w * (1 - m 0) ^ 2 + v * (11 - m 0) ^ 2 =
      3 * w * (1 - t) ^ 2 + v * (11 - t) ^ 2 + (3 * w + v) * (m 0 - t) ^ 2 := by
    intro m
    have : 2 * (t - m 0) * (3 * w * (1 - t) + v * (11 - t)) = 0 := by rw [ht, mul_zero]
    linear_combination this
  refine W.fit_unique ?_ ?_ ?_
  · intro d hd
    have := sWeighted_mem hd
    simp only [List.mem_cons, List.not_mem_nil, or_false] at this
    rcases this with h | h | h | h <;> rw [h] <;> first | exact hw.le | exact hv
  · intro m
    rw [e, e, key m]
    exact le_add_of_nonneg_right (mul_nonneg (by linarith) (sq_nonneg _))
  · intro m hm
    rw [e, e, key m] at hm
    have h0 : (3 * w + v) * (m 0 - t) ^ 2 = 0 := by linarith
    rcases mul_eq_zero.1 h0 with h | h
    · linarith
    · have : m 0 = t := by
        have := pow_eq_zero_iff (two_ne_zero) |>.1 h
        linarith
      simp [this]

/-- The scale of residuals of which three have absolute value `A` and one is at least three times as large. -/
theorem scale_c103 {A B s : ℝ} (hA : 0 < A) (hB : 3 * A ≤ B) (a b : ℝ) (ha : |a| = A) (hb : |b| = B) (hs : 0 < s) (hsA : s ≤ A / 0.6745) :
    0.68 * s ≤ Spec.scaleUpdate (tukeyRho 1.547) 0.5 [a, a, a, b] s ∧ Spec.scaleUpdate (tukeyRho 1.547) 0.5 [a, a, a, b] s ≤ s := by
  have hAs : 0.6745 ≤ A / s := by
    rw [le_div_iff₀ (by norm_num)] at hsA
    rw [le_div_iff₀ hs]
    linarith
  have hBs : 2 ≤ B / s := by
    rw [le_div_iff₀ hs]
    rw [le_div_iff₀ hs] at hAs
    linarith
  have h1 : 0.18 ≤ tukeyRho (1.547 : ℝ) (a / s) := by
    have := C13_mono (1.547 : ℝ) 0.6745 (a / s) (by norm_num) (by rw [abs_div, ha, abs_of_pos hs, abs_of_pos (by norm_num)]; exact hAs)
    refine le_trans ?_ this
    unfold tukeyRho
    rw [if_pos (by rw [abs_of_pos] <;> norm_num)]
    norm_num
  have h1' := (C13_range (1.547 : ℝ) (a / s) (by norm_num)).2
  have h2 : tukeyRho (1.547 : ℝ) (b / s) = 1.547 ^ 2 / 6 := by
    unfold tukeyRho
    rw [if_neg]
    rw [abs_div, hb, abs_of_pos hs]
    intro h
    linarith
  unfold Spec.scaleUpdate
  have hsum : ([a, a, a, b].map fun r => tukeyRho 1.547 (r / s)).sum = 3 * tukeyRho 1.547 (a / s) + 1.547 ^ 2 / 6 := by
    simp only [List.map_cons, List.map_nil, List.sum_cons, List.sum_nil, h2]
    ring
  rw [hsum]
  have hlen : (([a, a, a, b] : List ℝ).length : ℝ) = 4 := by norm_num
  rw [hlen]
  constructor
  · rw [mul_comm]
    refine mul_le_mul_of_nonneg_left ?_ hs.le
    refine Real.le_sqrt_of_sq_le ?_
    norm_num at h1 ⊢
    linarith
  · have : Real.sqrt ((3 * tukeyRho 1.547 (a / s) + 1.547 ^ 2 / 6) / 4 / 0.5) ≤ 1 := by
      rw [Real.sqrt_le_one]
      norm_num at h1' ⊢
      linarith
    calc _ ≤ s * 1 := mul_le_mul_of_nonneg_left this hs.le
      _ = s := mul_one s

theorem median_c103 {A B : ℝ} (a b : ℝ) (ha : |a| = A) (hb : |b| = B) : sInitialScale [a, a, a, b] = A / 0.6745 := by
  unfold sInitialScale
  have h : npMedian ([a, a, a, b].map fun r => |r|) = some A := by
    simp only [List.map_cons, List.map_nil, ha, hb]
    obtain ⟨m, hm⟩ := npMedian_isSome (xs := [A, A, A, B]) (by simp)
    have := npMedian_between hm A A (by simp only [List.countP_cons, List.countP_nil]; split_ifs <;> simp_all)
    rw [hm, le_antisymm this.2 this.1]
  rw [h]
  rfl

/-- From residuals of that kind an i-step leads to the constant 1 and a positive scale. -/
theorem iStep_c103 (W : WLSReg) {A B : ℝ} (hA : 0 < A) (hB : 3 * A ≤ B) (a b : ℝ) (ha : |a| = A) (hb : |b| = B) :
    ∃ s, 0 < s ∧ sIStep W sDefault c103Data [a, a, a, b] = .ok (fun _ => 1, s) := by
  obtain ⟨j, s, h1, h2, h3, h4⟩ := sIStep_tukey W (cfg := sDefault) (c := 1.547) rfl (by simp [sDefault]) c103Data [a, a, a, b]
  rw [median_c103 a b ha hb] at h2
  have hb5 : sDefault.b = 0.5 := rfl
  rw [hb5] at h2
  have hs0 : 0 < A / 0.6745 := by positivity
  obtain ⟨g1, g2⟩ := scale_c103 hA hB a b ha hb hs0 le_rfl
  have hrange : 0.4624 * (A / 0.6745) ≤ s ∧ s ≤ A / 0.6745 := by
    have hj : j = 0 ∨ j = 1 := by simp [sDefault] at h1; omega
    rcases hj with rfl | rfl
    · rw [h2]
      simp only [zero_add, Function.iterate_one]
      constructor <;> linarith
    · rw [h2]
      simp only [Nat.reduceAdd, Function.iterate_succ, Function.iterate_zero, Function.comp, id_eq]
      obtain ⟨k1, k2⟩ := scale_c103 hA hB a b ha hb (lt_of_lt_of_le (by positivity) g1) g2
      constructor <;> linarith
  have hs : 0 < s := lt_of_lt_of_le (by positivity) hrange.1
  refine ⟨s, hs, ?_⟩
  rw [h4]
  have ha0 : a ≠ 0 := by intro h; rw [h, abs_zero] at ha; linarith
  have hb0 : b ≠ 0 := by intro h; rw [h, abs_zero] at hb; linarith
  have hwa : 0 < sWeight (.tukey 1.547) s a := by
    rw [sWeight_tukey (by norm_num) hs]
    unfold Spec.notZero Spec.bisquareWeight
    rw [if_neg ha0]
    have hlt : A < 1.547 * s := by
      have := hrange.1
      have e : 1.547 * (0.4624 * (A / 0.6745)) = A * (1.547 * 0.4624 / 0.6745) := by ring
      have : A * (1.547 * 0.4624 / 0.6745) ≤ 1.547 * s := by rw [← e]; linarith
      have h5 : A * 1 < A * (1.547 * 0.4624 / 0.6745) := mul_lt_mul_of_pos_left (by norm_num) hA
      linarith
    rw [if_pos (by rw [ha]; exact hlt.le)]
    have hcs : 0 < 1.547 * s := by positivity
    have h6 : (a / (1.547 * s)) ^ 2 < 1 := by
      rw [div_pow, div_lt_one (by positivity), ← sq_abs a, ha]
      exact pow_lt_pow_left₀ hlt hA.le two_ne_zero
    have : 0 < 1 - (a / (1.547 * s)) ^ 2 := by linarith
    positivity
  have hwb : sWeight (.tukey 1.547) s b = 0 := by
    rw [sWeight_tukey (by norm_num) hs]
    unfold Spec.notZero Spec.bisquareWeight
    rw [if_neg hb0, if_neg]
    rw [hb]
    have h5 : 1.547 * s ≤ A * (1.547 / 0.6745) := by
      have e : A * (1.547 / 0.6745) = 1.547 * (A / 0.6745) := by ring
      rw [e]
      linarith [hrange.2]
    have h6 : A * (1.547 / 0.6745) < A * 3 := mul_lt_mul_of_pos_left (by norm_num) hA
    intro h
    linarith
  have hlist : [a, a, a, b].map (sWeight (.tukey 1.547) s) =
      [sWeight (.tukey 1.547) s a, sWeight (.tukey 1.547) s a, sWeight (.tukey 1.547) s a, 0] := by
    simp [hwb]
  rw [hlist, fit_c103 W hwa le_rfl (t := 1) (by ring)]

/-- From the constant 1 an i-step leads to 0. -/
theorem iStep_one (W : WLSReg) : sIStep W sDefault c103Data [(0 : ℝ), 0, 0, -10] = .ok (0, 0) := by
  have := C103_i_step_partial W sDefault 1.547 (by norm_num) rfl (by simp [sDefault]) c103Data (fun _ => 1)
    (by simp [c103Data, List.countP_cons])
  rw [sRes_c103] at this
  norm_num at this
  exact this

/-- Every start leads to the constant 1 after the two initial i-steps. -/
theorem iSteps_c103 (W : WLSReg) (t : ℝ) (ht : t = 1 ∨ t = 6) (c0 : (Fin 1 → ℝ) × ℝ) :
    ∃ s, sISteps W sDefault c103Data 2 c0 (sRes c103Data fun _ => t) = .ok (fun _ => 1, s) := by
  have hzero : ∃ s, sIStep W sDefault c103Data ((sRes c103Data fun _ => (0 : ℝ)).map fun r => -r) = .ok (fun _ => 1, s) := by
    rw [sRes_c103]
    obtain ⟨s, -, hs⟩ := iStep_c103 W (A := 1) (B := 11) (by norm_num) (by norm_num) 1 11 (by norm_num) (by norm_num)
    refine ⟨s, ?_⟩
    norm_num
    exact hs
  have hlast : ∀ c : (Fin 1 → ℝ) × ℝ, sISteps W sDefault c103Data 0 c ((sRes c103Data c.1).map fun r => -r) = .ok c := fun c => rfl
  rcases ht with rfl | rfl
  · obtain ⟨s, hs⟩ := hzero
    refine ⟨s, ?_⟩
    unfold sISteps
    rw [sRes_c103]
    norm_num
    rw [iStep_one W]
    simp only [Except.bind]
    unfold sISteps
    have h0 : ((0 : Fin 1 → ℝ)) = fun _ => 0 := rfl
    simp only [h0]
    rw [hs]
    rfl
  · -- from 6: all weights are equal, so the next constant is 3.5 or 0
    obtain ⟨j, s, h1, h2, h3, h4⟩ := sIStep_tukey W (cfg := sDefault) (c := 1.547) rfl (by simp [sDefault]) c103Data
      (sRes c103Data fun _ => (6 : ℝ))
    have hres : sRes c103Data (fun _ => (6 : ℝ)) = [5, 5, 5, -5] := by rw [sRes_c103]; norm_num
    rw [hres] at h4
    have hsym : sWeight (.tukey 1.547) s (-5) = sWeight (.tukey 1.547) s 5 := by
      unfold sWeight
      rw [if_neg (by norm_num : (-5 : ℝ) ≠ 0), if_neg (by norm_num : (5 : ℝ) ≠ 0)]
      split_ifs
      · rfl
      · simp only [Rho.psi]
        rw [neg_div, (C13_even (1.547 : ℝ) (5 / s)).2, neg_div_neg_eq]
    have hw0 : 0 ≤ sWeight (.tukey 1.547) s 5 := by
      rcases eq_or_lt_of_le h3 with h | h
      · rw [sWeight, if_pos h.symm]
      · rw [sWeight_tukey (by norm_num) h]
        exact bisquareWeight_nonneg _ _ _
    have hlist : [(5 : ℝ), 5, 5, -5].map (sWeight (.tukey 1.547) s) =
        [sWeight (.tukey 1.547) s 5, sWeight (.tukey 1.547) s 5, sWeight (.tukey 1.547) s 5, sWeight (.tukey 1.547) s 5] := by
      simp [hsym]
    rw [hlist] at h4
    rcases eq_or_lt_of_le hw0 with hw | hw
    · -- no weight
      have hfit : W.fit (sWeighted c103Data [sWeight (.tukey 1.547) s 5, sWeight (.tukey 1.547) s 5, sWeight (.tukey 1.547) s 5,
          sWeight (.tukey 1.547) s 5]) = fun _ => 0 := by
        refine W.fit_zero fun d hd => ?_
        have := sWeighted_mem hd
        rw [← hw] at this
        simpa using this
      rw [hfit] at h4
      obtain ⟨s', hs'⟩ := hzero
      refine ⟨s', ?_⟩
      unfold sISteps
      rw [hres, h4]
      simp only [Except.bind]
      unfold sISteps
      rw [hs']
      rfl
    · rw [fit_c103 W hw hw.le (t := 7 / 2) (by ring)] at h4
      obtain ⟨s', -, hs'⟩ := iStep_c103 W (A := 5 / 2) (B := 15 / 2) (by norm_num) (by norm_num) (-5 / 2) (15 / 2)
        (by rw [abs_of_neg] <;> norm_num) (by rw [abs_of_pos]; norm_num)
      refine ⟨s', ?_⟩
      unfold sISteps
      rw [hres, h4]
      simp only [Except.bind]
      unfold sISteps
      have hr : (sRes c103Data fun _ => (7 / 2 : ℝ)).map (fun r => -r) = [-5 / 2, -5 / 2, -5 / 2, 15 / 2] := by
        rw [sRes_c103]; norm_num
      rw [hr, hs']
      rfl

/-- The initial fit to two of the observations is 1 or 6. -/
theorem start_c103 (W : WLSReg) (idx : List ℕ) (hlen : idx.length = 2) (hnd : idx.Nodup) (hlt : ∀ i ∈ idx, i < 4) :
    ∃ t : ℝ, (t = 1 ∨ t = 6) ∧ W.fit ((takeAt c103Data idx).map fun d => (d.1, d.2, 1)) = fun _ => t := by
  have key : ∀ y1 y2 : ℝ, W.fit [((![1] : Fin 1 → ℝ), y1, (1 : ℝ)), (![1], y2, 1)] = fun _ => (y1 + y2) / 2 := by
    intro y1 y2
    have e : ∀ m : Fin 1 → ℝ, wssr [((![1] : Fin 1 → ℝ), y1, (1 : ℝ)), (![1], y2, 1)] m = (y1 - m 0) ^ 2 + (y2 - m 0) ^ 2 := by
      intro m
      simp [wssr, dotRow_one]
    refine W.fit_unique ?_ ?_ ?_
    · intro d hd
      simp only [List.mem_cons, List.not_mem_nil, or_false] at hd
      rcases hd with rfl | rfl <;> norm_num
    · intro m
      rw [e, e]
      nlinarith [sq_nonneg (m 0 - (y1 + y2) / 2)]
    · intro m hm
      rw [e, e] at hm
      have : (m 0 - (y1 + y2) / 2) ^ 2 = 0 := by nlinarith
      have h0 : m 0 = (y1 + y2) / 2 := by
        have := pow_eq_zero_iff (two_ne_zero) |>.1 this
        linarith
      simp [h0]
  obtain ⟨i, j, rfl⟩ := List.length_eq_two.1 hlen
  have hi := hlt i (by simp)
  have hj := hlt j (by simp)
  have hij : i ≠ j := by simpa using hnd
  have htake : ∀ i, i < 4 → c103Data[i]? = some (![1], if i = 3 then 11 else 1) := by
    intro i hi
    interval_cases i <;> simp [c103Data]
  have hl : takeAt c103Data [i, j] = [(![1], if i = 3 then 11 else 1), (![1], if j = 3 then 11 else 1)] := by
    simp [takeAt, htake i hi, htake j hj]
  rw [hl]
  simp only [List.map_cons, List.map_nil]
  rw [key]
  refine ⟨_, ?_, rfl⟩
  by_cases h1 : i = 3
  · have h2 : j ≠ 3 := fun h => hij (h1.trans h.symm)
    rw [if_pos h1, if_neg h2]
    norm_num
  · by_cases h2 : j = 3
    · rw [if_neg h1, if_pos h2]
      norm_num
    · rw [if_neg h1, if_neg h2]
      norm_num

/-- From the constants 1 and 0 the loop never ends. -/
theorem loop_c103 (W : WLSReg) (fuel : ℕ) (t : ℝ) (ht : t = 1 ∨ t = 0) (s : ℝ) (bound : Bool) :
    runLoop (sStep W sDefault c103Data) fuel ((fun _ => t, s), bound) = none := by
  induction fuel generalizing t s bound with
  | zero => rfl
  | succ fuel ih =>
    have hnorm : ∀ x : ℝ, vecNorm (fun _ : Fin 1 => x) = |x| := by
      intro x
      simp [vecNorm, Real.sqrt_mul_self_eq_abs]
    unfold runLoop sStep
    simp only
    rw [sRes_c103]
    rcases ht with rfl | rfl
    · norm_num
      rw [iStep_one W]
      have hcv : sConverged sDefault.relativeTolerance (fun _ : Fin 1 => (1 : ℝ)) 0 = false := by
        unfold sConverged
        have h0 : (0 : Fin 1 → ℝ) - (fun _ => 1) = fun _ => -1 := by funext j; simp
        have h1 : (0 : Fin 1 → ℝ) = fun _ => 0 := rfl
        rw [h0, h1, hnorm, hnorm]
        norm_num [sDefault]
      simp only [hcv]
      exact ih 0 (Or.inr rfl) 0 true
    · obtain ⟨s', -, hs'⟩ := iStep_c103 W (A := 1) (B := 11) (by norm_num) (by norm_num) (-1) (-11) (by norm_num) (by norm_num)
      norm_num
      rw [hs']
      have hcv : sConverged sDefault.relativeTolerance (fun _ : Fin 1 => (0 : ℝ)) (fun _ => 1) = false := by
        unfold sConverged
        have h0 : (fun _ : Fin 1 => (1 : ℝ)) - (fun _ => 0) = fun _ => 1 := by funext j; simp
        rw [h0, hnorm]
        norm_num [sDefault]
      simp only [hcv]
      exact ih 1 (Or.inl rfl) s' true

theorem sImprove_none (W : WLSReg) (fuel : ℕ) (l : List ((Fin 1 → ℝ) × ℝ)) (hl : l ≠ []) (h1 : ∀ c ∈ l, c.1 = fun _ => 1) (bound : Bool) :
    sImprove W sDefault c103Data fuel l bound = none := by
  rcases l with _ | ⟨c, l⟩
  · exact absurd rfl hl
  · unfold sImprove
    have hc : c = (fun _ => 1, c.2) := Prod.ext (h1 c (by simp)) rfl
    rw [hc, loop_c103 W fuel 1 (Or.inl rfl)]
    rfl

/-- With the default parameters the search never ends on the targets 1, 1, 1, 11, whatever the random draws. -/
theorem C103_never (W : WLSReg) (srt : ArgSort ℝ) (ch : Choice ℕ) (fuel : ℕ) : sSearch W srt ch sDefault c103Data fuel = none := by
  have hinit : ∀ i, ∃ s, sInitial W ch sDefault c103Data i = .ok (some (fun _ => 1, s)) := by
    intro i
    have hle : 1 + 1 ≤ c103Data.length := by simp [c103Data]
    obtain ⟨t, ht, hfit⟩ := start_c103 W (ch.pick (sDefault.randomState + i) c103Data.length (1 + 1)) (ch.length _ _ _ hle) (ch.nodup _ _ _ hle)
      (ch.lt _ _ _ hle)
    unfold sInitial
    rw [if_neg (by simp [c103Data])]
    simp only
    rw [hfit]
    obtain ⟨s, hs⟩ := iSteps_c103 W t ht (fun _ => t, sInitialScale (sRes c103Data fun _ => t))
    have hN : sDefault.nInitialISteps = 2 := rfl
    rw [hN, hs]
    exact ⟨s, rfl⟩
  obtain ⟨os, hos⟩ := mapExcept_all_ok (f := sInitial W ch sDefault c103Data) (List.range sDefault.nInitialSubsets) fun i _ =>
    (hinit i).imp' (fun s => some (fun _ => 1, s)) fun _ h => h
  unfold sSearch
  rw [hos]
  simp only [Run.andThen]
  rw [sImprove_none W fuel]
  · intro hnil
    have hlen := (mapExcept_ok hos).length_eq
    rw [List.length_range] at hlen
    obtain ⟨o, os', rfl⟩ : ∃ o os', os = o :: os' := by
      rcases os with _ | ⟨o, os'⟩
      · simp [sDefault] at hlen
      · exact ⟨o, os', rfl⟩
    obtain ⟨i, -, hi⟩ := mapExcept_mem hos o (by simp)
    obtain ⟨s, hs⟩ := hinit i
    rw [hs] at hi
    obtain rfl := Except.ok.inj hi
    have hcl : 0 < ((some ((fun _ : Fin 1 => (1 : ℝ)), s) :: os').filterMap id).length := by
      have e : (some ((fun _ : Fin 1 => (1 : ℝ)), s) :: os').filterMap id = (fun _ : Fin 1 => (1 : ℝ), s) :: os'.filterMap id := rfl
      rw [e]
      simp
    have h2 := congrArg List.length hnil
    rw [takeAt_length _ _ fun i hi => ?_, List.length_take, srt.length, List.length_map] at h2
    · simp only [List.length_nil, sDefault] at h2
      omega
    · have := srt.lt _ i (List.mem_of_mem_take hi)
      simpa using this
  · intro c hc
    have hc' := mem_takeAt hc
    obtain ⟨o, ho, hoc⟩ := List.mem_filterMap.1 hc'
    simp only [id_eq] at hoc
    subst hoc
    obtain ⟨i, -, hi⟩ := mapExcept_mem hos _ ho
    obtain ⟨s, hs⟩ := hinit i
    rw [hs] at hi
    have := Except.ok.inj hi
    simp only [Option.some.injEq] at this
    rw [← this]

/-- **C103** (full statement): if coefficients fit more than half of the observations exactly and no others do, S-regression with the
default parameters ends and reports them. -/
def C103_statement : Prop :=
  ∀ (k : ℕ) (W : WLSReg) (srt : ArgSort ℝ) (ch : Choice ℕ) (D : List ((Fin k → ℝ) × ℝ)) (beta : Fin k → ℝ), k + 1 ≤ D.length →
    (∀ b : Fin k → ℝ, D.length < 2 * D.countP (fun d => decide (d.2 = ∑ j, d.1 j * b j)) ↔ b = beta) →
    ∃ fuel s, sSearch W srt ch sDefault D fuel = some (.ok (beta, s))

theorem C103_violated : ¬ C103_statement := by
  intro h
  obtain ⟨fuel, s, hf⟩ := h 1 wlsExists (argsortStable ℝ) choiceFirst c103Data (fun _ => 1) (by simp [c103Data]) (by
    intro b
    constructor
    · intro hb
      refine fin1_eq ?_
      by_contra hne
      have hne' : ¬ (1 : ℝ) = b 0 := fun h => hne h.symm
      by_cases h11 : (11 : ℝ) = b 0
      · simp [c103Data, List.countP_cons, hne', h11] at hb
      · simp [c103Data, List.countP_cons, hne', h11] at hb
    · rintro rfl
      simp [c103Data, List.countP_cons])
  rw [C103_never] at hf
  simp at hf

/-! Single rows -/

section
variable {p : ℕ}

/-- **C102** (full statement): after a fit with an intercept the prediction for rows is that of a fixed linear function, row by row. -/
def C102_statement : Prop :=
  ∀ (p : ℕ) (W : WLSReg) (srt : ArgSort ℝ) (ch : Choice ℕ) (cfg : SConfig) (st st' : SState) (X : List (Fin p → ℝ)) (y : List ℝ) (fuel : ℕ),
    cfg.fitIntercept = true → sFit W srt ch cfg st X y fuel = some (.ok (), st') →
    ∃ (b0 : ℝ) (b : Fin p → ℝ), ∀ Z : List (Fin p → ℝ), Z ≠ [] → sPredict cfg st' Z = .ok (Z.map fun x => b0 + ∑ j, x j * b j)

theorem sFit_width {W : WLSReg} {srt : ArgSort ℝ} {ch : Choice ℕ} {cfg : SConfig} {st st' : SState} {X : List (Fin p → ℝ)} {y : List ℝ}
    {fuel : ℕ} (hi : cfg.fitIntercept = true) (h : sFit W srt ch cfg st X y fuel = some (.ok (), st')) (hX : ¬ hasConstant X) :
    ∃ beta : Fin (p + 1) → ℝ, st'.model = some ⟨p + 1, beta⟩ := by
  unfold sFit sDesign addConstant at h
  rw [if_pos hi] at h
  split_ifs at h with hnil
  · simp at h
  · simp only at h
    rcases hs : sSearch W srt ch cfg ((X.map fun x => (Fin.cons 1 x : Fin (p + 1) → ℝ)).zip y) fuel with _ | (e | c)
    · rw [hs] at h; simp at h
    · rw [hs] at h; simp at h
    · rw [hs] at h
      simp only [Option.some.injEq, Prod.mk.injEq, true_and] at h
      rw [← h]
      exact ⟨c.1, rfl⟩

/-- **C102**: after a fit with an intercept on data without a constant column, `predict` raises ValueError for every single row with an
entry that is not 0, and for all rows that share a non-zero entry in some column. -/
theorem C102_single_row (W : WLSReg) (srt : ArgSort ℝ) (ch : Choice ℕ) (cfg : SConfig) (st st' : SState) (X : List (Fin p → ℝ))
    (y : List ℝ) (fuel : ℕ) (hi : cfg.fitIntercept = true) (h : sFit W srt ch cfg st X y fuel = some (.ok (), st'))
    (hX : ∀ j, ∀ v : ℝ, v ≠ 0 → ∃ x ∈ X, x j ≠ v) (Z : List (Fin p → ℝ)) (hZ : Z ≠ []) (j : Fin p) (v : ℝ) (hv : v ≠ 0)
    (hZv : ∀ z ∈ Z, z j = v) : sPredict cfg st' Z = .error .valueError := by
  obtain ⟨beta, hb⟩ := sFit_width hi h (by
    rintro ⟨j, v, hv, hall⟩
    obtain ⟨x, hx, hne⟩ := hX j v hv
    exact hne (hall x hx))
  unfold sPredict
  rw [hb]
  simp only
  unfold sDesign addConstant
  rw [if_pos hi, if_neg hZ, if_pos ⟨j, v, hv, hZv⟩]
  simp only
  rw [dif_neg (by omega)]

/-- **C102** (partial): the prediction is that of a fixed linear function on all collections of rows in which no column is constant,
zero columns excepted.  Missing: the other collections, for which the claim is false. -/
theorem C102_rows_partial (W : WLSReg) (srt : ArgSort ℝ) (ch : Choice ℕ) (cfg : SConfig) (st st' : SState) (X : List (Fin p → ℝ))
    (y : List ℝ) (fuel : ℕ) (hi : cfg.fitIntercept = true) (h : sFit W srt ch cfg st X y fuel = some (.ok (), st'))
    (hX : ∀ j, ∀ v : ℝ, v ≠ 0 → ∃ x ∈ X, x j ≠ v) :
    ∃ (b0 : ℝ) (b : Fin p → ℝ), ∀ Z : List (Fin p → ℝ), Z ≠ [] → (∀ j, ∀ v : ℝ, v ≠ 0 → ∃ z ∈ Z, z j ≠ v) →
      sPredict cfg st' Z = .ok (Z.map fun x => b0 + ∑ j, x j * b j) := by
  obtain ⟨beta, hb⟩ := sFit_width hi h (by
    rintro ⟨j, v, hv, hall⟩
    obtain ⟨x, hx, hne⟩ := hX j v hv
    exact hne (hall x hx))
  refine ⟨beta 0, fun j => beta j.succ, fun Z hZ hnc => ?_⟩
  unfold sPredict
  rw [hb]
  simp only
  unfold sDesign addConstant
  rw [if_pos hi, if_neg hZ, if_neg (by
    rintro ⟨j, v, hv, hall⟩
    obtain ⟨x, hx, hne⟩ := hnc j v hv
    exact hne (hall x hx))]
  simp only [dite_true, List.map_map]
  congr 1
  refine List.map_congr_left fun z _ => ?_
  simp only [Function.comp, dotRow, Fin.cast_eq_self]
  rw [Fin.sum_univ_succ]
  simp

end

/-- Targets 0 at 0, 1, 2, 3. -/
def c102X : List (Fin 1 → ℝ) := [![0], ![1], ![2], ![3]]

/-- If all targets are 0 the search ends with coefficients 0. -/
theorem search_zero (W : WLSReg) (srt : ArgSort ℝ) (ch : Choice ℕ) {k : ℕ} (D : List ((Fin k → ℝ) × ℝ)) (hn : k + 1 ≤ D.length)
    (hy : ∀ d ∈ D, d.2 = 0) (fuel : ℕ) : ∃ s, sSearch W srt ch sDefault D (fuel + 1) = some (.ok (0, s)) := by
  have hmaj : D.length < 2 * D.countP fun d => decide (d.2 = ∑ j, d.1 j * (0 : Fin k → ℝ) j) := by
    rw [List.countP_eq_length.2 (by intro d hd; simp [hy d hd])]
    omega
  have hstep : sIStep W sDefault D (sRes D 0) = .ok (0, 0) :=
    C103_i_step_partial W sDefault 1.547 (by norm_num) rfl (by simp [sDefault]) D 0 hmaj
  have hres : sRes D (0 : Fin k → ℝ) = D.map fun _ => 0 := by
    unfold sRes
    refine List.map_congr_left fun d hd => ?_
    rw [dotRow_zero, hy d hd, sub_zero]
  have hneg : (sRes D (0 : Fin k → ℝ)).map (fun r => -r) = sRes D 0 := by
    rw [hres, List.map_map]
    refine List.map_congr_left fun d hd => ?_
    simp
  have hconv : sConverged sDefault.relativeTolerance (0 : Fin k → ℝ) 0 = true := by
    unfold sConverged
    have : vecNorm (0 : Fin k → ℝ) = 0 := by simp [vecNorm]
    norm_num [this, sDefault]
  have hinit : ∀ i, sInitial W ch sDefault D i = .ok (some (0, 0)) := by
    intro i
    unfold sInitial
    rw [if_neg (by omega)]
    simp only
    have hfit : W.fit ((takeAt D (ch.pick (sDefault.randomState + i) D.length (k + 1))).map fun d => (d.1, d.2, (1 : ℝ))) = 0 := by
      refine W.fit_unique ?_ ?_ ?_
      · intro d hd
        obtain ⟨x, -, rfl⟩ := List.mem_map.1 hd
        exact zero_le_one
      · intro m
        have h0 : wssr ((takeAt D (ch.pick (sDefault.randomState + i) D.length (k + 1))).map fun d => (d.1, d.2, (1 : ℝ))) 0 = 0 := by
          refine List.sum_eq_zero fun x hx => ?_
          obtain ⟨d, hd, rfl⟩ := List.mem_map.1 hx
          obtain ⟨d', hd', rfl⟩ := List.mem_map.1 hd
          rw [dotRow_zero, hy d' (mem_takeAt hd')]
          ring
        rw [h0]
        refine List.sum_nonneg fun x hx => ?_
        obtain ⟨d, hd, rfl⟩ := List.mem_map.1 hx
        obtain ⟨d', hd', rfl⟩ := List.mem_map.1 hd
        simp only [one_mul]
        positivity
      · intro m _
        simp only [Pi.zero_apply]
        have : ∑ _j : Fin k, (0 : ℝ) ^ 2 = 0 := by simp
        rw [this]
        exact Finset.sum_nonneg fun j _ => sq_nonneg _
    rw [hfit]
    have hN : sDefault.nInitialISteps = 2 := rfl
    rw [hN]
    unfold sISteps
    rw [hstep]
    simp only [Except.bind]
    unfold sISteps
    rw [hneg, hstep]
    simp only [Except.bind]
    unfold sISteps
    rfl
  obtain ⟨os, hos⟩ := mapExcept_all_ok (f := sInitial W ch sDefault D) (List.range sDefault.nInitialSubsets) fun i _ => ⟨_, hinit i⟩
  have himp : ∀ (l : List ((Fin k → ℝ) × ℝ)) bound, (∀ c ∈ l, c = (0, 0)) → sImprove W sDefault D (fuel + 1) l bound = some (.ok l) := by
    intro l
    induction l with
    | nil => intro _ _; rfl
    | cons c l ih =>
      intro bound hl
      obtain rfl := hl c (by simp)
      unfold sImprove runLoop sStep
      simp only
      rw [hstep]
      simp only [hconv, if_true, Run.andThen]
      rw [ih true fun c hc => hl c (by simp [hc])]
  have hos0 : ∀ o ∈ os, o = some (0, 0) := by
    intro o ho
    obtain ⟨i, -, hi⟩ := mapExcept_mem hos o ho
    rw [hinit i] at hi
    exact (Except.ok.inj hi).symm
  rcases hr : sSearch W srt ch sDefault D (fuel + 1) with _ | r
  · exfalso
    unfold sSearch at hr
    rw [hos] at hr
    simp only [Run.andThen] at hr
    rw [himp] at hr
    · simp only at hr
      split at hr <;> simp at hr
    · intro c hc
      obtain ⟨o, ho, hoc⟩ := List.mem_filterMap.1 (mem_takeAt hc)
      simp only [id_eq] at hoc
      subst hoc
      simpa using hos0 _ ho
  · obtain ⟨cs, h1, h2, ⟨rfl, -⟩ | ⟨m, h3, rfl, -⟩⟩ := sSearch_tukey W srt ch (c := 1.547) rfl (by simp [sDefault]) hn (fuel + 1) _ hr
    · simp [sDefault] at h1
    · unfold sSearch at hr
      rw [hos] at hr
      simp only [Run.andThen] at hr
      rw [himp] at hr
      · simp only at hr
        have hall : ∀ c ∈ takeAt (os.filterMap id) ((srt.toFun ((os.filterMap id).map Prod.snd)).take sDefault.nBestSubsets), c = (0, 0) := by
          intro c hc
          obtain ⟨o, ho, hoc⟩ := List.mem_filterMap.1 (mem_takeAt hc)
          simp only [id_eq] at hoc
          subst hoc
          simpa using hos0 _ ho
        generalize takeAt (os.filterMap id) ((srt.toFun ((os.filterMap id).map Prod.snd)).take sDefault.nBestSubsets) = l at hr hall
        rcases l with _ | ⟨c, l⟩
        · simp at hr
        · simp only [Option.some.injEq, Except.ok.injEq] at hr
          have := hall _ (sBest_spec c l).1
          rw [hr] at this
          rw [this]
          exact ⟨0, rfl⟩
      · intro c hc
        obtain ⟨o, ho, hoc⟩ := List.mem_filterMap.1 (mem_takeAt hc)
        simp only [id_eq] at hoc
        subst hoc
        simpa using hos0 _ ho

theorem c102_fit : ∃ st', sFit wlsExists (argsortStable ℝ) choiceFirst sDefault ⟨none, none⟩ c102X [0, 0, 0, 0] 1 = some (.ok (), st') := by
  unfold sFit sDesign addConstant
  rw [if_pos (show sDefault.fitIntercept = true from rfl), if_neg (by simp [c102X]), if_neg (by
    rintro ⟨j, v, hv, hall⟩
    have h0 := hall ![0] (by simp [c102X])
    rw [Subsingleton.elim j 0] at h0
    exact hv h0.symm)]
  simp only
  obtain ⟨s, hs⟩ := search_zero wlsExists (argsortStable ℝ) choiceFirst
    ((c102X.map fun x => (Fin.cons 1 x : Fin 2 → ℝ)).zip [0, 0, 0, 0]) (by simp [c102X]) (by simp [c102X]) 0
  have hs' : sSearch (k := 1 + 1) wlsExists (argsortStable ℝ) choiceFirst sDefault
      ((c102X.map fun x => (Fin.cons 1 x : Fin (1 + 1) → ℝ)).zip [0, 0, 0, 0]) 1 = some (.ok (0, s)) := hs
  rw [hs']
  exact ⟨_, rfl⟩

theorem c102_noconst : ∀ j : Fin 1, ∀ v : ℝ, v ≠ 0 → ∃ x ∈ c102X, x j ≠ v := by
  intro j v hv
  refine ⟨![0], by simp [c102X], ?_⟩
  rw [Subsingleton.elim j 0]
  exact fun h => hv h.symm

theorem C102_violated : ¬ C102_statement := by
  intro h
  obtain ⟨st', hf⟩ := c102_fit
  obtain ⟨b0, b, hb⟩ := h 1 _ _ _ sDefault _ st' c102X _ 1 rfl hf
  have h1 := hb [![5]] (by simp)
  have h2 := C102_single_row _ _ _ sDefault _ st' c102X _ 1 rfl hf c102_noconst [![5]] (by simp) 0 5 (by norm_num) (by simp)
  rw [h2] at h1
  simp at h1

/-! The handler of numerical failures -/

/-- Huber's function and no initial i-steps. -/
noncomputable def c105Cfg : SConfig := { sDefault with rho := .huber 1.5, nInitialISteps := 0 }

/-- If all targets are 0, the first i-step fails and the handler itself raises UnboundLocalError. -/
theorem C105_handler (W : WLSReg) (srt : ArgSort ℝ) (ch : Choice ℕ) {k : ℕ} (D : List ((Fin k → ℝ) × ℝ)) (hn : k + 1 ≤ D.length)
    (hy : ∀ d ∈ D, d.2 = 0) (fuel : ℕ) : sSearch W srt ch c105Cfg D (fuel + 1) = some (.error .unboundLocalError) := by
  have hres : sRes D (0 : Fin k → ℝ) = D.map fun _ => 0 := by
    unfold sRes
    refine List.map_congr_left fun d hd => ?_
    rw [dotRow_zero, hy d hd, sub_zero]
  have hscale : sInitialScale (sRes D (0 : Fin k → ℝ)) = 0 := by
    unfold sInitialScale
    rcases hm : npMedian ((sRes D (0 : Fin k → ℝ)).map fun r => |r|) with _ | m
    · simp
    · have := npMedian_bounds hm 0 0 (by
        intro x hx
        rw [hres] at hx
        obtain ⟨r, hr, rfl⟩ := List.mem_map.1 hx
        obtain ⟨d, -, rfl⟩ := List.mem_map.1 hr
        simp)
      simp [le_antisymm this.2 this.1]
  have hstep : sIStep W c105Cfg D (sRes D 0) = .error .linAlgError := by
    unfold sIStep
    rw [hscale]
    have : sGetScale c105Cfg.rho c105Cfg.b c105Cfg.scaleTolerance (sRes D 0) c105Cfg.maxScaleIterations 0 = .ok none := by
      have e : c105Cfg.maxScaleIterations = 1 + 1 := rfl
      rw [e]
      unfold sGetScale sScaleStep
      rw [if_pos rfl]
      rfl
    rw [this]
  have hinit : ∀ i, sInitial W ch c105Cfg D i = .ok (some (0, 0)) := by
    intro i
    unfold sInitial
    rw [if_neg (by omega)]
    simp only
    have hfit : W.fit ((takeAt D (ch.pick (c105Cfg.randomState + i) D.length (k + 1))).map fun d => (d.1, d.2, (1 : ℝ))) = 0 := by
      refine W.fit_unique ?_ ?_ ?_
      · intro d hd
        obtain ⟨x, -, rfl⟩ := List.mem_map.1 hd
        exact zero_le_one
      · intro m
        have h0 : wssr ((takeAt D (ch.pick (c105Cfg.randomState + i) D.length (k + 1))).map fun d => (d.1, d.2, (1 : ℝ))) 0 = 0 := by
          refine List.sum_eq_zero fun x hx => ?_
          obtain ⟨d, hd, rfl⟩ := List.mem_map.1 hx
          obtain ⟨d', hd', rfl⟩ := List.mem_map.1 hd
          rw [dotRow_zero, hy d' (mem_takeAt hd')]
          ring
        rw [h0]
        refine List.sum_nonneg fun x hx => ?_
        obtain ⟨d, hd, rfl⟩ := List.mem_map.1 hx
        obtain ⟨d', hd', rfl⟩ := List.mem_map.1 hd
        simp only [one_mul]
        positivity
      · intro m _
        simp only [Pi.zero_apply]
        have : ∑ _j : Fin k, (0 : ℝ) ^ 2 = 0 := by simp
        rw [this]
        exact Finset.sum_nonneg fun j _ => sq_nonneg _
    rw [hfit, hscale]
    rfl
  obtain ⟨os, hos⟩ := mapExcept_all_ok (f := sInitial W ch c105Cfg D) (List.range c105Cfg.nInitialSubsets) fun i _ => ⟨_, hinit i⟩
  have hos0 : ∀ o ∈ os, o = some (0, 0) := by
    intro o ho
    obtain ⟨i, -, hi⟩ := mapExcept_mem hos o ho
    rw [hinit i] at hi
    exact (Except.ok.inj hi).symm
  have hne : takeAt (os.filterMap id) ((srt.toFun ((os.filterMap id).map Prod.snd)).take c105Cfg.nBestSubsets) ≠ [] := by
    intro hnil
    have hlen := (mapExcept_ok hos).length_eq
    rw [List.length_range] at hlen
    obtain ⟨o, os', rfl⟩ : ∃ o os', os = o :: os' := by
      rcases os with _ | ⟨o, os'⟩
      · simp [c105Cfg, sDefault] at hlen
      · exact ⟨o, os', rfl⟩
    obtain rfl := hos0 o (by simp)
    have hcl : 0 < ((some ((0 : Fin k → ℝ), (0 : ℝ)) :: os').filterMap id).length := by
      have e : (some ((0 : Fin k → ℝ), (0 : ℝ)) :: os').filterMap id = ((0 : Fin k → ℝ), (0 : ℝ)) :: os'.filterMap id := rfl
      rw [e]
      simp
    have h2 := congrArg List.length hnil
    rw [takeAt_length _ _ fun i hi => ?_, List.length_take, srt.length, List.length_map] at h2
    · simp only [List.length_nil, c105Cfg, sDefault] at h2
      omega
    · have := srt.lt _ i (List.mem_of_mem_take hi)
      simpa using this
  unfold sSearch
  rw [hos]
  simp only [Run.andThen]
  have hall : ∀ c ∈ takeAt (os.filterMap id) ((srt.toFun ((os.filterMap id).map Prod.snd)).take c105Cfg.nBestSubsets), c = (0, 0) := by
    intro c hc
    obtain ⟨o, ho, hoc⟩ := List.mem_filterMap.1 (mem_takeAt hc)
    simp only [id_eq] at hoc
    subst hoc
    simpa using hos0 _ ho
  generalize takeAt (os.filterMap id) ((srt.toFun ((os.filterMap id).map Prod.snd)).take c105Cfg.nBestSubsets) = l at hne hall
  rcases l with _ | ⟨c, l⟩
  · exact absurd rfl hne
  · obtain rfl := hall c (by simp)
    unfold sImprove runLoop sStep
    simp only
    rw [hstep]
    rfl

theorem C105_violated : ¬ C105_statement := by
  intro h
  exact h 1 wlsExists (argsortStable ℝ) choiceFirst c105Cfg [(![1], 0), (![2], 0)] 1 .unboundLocalError (by simp [c105Cfg, sDefault])
    (by simp [c105Cfg, sDefault]) (by simp [c105Cfg, sDefault]) (by norm_num [c105Cfg, Rho.const]) (by norm_num [c105Cfg, sDefault])
    (by simp) (C105_handler _ _ _ _ (by simp) (by simp) 0)

/-- The hypotheses of C104 and C105: targets 0, 0 at 1, 2. -/
example : ∃ s, sSearch wlsExists (argsortStable ℝ) choiceFirst sDefault [((![1] : Fin 1 → ℝ), (0 : ℝ)), (![2], 0)] 1 = some (.ok (0, s)) :=
  search_zero _ _ _ _ (by simp) (by simp) 0

/-- Three of the four observations are fitted exactly, as in C103. -/
example : c103Data.length < 2 * c103Data.countP fun d => decide (d.2 = ∑ j, d.1 j * (fun _ => 1 : Fin 1 → ℝ) j) := by
  simp [c103Data, List.countP_cons]

end Robpy
