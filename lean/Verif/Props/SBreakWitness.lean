import Verif.Props.SBreakdown

/-! C175: S-regression breaks down although its draws are clean. -/

namespace Robpy
open Matrix

/-- Full statement: when every draw of `SRegression` with the default parameters consists of good observations, the coefficients are
bounded by a number which depends on the good observations only. -/
def C175_statement : Prop :=
  ∀ (p : ℕ) (W : WLSReg) (G : List ((Fin p → ℝ) × ℝ)), Spec.RowsInGeneralPosition (G.map Prod.fst) → ∃ K : ℝ,
    ∀ (srt : ArgSort ℝ) (ch : Choice ℕ) (X O : List ((Fin p → ℝ) × ℝ)) (st st' : SState) (fuel : ℕ),
      X.Perm (O ++ G) → O.length + 2 * (p + 1) ≤ G.length →
      (∀ i < sDefault.nInitialSubsets, (takeAt X (ch.pick (sDefault.randomState + i) X.length (p + 2))).Subperm G) →
      sFit W srt ch sDefault st (X.map Prod.fst) (X.map Prod.snd) fuel = some (.ok (), st') →
      ∃ beta : Fin (p + 1) → ℝ, st'.model = some ⟨p + 1, beta⟩ ∧ ∀ j, |beta j| ≤ K

/-- With 34 large and 30 small residuals one update multiplies the scale by a factor between 0.4 and 0.652. -/
theorem update_c175 {a s : ℝ} {R S : List ℝ} (hR : R.length = 34) (hS : S.length = 30) (ha : 0 < a) (hs1 : 0.4 * a ≤ s)
    (hs2 : s ≤ 1.01 * a / 0.6745) (hRa : ∀ r ∈ R, a ≤ |r|) (hSa : ∀ r ∈ S, |r| ≤ a / 100) :
    0.4 * s ≤ Spec.scaleUpdate (tukeyRho 1.547) 0.5 (R ++ S) s ∧ Spec.scaleUpdate (tukeyRho 1.547) 0.5 (R ++ S) s ^ 2 ≤ 0.4243 * s ^ 2 := by
  have hs : 0 < s := by linarith
  have hc : (0:ℝ) < 1.547 := by norm_num
  have hlen : (((R ++ S).length : ℕ) : ℝ) = 64 := by rw [List.length_append, hR, hS]; norm_num
  unfold Spec.scaleUpdate
  rw [hlen, List.map_append, List.sum_append]
  have e1 : 34 * (0.17 : ℝ) ≤ (R.map fun r => tukeyRho 1.547 (r / s)).sum := by
    have := List.card_nsmul_le_sum (R.map fun r => tukeyRho 1.547 (r / s)) 0.17 (by
      intro x hx
      obtain ⟨r, hr, rfl⟩ := List.mem_map.1 hx
      have h1 : tukeyRho 1.547 (0.66 : ℝ) ≤ tukeyRho 1.547 (r / s) := by
        refine C13_mono _ _ _ hc ?_
        rw [abs_div, abs_of_pos hs, le_div_iff₀ hs, abs_of_pos (by norm_num)]
        have := hRa r hr
        have : s * 0.6745 ≤ 1.01 * a := by rwa [le_div_iff₀ (by norm_num)] at hs2
        linarith
      refine le_trans ?_ h1
      unfold tukeyRho
      rw [if_pos (by rw [abs_of_pos] <;> norm_num)]
      norm_num)
    simpa [hR] using this
  have e2 : (R.map fun r => tukeyRho 1.547 (r / s)).sum ≤ 34 * (1.547 ^ 2 / 6 : ℝ) := by
    have := List.sum_le_card_nsmul (R.map fun r => tukeyRho 1.547 (r / s)) (1.547 ^ 2 / 6) (by
      intro x hx
      obtain ⟨r, hr, rfl⟩ := List.mem_map.1 hx
      exact (C13_range _ _ hc).2)
    simpa [hR] using this
  have e3 : 0 ≤ (S.map fun r => tukeyRho 1.547 (r / s)).sum := List.sum_nonneg (by
    intro x hx
    obtain ⟨r, hr, rfl⟩ := List.mem_map.1 hx
    exact (C13_range _ _ hc).1)
  have e4 : (S.map fun r => tukeyRho 1.547 (r / s)).sum ≤ 30 * (0.0004 : ℝ) := by
    have := List.sum_le_card_nsmul (S.map fun r => tukeyRho 1.547 (r / s)) 0.0004 (by
      intro x hx
      obtain ⟨r, hr, rfl⟩ := List.mem_map.1 hx
      have h1 : tukeyRho 1.547 (r / s) ≤ tukeyRho 1.547 (0.025 : ℝ) := by
        refine C13_mono _ _ _ hc ?_
        rw [abs_div, abs_of_pos hs, div_le_iff₀ hs, abs_of_pos (by norm_num : (0:ℝ) < 0.025)]
        have := hSa r hr
        linarith
      refine h1.trans ?_
      unfold tukeyRho
      rw [if_pos (by rw [abs_of_pos] <;> norm_num)]
      norm_num)
    simpa [hS] using this
  set T := (R.map fun r => tukeyRho 1.547 (r / s)).sum + (S.map fun r => tukeyRho 1.547 (r / s)).sum with hT
  constructor
  · rw [mul_comm]
    refine mul_le_mul_of_nonneg_left (Real.le_sqrt_of_sq_le ?_) hs.le
    rw [le_div_iff₀ (by norm_num), le_div_iff₀ (by norm_num)]
    norm_num at e1 ⊢
    linarith
  · rw [mul_pow, Real.sq_sqrt (by positivity), mul_comm]
    refine mul_le_mul_of_nonneg_right ?_ (sq_nonneg s)
    rw [div_le_iff₀ (by norm_num), div_le_iff₀ (by norm_num)]
    norm_num at e2 e4 ⊢
    linarith

/-- The scale of an i-step then leaves weight 0 to the large residuals and a positive weight to the small ones. -/
theorem iStep_c175 (W : WLSReg) {k : ℕ} (D : List ((Fin k → ℝ) × ℝ)) {a : ℝ} {R S : List ℝ} (hR : R.length = 34) (hS : S.length = 30)
    (ha : 1 ≤ a) (hRa : ∀ r ∈ R, a ≤ |r|) (hSa : ∀ r ∈ S, |r| ≤ a / 100)
    (hcnt : 33 ≤ R.countP fun r => decide (|r| ≤ 1.01 * a)) :
    ∃ s, sIStep W sDefault D (R ++ S) = .ok (W.fit (sWeighted D ((R ++ S).map (sWeight (.tukey 1.547) s))), s) ∧ 0.1 * a ≤ s ∧ 1.547 * s < a := by
  have ha0 : 0 < a := by linarith
  obtain ⟨med, hmed⟩ := npMedian_isSome (xs := (R ++ S).map fun r => |r|) (by
    intro h
    have := congrArg List.length h
    simp [hR, hS] at this)
  have hb := npMedian_between hmed a (1.01 * a) (by
    have h1 : R.countP (fun r => decide (|r| ≤ 1.01 * a)) ≤ (R ++ S).countP ((fun x => decide (a ≤ x ∧ x ≤ 1.01 * a)) ∘ fun r => |r|) := by
      rw [List.countP_append]
      refine le_trans (List.countP_mono_left fun r hr h => ?_) (Nat.le_add_right _ _)
      simp only [Function.comp, decide_eq_true_eq] at h ⊢
      exact ⟨hRa r hr, h⟩
    rw [List.length_map, List.countP_map, List.length_append, hR, hS]
    omega)
  have hs0 : sInitialScale (R ++ S) = med / 0.6745 := by unfold sInitialScale; rw [hmed]; rfl
  set s0 := med / 0.6745 with hs0'
  have g1 : a ≤ s0 := by rw [hs0', le_div_iff₀ (by norm_num)]; linarith [hb.1]
  have g2 : s0 ≤ 1.01 * a / 0.6745 := div_le_div_of_nonneg_right hb.2 (by norm_num)
  set s1 := Spec.scaleUpdate (tukeyRho 1.547) 0.5 (R ++ S) s0 with hs1
  obtain ⟨u1, u2⟩ := update_c175 hR hS ha0 (by linarith : 0.4 * a ≤ s0) g2 hRa hSa
  rw [← hs1] at u1 u2
  have u3 : s1 ≤ 0.66 * s0 := by
    refine le_of_sq_le_sq ?_ (by linarith)
    nlinarith
  set s2 := Spec.scaleUpdate (tukeyRho 1.547) 0.5 (R ++ S) s1 with hs2
  obtain ⟨v1, v2⟩ := update_c175 hR hS ha0 (by linarith : 0.4 * a ≤ s1) (by linarith) hRa hSa
  rw [← hs2] at v1 v2
  refine ⟨s2, ?_, by linarith, ?_⟩
  · obtain ⟨j, h1, h2, h3⟩ := (C56_iterate 1.547 0.5 1e-10 (R ++ S) 2 s0).2 (by norm_num)
    have hj : j = 1 := by
      rcases (by omega : j = 0 ∨ j = 1) with rfl | h
      · have := h3 (by norm_num)
        simp only [Function.iterate_zero, id_eq, Function.iterate_one, zero_add] at this
        rw [← hs1] at this
        have := abs_lt.1 this
        norm_num at this
        linarith [this.2]
      · exact h
    subst hj
    unfold sIStep
    rw [hs0]
    have e : sGetScale sDefault.rho sDefault.b sDefault.scaleTolerance (R ++ S) sDefault.maxScaleIterations s0 = .ok (some s2) := h2
    rw [e]
    rfl
  · have w : (1.547 * s2) ^ 2 < a ^ 2 := by
      have w1 : s2 ^ 2 ≤ 0.4243 * (0.4243 * s0 ^ 2) := by nlinarith
      have w2 : s0 ^ 2 ≤ (1.01 * a / 0.6745) ^ 2 := pow_le_pow_left₀ (by linarith) g2 2
      have w3 : (1.01 * a / 0.6745) ^ 2 = (1.01 / 0.6745) ^ 2 * a ^ 2 := by ring
      rw [w3] at w2
      have w4 : (1.547 * s2) ^ 2 = 1.547 ^ 2 * s2 ^ 2 := by ring
      rw [w4]
      have w5 : 0 < a ^ 2 := by positivity
      norm_num at w1 w2 ⊢
      linarith
    exact lt_of_pow_lt_pow_left₀ 2 ha0.le w

/-- 34 good observations with targets 1, but for one, at 10000, 10001, .... -/
def c175Good : List ((Fin 1 → ℝ) × ℝ) := (List.range 34).map fun i : ℕ => (![10000 + (i : ℝ)], if i = 1 then -2 else 1)

/-- 30 outliers near the origin on a line of slope `M`. -/
noncomputable def c175Out (M : ℝ) : List ((Fin 1 → ℝ) × ℝ) := List.replicate 15 (![0], 0) ++ List.replicate 15 (![1 / (100 * M)], 1 / 100)

theorem c175_gp : Spec.RowsInGeneralPosition (c175Good.map Prod.fst) := by
  have := line_gp ((List.range 34).map fun i : ℕ => 10000 + (i : ℝ)) (List.Nodup.map (fun i j h => by
    simp only [add_right_inj, Nat.cast_inj] at h
    exact h) List.nodup_range)
  unfold c175Good
  rw [List.map_map] at this ⊢
  exact this

/-- The design rows. -/
def c175Row (d : (Fin 1 → ℝ) × ℝ) : (Fin (1 + 1) → ℝ) × ℝ := ((Fin.cons 1 d.1 : Fin (1 + 1) → ℝ), d.2)

/-- The coefficients of the line through the outliers. -/
def c175Beta (M : ℝ) : Fin (1 + 1) → ℝ := ![0, M]

theorem c175_dot (d : (Fin 1 → ℝ) × ℝ) (beta : Fin (1 + 1) → ℝ) : dotRow (c175Row d).1 beta = beta 0 + d.1 0 * beta 1 := by
  simp [dotRow, c175Row, Fin.sum_univ_succ]

theorem c175_good {d : (Fin 1 → ℝ) × ℝ} (hd : d ∈ c175Good) : 10000 ≤ d.1 0 ∧ d.1 0 ≤ 10033 ∧ -2 ≤ d.2 ∧ d.2 ≤ 1 ∧ 1 ≤ |d.2| := by
  unfold c175Good at hd
  obtain ⟨i, hi, rfl⟩ := List.mem_map.1 hd
  have hi : i < 34 := List.mem_range.1 hi
  have h1 : (i : ℝ) ≤ 33 := by exact_mod_cast (by omega : i ≤ 33)
  have h0 : (0 : ℝ) ≤ i := Nat.cast_nonneg i
  simp only [Matrix.cons_val_zero]
  split_ifs <;> refine ⟨by linarith, by linarith, by norm_num, by norm_num, by norm_num⟩

theorem c175_out {M : ℝ} {d : (Fin 1 → ℝ) × ℝ} (hd : d ∈ c175Out M) : d = (![0], 0) ∨ d = (![1 / (100 * M)], 1 / 100) := by
  unfold c175Out at hd
  rcases List.mem_append.1 hd with h | h
  · exact Or.inl (List.eq_of_mem_replicate h)
  · exact Or.inr (List.eq_of_mem_replicate h)

/-- An i-step from residuals which are large at the good observations and small at the outliers gives the line through the outliers. -/
theorem fit_c175 (W : WLSReg) {M a : ℝ} (hM : 1 ≤ M) (f : (Fin (1 + 1) → ℝ) × ℝ → ℝ) (ha : 1 ≤ a)
    (hG : ∀ d ∈ c175Good, a ≤ |f (c175Row d)|) (hO : ∀ d ∈ c175Out M, |f (c175Row d)| ≤ a / 100)
    (hcnt : 33 ≤ c175Good.countP fun d => decide (|f (c175Row d)| ≤ 1.01 * a)) :
    ∃ s, sIStep W sDefault ((c175Good ++ c175Out M).map c175Row) (((c175Good ++ c175Out M).map c175Row).map f) = .ok (c175Beta M, s) := by
  have hM0 : M ≠ 0 := by positivity
  set D := (c175Good ++ c175Out M).map c175Row with hD
  have hsplit : D.map f = (c175Good.map fun d => f (c175Row d)) ++ (c175Out M).map fun d => f (c175Row d) := by
    rw [hD, List.map_map, List.map_append]
    rfl
  obtain ⟨s, h1, h2, h3⟩ := iStep_c175 W D (a := a) (R := c175Good.map fun d => f (c175Row d)) (S := (c175Out M).map fun d => f (c175Row d))
    (by simp [c175Good]) (by simp [c175Out]) ha (by
      intro r hr
      obtain ⟨d, hd, rfl⟩ := List.mem_map.1 hr
      exact hG d hd) (by
      intro r hr
      obtain ⟨d, hd, rfl⟩ := List.mem_map.1 hr
      exact hO d hd) (by rw [List.countP_map]; exact hcnt)
  rw [← hsplit] at h1
  refine ⟨s, ?_⟩
  rw [h1]
  have hs : 0 < s := by linarith
  set w : (Fin (1 + 1) → ℝ) × ℝ → ℝ := fun d => sWeight (.tukey 1.547) s (f d) with hw
  have hwmap : (D.map f).map (sWeight (.tukey 1.547) s) = D.map w := by rw [List.map_map]; rfl
  rw [hwmap]
  set beta := W.fit (sWeighted D (D.map w)) with hbeta
  have hwb : ∀ d, w d = Spec.bisquareWeight 1.547 s (Spec.notZero (f d)) := fun d => sWeight_tukey (by norm_num) hs _
  have hnn : ∀ d, 0 ≤ w d := fun d => by rw [hwb]; exact bisquareWeight_nonneg _ _ _
  have hzero : ∀ d ∈ c175Good, w (c175Row d) = 0 := by
    intro d hd
    have h4 := hG d hd
    have h5 : f (c175Row d) ≠ 0 := by
      intro h0
      rw [h0, abs_zero] at h4
      linarith
    rw [hwb, Spec.notZero, if_neg h5, Spec.bisquareWeight, if_neg (by linarith)]
  have hpos : ∀ d ∈ c175Out M, 0 < w (c175Row d) := by
    intro d hd
    have h4 : |Spec.notZero (f (c175Row d))| ≤ a / 100 := by
      unfold Spec.notZero
      split_ifs with h0
      · rw [abs_of_pos (by positivity)]
        norm_num
        linarith
      · exact hO d hd
    rw [hwb]
    generalize Spec.notZero (f (c175Row d)) = x at h4 ⊢
    have h6 : |x| < 1.547 * s := by linarith
    have hcs : 0 < 1.547 * s := by positivity
    rw [Spec.bisquareWeight, if_pos h6.le]
    have h7 : (x / (1.547 * s)) ^ 2 < 1 := by
      rw [sq_lt_one_iff_abs_lt_one, abs_div, abs_of_pos hcs, div_lt_one hcs]
      exact h6
    have h8 : 0 < 1 - (x / (1.547 * s)) ^ 2 := by linarith
    positivity
  have hmin := W.isMin (sWeighted D (D.map w)) (fun d hd => by
    obtain ⟨x, -, hx⟩ := List.mem_map.1 (sWeighted_mem hd)
    rw [← hx]
    exact hnn x) (c175Beta M)
  rw [wssr_sWeighted, wssr_sWeighted, ← hbeta] at hmin
  have h0 : Spec.weightedSq D w (c175Beta M) = 0 := by
    unfold Spec.weightedSq
    refine List.sum_eq_zero ?_
    intro z hz
    obtain ⟨d', hd', rfl⟩ := List.mem_map.1 hz
    obtain ⟨d, hd, rfl⟩ := List.mem_map.1 hd'
    rcases List.mem_append.1 hd with hd | hd
    · rw [hzero d hd, zero_mul]
    · have e := c175_dot d (c175Beta M)
      unfold dotRow at e
      rw [e]
      rcases c175_out hd with rfl | rfl
      · simp [c175Row, c175Beta]
      · simp only [c175Row, c175Beta, Matrix.cons_val_zero, Matrix.cons_val_one]
        have : (1 / 100 - (0 + 1 / (100 * M) * M) : ℝ) = 0 := by field_simp; ring
        rw [this]; simp
  have hall : ∀ d ∈ c175Out M, d.2 - (beta 0 + d.1 0 * beta 1) = 0 := by
    intro d hd
    have h4 : w (c175Row d) * ((c175Row d).2 - ∑ j, (c175Row d).1 j * beta j) ^ 2 ≤ Spec.weightedSq D w beta := by
      unfold Spec.weightedSq
      refine List.single_le_sum (fun z hz => ?_) _ (List.mem_map.2 ⟨c175Row d, List.mem_map.2 ⟨d, List.mem_append_right _ hd, rfl⟩, rfl⟩)
      obtain ⟨d', -, rfl⟩ := List.mem_map.1 hz
      exact mul_nonneg (hnn _) (sq_nonneg _)
    have e := c175_dot d beta
    unfold dotRow at e
    rw [e] at h4
    have h5 := hpos d hd
    have h6 : (d.2 - (beta 0 + d.1 0 * beta 1)) ^ 2 ≤ 0 := by
      have e2 : (c175Row d).2 = d.2 := rfl
      rw [e2] at h4
      by_contra hcon
      push Not at hcon
      have := mul_pos h5 hcon
      linarith
    exact pow_eq_zero_iff (two_ne_zero) |>.1 (le_antisymm h6 (sq_nonneg _))
  have k1 := hall (![0], 0) (List.mem_append_left _ (by simp))
  have k2 := hall (![1 / (100 * M)], 1 / 100) (List.mem_append_right _ (by simp))
  simp only [Matrix.cons_val_zero] at k1 k2
  have b0 : beta 0 = 0 := by linarith
  have b1 : beta 1 = M := by
    rw [b0] at k2
    field_simp at k2
    linarith
  have : beta = c175Beta M := by
    funext j
    fin_cases j
    · simpa [c175Beta] using b0
    · simpa [c175Beta] using b1
  rw [this]

theorem res_c175 (D : List ((Fin (1 + 1) → ℝ) × ℝ)) (beta : Fin (1 + 1) → ℝ) : sRes D beta = D.map fun d => dotRow d.1 beta - d.2 := rfl

/-- The i-step from coefficients 0. -/
theorem first_c175 (W : WLSReg) {M : ℝ} (hM : 1 ≤ M) :
    ∃ s, sIStep W sDefault ((c175Good ++ c175Out M).map c175Row) (sRes ((c175Good ++ c175Out M).map c175Row) 0) = .ok (c175Beta M, s) := by
  rw [res_c175]
  refine fit_c175 W (a := 1) hM _ le_rfl (fun d hd => ?_) (fun d hd => ?_) ?_
  · rw [c175_dot]
    simpa [c175Row] using (c175_good hd).2.2.2.2
  · rw [c175_dot]
    rcases c175_out hd with rfl | rfl
    · simp [c175Row]
    · simp [c175Row]
  · have h1 : (List.range 34).countP (fun i => decide (i ≠ 1)) ≤
        c175Good.countP fun d => decide (|dotRow (c175Row d).1 0 - (c175Row d).2| ≤ 1.01 * 1) := by
      unfold c175Good
      rw [List.countP_map]
      refine List.countP_mono_left fun i _ hi => ?_
      have hi : i ≠ 1 := by simpa using hi
      simp only [Function.comp, decide_eq_true_eq]
      rw [c175_dot]
      simp only [c175Row, if_neg hi]
      norm_num
    refine le_trans ?_ h1
    decide

/-- The i-step from the line through the outliers, with either sign of the residuals. -/
theorem second_c175 (W : WLSReg) {M : ℝ} (hM : 1 ≤ M) (sg : ℝ) (hsg : |sg| = 1) :
    ∃ s, sIStep W sDefault ((c175Good ++ c175Out M).map c175Row)
      (((c175Good ++ c175Out M).map c175Row).map fun d => sg * (dotRow d.1 (c175Beta M) - d.2)) = .ok (c175Beta M, s) := by
  have hG : ∀ d ∈ c175Good, 10000 * M - 1 ≤ |sg * (dotRow (c175Row d).1 (c175Beta M) - (c175Row d).2)| ∧
      |sg * (dotRow (c175Row d).1 (c175Beta M) - (c175Row d).2)| ≤ 1.01 * (10000 * M - 1) := by
    intro d hd
    obtain ⟨h1, h2, h3, h4, -⟩ := c175_good hd
    rw [abs_mul, hsg, one_mul, c175_dot]
    have e : c175Beta M 0 + d.1 0 * c175Beta M 1 - (c175Row d).2 = d.1 0 * M - d.2 := by simp [c175Beta, c175Row]
    rw [e, abs_of_pos (by nlinarith)]
    constructor <;> nlinarith
  refine fit_c175 W (a := 10000 * M - 1) hM (fun d => sg * (dotRow d.1 (c175Beta M) - d.2)) (by linarith) (fun d hd => (hG d hd).1)
    (fun d hd => ?_) ?_
  · have hM0 : M ≠ 0 := by positivity
    have e : dotRow (c175Row d).1 (c175Beta M) - (c175Row d).2 = 0 := by
      rw [c175_dot]
      rcases c175_out hd with rfl | rfl
      · simp [c175Beta, c175Row]
      · simp only [c175Beta, c175Row, Matrix.cons_val_zero, Matrix.cons_val_one]
        field_simp
        ring
    rw [e, mul_zero, abs_zero]
    linarith
  · rw [List.countP_eq_length.2 (fun d hd => by simpa using (hG d hd).2)]
    simp [c175Good]

/-- The least-squares fit of the first three observations is 0. -/
theorem start_c175 (W : WLSReg) (M : ℝ) :
    W.fit ((takeAt ((c175Good ++ c175Out M).map c175Row) (List.range (1 + 1 + 1))).map fun d => (d.1, d.2, 1)) = 0 := by
  have e : takeAt ((c175Good ++ c175Out M).map c175Row) (List.range (1 + 1 + 1)) =
      [c175Row (![10000], 1), c175Row (![10001], -2), c175Row (![10002], 1)] := by
    rw [takeAt_map]
    have : takeAt (c175Good ++ c175Out M) (List.range (1 + 1 + 1)) = [(![10000], 1), (![10001], -2), (![10002], 1)] := by
      unfold c175Good
      simp [takeAt, List.range_succ]
      norm_num
    rw [this]
    rfl
  rw [e]
  set D := [c175Row (![10000], 1), c175Row (![10001], -2), c175Row (![10002], 1)].map fun d => (d.1, d.2, (1:ℝ)) with hD
  have hmin := W.isMin D (by
    intro d hd
    obtain ⟨x, -, rfl⟩ := List.mem_map.1 hd
    norm_num) 0
  set beta := W.fit D
  simp only [hD, wssr, List.map_cons, List.map_nil, List.sum_cons, List.sum_nil, c175_dot] at hmin
  simp only [c175Row, Matrix.cons_val_zero, Pi.zero_apply] at hmin
  have k1 : (beta 0 + 10000 * beta 1) ^ 2 + (beta 0 + 10001 * beta 1) ^ 2 + (beta 0 + 10002 * beta 1) ^ 2 ≤ 0 := by
    nlinarith
  have z1 : beta 0 + 10000 * beta 1 = 0 := by
    refine pow_eq_zero_iff two_ne_zero |>.1 (le_antisymm ?_ (sq_nonneg _))
    linarith [sq_nonneg (beta 0 + 10001 * beta 1), sq_nonneg (beta 0 + 10002 * beta 1)]
  have z2 : beta 0 + 10001 * beta 1 = 0 := by
    refine pow_eq_zero_iff two_ne_zero |>.1 (le_antisymm ?_ (sq_nonneg _))
    linarith [sq_nonneg (beta 0 + 10000 * beta 1), sq_nonneg (beta 0 + 10002 * beta 1)]
  funext j
  fin_cases j
  · show beta 0 = 0; linarith
  · show beta 1 = 0; linarith

/-- Every start ends at the line through the outliers. -/
theorem initial_c175 (W : WLSReg) {M : ℝ} (hM : 1 ≤ M) (i : ℕ) :
    ∃ s, sInitial W choiceFirst sDefault ((c175Good ++ c175Out M).map c175Row) i = .ok (some (c175Beta M, s)) := by
  unfold sInitial
  rw [if_neg (by simp [c175Good, c175Out])]
  simp only
  have e : choiceFirst.pick (sDefault.randomState + i) ((c175Good ++ c175Out M).map c175Row).length (1 + 1 + 1) = List.range (1 + 1 + 1) := rfl
  rw [e, start_c175]
  obtain ⟨s1, h1⟩ := first_c175 W hM
  obtain ⟨s2, h2⟩ := second_c175 W hM (-1) (by norm_num)
  have hn : sDefault.nInitialISteps = 2 := rfl
  rw [hn]
  refine ⟨s2, ?_⟩
  unfold sISteps
  rw [h1]
  simp only [Except.bind]
  unfold sISteps
  have e2 : (sRes ((c175Good ++ c175Out M).map c175Row) (c175Beta M)).map (fun r => -r) =
      ((c175Good ++ c175Out M).map c175Row).map fun d => -1 * (dotRow d.1 (c175Beta M) - d.2) := by
    rw [res_c175, List.map_map]
    exact List.map_congr_left fun d _ => by simp
  rw [e2, h2]
  rfl

theorem converged_self {k : ℕ} {tol : ℝ} (ht : 0 ≤ tol) (v : Fin k → ℝ) : sConverged tol v v = true := by
  unfold sConverged
  have h : vecNorm (v - v) = 0 := by simp [vecNorm]
  rw [h, decide_eq_true_eq]
  have : 0 ≤ max tol (vecNorm v) := le_max_of_le_left ht
  positivity

/-- The search reports the line through the outliers. -/
theorem improve_c175 (W : WLSReg) {M : ℝ} (hM : 1 ≤ M) (fuel : ℕ) (l : List ((Fin (1 + 1) → ℝ) × ℝ)) (hl : ∀ c ∈ l, c.1 = c175Beta M) (b : Bool) :
    ∃ cs, sImprove W sDefault ((c175Good ++ c175Out M).map c175Row) (fuel + 1) l b = some (.ok cs) ∧ cs.length = l.length ∧ ∀ c ∈ cs, c.1 = c175Beta M := by
  obtain ⟨s, hs⟩ := second_c175 W hM 1 (by norm_num)
  simp only [one_mul] at hs
  induction l generalizing b with
  | nil => exact ⟨[], rfl, rfl, by simp⟩
  | cons c l ih =>
    have hc := hl c (by simp)
    obtain ⟨cs, h1, h2, h3⟩ := ih (fun c hc => hl c (by simp [hc])) true
    refine ⟨(c175Beta M, s) :: cs, ?_, by simp [h2], ?_⟩
    · have hstep : sStep W sDefault ((c175Good ++ c175Out M).map c175Row) (c, b) = .ok (.inr ((c175Beta M, s), true)) := by
        unfold sStep
        simp only
        rw [hc, res_c175, hs]
        simp only
        rw [if_pos (converged_self (by norm_num [sDefault]) _)]
      unfold sImprove
      have hrun : runLoop (sStep W sDefault ((c175Good ++ c175Out M).map c175Row)) (fuel + 1) (c, b) = some (.ok ((c175Beta M, s), true)) := by
        unfold runLoop
        rw [hstep]
      rw [hrun]
      simp only [Run.andThen]
      rw [h1]
    · intro x hx
      rcases List.mem_cons.1 hx with rfl | hx
      · rfl
      · exact h3 x hx

theorem search_c175 (W : WLSReg) (srt : ArgSort ℝ) {M : ℝ} (hM : 1 ≤ M) :
    ∃ s, sSearch W srt choiceFirst sDefault ((c175Good ++ c175Out M).map c175Row) 1 = some (.ok (c175Beta M, s)) := by
  obtain ⟨os, hos⟩ := mapExcept_all_ok (f := sInitial W choiceFirst sDefault ((c175Good ++ c175Out M).map c175Row)) (List.range sDefault.nInitialSubsets)
    fun i _ => let ⟨s, h⟩ := initial_c175 W hM i; ⟨_, h⟩
  have hall : ∀ c ∈ os.filterMap id, c.1 = c175Beta M := by
    intro c hc
    obtain ⟨o, ho, hoc⟩ := List.mem_filterMap.1 hc
    obtain ⟨i, -, hi⟩ := mapExcept_mem hos _ ho
    obtain ⟨s, h⟩ := initial_c175 W hM i
    rw [h] at hi
    have := Except.ok.inj hi
    subst this
    simp only [id_eq, Option.some.injEq] at hoc
    rw [← hoc]
  have hrun : ∀ r, sSearch W srt choiceFirst sDefault ((c175Good ++ c175Out M).map c175Row) 1 = some r → r ≠ .error .valueError := by
    intro r hr
    obtain ⟨cs, h1, -, ⟨h2, -⟩ | ⟨m, -, h2, -⟩⟩ := sSearch_tukey W srt choiceFirst (c := 1.547) (cfg := sDefault) rfl (by simp [sDefault])
      (by simp [c175Good, c175Out]) 1 r hr
    · rw [h2] at h1; simp [sDefault] at h1
    · rw [h2]; simp
  obtain ⟨cs, h1, -, h3⟩ := improve_c175 W hM 0
    (takeAt (os.filterMap id) ((srt.toFun ((os.filterMap id).map Prod.snd)).take sDefault.nBestSubsets)) (fun c hc => by
      unfold takeAt at hc
      obtain ⟨i, -, hi⟩ := List.mem_filterMap.1 hc
      exact hall c (List.mem_of_getElem? hi)) false
  rcases cs with _ | ⟨c, l⟩
  · refine absurd rfl (hrun (.error .valueError) ?_)
    unfold sSearch
    rw [hos]
    simp only [Run.andThen]
    rw [h1]
  · refine ⟨(sBest c l).2, ?_⟩
    rw [← h3 _ (sBest_spec c l).1]
    unfold sSearch
    rw [hos]
    simp only [Run.andThen]
    rw [h1]

/-- The fit with the default parameters reports the line through the outliers. -/
theorem C175_breaks (W : WLSReg) (srt : ArgSort ℝ) {M : ℝ} (hM : 1 ≤ M) :
    ∃ s, sFit W srt choiceFirst sDefault ⟨none, none⟩ ((c175Good ++ c175Out M).map Prod.fst) ((c175Good ++ c175Out M).map Prod.snd) 1 =
      some (.ok (), { model := some ⟨2, ![0, M]⟩, scale_ := some s }) := by
  obtain ⟨s, hs⟩ := search_c175 W srt hM
  refine ⟨s, ?_⟩
  unfold sFit sDesign addConstant
  rw [if_pos (show sDefault.fitIntercept = true from rfl), if_neg (by simp [c175Good]), if_neg (gp_not_constant c175_gp (by
    intro x hx
    rw [List.map_append]
    exact List.mem_append_left _ hx) (by simp [c175Good]))]
  simp only
  rw [zip_cons]
  have hs' : sSearch W srt choiceFirst sDefault ((c175Good ++ c175Out M).map fun d => ((Fin.cons 1 d.1 : Fin (1 + 1) → ℝ), d.2)) 1 =
    some (.ok (c175Beta M, s)) := hs
  rw [hs']
  rfl

/-- S-regression breaks down although its draws are clean and the good observations are in the majority. -/
theorem C175_violated : ¬ C175_statement := by
  intro hst
  obtain ⟨K, hK⟩ := hst 1 wlsExists c175Good c175_gp
  have hM : (1:ℝ) ≤ |K| + 1 := by linarith [abs_nonneg K]
  obtain ⟨s, hs⟩ := C175_breaks wlsExists (argsortStable ℝ) hM
  obtain ⟨beta, h1, h2⟩ := hK (argsortStable ℝ) choiceFirst (c175Good ++ c175Out (|K| + 1)) (c175Out (|K| + 1)) ⟨none, none⟩ _ 1
    List.perm_append_comm (by simp [c175Good, c175Out]) (by
      intro i _
      have e : takeAt (c175Good ++ c175Out (|K| + 1)) (choiceFirst.pick (sDefault.randomState + i) (c175Good ++ c175Out (|K| + 1)).length (1 + 2)) =
          c175Good.take 3 := by
        unfold c175Good
        simp [choiceFirst, takeAt, List.range_succ]
      rw [e]
      exact (List.take_sublist _ _).subperm) hs
  simp only [Option.some.injEq, Sigma.mk.injEq, heq_eq_eq, true_and] at h1
  have := h2 1
  rw [← h1] at this
  simp only [Matrix.cons_val_one, Matrix.cons_val_zero] at this
  have h3 := le_abs_self K
  have h4 := le_abs_self (|K| + 1)
  linarith

end Robpy
