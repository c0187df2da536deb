import Verif.Props.SEquiv
import Verif.Props.SRegWitness
import Mathlib.LinearAlgebra.Matrix.NonsingularInverse

/-! C190: S-regression after adding a linear function of the columns to the targets and after an invertible change of the columns. -/

namespace Robpy
variable {k : ℕ}

/-- Every row `x` is replaced by `x A` and every target `y` by `y + x g`. -/
def Spec.regTransform (A : Matrix (Fin k) (Fin k) ℝ) (g : Fin k → ℝ) (D : List ((Fin k → ℝ) × ℝ)) : List ((Fin k → ℝ) × ℝ) :=
  D.map fun d => (Matrix.vecMul d.1 A, d.2 + ∑ j, d.1 j * g j)

/-- The coefficients that predict `x b + x g` from `x A`. -/
noncomputable def Spec.regCoef (A : Matrix (Fin k) (Fin k) ℝ) (g b : Fin k → ℝ) : Fin k → ℝ := A⁻¹.mulVec (b + g)

/-- Different coefficients agree on fewer than `k` rows; no coefficients fit too many targets exactly: with `z` such targets
`2 (z + k)` is smaller than the number of rows. -/
def Spec.regGeneralPosition (D : List ((Fin k → ℝ) × ℝ)) : Prop :=
  (∀ a b : Fin k → ℝ, k ≤ D.countP (fun d => decide (∑ j, d.1 j * a j = ∑ j, d.1 j * b j)) → a = b) ∧
  ∀ b : Fin k → ℝ, 2 * (D.countP (fun d => decide (d.2 = ∑ j, d.1 j * b j)) + k) < D.length

/-- **C190** (full statement): the coefficients and the scale of an S-regression follow an invertible linear change of the columns and
the addition of a linear function of the columns to the targets. -/
def C190_statement : Prop :=
  ∀ (k : ℕ) (W : WLSReg) (srt : ArgSort ℝ) (ch : Choice ℕ) (D : List ((Fin k → ℝ) × ℝ)) (A : Matrix (Fin k) (Fin k) ℝ) (g : Fin k → ℝ)
    (fuel : ℕ), IsUnit A.det → k + 1 ≤ D.length →
    sSearch W srt ch sDefault (Spec.regTransform A g D) fuel =
      (sSearch W srt ch sDefault D fuel).map (Except.map fun m => (Spec.regCoef A g m.1, m.2))

/-! The scale keeps half of the residuals inside the range of the score function -/

theorem scaleUpdate_inside {c b m s : ℝ} (hc : 0 < c) (hb : 0 < b) (hbc : b ≤ c ^ 2 / 12) (hm : 0 < m) (hs : 0 < s) (hms : m < c * s)
    {res : List ℝ} (hhalf : res.length ≤ 2 * (res.map fun r => |r|).countP (fun x => decide (m ≤ x))) (hne : res ≠ []) :
    m < c * Spec.scaleUpdate (tukeyRho c) b res s := by
  have hn : (0 : ℝ) < res.length := by exact_mod_cast List.length_pos_iff.2 hne
  set u := m / s with hu
  have hu0 : 0 < u := by positivity
  have huc : u < c := by rw [hu, div_lt_iff₀ hs]; exact hms
  -- the sum
  have hsum : ∀ l : List ℝ, ((l.map fun r => |r|).countP (fun x => decide (m ≤ x)) : ℝ) * tukeyRho c u ≤
      (l.map fun r => tukeyRho c (r / s)).sum := by
    intro l
    induction l with
    | nil => simp
    | cons r l ih =>
      simp only [List.map_cons, List.sum_cons, List.countP_cons]
      have h0 := (C13_range c (r / s) hc).1
      by_cases h : m ≤ |r|
      · have h1 := C13_mono c u (r / s) hc (by
          rw [abs_of_pos hu0, abs_div, abs_of_pos hs, hu]
          exact div_le_div_of_nonneg_right h hs.le)
        simp only [h, decide_true, if_true]
        push_cast
        linarith
      · simp only [h, decide_false]
        simp only [Bool.false_eq_true, if_false, Nat.add_zero]
        linarith
  have hr0 := (C13_range c u hc).1
  have hcnt : (res.length : ℝ) ≤ 2 * ((res.map fun r => |r|).countP (fun x => decide (m ≤ x)) : ℝ) := by exact_mod_cast hhalf
  have hmean : tukeyRho c u / 2 ≤ (res.map fun r => tukeyRho c (r / s)).sum / res.length := by
    rw [le_div_iff₀ hn]
    have := hsum res
    nlinarith
  have hmean2 : 6 * tukeyRho c u / c ^ 2 ≤ (res.map fun r => tukeyRho c (r / s)).sum / res.length / b := by
    rw [le_div_iff₀ hb]
    refine le_trans ?_ hmean
    have h1 : 6 * tukeyRho c u / c ^ 2 * b ≤ 6 * tukeyRho c u / c ^ 2 * (c ^ 2 / 12) := mul_le_mul_of_nonneg_left hbc (by positivity)
    have h2 : 6 * tukeyRho c u / c ^ 2 * (c ^ 2 / 12) = tukeyRho c u / 2 := by field_simp; ring
    linarith
  have hv : (u / c) ^ 2 < 6 * tukeyRho c u / c ^ 2 := by
    have e : 6 * tukeyRho c u / c ^ 2 = 3 * (u / c) ^ 2 - 3 * ((u / c) ^ 2) ^ 2 + ((u / c) ^ 2) ^ 3 := by
      unfold tukeyRho
      rw [if_pos (by rw [abs_of_pos hu0]; exact huc.le)]
      field_simp
      ring
    rw [e]
    have h1 : (u / c) ^ 2 < 1 := by
      rw [div_pow, div_lt_one (by positivity)]
      exact pow_lt_pow_left₀ huc hu0.le two_ne_zero
    have h0 : 0 < (u / c) ^ 2 := by positivity
    generalize (u / c) ^ 2 = v at *
    nlinarith [mul_pos (mul_pos h0 (sub_pos.2 h1)) (by linarith : (0 : ℝ) < 2 - v)]
  unfold Spec.scaleUpdate
  have h3 : u / c < Real.sqrt ((res.map fun r => tukeyRho c (r / s)).sum / res.length / b) :=
    Real.lt_sqrt_of_sq_lt (lt_of_lt_of_le hv hmean2)
  have h4 : c * (s * (u / c)) = m := by rw [hu]; field_simp
  rw [← h4]
  exact mul_lt_mul_of_pos_left (mul_lt_mul_of_pos_left h3 hs) hc

theorem iterate_inside {c b m : ℝ} (hc : 0.6745 < c) (hb : 0 < b) (hbc : b ≤ c ^ 2 / 12) (hm : 0 < m)
    {res : List ℝ} (hhalf : res.length ≤ 2 * (res.map fun r => |r|).countP (fun x => decide (m ≤ x))) (hne : res ≠ []) (j : ℕ) :
    0 < (Spec.scaleUpdate (tukeyRho c) b res)^[j] (m / 0.6745) ∧ m < c * (Spec.scaleUpdate (tukeyRho c) b res)^[j] (m / 0.6745) := by
  have hc0 : 0 < c := lt_trans (by norm_num) hc
  induction j with
  | zero =>
    refine ⟨by simp only [Function.iterate_zero, id_eq]; positivity, ?_⟩
    simp only [Function.iterate_zero, id_eq]
    rw [mul_div_assoc', lt_div_iff₀ (by norm_num)]
    nlinarith
  | succ j ih =>
    rw [Function.iterate_succ_apply']
    have h := scaleUpdate_inside hc0 hb hbc hm ih.1 ih.2 hhalf hne
    refine ⟨?_, h⟩
    exact (pos_iff_pos_of_mul_pos (lt_trans hm h)).1 hc0

/-! Weighted least squares -/

theorem dotRow_regCoef {A : Matrix (Fin k) (Fin k) ℝ} (hA : IsUnit A.det) (g b x : Fin k → ℝ) :
    dotRow (Matrix.vecMul x A) (Spec.regCoef A g b) = dotRow x b + dotRow x g := by
  have e : ∀ x y : Fin k → ℝ, dotRow x y = x ⬝ᵥ y := fun x y => rfl
  unfold Spec.regCoef
  rw [e, ← Matrix.dotProduct_mulVec, Matrix.mulVec_mulVec, Matrix.mul_nonsing_inv A hA, Matrix.one_mulVec, dotProduct_add]
  rfl

theorem regCoef_surj {A : Matrix (Fin k) (Fin k) ℝ} (hA : IsUnit A.det) (g m : Fin k → ℝ) : Spec.regCoef A g (A.mulVec m - g) = m := by
  unfold Spec.regCoef
  rw [sub_add_cancel, Matrix.mulVec_mulVec, Matrix.nonsing_inv_mul A hA, Matrix.one_mulVec]

theorem regCoef_inj {A : Matrix (Fin k) (Fin k) ℝ} (hA : IsUnit A.det) (g : Fin k → ℝ) {a b : Fin k → ℝ}
    (h : Spec.regCoef A g a = Spec.regCoef A g b) : a = b := by
  have := congrArg A.mulVec h
  unfold Spec.regCoef at this
  rw [Matrix.mulVec_mulVec, Matrix.mulVec_mulVec, Matrix.mul_nonsing_inv A hA, Matrix.one_mulVec, Matrix.one_mulVec] at this
  exact add_right_cancel this

/-- A weighted least squares fit that is determined by the rows with a weight follows the change. -/
theorem WLSReg.fit_reg (W : WLSReg) {D : List ((Fin k → ℝ) × ℝ × ℝ)} (hw : ∀ d ∈ D, 0 ≤ d.2.2)
    (hdet : ∀ a b : Fin k → ℝ, (∀ d ∈ D, d.2.2 = 0 ∨ dotRow d.1 a = dotRow d.1 b) → a = b) {A : Matrix (Fin k) (Fin k) ℝ}
    (hA : IsUnit A.det) (g : Fin k → ℝ) :
    W.fit (D.map fun d => (Matrix.vecMul d.1 A, d.2.1 + dotRow d.1 g, d.2.2)) = Spec.regCoef A g (W.fit D) := by
  have e : ∀ b, wssr (D.map fun d => (Matrix.vecMul d.1 A, d.2.1 + dotRow d.1 g, d.2.2)) (Spec.regCoef A g b) = wssr D b := by
    intro b
    unfold wssr
    rw [List.map_map]
    congr 1
    refine List.map_congr_left fun d _ => ?_
    simp only [Function.comp]
    rw [dotRow_regCoef hA]
    ring
  refine W.fit_unique ?_ ?_ ?_
  · intro d hd
    obtain ⟨d', hd', rfl⟩ := List.mem_map.1 hd
    exact hw d' hd'
  · intro m
    rw [e, ← regCoef_surj hA g m, e]
    exact W.isMin D hw _
  · intro m hm
    rw [e] at hm
    rw [← regCoef_surj hA g m, e] at hm
    have h1 : ∀ b, wssr D (A.mulVec m - g) ≤ wssr D b := by
      intro b
      rw [hm]
      exact W.isMin D hw b
    have h2 := hdet _ _ (wls_predict_eq hw h1 (W.isMin D hw))
    have h3 := regCoef_surj hA g m
    rw [h2] at h3
    rw [h3]

theorem sRes_reg {A : Matrix (Fin k) (Fin k) ℝ} (hA : IsUnit A.det) (g b : Fin k → ℝ) (D : List ((Fin k → ℝ) × ℝ)) :
    sRes (Spec.regTransform A g D) (Spec.regCoef A g b) = sRes D b := by
  unfold sRes Spec.regTransform
  rw [List.map_map]
  refine List.map_congr_left fun d _ => ?_
  simp only [Function.comp]
  rw [dotRow_regCoef hA]
  unfold dotRow
  ring

/-- Rows whose residual is not 0 and inside the range of the score function keep a weight. -/
theorem determine_of_count {c s : ℝ} (hc0 : 0 < c) (hs0 : 0 < s) {D : List ((Fin k → ℝ) × ℝ)}
    (hD : ∀ a b : Fin k → ℝ, k ≤ D.countP (fun d => decide (∑ j, d.1 j * a j = ∑ j, d.1 j * b j)) → a = b) (beta : Fin k → ℝ)
    (hk : k ≤ D.countP (fun d => decide (dotRow d.1 beta - d.2 ≠ 0 ∧ |dotRow d.1 beta - d.2| < c * s))) (a a' : Fin k → ℝ)
    (h : ∀ d ∈ sWeighted D ((sRes D beta).map (sWeight (.tukey c) s)), d.2.2 = 0 ∨ dotRow d.1 a = dotRow d.1 a') : a = a' := by
  refine hD a a' (hk.trans (List.countP_mono_left fun d hd hP => ?_))
  simp only [decide_eq_true_eq] at hP ⊢
  have hmem : (d.1, d.2, sWeight (.tukey c) s (dotRow d.1 beta - d.2)) ∈ sWeighted D ((sRes D beta).map (sWeight (.tukey c) s)) := by
    unfold sWeighted sRes
    rw [List.map_map, List.zipWith_map_right, List.zipWith_self]
    exact List.mem_map.2 ⟨d, hd, rfl⟩
  rcases h _ hmem with h0 | h0
  · exfalso
    simp only at h0
    rw [sWeight_tukey hc0 hs0] at h0
    have e : Spec.notZero (dotRow d.1 beta - d.2) = dotRow d.1 beta - d.2 := by
      unfold Spec.notZero
      rw [if_neg hP.1]
    rw [e] at h0
    unfold Spec.bisquareWeight at h0
    have hlt : |dotRow d.1 beta - d.2| < c * s := hP.2
    rw [if_pos hlt.le] at h0
    have h5 := pow_eq_zero_iff (two_ne_zero) |>.1 h0
    have h6 : ((dotRow d.1 beta - d.2) / (c * s)) ^ 2 < 1 := by
      rw [div_pow, div_lt_one (by positivity), ← sq_abs]
      exact pow_lt_pow_left₀ hlt (abs_nonneg _) two_ne_zero
    linarith
  · exact h0

/-- In general position the rows that keep a weight determine the coefficients. -/
theorem weights_determine {c b tol : ℝ} {maxIter : ℕ} (hc : 0.6745 < c) (hb : 0 < b) (hbc : b ≤ c ^ 2 / 12) {D : List ((Fin k → ℝ) × ℝ)}
    (hD : Spec.regGeneralPosition D) (beta : Fin k → ℝ) {s : ℝ}
    (hs : sGetScale (.tukey c) b tol (sRes D beta) maxIter (sInitialScale (sRes D beta)) = .ok (some s)) (a a' : Fin k → ℝ)
    (h : ∀ d ∈ sWeighted D ((sRes D beta).map (sWeight (.tukey c) s)), d.2.2 = 0 ∨ dotRow d.1 a = dotRow d.1 a') : a = a' := by
  have hc0 : 0 < c := lt_trans (by norm_num) hc
  have hz := hD.2 beta
  have hmax : maxIter ≠ 0 := by
    rintro rfl
    simp [sGetScale] at hs
  have hDne : D ≠ [] := by
    rintro rfl
    simp at hz
  have hne : sRes D beta ≠ [] := by simpa [sRes] using hDne
  obtain ⟨m, hm⟩ := npMedian_isSome (xs := (sRes D beta).map fun r => |r|) (by simpa using hne)
  obtain ⟨hle, hge⟩ := npMedian_half hm
  have hlen : (sRes D beta).length = D.length := by simp [sRes]
  rw [List.length_map] at hle hge
  have hcnt : ∀ P : ℝ → Bool, ((sRes D beta).map fun r => |r|).countP P = D.countP fun d => P |dotRow d.1 beta - d.2| := by
    intro P
    unfold sRes
    rw [List.map_map, List.countP_map]
    rfl
  -- residuals that are small but not 0
  have hsplit : D.countP (fun d => decide (|dotRow d.1 beta - d.2| ≤ m)) ≤
      D.countP (fun d => decide (d.2 = ∑ j, d.1 j * beta j)) +
        D.countP (fun d => decide (dotRow d.1 beta - d.2 ≠ 0 ∧ |dotRow d.1 beta - d.2| ≤ m)) := by
    clear * -
    induction D with
    | nil => simp
    | cons d D ih =>
      simp only [List.countP_cons]
      have : (if decide (|dotRow d.1 beta - d.2| ≤ m) = true then 1 else 0) ≤
          (if decide (d.2 = ∑ j, d.1 j * beta j) = true then 1 else 0) +
          (if decide (dotRow d.1 beta - d.2 ≠ 0 ∧ |dotRow d.1 beta - d.2| ≤ m) = true then 1 else 0) := by
        by_cases h1 : |dotRow d.1 beta - d.2| ≤ m
        · by_cases h2 : dotRow d.1 beta - d.2 = 0
          · have h3 : d.2 = ∑ j, d.1 j * beta j := by
              have : dotRow d.1 beta = d.2 := by linarith
              rw [← this]; rfl
            simp [h1, ← h3]
          · simp [h1, h2]
        · simp [h1]
      omega
  have hkeep : D.length ≤ 2 * (D.countP (fun d => decide (d.2 = ∑ j, d.1 j * beta j)) +
      D.countP (fun d => decide (dotRow d.1 beta - d.2 ≠ 0 ∧ |dotRow d.1 beta - d.2| ≤ m))) := by
    rw [hlen, hcnt] at hle
    omega
  have hk : k ≤ D.countP (fun d => decide (dotRow d.1 beta - d.2 ≠ 0 ∧ |dotRow d.1 beta - d.2| ≤ m)) := by omega
  have hm0 : 0 < m := by
    by_contra hneg
    have h0 : D.countP (fun d => decide (dotRow d.1 beta - d.2 ≠ 0 ∧ |dotRow d.1 beta - d.2| ≤ m)) = 0 := by
      rw [List.countP_eq_zero]
      intro d _
      simp only [decide_eq_true_eq, not_and, not_le]
      intro h1
      exact lt_of_le_of_lt (not_lt.1 hneg) (abs_pos.2 h1)
    omega
  have hinit : sInitialScale (sRes D beta) = m / 0.6745 := by
    unfold sInitialScale
    rw [hm]
    rfl
  obtain ⟨j, -, h2, -⟩ := (C56_iterate c b tol (sRes D beta) maxIter (sInitialScale (sRes D beta))).2 hmax
  rw [h2] at hs
  simp only [Except.ok.injEq, Option.some.injEq] at hs
  obtain ⟨hs0, hms⟩ := iterate_inside hc hb hbc hm0 hge hne (j + 1)
  rw [← hinit, hs] at hs0 hms
  refine determine_of_count hc0 hs0 hD.1 beta (hk.trans (List.countP_mono_left fun d _ hP => ?_)) a a' h
  simp only [decide_eq_true_eq] at hP ⊢
  exact ⟨hP.1, lt_of_le_of_lt hP.2 hms⟩

/-- An i-step from coefficients at which the rows with a weight determine the fit. -/
theorem sIStep_reg (W : WLSReg) (cfg : SConfig) (c : ℝ) (hR : cfg.rho = .tukey c) (hc0 : 0 < c) (D : List ((Fin k → ℝ) × ℝ))
    (beta : Fin k → ℝ)
    (hdet : ∀ s, sGetScale (.tukey c) cfg.b cfg.scaleTolerance (sRes D beta) cfg.maxScaleIterations (sInitialScale (sRes D beta)) =
      .ok (some s) → ∀ a a' : Fin k → ℝ,
      (∀ d ∈ sWeighted D ((sRes D beta).map (sWeight (.tukey c) s)), d.2.2 = 0 ∨ dotRow d.1 a = dotRow d.1 a') → a = a')
    (A : Matrix (Fin k) (Fin k) ℝ) (hA : IsUnit A.det) (g : Fin k → ℝ) :
    sIStep W cfg (Spec.regTransform A g D) (sRes (Spec.regTransform A g D) (Spec.regCoef A g beta)) =
      (sIStep W cfg D (sRes D beta)).map fun m => (Spec.regCoef A g m.1, m.2) := by
  rw [sRes_reg hA]
  unfold sIStep
  rw [hR]
  rcases h : sGetScale (.tukey c) cfg.b cfg.scaleTolerance (sRes D beta) cfg.maxScaleIterations (sInitialScale (sRes D beta)) with
    e | (_ | s)
  · rfl
  · rfl
  · simp only [Except.map]
    have hs := sGetScale_nonneg _ _ _ _ _ (sInitialScale_nonneg _) h
    rw [← W.fit_reg (fun d hd => by
      obtain ⟨r, -, hr⟩ := List.mem_map.1 (sWeighted_mem hd)
      rw [← hr]
      exact sWeight_nonneg (R := .tukey c) hc0 hs r) (hdet s h) hA g]
    congr 3
    unfold sWeighted Spec.regTransform
    rw [List.map_zipWith, List.zipWith_map_left]
    rfl

/-- **C190** (partial): one i-step, for every setting of the tolerances, in general position; `b` is at most half of the largest value
of the score function, as it has to be for a scale that half of the observations cannot break.  Missing: `b` of the defaults. -/
theorem C190_step_partial (W : WLSReg) (cfg : SConfig) (c : ℝ) (hR : cfg.rho = .tukey c) (hc : 0.6745 < c) (hb : 0 < cfg.b)
    (hbc : cfg.b ≤ c ^ 2 / 12) (D : List ((Fin k → ℝ) × ℝ)) (hD : Spec.regGeneralPosition D) (A : Matrix (Fin k) (Fin k) ℝ)
    (hA : IsUnit A.det) (g beta : Fin k → ℝ) :
    sIStep W cfg (Spec.regTransform A g D) (sRes (Spec.regTransform A g D) (Spec.regCoef A g beta)) =
      (sIStep W cfg D (sRes D beta)).map fun m => (Spec.regCoef A g m.1, m.2) :=
  sIStep_reg W cfg c hR (lt_trans (by norm_num) hc) D beta (fun _ h => weights_determine hc hb hbc hD beta h) A hA g

/-- The search, if each i-step follows the change and every `k` rows determine the coefficients. -/
theorem sSearch_reg (W : WLSReg) (srt : ArgSort ℝ) (ch : Choice ℕ) (cfg : SConfig) (htol : cfg.relativeTolerance = 0)
    (D : List ((Fin k → ℝ) × ℝ))
    (hD : ∀ a b : Fin k → ℝ, k ≤ D.countP (fun d => decide (∑ j, d.1 j * a j = ∑ j, d.1 j * b j)) → a = b)
    (A : Matrix (Fin k) (Fin k) ℝ) (hA : IsUnit A.det) (g : Fin k → ℝ)
    (hstep : ∀ beta, sIStep W cfg (Spec.regTransform A g D) (sRes (Spec.regTransform A g D) (Spec.regCoef A g beta)) =
      (sIStep W cfg D (sRes D beta)).map fun m => (Spec.regCoef A g m.1, m.2)) (fuel : ℕ) :
    sSearch W srt ch cfg (Spec.regTransform A g D) fuel =
      (sSearch W srt ch cfg D fuel).map (Except.map fun m => (Spec.regCoef A g m.1, m.2)) := by
  refine sSearch_sim W srt ch ch cfg D (Spec.regTransform A g D) (Spec.regCoef A g) (by simp [Spec.regTransform]) hstep ?_ ?_ ?_ ?_ fuel
  · intro beta
    rw [sIStep_neg, sIStep_neg]
    exact hstep beta
  · intro i _ hn
    have hlen := ch.length (cfg.randomState + i) D.length (k + 1) hn
    have hnd := ch.nodup (cfg.randomState + i) D.length (k + 1) hn
    have hlt := ch.lt (cfg.randomState + i) D.length (k + 1) hn
    generalize ch.pick (cfg.randomState + i) D.length (k + 1) = idx at *
    rw [← W.fit_reg ?_ ?_ hA g]
    · congr 1
      unfold Spec.regTransform
      rw [takeAt_map, List.map_map, List.map_map]
      rfl
    · intro d hd
      obtain ⟨d', -, rfl⟩ := List.mem_map.1 hd
      exact zero_le_one
    · intro a a' h
      refine hD a a' ?_
      have h1 : (takeAt D idx).countP (fun d => decide (∑ j, d.1 j * a j = ∑ j, d.1 j * a' j)) = (takeAt D idx).length := by
        rw [List.countP_eq_length]
        intro d hd
        rcases h _ (List.mem_map.2 ⟨d, hd, rfl⟩) with h0 | h0
        · exact absurd h0 one_ne_zero
        · exact decide_eq_true h0
      have h2 := (takeAt_subperm D idx hnd hlt).countP_le (fun d => decide (∑ j, d.1 j * a j = ∑ j, d.1 j * a' j))
      rw [h1, takeAt_length _ _ hlt, hlen] at h2
      omega
  · intro beta
    rw [sRes_reg hA]
  · intro a b
    have hiff : ∀ x y : Fin k → ℝ, sConverged cfg.relativeTolerance x y = decide (y = x) := by
      intro x y
      unfold sConverged
      rw [htol, zero_mul]
      refine decide_eq_decide.2 ⟨fun h => ?_, fun h => ?_⟩
      · exact sub_eq_zero.1 (vecNorm_eq_zero h)
      · rw [h, sub_self]
        simp [vecNorm]
    rw [hiff, hiff]
    exact decide_eq_decide.2 ⟨fun h => regCoef_inj hA g h, fun h => by rw [h]⟩

/-- **C190** (partial): the whole search, in general position, with `relative_tolerance = 0` and `b` at most half of the largest value of
the score function.  Missing: other tolerances, since the coefficients are compared relative to their own size, the default `b`, and
samples most of which are fitted exactly. -/
theorem C190_search_partial (W : WLSReg) (srt : ArgSort ℝ) (ch : Choice ℕ) (cfg : SConfig) (c : ℝ) (hR : cfg.rho = .tukey c)
    (hc : 0.6745 < c) (hb : 0 < cfg.b) (hbc : cfg.b ≤ c ^ 2 / 12) (htol : cfg.relativeTolerance = 0) (D : List ((Fin k → ℝ) × ℝ))
    (hD : Spec.regGeneralPosition D) (A : Matrix (Fin k) (Fin k) ℝ) (hA : IsUnit A.det) (g : Fin k → ℝ) (fuel : ℕ) :
    sSearch W srt ch cfg (Spec.regTransform A g D) fuel =
      (sSearch W srt ch cfg D fuel).map (Except.map fun m => (Spec.regCoef A g m.1, m.2)) :=
  sSearch_reg W srt ch cfg htol D hD.1 A hA g (fun beta => C190_step_partial W cfg c hR hc hb hbc D hD A hA g beta) fuel

/-! The default score function, `b` and number of iterations -/

/-- One update of the scale with the defaults, if the fraction `θ` of the residuals is at least `q`. -/
theorem scaleUpdate_sq_ge {s q θ : ℝ} (hs : 0 < s) (hq : 0 ≤ q) {res : List ℝ} (hne : res ≠ [])
    (hcnt : θ * res.length ≤ ((res.map fun r => |r|).countP (fun x => decide (q ≤ x)) : ℝ)) :
    2 * θ * s ^ 2 * tukeyRho 1.547 (q / s) ≤ Spec.scaleUpdate (tukeyRho 1.547) 0.5 res s ^ 2 := by
  have hn : (0 : ℝ) < res.length := by exact_mod_cast List.length_pos_iff.2 hne
  have hc : (0 : ℝ) < 1.547 := by norm_num
  have hsum : ∀ l : List ℝ, ((l.map fun r => |r|).countP (fun x => decide (q ≤ x)) : ℝ) * tukeyRho 1.547 (q / s) ≤
      (l.map fun r => tukeyRho 1.547 (r / s)).sum := by
    intro l
    induction l with
    | nil => simp
    | cons r l ih =>
      simp only [List.map_cons, List.sum_cons, List.countP_cons]
      have h0 := (C13_range 1.547 (r / s) hc).1
      by_cases h : q ≤ |r|
      · have h1 := C13_mono 1.547 (q / s) (r / s) hc (by
          rw [abs_of_nonneg (div_nonneg hq hs.le), abs_div, abs_of_pos hs]
          exact div_le_div_of_nonneg_right h hs.le)
        simp only [h, decide_true, if_true]
        push_cast
        linarith
      · simp only [h, decide_false]
        simp only [Bool.false_eq_true, if_false, Nat.add_zero]
        linarith
  have hr0 := (C13_range 1.547 (q / s) hc).1
  have hmean0 : 0 ≤ (res.map fun r => tukeyRho 1.547 (r / s)).sum :=
    List.sum_nonneg fun x hx => by
      obtain ⟨r, -, rfl⟩ := List.mem_map.1 hx
      exact (C13_range 1.547 (r / s) hc).1
  have hmean : θ * tukeyRho 1.547 (q / s) ≤ (res.map fun r => tukeyRho 1.547 (r / s)).sum / res.length := by
    rw [le_div_iff₀ hn]
    refine le_trans ?_ (hsum res)
    have := mul_le_mul_of_nonneg_right hcnt hr0
    linarith
  unfold Spec.scaleUpdate
  rw [mul_pow, Real.sq_sqrt (by positivity)]
  have : (res.map fun r => tukeyRho 1.547 (r / s)).sum / res.length / 0.5 =
      2 * ((res.map fun r => tukeyRho 1.547 (r / s)).sum / res.length) := by ring
  rw [this]
  nlinarith [mul_le_mul_of_nonneg_left hmean (sq_nonneg s)]

/-- If nine tenths of the residuals are outside the range of the new scale, the scale has not become much smaller. -/
theorem scaleUpdate_ratio {s : ℝ} (hs : 0 < s) {res : List ℝ} (hne : res ≠ []) (hpos : 0 < Spec.scaleUpdate (tukeyRho 1.547) 0.5 res s)
    (hcnt : 0.9 * (res.length : ℝ) ≤ ((res.map fun r => |r|).countP
      (fun x => decide (1.547 * Spec.scaleUpdate (tukeyRho 1.547) 0.5 res s ≤ x)) : ℝ)) :
    0.83 * s ≤ Spec.scaleUpdate (tukeyRho 1.547) 0.5 res s := by
  have h := scaleUpdate_sq_ge hs (by positivity) hne hcnt
  generalize Spec.scaleUpdate (tukeyRho 1.547) 0.5 res s = s' at *
  by_contra hlt
  push Not at hlt
  have hss : s' ≤ s := by linarith
  set t := s' / s with ht
  have ht0 : 0 < t := by positivity
  have ht1 : t < 0.83 := by rw [ht, div_lt_iff₀ hs]; exact hlt
  have hs' : s' = t * s := by rw [ht]; field_simp
  have he : 1.547 * s' / s = 1.547 * t := by rw [ht]; ring
  rw [he] at h
  have hrho : tukeyRho 1.547 (1.547 * t) = 1.547 ^ 2 / 6 * (3 * t ^ 2 - 3 * t ^ 4 + t ^ 6) := by
    unfold tukeyRho
    rw [if_pos (by rw [abs_of_pos (by positivity)]; linarith)]
    ring
  rw [hrho, hs', mul_pow] at h
  have h1 : 2 * 0.9 * (1.547 ^ 2 / 6 * (3 * t ^ 2 - 3 * t ^ 4 + t ^ 6)) ≤ t ^ 2 := by
    have : s ^ 2 * (2 * 0.9 * (1.547 ^ 2 / 6 * (3 * t ^ 2 - 3 * t ^ 4 + t ^ 6))) ≤ s ^ 2 * t ^ 2 := by linarith
    exact le_of_mul_le_mul_left this (by positivity)
  have h2 : 2 * 0.9 * (1.547 ^ 2 / 6 * (3 - 3 * t ^ 2 + t ^ 4)) ≤ 1 := by
    have : t ^ 2 * (2 * 0.9 * (1.547 ^ 2 / 6 * (3 - 3 * t ^ 2 + t ^ 4))) ≤ t ^ 2 * 1 := by
      nlinarith
    exact le_of_mul_le_mul_left this (by positivity)
  have hw : t ^ 2 < 0.6889 := by
    have : t ^ 2 < 0.83 ^ 2 := pow_lt_pow_left₀ ht1 ht0.le two_ne_zero
    norm_num at this ⊢
    exact this
  have e4 : t ^ 4 = (t ^ 2) ^ 2 := by ring
  rw [e4] at h2
  have hw0 : 0 < t ^ 2 := by positivity
  generalize t ^ 2 = w at *
  nlinarith

theorem tukeyRho_pos {x : ℝ} (hx : 0 < x) : 0 < tukeyRho 1.547 x := by
  unfold tukeyRho
  split_ifs with h
  · rw [abs_of_pos hx] at h
    have e : x ^ 2 / 2 - x ^ 4 / (2 * 1.547 ^ 2) + x ^ 6 / (6 * 1.547 ^ 4) =
        x ^ 2 / 6 * (3 - 3 * (x / 1.547) ^ 2 + ((x / 1.547) ^ 2) ^ 2) := by ring
    rw [e]
    have h0 : 0 < 3 - 3 * (x / 1.547) ^ 2 + ((x / 1.547) ^ 2) ^ 2 := by nlinarith [sq_nonneg ((x / 1.547) ^ 2 - 3 / 2)]
    positivity
  · norm_num

/-- As `Spec.regGeneralPosition`, with at most a tenth of the rows left to exact fits and `k` further rows. -/
def Spec.regWidePosition (D : List ((Fin k → ℝ) × ℝ)) : Prop :=
  (∀ a b : Fin k → ℝ, k ≤ D.countP (fun d => decide (∑ j, d.1 j * a j = ∑ j, d.1 j * b j)) → a = b) ∧
  ∀ b : Fin k → ℝ, 10 * (D.countP (fun d => decide (d.2 = ∑ j, d.1 j * b j)) + k) ≤ D.length

/-- With the default score function, `b` and number of iterations the rows that keep a weight determine the coefficients. -/
theorem default_determine {tol : ℝ} {maxIter : ℕ} (hmax2 : maxIter ≤ 2) {D : List ((Fin k → ℝ) × ℝ)} (hD : Spec.regWidePosition D)
    (beta : Fin k → ℝ) {s : ℝ}
    (hs : sGetScale (.tukey 1.547) 0.5 tol (sRes D beta) maxIter (sInitialScale (sRes D beta)) = .ok (some s)) (a a' : Fin k → ℝ)
    (h : ∀ d ∈ sWeighted D ((sRes D beta).map (sWeight (.tukey 1.547) s)), d.2.2 = 0 ∨ dotRow d.1 a = dotRow d.1 a') : a = a' := by
  by_contra hne'
  have hz := hD.2 beta
  have hmax : maxIter ≠ 0 := by
    rintro rfl
    simp [sGetScale] at hs
  have hk0 : k ≠ 0 := by
    rintro rfl
    exact hne' (Subsingleton.elim _ _)
  have hDne : D ≠ [] := by
    rintro rfl
    simp at hz
    exact hk0 hz
  have hne : sRes D beta ≠ [] := by simpa [sRes] using hDne
  obtain ⟨m, hm⟩ := npMedian_isSome (xs := (sRes D beta).map fun r => |r|) (by simpa using hne)
  obtain ⟨hle, hge⟩ := npMedian_half hm
  have hlen : (sRes D beta).length = D.length := by simp [sRes]
  have hn : (0 : ℝ) < (sRes D beta).length := by exact_mod_cast List.length_pos_iff.2 hne
  rw [List.length_map] at hle hge
  have hcnt : ∀ P : ℝ → Bool, ((sRes D beta).map fun r => |r|).countP P = D.countP fun d => P |dotRow d.1 beta - d.2| := by
    intro P
    unfold sRes
    rw [List.map_map, List.countP_map]
    rfl
  have hinit : sInitialScale (sRes D beta) = m / 0.6745 := by
    unfold sInitialScale
    rw [hm]
    rfl
  have hm0 : 0 < m := by
    by_contra hneg
    have h0 : D.countP (fun d => decide (|dotRow d.1 beta - d.2| ≤ m)) ≤ D.countP (fun d => decide (d.2 = ∑ j, d.1 j * beta j)) := by
      refine List.countP_mono_left fun d _ hd => ?_
      simp only [decide_eq_true_eq] at hd ⊢
      have h1 : dotRow d.1 beta - d.2 = 0 := abs_eq_zero.1 (le_antisymm (hd.trans (not_lt.1 hneg)) (abs_nonneg _))
      have h2 : dotRow d.1 beta = d.2 := by linarith
      rw [← h2]
      rfl
    rw [hlen, hcnt] at hle
    omega
  have hhalf : 0.5 * ((sRes D beta).length : ℝ) ≤ (((sRes D beta).map fun r => |r|).countP (fun x => decide (m ≤ x)) : ℝ) := by
    have : ((sRes D beta).length : ℝ) ≤ 2 * (((sRes D beta).map fun r => |r|).countP (fun x => decide (m ≤ x)) : ℝ) := by
      exact_mod_cast hge
    linarith
  -- the update keeps the scale positive
  have hupos : ∀ s, 0 < s → 0 < Spec.scaleUpdate (tukeyRho 1.547) 0.5 (sRes D beta) s := by
    intro s hs
    have h1 := scaleUpdate_sq_ge hs hm0.le hne hhalf
    have h2 := tukeyRho_pos (div_pos hm0 hs)
    have h3 : 0 < Spec.scaleUpdate (tukeyRho 1.547) 0.5 (sRes D beta) s ^ 2 := lt_of_lt_of_le (by positivity) h1
    exact lt_of_le_of_ne (scaleUpdate_nonneg _ _ _ hs.le) fun h0 => by rw [← h0] at h3; norm_num at h3
  obtain ⟨j, hj, h2, -⟩ := (C56_iterate 1.547 0.5 tol (sRes D beta) maxIter (sInitialScale (sRes D beta))).2 hmax
  rw [h2] at hs
  simp only [Except.ok.injEq, Option.some.injEq] at hs
  rw [hinit] at hs
  set s0 := m / 0.6745 with hs0def
  have hs0 : 0 < s0 := by positivity
  set U := Spec.scaleUpdate (tukeyRho 1.547) 0.5 (sRes D beta) with hU
  have hspos : 0 < s := by
    rw [← hs]
    have : ∀ i, 0 < U^[i] s0 := by
      intro i
      induction i with
      | zero => exact hs0
      | succ i ih => rw [Function.iterate_succ_apply']; exact hupos _ ih
    exact this _
  -- nine tenths of the residuals are out of range
  have hout : 0.9 * ((sRes D beta).length : ℝ) ≤ (((sRes D beta).map fun r => |r|).countP (fun x => decide (1.547 * s ≤ x)) : ℝ) := by
    have hfew : D.countP (fun d => decide (dotRow d.1 beta - d.2 ≠ 0 ∧ |dotRow d.1 beta - d.2| < 1.547 * s)) < k := by
      by_contra hk
      exact hne' (determine_of_count (by norm_num) hspos hD.1 beta (not_lt.1 hk) a a' h)
    have hsplit : D.length ≤ D.countP (fun d => decide (d.2 = ∑ j, d.1 j * beta j)) +
        D.countP (fun d => decide (dotRow d.1 beta - d.2 ≠ 0 ∧ |dotRow d.1 beta - d.2| < 1.547 * s)) +
        D.countP (fun d => decide (1.547 * s ≤ |dotRow d.1 beta - d.2|)) := by
      clear * -
      induction D with
      | nil => simp
      | cons d D ih =>
        simp only [List.countP_cons, List.length_cons]
        have : 1 ≤ (if decide (d.2 = ∑ j, d.1 j * beta j) = true then 1 else 0) +
            (if decide (dotRow d.1 beta - d.2 ≠ 0 ∧ |dotRow d.1 beta - d.2| < 1.547 * s) = true then 1 else 0) +
            (if decide (1.547 * s ≤ |dotRow d.1 beta - d.2|) = true then 1 else 0) := by
          by_cases h1 : 1.547 * s ≤ |dotRow d.1 beta - d.2|
          · simp [h1]
          · by_cases h2 : dotRow d.1 beta - d.2 = 0
            · have h3 : d.2 = ∑ j, d.1 j * beta j := by
                have : dotRow d.1 beta = d.2 := by linarith
                rw [← this]; rfl
              rw [if_pos (decide_eq_true h3)]
              omega
            · have h4 := not_le.1 h1
              rw [if_pos (decide_eq_true (p := dotRow d.1 beta - d.2 ≠ 0 ∧ |dotRow d.1 beta - d.2| < 1.547 * s) ⟨h2, h4⟩)]
              omega
        omega
    rw [hcnt, hlen]
    have : 9 * D.length ≤ 10 * D.countP (fun d => decide (1.547 * s ≤ |dotRow d.1 beta - d.2|)) := by omega
    have : (9 : ℝ) * D.length ≤ 10 * (D.countP (fun d => decide (1.547 * s ≤ |dotRow d.1 beta - d.2|)) : ℝ) := by exact_mod_cast this
    linarith
  -- so the range does not reach the median
  have hbig : 1.547 * s ≤ m := by
    by_contra hlt
    push Not at hlt
    have hsum : ∀ l : List ℝ, l.countP (fun x => decide (1.547 * s ≤ x)) + l.countP (fun x => decide (x ≤ m)) ≤ l.length := by
      intro l
      induction l with
      | nil => simp
      | cons x l ih =>
        simp only [List.countP_cons, List.length_cons]
        by_cases h1 : 1.547 * s ≤ x
        · have h2 : ¬ x ≤ m := fun h2 => absurd (lt_of_lt_of_le hlt h1) (not_lt.2 h2)
          simp only [h1, h2, decide_true, decide_false, if_true, Bool.false_eq_true, if_false]
          omega
        · simp only [h1, decide_false, Bool.false_eq_true, if_false]
          split_ifs <;> omega
    have h1 := hsum ((sRes D beta).map fun r => |r|)
    rw [List.length_map] at h1
    have h1' : (((sRes D beta).map fun r => |r|).countP (fun x => decide (1.547 * s ≤ x)) : ℝ) +
      (((sRes D beta).map fun r => |r|).countP (fun x => decide (x ≤ m)) : ℝ) ≤ ((sRes D beta).length : ℝ) := by exact_mod_cast h1
    have h2' : ((sRes D beta).length : ℝ) ≤ 2 * (((sRes D beta).map fun r => |r|).countP (fun x => decide (x ≤ m)) : ℝ) := by
      exact_mod_cast hle
    linarith
  have hcut : ∀ q, q ≤ 1.547 * s → 0.9 * ((sRes D beta).length : ℝ) ≤
      (((sRes D beta).map fun r => |r|).countP (fun x => decide (q ≤ x)) : ℝ) := by
    intro q hq
    refine hout.trans ?_
    exact_mod_cast List.countP_mono_left fun x _ hx => by
      simp only [decide_eq_true_eq] at hx ⊢
      exact hq.trans hx
  have hms0 : m = 0.6745 * s0 := by rw [hs0def]; ring
  have hj2 : j = 0 ∨ j = 1 := by omega
  rcases hj2 with rfl | rfl
  · simp only [zero_add, Function.iterate_one] at hs
    have hr := scaleUpdate_ratio hs0 hne (hupos s0 hs0) (by rw [← hU, hs]; exact hout)
    rw [← hU, hs] at hr
    nlinarith
  · have hs2 : U (U s0) = s := by
      rw [← hs]
      rfl
    set s1 := U s0 with hs1
    have hs1pos : 0 < s1 := hupos s0 hs0
    have hr := scaleUpdate_ratio hs1pos hne (hupos s1 hs1pos) (by rw [← hU, hs2]; exact hout)
    rw [← hU, hs2] at hr
    -- three rounds of bounds for the first scale
    have hround : ∀ κ θ : ℝ, 0 ≤ κ → θ * ((sRes D beta).length : ℝ) ≤
        (((sRes D beta).map fun r => |r|).countP (fun x => decide (κ * m ≤ x)) : ℝ) →
        2 * θ * s0 ^ 2 * tukeyRho 1.547 (κ * 0.6745) ≤ s1 ^ 2 := by
      intro κ θ hκ hc
      have := scaleUpdate_sq_ge hs0 (mul_nonneg hκ hm0.le) hne hc
      rw [← hU, ← hs1] at this
      have e : κ * m / s0 = κ * 0.6745 := by rw [hms0]; field_simp
      rwa [e] at this
    have hrho : ∀ x : ℝ, 0 ≤ x → x ≤ 1.547 → tukeyRho 1.547 x = x ^ 2 / 2 - x ^ 4 / (2 * 1.547 ^ 2) + x ^ 6 / (6 * 1.547 ^ 4) := by
      intro x h0 h1
      unfold tukeyRho
      rw [if_pos (by rw [abs_of_nonneg h0]; exact h1)]
    have hsqle : ∀ t : ℝ, 0 ≤ t → (t * s0) ^ 2 ≤ s1 ^ 2 → t * s0 ≤ s1 := fun t _ ht => (abs_le_of_sq_le_sq' ht hs1pos.le).2
    have b1 : 0.43 * s0 ≤ s1 := by
      refine hsqle _ (by norm_num) (le_trans ?_ (hround 1 0.5 (by norm_num) (by rw [one_mul]; exact hhalf)))
      rw [hrho _ (by norm_num) (by norm_num)]
      have : (0.43 : ℝ) ^ 2 ≤ 2 * 0.5 * ((1 * 0.6745) ^ 2 / 2 - (1 * 0.6745) ^ 4 / (2 * 1.547 ^ 2) + (1 * 0.6745) ^ 6 / (6 * 1.547 ^ 4)) := by
        norm_num
      nlinarith [sq_nonneg s0]
    have b2 : 0.48 * s0 ≤ s1 := by
      refine hsqle _ (by norm_num) (le_trans ?_ (hround 0.81 0.9 (by norm_num) (hcut _ (by nlinarith))))
      rw [hrho _ (by norm_num) (by norm_num)]
      have : (0.48 : ℝ) ^ 2 ≤ 2 * 0.9 * ((0.81 * 0.6745) ^ 2 / 2 - (0.81 * 0.6745) ^ 4 / (2 * 1.547 ^ 2) +
          (0.81 * 0.6745) ^ 6 / (6 * 1.547 ^ 4)) := by norm_num
      nlinarith [sq_nonneg s0]
    have b3 : 0.53 * s0 ≤ s1 := by
      refine hsqle _ (by norm_num) (le_trans ?_ (hround 0.9 0.9 (by norm_num) (hcut _ (by nlinarith))))
      rw [hrho _ (by norm_num) (by norm_num)]
      have : (0.53 : ℝ) ^ 2 ≤ 2 * 0.9 * ((0.9 * 0.6745) ^ 2 / 2 - (0.9 * 0.6745) ^ 4 / (2 * 1.547 ^ 2) +
          (0.9 * 0.6745) ^ 6 / (6 * 1.547 ^ 4)) := by norm_num
      nlinarith [sq_nonneg s0]
    nlinarith

/-- **C190** (partial): one i-step with the default settings, also for other tolerances, if at most a tenth of the rows is left to exact
fits. -/
theorem C190_default_step_partial (W : WLSReg) (cfg : SConfig) (hR : cfg.rho = .tukey 1.547) (hb : cfg.b = 0.5)
    (hmax : cfg.maxScaleIterations ≤ 2) (D : List ((Fin k → ℝ) × ℝ)) (hD : Spec.regWidePosition D) (A : Matrix (Fin k) (Fin k) ℝ)
    (hA : IsUnit A.det) (g beta : Fin k → ℝ) :
    sIStep W cfg (Spec.regTransform A g D) (sRes (Spec.regTransform A g D) (Spec.regCoef A g beta)) =
      (sIStep W cfg D (sRes D beta)).map fun m => (Spec.regCoef A g m.1, m.2) :=
  sIStep_reg W cfg 1.547 hR (by norm_num) D beta (fun _ h => default_determine hmax hD beta (by rw [hb] at h; exact h)) A hA g

/-- **C190** (partial): the whole search with the default settings, except that `relative_tolerance = 0`.  Missing: the default
tolerance, which compares with the size of the coefficients. -/
theorem C190_default_partial (W : WLSReg) (srt : ArgSort ℝ) (ch : Choice ℕ) (cfg : SConfig) (hR : cfg.rho = .tukey 1.547)
    (hb : cfg.b = 0.5) (hmax : cfg.maxScaleIterations ≤ 2) (htol : cfg.relativeTolerance = 0) (D : List ((Fin k → ℝ) × ℝ))
    (hD : Spec.regWidePosition D) (A : Matrix (Fin k) (Fin k) ℝ) (hA : IsUnit A.det) (g : Fin k → ℝ) (fuel : ℕ) :
    sSearch W srt ch cfg (Spec.regTransform A g D) fuel =
      (sSearch W srt ch cfg D fuel).map (Except.map fun m => (Spec.regCoef A g m.1, m.2)) :=
  sSearch_reg W srt ch cfg htol D hD.1 A hA g (fun beta => C190_default_step_partial W cfg hR hb hmax D hD A hA g beta) fuel

/-- Samples that meet the hypotheses: any number of rows from 20 on, a constant column and different targets. -/
theorem widePosition_range (n : ℕ) (hn : 20 ≤ n) : Spec.regWidePosition (k := 1) ((List.range n).map fun i : ℕ => (![1], (i : ℝ))) := by
  constructor
  · intro a b h
    by_contra hne
    have h0 : a 0 ≠ b 0 := fun h0 => hne (by funext j; rw [Subsingleton.elim j 0, h0])
    have h1 : ((List.range n).map fun i : ℕ => ((![1] : Fin 1 → ℝ), (i : ℝ))).countP
        (fun d => decide (∑ j, d.1 j * a j = ∑ j, d.1 j * b j)) = 0 := by
      rw [List.countP_eq_zero]
      intro d hd
      obtain ⟨i, -, rfl⟩ := List.mem_map.1 hd
      simpa using h0
    rw [h1] at h
    omega
  · intro b
    have h1 : ((List.range n).map fun i : ℕ => ((![1] : Fin 1 → ℝ), (i : ℝ))).countP (fun d => decide (d.2 = ∑ j, d.1 j * b j)) ≤ 1 := by
      rw [List.countP_map]
      have e : ((fun d : (Fin 1 → ℝ) × ℝ => decide (d.2 = ∑ j, d.1 j * b j)) ∘ fun i : ℕ => ((![1] : Fin 1 → ℝ), (i : ℝ))) =
          fun i : ℕ => decide ((i : ℝ) = b 0) := by
        funext i
        simp
      rw [e]
      by_cases hex : ∃ i : ℕ, (i : ℝ) = b 0
      · obtain ⟨i0, h0⟩ := hex
        have e2 : (fun i : ℕ => decide ((i : ℝ) = b 0)) = fun i => i == i0 := by
          funext i
          rw [Bool.eq_iff_iff, decide_eq_true_eq, beq_iff_eq, ← h0, Nat.cast_inj]
        rw [e2]
        exact List.nodup_iff_count_le_one.1 List.nodup_range i0
      · have : (List.range n).countP (fun i : ℕ => decide ((i : ℝ) = b 0)) = 0 := by
          rw [List.countP_eq_zero]
          intro i _ hi
          exact hex ⟨i, by simpa using hi⟩
        omega
    have h2 := (Nat.mul_le_mul_left 10 (Nat.add_le_add_right h1 1)).trans hn
    rw [List.length_map, List.length_range]
    convert h2

/-- The default settings themselves, for one i-step from any coefficients. -/
example (W : WLSReg) (g beta : Fin 1 → ℝ) (A : Matrix (Fin 1) (Fin 1) ℝ) (hA : IsUnit A.det) :
    let D : List ((Fin 1 → ℝ) × ℝ) := (List.range 20).map fun i : ℕ => (![1], (i : ℝ))
    sIStep W sDefault (Spec.regTransform A g D) (sRes (Spec.regTransform A g D) (Spec.regCoef A g beta)) =
      (sIStep W sDefault D (sRes D beta)).map fun m => (Spec.regCoef A g m.1, m.2) :=
  C190_default_step_partial W sDefault rfl rfl le_rfl _ (widePosition_range 20 le_rfl) A hA g beta

example (W : WLSReg) (srt : ArgSort ℝ) (ch : Choice ℕ) (g : Fin 1 → ℝ) (A : Matrix (Fin 1) (Fin 1) ℝ) (hA : IsUnit A.det) (fuel : ℕ) :
    let D : List ((Fin 1 → ℝ) × ℝ) := (List.range 20).map fun i : ℕ => (![1], (i : ℝ))
    sSearch W srt ch { sDefault with relativeTolerance := 0 } (Spec.regTransform A g D) fuel =
      (sSearch W srt ch { sDefault with relativeTolerance := 0 } D fuel).map (Except.map fun m => (Spec.regCoef A g m.1, m.2)) :=
  C190_default_partial W srt ch _ rfl rfl le_rfl rfl _ (widePosition_range 20 le_rfl) A hA g fuel

/-- A sample in general position: five different targets, a constant column. -/
example : Spec.regGeneralPosition (k := 1) [(![1], 0), (![1], 1), (![1], 2), (![1], 3), (![1], 10)] := by
  constructor
  · intro a b h
    by_contra hne
    have h0 : a 0 ≠ b 0 := fun h0 => hne (by funext j; rw [Subsingleton.elim j 0, h0])
    simp [List.countP_cons, h0] at h
  · intro b
    simp only [List.countP_cons, List.countP_nil, List.length_cons, List.length_nil, Finset.univ_unique, Fin.default_eq_zero,
      Finset.sum_singleton, Matrix.cons_val_fin_one, one_mul]
    by_cases h0 : (0 : ℝ) = b 0
    · rw [← h0]; norm_num
    · by_cases h1 : (1 : ℝ) = b 0
      · rw [← h1]; norm_num
      · by_cases h2 : (2 : ℝ) = b 0
        · rw [← h2]; norm_num
        · by_cases h3 : (3 : ℝ) = b 0
          · rw [← h3]; norm_num
          · simp only [h0, h1, h2, h3, decide_false, Bool.false_eq_true, if_false]
            split_ifs <;> norm_num

/-- The settings of the theorems: the default score function with the largest `b` allowed. -/
example : (0.6745 : ℝ) < 1.547 ∧ (0 : ℝ) < 1.547 ^ 2 / 12 := by norm_num

/-! The defaults -/

/-- Targets 0, 0, 0, 10. -/
theorem shift_c103 : Spec.regTransform (1 : Matrix (Fin 1) (Fin 1) ℝ) (fun _ => -1) c103Data =
    [(![1], 0), (![1], 0), (![1], 0), (![1], 10)] := by
  simp [Spec.regTransform, c103Data]
  norm_num

theorem regCoef_one (g b : Fin k → ℝ) : Spec.regCoef 1 g b = b + g := by simp [Spec.regCoef]

theorem fit_c190 (W : WLSReg) {w v t : ℝ} (hw : 0 < w) (hv : 0 ≤ v) (ht : 3 * w * (0 - t) + v * (10 - t) = 0) :
    W.fit (sWeighted [((![1] : Fin 1 → ℝ), (0 : ℝ)), (![1], 0), (![1], 0), (![1], 10)] [w, w, w, v]) = fun _ => t := by
  have h := fit_c103 W hw hv (t := t + 1) (by linarith)
  have hr := W.fit_reg (D := sWeighted c103Data [w, w, w, v]) (fun d hd => by
    have := sWeighted_mem hd
    simp only [List.mem_cons, List.not_mem_nil, or_false] at this
    rcases this with h | h | h | h <;> rw [h] <;> first | exact hw.le | exact hv) (fun a b hab => by
      have := hab (![1], 1, w) (by simp [sWeighted, c103Data])
      rcases this with h0 | h0
      · exact absurd h0 hw.ne'
      · rw [dotRow_one, dotRow_one] at h0
        funext j
        rw [Subsingleton.elim j 0, h0]) (A := 1) (by simp) (fun _ => -1)
  rw [h, regCoef_one] at hr
  have e : (sWeighted c103Data [w, w, w, v]).map (fun d => (Matrix.vecMul d.1 1, d.2.1 + dotRow d.1 (fun _ => -1), d.2.2)) =
      sWeighted [((![1] : Fin 1 → ℝ), (0 : ℝ)), (![1], 0), (![1], 0), (![1], 10)] [w, w, w, v] := by
    simp [sWeighted, c103Data, dotRow]
    norm_num
  rw [e] at hr
  rw [hr]
  funext j
  simp

/-- The targets 0, 0, 0, 10 on a constant column. -/
def c190Data : List ((Fin 1 → ℝ) × ℝ) := [(![1], 0), (![1], 0), (![1], 0), (![1], 10)]

theorem sRes_c190 (t : ℝ) : sRes c190Data (fun _ => t) = [t, t, t, t - 10] := by
  simp [sRes, c190Data, dotRow]

/-- From the constant 0 an i-step leads to 0. -/
theorem iStep_c190_zero (W : WLSReg) : sIStep W sDefault c190Data (sRes c190Data fun _ => 0) = .ok (0, 0) :=
  C103_i_step_partial W sDefault 1.547 (by norm_num) rfl (by simp [sDefault]) c190Data (fun _ => 0)
    (by simp [c190Data, List.countP_cons])

/-- An i-step that leads to the constant 1 on the targets 1, 1, 1, 11 leads to 0 on the targets 0, 0, 0, 10. -/
theorem iStep_c190 (W : WLSReg) {a b s : ℝ} (h : sIStep W sDefault c103Data [a, a, a, b] = .ok (fun _ => 1, s)) :
    sIStep W sDefault c190Data [a, a, a, b] = .ok (fun _ => 0, s) := by
  obtain ⟨j, s', h1, h2, h3, h4⟩ := sIStep_tukey W (cfg := sDefault) (c := 1.547) rfl (by simp [sDefault]) c103Data [a, a, a, b]
  obtain ⟨j', s'', h1', h2', h3', h4'⟩ := sIStep_tukey W (cfg := sDefault) (c := 1.547) rfl (by simp [sDefault]) c190Data [a, a, a, b]
  have hss : s'' = s' := by
    unfold sIStep at h4 h4'
    rcases hg : sGetScale sDefault.rho sDefault.b sDefault.scaleTolerance [a, a, a, b] sDefault.maxScaleIterations
      (sInitialScale [a, a, a, b]) with e | (_ | z)
    · rw [hg] at h4; simp at h4
    · rw [hg] at h4; simp at h4
    · rw [hg] at h4 h4'
      simp only [Except.ok.injEq, Prod.mk.injEq] at h4 h4'
      rw [← h4.2, ← h4'.2]
  subst hss
  rw [h4] at h
  simp only [Except.ok.injEq, Prod.mk.injEq] at h
  obtain ⟨hfit, rfl⟩ := h
  rw [h4']
  congr 2
  have hw : ∀ r, 0 ≤ sWeight (.tukey 1.547) s'' r := fun r => sWeight_nonneg (R := .tukey 1.547) (by norm_num [Rho.const]) h3 r
  simp only [List.map_cons, List.map_nil] at hfit ⊢
  rcases eq_or_lt_of_le (hw a) with h0 | h0
  · exfalso
    rcases eq_or_lt_of_le (hw b) with h5 | h5
    · have := W.fit_zero (D := sWeighted c103Data [sWeight (.tukey 1.547) s'' a, sWeight (.tukey 1.547) s'' a, sWeight (.tukey 1.547) s'' a,
        sWeight (.tukey 1.547) s'' b]) fun d hd => by
          have := sWeighted_mem hd
          rw [← h0, ← h5] at this
          simpa using this
      rw [this] at hfit
      exact zero_ne_one (congrFun hfit 0)
    · -- only the fourth observation: the fit is 11
      have hmin := W.isMin (sWeighted c103Data [sWeight (.tukey 1.547) s'' a, sWeight (.tukey 1.547) s'' a, sWeight (.tukey 1.547) s'' a,
        sWeight (.tukey 1.547) s'' b]) (fun d hd => by
          have := sWeighted_mem hd
          simp only [List.mem_cons, List.not_mem_nil, or_false] at this
          rcases this with h | h | h | h <;> rw [h] <;> exact hw _) (fun _ => 11)
      rw [hfit, ← h0] at hmin
      simp [wssr, sWeighted, c103Data, dotRow] at hmin
      norm_num at hmin
      linarith
  · have hv := hw b
    -- the fit to the targets 1, 1, 1, 11 is 1, so the fourth observation has no weight
    have hv0 : sWeight (.tukey 1.547) s'' b = 0 := by
      by_contra hne
      have hpos := lt_of_le_of_ne hv (Ne.symm hne)
      generalize sWeight (.tukey 1.547) s'' a = w at *
      generalize sWeight (.tukey 1.547) s'' b = v at *
      have ht := fit_c103 W h0 hv (t := (3 * w + 11 * v) / (3 * w + v)) (by field_simp; ring)
      rw [ht] at hfit
      have := congrFun hfit 0
      rw [div_eq_one_iff_eq (by positivity)] at this
      linarith
    rw [hv0]
    exact fit_c190 W h0 le_rfl (by ring)

theorem iSteps_c190 (W : WLSReg) (t : ℝ) (ht : t = 0 ∨ t = 5) (c0 : (Fin 1 → ℝ) × ℝ) :
    ∃ s, sISteps W sDefault c190Data 2 c0 (sRes c190Data fun _ => t) = .ok (fun _ => 0, s) := by
  have hz : ∀ c : (Fin 1 → ℝ) × ℝ, sISteps W sDefault c190Data 1 c ((sRes c190Data fun _ => (0 : ℝ)).map fun r => -r) = .ok (fun _ => 0, 0) := by
    intro c
    unfold sISteps
    rw [sIStep_neg, iStep_c190_zero]
    rfl
  rcases ht with rfl | rfl
  · refine ⟨0, ?_⟩
    unfold sISteps
    rw [iStep_c190_zero]
    exact hz (0, 0)
  · obtain ⟨j, s, h1, h2, h3, h4⟩ := sIStep_tukey W (cfg := sDefault) (c := 1.547) rfl (by simp [sDefault]) c190Data
      (sRes c190Data fun _ => (5 : ℝ))
    have hres : sRes c190Data (fun _ => (5 : ℝ)) = [5, 5, 5, -5] := by rw [sRes_c190]; norm_num
    rw [hres] at h4
    have hlist : [(5 : ℝ), 5, 5, -5].map (sWeight (.tukey 1.547) s) =
        [sWeight (.tukey 1.547) s 5, sWeight (.tukey 1.547) s 5, sWeight (.tukey 1.547) s 5, sWeight (.tukey 1.547) s 5] := by
      simp [sWeight_neg]
    have hw0 : 0 ≤ sWeight (.tukey 1.547) s 5 := sWeight_nonneg (R := .tukey 1.547) (by norm_num [Rho.const]) h3 5
    rw [hlist] at h4
    rcases eq_or_lt_of_le hw0 with hw | hw
    · have hfit : W.fit (sWeighted c190Data [sWeight (.tukey 1.547) s 5, sWeight (.tukey 1.547) s 5, sWeight (.tukey 1.547) s 5,
          sWeight (.tukey 1.547) s 5]) = fun _ => 0 := by
        refine W.fit_zero fun d hd => ?_
        have := sWeighted_mem hd
        rw [← hw] at this
        simpa using this
      rw [hfit] at h4
      refine ⟨0, ?_⟩
      unfold sISteps
      rw [hres, h4]
      exact hz (fun _ => 0, s)
    · have hf : W.fit (sWeighted c190Data [sWeight (.tukey 1.547) s 5, sWeight (.tukey 1.547) s 5, sWeight (.tukey 1.547) s 5,
          sWeight (.tukey 1.547) s 5]) = fun _ => 5 / 2 := fit_c190 W hw hw.le (t := 5 / 2) (by ring)
      rw [hf] at h4
      obtain ⟨s', -, hs'⟩ := iStep_c103 W (A := 5 / 2) (B := 15 / 2) (by norm_num) (by norm_num) (-5 / 2) (15 / 2)
        (by rw [abs_of_neg] <;> norm_num) (by rw [abs_of_pos]; norm_num)
      refine ⟨s', ?_⟩
      unfold sISteps
      rw [hres, h4]
      simp only [Except.bind]
      unfold sISteps
      have hr : (sRes c190Data fun _ => (5 / 2 : ℝ)).map (fun r => -r) = [-5 / 2, -5 / 2, -5 / 2, 15 / 2] := by
        rw [sRes_c190]; norm_num
      rw [hr, iStep_c190 W hs']
      rfl

/-- The initial fit to two of the observations is 0 or 5. -/
theorem start_c190 (W : WLSReg) (idx : List ℕ) (hlen : idx.length = 2) (hnd : idx.Nodup) (hlt : ∀ i ∈ idx, i < 4) :
    ∃ t : ℝ, (t = 0 ∨ t = 5) ∧ W.fit ((takeAt c190Data idx).map fun d => (d.1, d.2, 1)) = fun _ => t := by
  obtain ⟨t, ht, hfit⟩ := start_c103 W idx hlen hnd hlt
  refine ⟨t - 1, by rcases ht with rfl | rfl <;> norm_num, ?_⟩
  have hr := W.fit_reg (D := (takeAt c103Data idx).map fun d => (d.1, d.2, 1)) (fun d hd => by
    obtain ⟨d', -, rfl⟩ := List.mem_map.1 hd
    exact zero_le_one) (fun a b hab => by
      obtain ⟨d, hd⟩ : ∃ d, d ∈ takeAt c103Data idx := by
        have h : (takeAt c103Data idx).length = 2 := by rw [takeAt_length _ _ (by simpa [c103Data] using hlt), hlen]
        exact List.exists_mem_of_length_pos (by omega)
      have hd1 : d.1 = ![1] := by
        have := mem_takeAt hd
        simp only [c103Data, List.mem_cons, List.not_mem_nil, or_false] at this
        rcases this with rfl | rfl | rfl | rfl <;> rfl
      rcases hab _ (List.mem_map.2 ⟨d, hd, rfl⟩) with h0 | h0
      · exact absurd h0 one_ne_zero
      · simp only [hd1] at h0
        rw [dotRow_one, dotRow_one] at h0
        funext j
        rw [Subsingleton.elim j 0, h0]) (A := 1) (by simp) (fun _ => -1)
  rw [hfit, regCoef_one] at hr
  have e : ((takeAt c103Data idx).map fun d => (d.1, d.2, (1 : ℝ))).map
      (fun d => (Matrix.vecMul d.1 (1 : Matrix (Fin 1) (Fin 1) ℝ), d.2.1 + dotRow d.1 (fun _ => -1), d.2.2)) =
      (takeAt c190Data idx).map fun d => (d.1, d.2, 1) := by
    have h : c190Data = c103Data.map fun d => (Matrix.vecMul d.1 (1 : Matrix (Fin 1) (Fin 1) ℝ), d.2 + dotRow d.1 (fun _ => -1)) := by
      simp [c190Data, c103Data, dotRow]
      norm_num
    rw [h, takeAt_map, List.map_map, List.map_map]
    rfl
  rw [e] at hr
  rw [hr]
  funext j
  simp [sub_eq_add_neg]

theorem sImprove_c190 (W : WLSReg) (l : List ((Fin 1 → ℝ) × ℝ)) (h0 : ∀ c ∈ l, c.1 = fun _ => 0) (bound : Bool) :
    ∃ r, sImprove W sDefault c190Data 1 l bound = some r := by
  induction l generalizing bound with
  | nil => exact ⟨_, rfl⟩
  | cons c l ih =>
    unfold sImprove
    have hc : c = (fun _ => 0, c.2) := Prod.ext (h0 c (by simp)) rfl
    have hl : runLoop (sStep W sDefault c190Data) 1 (c, bound) = some (.ok ((0, 0), true)) := by
      rw [hc]
      unfold runLoop sStep
      simp only
      rw [iStep_c190_zero]
      have hcv : sConverged sDefault.relativeTolerance (fun _ : Fin 1 => (0 : ℝ)) 0 = true := by
        unfold sConverged
        have h1 : (0 : Fin 1 → ℝ) - (fun _ => 0) = fun _ => 0 := by funext j; simp
        rw [h1]
        simp [vecNorm, sDefault]
        norm_num
      simp only [hcv, if_true]
    rw [hl]
    simp only [Run.andThen]
    obtain ⟨r, hr⟩ := ih (fun c hc => h0 c (by simp [hc])) true
    rw [hr]
    rcases r with e | cs <;> exact ⟨_, rfl⟩

/-- With the default parameters the search ends on the targets 0, 0, 0, 10, whatever the random draws. -/
theorem C190_ends (W : WLSReg) (srt : ArgSort ℝ) (ch : Choice ℕ) : ∃ r, sSearch W srt ch sDefault c190Data 1 = some r := by
  unfold sSearch
  rcases hos : mapExcept (sInitial W ch sDefault c190Data) (List.range sDefault.nInitialSubsets) with e | os
  · exact ⟨_, rfl⟩
  · simp only [Run.andThen]
    obtain ⟨r, hr⟩ := sImprove_c190 W (takeAt (os.filterMap id) ((srt.toFun ((os.filterMap id).map Prod.snd)).take sDefault.nBestSubsets))
      (fun c hc => by
        obtain ⟨o, ho, hoc⟩ := List.mem_filterMap.1 (mem_takeAt hc)
        simp only [id_eq] at hoc
        subst hoc
        obtain ⟨i, -, hi⟩ := mapExcept_mem hos _ ho
        have hle : 1 + 1 ≤ c190Data.length := by simp [c190Data]
        obtain ⟨t, ht, hfit⟩ := start_c190 W (ch.pick (sDefault.randomState + i) c190Data.length (1 + 1)) (ch.length _ _ _ hle)
          (ch.nodup _ _ _ hle) (ch.lt _ _ _ hle)
        unfold sInitial at hi
        rw [if_neg (by simp [c190Data])] at hi
        simp only at hi
        rw [hfit] at hi
        obtain ⟨s, hs⟩ := iSteps_c190 W t ht (fun _ => t, sInitialScale (sRes c190Data fun _ => t))
        have hN : sDefault.nInitialISteps = 2 := rfl
        rw [hN, hs] at hi
        simp only [Except.ok.injEq, Option.some.injEq] at hi
        rw [← hi]) false
    rw [hr]
    rcases r with e | (_ | ⟨c, l⟩) <;> exact ⟨_, rfl⟩

/-- The search on the targets 1, 1, 1, 11 never ends; it ends on the targets 0, 0, 0, 10, which differ by the constant 1. -/
theorem C190_violated : ¬ C190_statement := by
  intro h
  have h1 := h 1 wlsExists (argsortStable ℝ) choiceFirst c103Data 1 (fun _ => -1) 1 (by simp) (by simp [c103Data])
  rw [shift_c103, C103_never] at h1
  obtain ⟨r, hr⟩ := C190_ends wlsExists (argsortStable ℝ) choiceFirst
  rw [show ([(![1], 0), (![1], 0), (![1], 0), (![1], 10)] : List ((Fin 1 → ℝ) × ℝ)) = c190Data from rfl, hr] at h1
  simp at h1

end Robpy
