import Verif.Model.Scaling
import Verif.Props.UnivariateMCD
import Mathlib.Analysis.SpecialFunctions.Trigonometric.DerivHyp

/-! # Properties C19, C26, C27, C72: scaling and wrapping -/

namespace Robpy

section
variable {K : Type} [Field K] [DecidableEq K]

/-! ## C19 -/

theorem unscale_scale {l s : K} (hs : s ≠ 0) (x : Option K) :
    unscaleCell l s (scaleCell l s x) = x ∧ scaleCell l s (unscaleCell l s x) = x := by
  rcases x with _ | x
  · exact ⟨rfl, rfl⟩
  · constructor
    · simp only [unscaleCell, scaleCell, Option.bind_some, if_neg hs, Option.map_some]
      congr 1; field_simp; ring
    · simp only [unscaleCell, scaleCell, Option.bind_some, if_neg hs, Option.map_some]
      congr 1; field_simp; ring

theorem zipWith_roundtrip' {α β : Type} (f g : α → β → α) (P : β → Prop) (h : ∀ b, P b → ∀ a, g (f a b) b = a)
    (X : List α) (L : List β) (hP : ∀ b ∈ L, P b) (hl : X.length = L.length) :
    List.zipWith g (List.zipWith f X L) L = X := by
  induction X generalizing L with
  | nil => simp
  | cons x X ih =>
    rcases L with _ | ⟨b, L⟩
    · simp at hl
    · simp only [List.zipWith_cons_cons]
      rw [h b (hP b (by simp)), ih L (fun b hb => hP b (by simp [hb])) (by simpa using hl)]

omit [DecidableEq K] in
theorem scalerFitLoop_lengths (est : ColEst K) (ce sc ig : Bool) (X : List (List (Option K))) :
    (scalerFitLoop est ce sc ig X).2.locations_.length = X.length ∧
    (scalerFitLoop est ce sc ig X).2.scales_.length = X.length := by
  induction X with
  | nil => exact ⟨rfl, rfl⟩
  | cons c cs ih =>
    unfold scalerFitLoop
    rcases est c ig with e | ⟨l, s⟩
    · simp
    · simp [ih.1, ih.2]

/-- **C19**, round trip: after any fit (all four flag combinations) with non-zero scales,
`inverse_transform(transform(X)) = X` and `transform(inverse_transform(Z)) = Z` for every data set
with the fitted number of columns, NaN cells included. -/
theorem C19_round_trip (est : ColEst K) (ce sc ig : Bool) (st0 : ScalerState K)
    (X : List (List (Option K))) (st : ScalerState K)
    (_hfit : scalerFit est ce sc ig st0 X = (.ok (), st)) (hs : ∀ s ∈ st.scales_, s ≠ 0)
    (Z : List (List (Option K))) (hZ : Z.length = X.length) :
    (∃ Y, scalerTransform st Z = .ok Y ∧ scalerInverse st Y = .ok Z) ∧
    (∃ Y, scalerInverse st Z = .ok Y ∧ scalerTransform st Y = .ok Z) := by
  have hlen := scalerFitLoop_lengths est ce sc ig X
  have hst : (scalerFitLoop est ce sc ig X).2 = st := by
    have := congrArg Prod.snd _hfit; exact this
  rw [hst] at hlen
  have hzl : Z.length = (st.locations_.zip st.scales_).length := by
    rw [List.length_zip, hlen.1, hlen.2, hZ, min_self]
  have hP : ∀ b ∈ st.locations_.zip st.scales_, b.2 ≠ 0 := by
    intro b hb
    exact hs _ (List.of_mem_zip (a := b.1) (b := b.2) hb).2
  constructor
  · refine ⟨_, by simp only [scalerTransform]; rw [if_pos (by rw [hlen.1, hZ])], ?_⟩
    unfold scalerInverse
    rw [if_pos (by rw [List.length_zipWith, ← hzl, min_self, hlen.1, hZ])]
    congr 1
    apply zipWith_roundtrip' _ _ (fun b => b.2 ≠ 0) _ _ _ hP hzl
    intro b hb c
    rw [List.map_map]
    conv_rhs => rw [← List.map_id c]
    apply List.map_congr_left
    intro x _
    exact (unscale_scale hb x).1
  · refine ⟨_, by simp only [scalerInverse]; rw [if_pos (by rw [hlen.1, hZ])], ?_⟩
    unfold scalerTransform
    rw [if_pos (by rw [List.length_zipWith, ← hzl, min_self, hlen.1, hZ])]
    congr 1
    apply zipWith_roundtrip' _ _ (fun b => b.2 ≠ 0) _ _ _ hP hzl
    intro b hb c
    rw [List.map_map]
    conv_rhs => rw [← List.map_id c]
    apply List.map_congr_left
    intro x _
    exact (unscale_scale hb x).2

/-- **C19**, locality: a successful fit stores for column `j` exactly the estimates of column `j`
(0 without centering, 1 without scaling); hence each column is transformed with its own values. -/
theorem C19_own_column (est : ColEst K) (ce sc ig : Bool) (st0 : ScalerState K)
    (X : List (List (Option K))) (st : ScalerState K)
    (hfit : scalerFit est ce sc ig st0 X = (.ok (), st)) (j : ℕ) (c : List (Option K))
    (hj : X[j]? = some c) :
    ∃ l s, est c ig = .ok (l, s) ∧ st.locations_[j]? = some (if ce then l else 0) ∧
      st.scales_[j]? = some (if sc then s else 1) ∧
      ∀ Z Y, scalerTransform st Z = .ok Y →
        Y[j]? = (Z[j]?).map fun col => col.map (scaleCell (if ce then l else 0) (if sc then s else 1)) := by
  have key : ∀ (X : List (List (Option K))) (st : ScalerState K) (j : ℕ) (c : List (Option K)),
      scalerFitLoop est ce sc ig X = (.ok (), st) → X[j]? = some c →
      ∃ l s, est c ig = .ok (l, s) ∧ st.locations_[j]? = some (if ce then l else 0) ∧
        st.scales_[j]? = some (if sc then s else 1) := by
    intro X
    induction X with
    | nil => intro st j c _ h; simp at h
    | cons d ds ih =>
      intro st j c h hj
      unfold scalerFitLoop at h
      rcases hd : est d ig with e | ⟨l, s⟩
      · rw [hd] at h; simp at h
      · rw [hd] at h
        simp only [Prod.mk.injEq] at h
        obtain ⟨h1, h2⟩ := h
        rcases j with _ | j
        · simp only [List.getElem?_cons_zero, Option.some.injEq] at hj
          subst hj
          refine ⟨l, s, hd, ?_, ?_⟩ <;> rw [← h2] <;> rfl
        · simp only [List.getElem?_cons_succ] at hj
          obtain ⟨l', s', e1, e2, e3⟩ := ih _ j c (Prod.ext h1 rfl) hj
          refine ⟨l', s', e1, ?_, ?_⟩ <;> rw [← h2]
          · simpa using e2
          · simpa using e3
  obtain ⟨l, s, h1, h2, h3⟩ := key X st j c hfit hj
  refine ⟨l, s, h1, h2, h3, ?_⟩
  intro Z Y hY
  unfold scalerTransform at hY
  split_ifs at hY with hl
  simp only [Except.ok.injEq] at hY
  have h4 : (st.locations_.zip st.scales_)[j]? = some ((if ce then l else 0), (if sc then s else 1)) :=
    List.getElem?_zip_eq_some.2 ⟨h2, h3⟩
  rw [← hY, List.getElem?_zipWith, h4]
  rcases Z[j]? with _ | col <;> rfl

/-- Two columns, centred and scaled by an estimator returning (first value, 2). -/
example :
    let est : ColEst ℚ := fun c _ => match c with
      | some x :: _ => .ok (x, 2)
      | _ => .error .valueError
    ∃ st, scalerFit est true true false ⟨[], []⟩ [[some 1, some 5], [some 3, none]] = (.ok (), st) ∧
      (∀ s ∈ st.scales_, s ≠ 0) ∧
      scalerTransform st [[some 1, some 5], [some 3, none]] = .ok [[some 0, some 2], [some 0, none]] := by
  refine ⟨⟨[1, 3], [2, 2]⟩, rfl, by decide +kernel, by decide +kernel⟩

/-! ## C72 -/

/-- Full statement of C72: a fit that raises leaves the fitted state as it was. -/
def C72_statement (est : ColEst K) : Prop :=
  ∀ (ce sc ig : Bool) (st : ScalerState K) (X : List (List (Option K))) (e : PyErr) (st' : ScalerState K),
    scalerFit est ce sc ig st X = (.error e, st') → st' = st

/-- **C72 is violated**: after a successful fit, a fit that raises in the second column replaces the
fitted state by a mixture of new values and the defaults 0 and 1. -/
theorem C72_violated : ∃ est : ColEst ℚ, ¬ C72_statement est ∧
    ∃ (st st' : ScalerState ℚ) (X Y : List (List (Option ℚ))),
      scalerFit est true true false ⟨[], []⟩ X = (.ok (), st) ∧
      scalerFit est true true false st Y = (.error .valueError, st') ∧
      scalerTransform st X ≠ scalerTransform st' X := by
  let est : ColEst ℚ := fun c _ => if c.any Option.isNone then .error .valueError else
    match c with
    | some x :: _ => .ok (x, 2)
    | _ => .error .valueError
  refine ⟨est, ?_, ⟨[1, 3], [2, 2]⟩, ⟨[7, 0], [2, 1]⟩, [[some 1, some 5], [some 3, some 4]],
    [[some 7], [none]], rfl, rfl, by decide +kernel⟩
  intro h
  have := h true true false ⟨[1, 3], [2, 2]⟩ [[some 7], [none]] .valueError ⟨[7, 0], [2, 1]⟩ rfl
  simp at this

omit [DecidableEq K] in
/-- **C72**, what does hold: a successful fit does not depend on the previous state, and a fit that
raises does so because some column raises.  Missing: atomicity of a failing fit. -/
theorem C72_partial (est : ColEst K) (ce sc ig : Bool) (st st' : ScalerState K)
    (X : List (List (Option K))) :
    scalerFit est ce sc ig st X = scalerFit est ce sc ig st' X ∧
    ((scalerFit est ce sc ig st X).1 = .ok () ↔ ∀ c ∈ X, ∃ r, est c ig = .ok r) := by
  refine ⟨rfl, ?_⟩
  unfold scalerFit
  induction X with
  | nil => simp [scalerFitLoop]
  | cons c cs ih =>
    unfold scalerFitLoop
    rcases h : est c ig with e | ⟨l, s⟩
    · simp [h]
    · simp only [List.mem_cons, forall_eq_or_imp, h]
      rw [ih]
      simp

end

/-! ## C26 -/

theorem npSign_neg (z : ℝ) : npSign (-z) = -npSign z := by
  unfold npSign
  split_ifs <;> first | rfl | (exfalso; linarith) | simp

theorem npSign_abs_le (z : ℝ) : |npSign z| ≤ 1 := by
  unfold npSign; split_ifs <;> simp

theorem tanh_nonneg' {x : ℝ} (hx : 0 ≤ x) : 0 ≤ Real.tanh x := by
  rw [Real.tanh_eq_sinh_div_cosh]
  exact div_nonneg (Real.sinh_nonneg_iff.2 hx) (Real.cosh_pos x).le

theorem tanh_le_one' (x : ℝ) : Real.tanh x ≤ 1 := by
  rw [Real.tanh_eq_sinh_div_cosh, div_le_one (Real.cosh_pos x)]
  exact (Real.sinh_lt_cosh x).le

/-- **C26**, the wrapping function is odd. -/
theorem C26_odd (b c q1 q2 z : ℝ) : wrapPsi b c q1 q2 (-z) = -wrapPsi b c q1 q2 z := by
  unfold wrapPsi
  rw [abs_neg, npSign_neg]
  split_ifs <;> ring

/-- **C26**, the wrapping function is bounded by `max b q1`. -/
theorem C26_psi_bounded (b c q1 q2 z : ℝ) (hb : 0 < b) (hq1 : 0 < q1) (hq2 : 0 < q2) :
    |wrapPsi b c q1 q2 z| ≤ max b q1 := by
  unfold wrapPsi
  split_ifs with h1 h2
  · exact h1.le.trans (le_max_left _ _)
  · refine le_trans ?_ (le_max_right b q1)
    have h3 : 0 ≤ q2 * (c - |z|) := mul_nonneg hq2.le (by linarith)
    rw [abs_mul, abs_mul, abs_of_pos hq1, abs_of_nonneg (tanh_nonneg' h3)]
    calc q1 * Real.tanh (q2 * (c - |z|)) * |npSign z| ≤ q1 * 1 * 1 := by
          apply mul_le_mul _ (npSign_abs_le z) (abs_nonneg _) (by positivity)
          exact mul_le_mul_of_nonneg_left (tanh_le_one' _) hq1.le
      _ = q1 := by ring
  · rw [abs_zero]; exact hb.le.trans (le_max_left _ _)

/-- **C26**, the wrapping function never changes the sign: wrapped points stay on their side. -/
theorem C26_side (b c q1 q2 z : ℝ) (hq1 : 0 < q1) (hq2 : 0 < q2) :
    (0 ≤ z → 0 ≤ wrapPsi b c q1 q2 z) ∧ (z ≤ 0 → wrapPsi b c q1 q2 z ≤ 0) := by
  have pos : ∀ z, 0 ≤ z → 0 ≤ wrapPsi b c q1 q2 z := by
    intro z hz
    unfold wrapPsi
    split_ifs with h1 h2
    · exact hz
    · have h3 : 0 ≤ q2 * (c - |z|) := mul_nonneg hq2.le (by linarith)
      have h4 : 0 ≤ npSign z := by unfold npSign; split_ifs <;> first | linarith | norm_num
      exact mul_nonneg (mul_nonneg hq1.le (tanh_nonneg' h3)) h4
    · exact le_rfl
  refine ⟨pos z, fun hz => ?_⟩
  have := pos (-z) (by linarith)
  rw [C26_odd] at this
  linarith

/-- **C26**: effect of wrapping (without rescaling) on one cell. -/
theorem C26_cell (b c q1 q2 loc scale : ℝ) (X : List ℝ) (i : ℕ) (x : ℝ) (hx : X[i]? = some x)
    (hb : 0 < b) (hbc : b < c) (hq1 : 0 < q1) (hq2 : 0 < q2) (hs : 0 ≤ scale) :
    ∃ y, (wrapColumn b c q1 q2 false loc scale X)[i]? = some y ∧
      (0 < scale → |x - loc| < b * scale → y = x) ∧
      (c * scale < |x - loc| → 0 < scale → y = loc) ∧
      |y - loc| ≤ scale * max b q1 ∧
      (loc ≤ x → loc ≤ y) ∧ (x ≤ loc → y ≤ loc) ∧
      (scale = 0 → y = loc) := by
  have hnz : 0 < noZero scale := by
    unfold noZero
    split_ifs with h
    · exact one_pos
    · exact lt_of_le_of_ne hs (Ne.symm h)
  have hpos : 0 < scale → noZero scale = scale := fun h => by unfold noZero; rw [if_neg h.ne']
  set z := (x - loc) / noZero scale with hz
  refine ⟨wrapPsi b c q1 q2 z * scale + loc, ?_, ?_, ?_, ?_, ?_, ?_, ?_⟩
  · simp [wrapColumn, zWrapped, hx, hz]
  · intro h0 h1
    have : |z| < b := by
      rw [hz, hpos h0, abs_div, abs_of_pos h0, div_lt_iff₀ h0]; exact h1
    unfold wrapPsi
    rw [if_pos this, hz, hpos h0]
    field_simp
    ring
  · intro h1 h0
    have : c < |z| := by
      rw [hz, hpos h0, abs_div, abs_of_pos h0, lt_div_iff₀ h0]; exact h1
    unfold wrapPsi
    rw [if_neg (by linarith), if_neg (by linarith)]
    ring
  · have : wrapPsi b c q1 q2 z * scale + loc - loc = wrapPsi b c q1 q2 z * scale := by ring
    rw [this, abs_mul, abs_of_nonneg hs, mul_comm]
    exact mul_le_mul_of_nonneg_left (C26_psi_bounded b c q1 q2 z hb hq1 hq2) hs
  · intro h
    have h1 : 0 ≤ z := div_nonneg (by linarith) hnz.le
    have := mul_nonneg ((C26_side b c q1 q2 z hq1 hq2).1 h1) hs
    linarith
  · intro h
    have h1 : z ≤ 0 := div_nonpos_of_nonpos_of_nonneg (by linarith) hnz.le
    have := mul_nonneg (neg_nonneg.2 ((C26_side b c q1 q2 z hq1 hq2).2 h1)) hs
    linarith
  · intro h; rw [h]; ring

example : ([1, 7, 2] : List ℝ)[1]? = some 7 ∧ (0:ℝ) < 1.5 ∧ (1.5:ℝ) < 4 ∧ (0:ℝ) < 1.540793 ∧
    (0:ℝ) < 0.8622731 ∧ (0:ℝ) ≤ 1 := by
  refine ⟨rfl, ?_, ?_, ?_, ?_, ?_⟩ <;> norm_num

/-! ## C27 -/

/-- **C27**: rescaled wrapping reproduces location and scale exactly, whenever the wrapped values
are not all equal. -/
theorem C27_rescale (b c q1 q2 loc scale : ℝ) (X : List ℝ) (hs : 0 ≤ scale)
    (hne : var (zWrapped b c q1 q2 loc scale X) ≠ 0) :
    mean (wrapColumn b c q1 q2 true loc scale X) = loc ∧
    Real.sqrt (var (wrapColumn b c q1 q2 true loc scale X)) = scale := by
  set z := zWrapped b c q1 q2 loc scale X with hz
  have hv0 : 0 ≤ var z := by rw [var_eq_popVar]; exact popVar_nonneg _
  have hvpos : 0 < var z := lt_of_le_of_ne hv0 (Ne.symm hne)
  have hsd : 0 < Real.sqrt (var z) := Real.sqrt_pos.2 hvpos
  have hl : 0 < z.length := by
    by_contra h
    have : z = [] := List.length_eq_zero_iff.1 (by omega)
    rw [this] at hne
    exact hne (by simp [var, mean])
  set k := scale / Real.sqrt (var z) with hk
  have hcol : wrapColumn b c q1 q2 true loc scale X = z.map fun v => k * v + (loc - mean z * k) := by
    have hnz : noZero (Real.sqrt (var z)) = Real.sqrt (var z) := by
      unfold noZero; rw [if_neg hsd.ne']
    simp only [wrapColumn, if_true, ← hz, hnz, ← hk]
    apply List.map_congr_left
    intro v _
    ring
  rw [hcol, mean_map_affine _ _ _ hl, var_map_affine]
  constructor
  · ring
  · rw [Real.sqrt_mul (sq_nonneg k), Real.sqrt_sq (div_nonneg hs hsd.le)]
    field_simp

/-- **C27**, the constant case: if all wrapped values coincide every output equals the location. -/
theorem C27_constant (b c q1 q2 loc scale w : ℝ) (X : List ℝ) (hX : X ≠ [])
    (hc : ∀ v ∈ zWrapped b c q1 q2 loc scale X, v = w) :
    ∀ y ∈ wrapColumn b c q1 q2 true loc scale X, y = loc := by
  set z := zWrapped b c q1 q2 loc scale X with hz
  have hm : mean z = w := by
    have h1 : z = List.replicate z.length w := List.eq_replicate_iff.2 ⟨rfl, hc⟩
    have hl : (z.length : ℝ) ≠ 0 := by
      have : 0 < z.length := by rw [hz]; simpa [zWrapped] using List.length_pos_iff.2 hX
      exact_mod_cast this.ne'
    unfold mean
    rw [h1, List.sum_replicate, List.length_replicate, nsmul_eq_mul]
    field_simp
  intro y hy
  simp only [wrapColumn, if_true, ← hz, List.mem_map] at hy
  obtain ⟨v, hv, rfl⟩ := hy
  rw [hm, hc v hv]
  ring

example : var (zWrapped 1.5 4 1.540793 0.8622731 0 1 [-1, 1]) ≠ 0 := by
  have e1 : wrapPsi 1.5 4 1.540793 0.8622731 (-1) = -1 := by
    unfold wrapPsi; rw [if_pos]; norm_num
  have e2 : wrapPsi 1.5 4 1.540793 0.8622731 1 = 1 := by
    unfold wrapPsi; rw [if_pos]; norm_num
  have e3 : zWrapped 1.5 4 1.540793 0.8622731 0 1 [-1, 1] = [-1, 1] := by
    simp only [zWrapped, noZero, one_ne_zero, if_false, sub_zero, div_one, List.map_cons, e1, e2, List.map_nil]
  rw [e3]
  norm_num [var, mean]

end Robpy
