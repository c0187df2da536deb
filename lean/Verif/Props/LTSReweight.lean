import Verif.Props.LTS
import Verif.Lemmas.LinReg

/-! C53, C100: the reweighting step of FastLTS. -/

namespace Robpy

/-- The residuals of the data. -/
def Spec.residuals {p : ℕ} (D : List ((Fin p → ℝ) × ℝ)) (m : LinModel p) : List ℝ :=
  D.map fun d => d.2 - (m.intercept + ∑ j, d.1 j * m.coef j)

section
variable {p : ℕ}

theorem sum_shift (l : List ℝ) (t : ℝ) : (l.map fun r => (r - t) ^ 2).sum = (l.map fun r => r ^ 2).sum - 2 * t * l.sum + l.length * t ^ 2 := by
  induction l with
  | nil => simp
  | cons a l ih =>
    simp only [List.map_cons, List.sum_cons, List.length_cons, Nat.cast_add, Nat.cast_one]
    rw [ih]; ring

/-- The residuals of a least-squares fit with an intercept add up to zero. -/
theorem sum_resid_zero {D : List ((Fin p → ℝ) × ℝ)} {m : LinModel p} (h : Spec.IsLeastSquares D m) : (D.map (resid m)).sum = 0 := by
  rcases eq_or_ne D [] with rfl | hD
  · rfl
  have hn : (0 : ℝ) < (D.map (resid m)).length := by
    rw [List.length_map]; exact_mod_cast List.length_pos_iff.2 hD
  have aux : ∀ S n Q : ℝ, 0 < n → Q ≤ Q - 2 * (S / n) * S + n * (S / n) ^ 2 → S = 0 := by
    intro S n Q hn h1
    have h4 : n * (S / n) ^ 2 = (S / n) * S := by field_simp
    have h5 : (S / n) * S ≤ 0 := by rw [h4] at h1; linarith
    have h6 : S ^ 2 ≤ 0 := by
      have : (S / n) * S * n = S ^ 2 := by field_simp
      rw [← this]
      exact mul_nonpos_of_nonpos_of_nonneg h5 hn.le
    exact pow_eq_zero_iff (two_ne_zero) |>.1 (le_antisymm h6 (sq_nonneg S))
  have h1 := h (m.intercept + (D.map (resid m)).sum / (D.map (resid m)).length) m.coef
  have h2 : ∀ t, Spec.sumSq D (m.intercept + t) m.coef = ((D.map (resid m)).map fun r => (r - t) ^ 2).sum := by
    intro t
    unfold Spec.sumSq
    rw [List.map_map]
    congr 1
    refine List.map_congr_left fun d _ => ?_
    unfold resid LinModel.predict
    simp only [Function.comp]
    ring
  have h3 : Spec.sumSq D m.intercept m.coef = ((D.map (resid m)).map fun r => r ^ 2).sum := by
    unfold Spec.sumSq
    rw [List.map_map]; rfl
  rw [h2, h3, sum_shift] at h1
  exact aux _ _ _ hn h1

theorem npStd_sq (l : List ℝ) (hl : l ≠ []) : (l.length : ℝ) * npStd l ^ 2 = (l.map fun x => (x - l.sum / l.length) ^ 2).sum := by
  have h0 : 0 ≤ (l.map fun x => (x - l.sum / l.length) ^ 2).sum := by
    apply List.sum_nonneg
    intro x hx
    obtain ⟨a, -, rfl⟩ := List.mem_map.1 hx
    positivity
  have hn : (0 : ℝ) < l.length := by exact_mod_cast List.length_pos_iff.2 hl
  unfold npStd
  rw [Real.sq_sqrt (by positivity)]
  field_simp

theorem takeAt_filter {α : Type} (P : α → Bool) (xs : List α) (idx : List ℕ) :
    takeAt xs (idx.filter fun i => (xs[i]?).any P) = (takeAt xs idx).filter P := by
  induction idx with
  | nil => rfl
  | cons i l ih =>
    unfold takeAt at ih ⊢
    rw [List.filter_cons, List.filterMap_cons]
    rcases hi : xs[i]? with _ | d
    · simpa using ih
    · simp only [Option.any_some]
      rw [List.filter_cons]
      split_ifs with hP
      · rw [List.filterMap_cons, hi, ← ih]
      · exact ih

theorem takeAt_ltsMask (q : ℝ) (D : List ((Fin p → ℝ) × ℝ)) (m : LinModel p) :
    takeAt D (ltsMask q D m) = D.filter fun d => ltsKeep q (npStd (D.map (resid m))) (resid m d) := by
  unfold ltsMask
  rw [takeAt_filter, takeAt_range]

theorem ltsMask_lt (q : ℝ) (D : List ((Fin p → ℝ) × ℝ)) (m : LinModel p) : ∀ i ∈ ltsMask q D m, i < D.length := fun i hi => by
  simpa using (List.mem_filter.1 hi).1

theorem ltsMask_length (q : ℝ) (D : List ((Fin p → ℝ) × ℝ)) (m : LinModel p) :
    (ltsMask q D m).length = (D.filter fun d => ltsKeep q (npStd (D.map (resid m))) (resid m d)).length := by
  rw [← takeAt_ltsMask, takeAt_length _ _ (ltsMask_lt q D m)]

theorem subperm_sum_le {α : Type} {R D : List α} (h : R.Subperm D) (f : α → ℝ) (hf : ∀ a, 0 ≤ f a) : (R.map f).sum ≤ (D.map f).sum := by
  obtain ⟨l, hp, hs⟩ := h
  rw [← (hp.map f).sum_eq]
  refine (hs.map f).sum_le_sum fun x hx => ?_
  obtain ⟨a, -, rfl⟩ := List.mem_map.1 hx
  exact hf a

/-- The residuals of a least-squares fit on a part of the data have, over that part, a sum of squares of at most `n` times the variance
over all of the data. -/
theorem ssr_le_var {D R : List ((Fin p → ℝ) × ℝ)} {m : LinModel p} (hR : R.Subperm D) (hm : Spec.IsLeastSquares R m) (hD : D ≠ []) :
    ssr R m ≤ D.length * npStd (D.map (resid m)) ^ 2 := by
  have h1 := npStd_sq (D.map (resid m)) (by simpa using hD)
  rw [List.length_map] at h1
  rw [h1]
  set t := (D.map (resid m)).sum / (D.length : ℝ)
  have h2 := sum_shift (R.map (resid m)) t
  rw [sum_resid_zero hm] at h2
  have h3 : ssr R m = ((R.map (resid m)).map fun r => r ^ 2).sum := by unfold ssr; rw [List.map_map]; rfl
  have h4 := subperm_sum_le hR (fun d => (resid m d - t) ^ 2) fun _ => sq_nonneg _
  rw [List.map_map] at h2
  rw [List.map_map]
  have h5 : (R.map ((fun r => (r - t) ^ 2) ∘ resid m)) = R.map fun d => (resid m d - t) ^ 2 := rfl
  have h6 : (D.map ((fun r => (r - t) ^ 2) ∘ resid m)) = D.map fun d => (resid m d - t) ^ 2 := rfl
  rw [h5] at h2
  rw [h6]
  have : 0 ≤ ((R.map (resid m)).length : ℝ) * t ^ 2 := by positivity
  rw [h3]
  linarith

theorem count_large {q s : ℝ} (hq : 0 ≤ q) (hs : 0 < s) (R : List ((Fin p → ℝ) × ℝ)) (m : LinModel p) :
    ((R.length : ℝ) - (R.filter fun d => ltsKeep q s (resid m d)).length) * (q ^ 2 * s ^ 2) ≤ ssr R m := by
  induction R with
  | nil => simp [ssr]
  | cons d R ih =>
    have hss : ssr (d :: R) m = resid m d ^ 2 + ssr R m := by simp [ssr]
    rw [hss, List.filter_cons, List.length_cons]
    push_cast
    split_ifs with hk
    · rw [List.length_cons]
      push_cast
      nlinarith [sq_nonneg (resid m d)]
    · have hlt : q * s ≤ |resid m d| := by
        unfold ltsKeep at hk
        simp only [ne_eq, hs.ne', not_false_eq_true, decide_true, Bool.true_and, decide_eq_true_eq, not_le, abs_div, abs_of_pos hs] at hk
        rw [lt_div_iff₀ hs] at hk
        exact hk.le
      have : q ^ 2 * s ^ 2 ≤ resid m d ^ 2 := by
        rw [← mul_pow, ← sq_abs (resid m d)]
        exact pow_le_pow_left₀ (by positivity) hlt 2
      linarith

/-- Lower bound on the number of observations that the reweighting step keeps. -/
theorem mask_count {q : ℝ} (hq : 0 ≤ q) {D : List ((Fin p → ℝ) × ℝ)} {m : LinModel p} {h : ℕ} {H : List ℕ}
    (hH : Spec.Positions D.length h H) (hm : Spec.IsLeastSquares (takeAt D H) m) (hs : npStd (D.map (resid m)) ≠ 0) :
    ((h : ℝ) - (ltsMask q D m).length) * q ^ 2 ≤ D.length := by
  have hs' : 0 < npStd (D.map (resid m)) := lt_of_le_of_ne (Real.sqrt_nonneg _) (Ne.symm hs)
  have hD : D ≠ [] := by rintro rfl; simp [npStd] at hs
  have hsub := takeAt_subperm D H hH.nodup hH.lt
  have h1 := count_large hq hs' (takeAt D H) m
  rw [takeAt_length D H hH.lt, hH.length] at h1
  have h2 := ssr_le_var hsub hm hD
  have h3 : ((takeAt D H).filter fun d => ltsKeep q (npStd (D.map (resid m))) (resid m d)).length ≤ (ltsMask q D m).length := by
    rw [ltsMask_length]
    exact (hsub.filter _).length_le
  have h3' : ((((takeAt D H).filter fun d => ltsKeep q (npStd (D.map (resid m))) (resid m d)).length : ℕ) : ℝ) ≤ (ltsMask q D m).length := by
    exact_mod_cast h3
  set s := npStd (D.map (resid m))
  have hs2 : 0 < s ^ 2 := by positivity
  have h4 : ((h : ℝ) - (ltsMask q D m).length) * q ^ 2 * s ^ 2 ≤ D.length * s ^ 2 := by
    refine le_trans ?_ (h1.trans h2)
    rw [mul_assoc]
    exact mul_le_mul_of_nonneg_right (by linarith) (by positivity)
  exact le_of_mul_le_mul_right h4 hs2

theorem npStd_zero_iff {l : List ℝ} (hl : l ≠ []) : npStd l = 0 ↔ ∀ x ∈ l, x = l.sum / l.length := by
  have h1 := npStd_sq l hl
  constructor
  · intro h
    rw [h] at h1
    intro x hx
    have := sum_sq_eq_zero (fun x => x - l.sum / l.length) l (by rw [← h1]; simp) x hx
    linarith
  · intro h
    have h2 : (l.map fun x => (x - l.sum / l.length) ^ 2).sum = 0 := by
      apply List.sum_eq_zero
      intro y hy
      obtain ⟨x, hx, rfl⟩ := List.mem_map.1 hy
      rw [sub_eq_zero.2 (h x hx)]; norm_num
    unfold npStd
    rw [h2]; simp

/-- **C53** (full statement): with valid parameters and more rows than columns `fit` with reweighting does not raise, for every data set;
`q` is the normal quantile 0.9875. -/
def C53_statement : Prop :=
  ∀ (p : ℕ) (LR : LinReg p) (srt : ArgSort ℝ) (ch : Choice ℕ) (q : ℝ) (corr corrRew : ℕ → ℕ → ℝ → Option ℝ) (cfg : LTSConfig)
    (st : LTSState p) (D : List ((Fin p → ℝ) × ℝ)) (fuel : ℕ) (r : Except PyErr Unit) (st' : LTSState p),
    0 ≤ q → 2 ≤ q ^ 2 → 0.5 ≤ cfg.alpha → cfg.alpha ≤ 1 → 1 ≤ p → p + 1 ≤ D.length → cfg.nInitialSubsets ≠ 0 → cfg.nBestModels ≠ 0 →
    0 ≤ cfg.tolerance → ltsFit LR srt ch q corr corrRew cfg st D none fuel = some (r, st') → r = .ok ()

/-- **C53** (partial): the reweighting step keeps no observation exactly when the raw model fits every observation exactly; this holds
for all fractions of outliers, also if `h` observations lie on a hyperplane.  Missing: the case that all observations lie exactly on
the hyperplane of the raw model. -/
theorem C53_reweighting_partial (LR : LinReg p) (srt : ArgSort ℝ) (ch : Choice ℕ) (q : ℝ) (hq : 0 ≤ q) (hq2 : 2 ≤ q ^ 2) (cfg : LTSConfig)
    (D : List ((Fin p → ℝ) × ℝ)) (iw : Option (LinModel p)) (fuel : ℕ) (best : LTSCand p)
    (hb : ltsSearch LR srt ch cfg D iw fuel = some (.ok best)) :
    (ltsMask q D best.model = [] ↔ ∀ r ∈ Spec.residuals D best.model, r = 0) ∧
    ((∃ r ∈ Spec.residuals D best.model, r ≠ 0) → ∃ h, ltsH cfg.alpha D.length p = .ok h ∧
      (h : ℝ) - D.length / q ^ 2 ≤ (ltsMask q D best.model).length) := by
  obtain ⟨h, h1, h2, h3, -, -⟩ := C98_least_squares LR srt ch cfg D iw fuel best hb
  obtain ⟨h', cands, hs⟩ := ltsSearch_ok hb
  obtain ⟨hp, hn, hsz, hle⟩ := hs.size
  obtain rfl : h = h' := by have := hs.h_eq; rw [h1] at this; exact Except.ok.inj this
  have hD : D ≠ [] := by rintro rfl; simp at hn
  have hres : Spec.residuals D best.model = D.map (resid best.model) := rfl
  rw [hres]
  set s := npStd (D.map (resid best.model)) with hsdef
  have hlen : (D.map (resid best.model)) ≠ [] := by simpa using hD
  -- equal residuals are zero
  have hzero : s = 0 ↔ ∀ r ∈ D.map (resid best.model), r = 0 := by
    rw [hsdef, npStd_zero_iff hlen]
    constructor
    · intro hall
      set t := (D.map (resid best.model)).sum / ((D.map (resid best.model)).length : ℝ)
      have hsum := sum_resid_zero h3
      have hconst : ((takeAt D best.subset).map (resid best.model)) = List.replicate h t := by
        rw [List.eq_replicate_iff]
        refine ⟨by rw [List.length_map, takeAt_length D _ h2.lt, h2.length], fun b hb => ?_⟩
        obtain ⟨d, hd, rfl⟩ := List.mem_map.1 hb
        exact hall _ (List.mem_map.2 ⟨d, mem_takeAt hd, rfl⟩)
      rw [hconst, List.sum_replicate, nsmul_eq_mul] at hsum
      have hh : (h : ℝ) ≠ 0 := by
        have : 0 < h := by omega
        positivity
      have ht : t = 0 := by
        rcases mul_eq_zero.1 hsum with h0 | h0
        · exact absurd h0 hh
        · exact h0
      intro r hr
      rw [hall r hr, ht]
    · intro hall r hr
      rw [hall r hr]
      have : (D.map (resid best.model)).sum = 0 := List.sum_eq_zero hall
      rw [this, zero_div]
  have hcount : s ≠ 0 → (h : ℝ) - D.length / q ^ 2 ≤ (ltsMask q D best.model).length := by
    intro hs0
    have := mask_count hq h2 h3 hs0
    have hq0 : 0 < q ^ 2 := by linarith
    rw [sub_le_iff_le_add, ← sub_le_iff_le_add', le_div_iff₀ hq0]
    linarith
  refine ⟨⟨?_, ?_⟩, ?_⟩
  · intro hm
    by_contra hne
    have hs0 : s ≠ 0 := fun h0 => hne (hzero.1 h0)
    have := hcount hs0
    rw [hm] at this
    simp only [List.length_nil, Nat.cast_zero] at this
    have hq0 : 0 < q ^ 2 := by linarith
    have h4 : (D.length : ℝ) / q ^ 2 ≤ D.length / 2 := div_le_div_of_nonneg_left (by positivity) (by norm_num) hq2
    have h5 : ((D.length : ℝ) + p) ≤ 2 * h := by exact_mod_cast hsz
    have h6 : (1 : ℝ) ≤ p := by exact_mod_cast hp
    linarith
  · intro hall
    have hs0 := hzero.2 hall
    unfold ltsMask
    rw [List.filter_eq_nil_iff]
    intro i _
    rcases D[i]? with _ | d
    · simp
    · rw [Option.any_some]
      unfold ltsKeep
      rw [← hsdef, hs0]
      simp
  · rintro ⟨r, hr, hr0⟩
    exact ⟨h, h1, hcount fun h0 => hr0 (hzero.1 h0 r hr)⟩

/-- **C53** (partial): `fit` with reweighting raises after a successful search exactly when the raw model fits every observation
exactly; then it raises ValueError, although the object then has the raw model and its scale. -/
theorem C53_fit_partial (LR : LinReg p) (srt : ArgSort ℝ) (ch : Choice ℕ) (q : ℝ) (hq : 0 ≤ q) (hq2 : 2 ≤ q ^ 2)
    (corr corrRew : ℕ → ℕ → ℝ → Option ℝ) (cfg : LTSConfig) (hrew : cfg.reweighting = true) (st : LTSState p)
    (D : List ((Fin p → ℝ) × ℝ)) (iw : Option (LinModel p)) (fuel : ℕ) (best : LTSCand p)
    (hb : ltsSearch LR srt ch cfg D iw fuel = some (.ok best)) :
    ((∃ r ∈ Spec.residuals D best.model, r ≠ 0) → ∃ st', ltsFit LR srt ch q corr corrRew cfg st D iw fuel = some (.ok (), st')) ∧
    ((∀ r ∈ Spec.residuals D best.model, r = 0) → ∃ st', ltsFit LR srt ch q corr corrRew cfg st D iw fuel = some (.error .valueError, st') ∧
      st'.model = some best.model) := by
  have hmask := (C53_reweighting_partial LR srt ch q hq hq2 cfg D iw fuel best hb).1
  obtain ⟨h', cands, hs⟩ := ltsSearch_ok hb
  have hp := hs.size.1
  have hlen := takeAt_length D _ (ltsMask_lt q D best.model)
  constructor
  · rintro ⟨r, hr, hr0⟩
    have hne : takeAt D (ltsMask q D best.model) ≠ [] := by
      intro h0
      rw [h0] at hlen
      exact hr0 (hmask.1 (List.length_eq_zero_iff.1 hlen.symm) r hr)
    unfold ltsFit
    rw [hb]
    simp only [hrew, if_true]
    rw [lrFit_of LR hne (by omega)]
    exact ⟨_, rfl⟩
  · intro hall
    have hnil := hmask.2 hall
    unfold ltsFit
    rw [hb]
    simp only [hrew, if_true]
    rw [hnil]
    have h0 : lrFit LR (takeAt D []) = .error .valueError := by
      unfold lrFit
      exact if_pos (Or.inl rfl)
    rw [h0]
    exact ⟨_, rfl, rfl⟩

/-- **C100**: a successful `fit` with reweighting reports a least-squares fit to the observations whose residual from a raw model, itself
a least-squares fit on the reported `h` observations, is at most `q` standard deviations of the residuals; the scale is the correction
factor times the root mean squared residual of the kept observations. Without reweighting it reports the raw model. -/
theorem C100_reported (LR : LinReg p) (srt : ArgSort ℝ) (ch : Choice ℕ) (q : ℝ) (corr corrRew : ℕ → ℕ → ℝ → Option ℝ)
    (cfg : LTSConfig) (st : LTSState p) (D : List ((Fin p → ℝ) × ℝ)) (iw : Option (LinModel p)) (fuel : ℕ) (st' : LTSState p)
    (hfit : ltsFit LR srt ch q corr corrRew cfg st D iw fuel = some (.ok (), st')) :
    ∃ (raw m : LinModel p) (h : ℕ) (H : List ℕ), st'.model = some m ∧ st'.bestH = some H ∧ ltsH cfg.alpha D.length p = .ok h ∧
      Spec.Positions D.length h H ∧ Spec.IsLeastSquares (takeAt D H) raw ∧
      (cfg.reweighting = false → m = raw ∧ st'.scale_ = some ((corr p D.length cfg.alpha).map fun f =>
        f * Real.sqrt (Spec.sumSq (takeAt D H) raw.intercept raw.coef / h))) ∧
      (cfg.reweighting = true → ∃ kept : List ((Fin p → ℝ) × ℝ),
        (∀ d, d ∈ kept ↔ d ∈ D ∧ |d.2 - (raw.intercept + ∑ j, d.1 j * raw.coef j)| ≤ q * npStd (Spec.residuals D raw)) ∧
        kept.Sublist D ∧ kept ≠ [] ∧ 0 < npStd (Spec.residuals D raw) ∧ Spec.IsLeastSquares kept m ∧
        st'.scale_ = some ((corrRew p D.length cfg.alpha).map fun f =>
          f * Real.sqrt (Spec.sumSq kept m.intercept m.coef / kept.length))) := by
  unfold ltsFit at hfit
  rcases hb : ltsSearch LR srt ch cfg D iw fuel with _ | (e | best)
  · rw [hb] at hfit; simp at hfit
  · rw [hb] at hfit; simp at hfit
  rw [hb] at hfit
  simp only at hfit
  obtain ⟨h, h1, h2, h3, h4, -⟩ := C98_least_squares LR srt ch cfg D iw fuel best hb
  by_cases hrew : cfg.reweighting = true
  · rw [if_pos hrew] at hfit
    rcases hl : lrFit LR (takeAt D (ltsMask q D best.model)) with e | m
    · rw [hl] at hfit; simp at hfit
    · rw [hl] at hfit
      simp only [Option.some.injEq, Prod.mk.injEq, true_and] at hfit
      subst hfit
      obtain ⟨k1, k2, k3⟩ := lrFit_ok hl
      refine ⟨best.model, m, h, best.subset, rfl, rfl, h1, h2, h3, (fun hf => by rw [hrew] at hf; simp at hf), fun _ =>
        ⟨takeAt D (ltsMask q D best.model), ?_, ?_, k1, ?_, ?_, ?_⟩⟩
      · intro d
        have hs0 : npStd (D.map (resid best.model)) ≠ 0 := by
          intro h0
          apply k1
          rw [takeAt_ltsMask, List.filter_eq_nil_iff, h0]
          simp [ltsKeep]
        have hs1 : 0 < npStd (D.map (resid best.model)) := lt_of_le_of_ne (Real.sqrt_nonneg _) (Ne.symm hs0)
        rw [takeAt_ltsMask, List.mem_filter]
        refine and_congr Iff.rfl ?_
        unfold ltsKeep
        simp only [ne_eq, hs0, not_false_eq_true, decide_true, Bool.true_and, decide_eq_true_eq, abs_div, abs_of_pos hs1]
        rw [div_le_iff₀ hs1]
        exact Iff.rfl
      · rw [takeAt_ltsMask]; exact List.filter_sublist
      · refine lt_of_le_of_ne (Real.sqrt_nonneg _) (Ne.symm fun h0 => k1 ?_)
        rw [takeAt_ltsMask, List.filter_eq_nil_iff]
        have h0' : npStd (D.map (resid best.model)) = 0 := h0
        rw [h0']
        simp [ltsKeep]
      · rw [k3]; exact isLeastSquares_fit LR k1
      · simp only
        rw [takeAt_length D _ (ltsMask_lt q D best.model)]
        rfl
  · rw [if_neg hrew] at hfit
    simp only [Option.some.injEq, Prod.mk.injEq, true_and] at hfit
    subst hfit
    refine ⟨best.model, best.model, h, best.subset, rfl, rfl, h1, h2, h3, fun _ => ⟨rfl, ?_⟩, fun hf => absurd hf hrew⟩
    simp only [h4]

/-- Two observations on the horizontal axis. -/
def c53Data : List ((Fin 1 → ℝ) × ℝ) := [(![0], 0), (![1], 0)]

/-- The parameters of the examples: defaults but for the numbers of subsets. -/
noncomputable def c53Cfg (rew : Bool) : LTSConfig :=
  { alpha := 0.5, nInitialSubsets := 2, nInitialCSteps := 2, nBestModels := 1, reweighting := rew, tolerance := 1e-15, randomState := 42 }

/-- A generator that always draws the first positions. -/
def choiceFirst : Choice ℕ where
  pick _ _ k := List.range k
  length _ _ k _ := List.length_range
  nodup _ _ _ _ := List.nodup_range
  lt _ n k hk i hi := by rw [List.mem_range] at hi; omega

/-- `fit` raises ValueError for two observations that lie on a line. -/
theorem C53_violated : ¬ C53_statement := by
  intro hst
  have hout := (C99_search_outcome (linRegExists 1) (argsortStable ℝ) choiceFirst (c53Cfg true) c53Data none
    (by norm_num [c53Cfg]) (2 ^ c53Data.length + 1) le_rfl).2 ⟨by norm_num [c53Cfg], by norm_num [c53Cfg]⟩
  obtain ⟨best, hb⟩ := ((hout.2 (by simp [c53Cfg])).2 ⟨by norm_num, by simp [c53Data]⟩).2 (by simp [c53Cfg])
  have hzero : ∀ r ∈ Spec.residuals c53Data best.model, r = 0 := by
    obtain ⟨h, h1, h2, h3, -⟩ := C98_least_squares _ _ _ _ _ _ _ best hb
    have hh : h = 2 := by
      unfold ltsH at h1
      rw [if_neg (by norm_num [c53Cfg])] at h1
      have := Except.ok.inj h1
      rw [← this]
      norm_num [c53Cfg, c53Data]
    have hperm : best.subset.Perm (List.range 2) := by
      refine List.Subperm.perm_of_length_le (h2.nodup.subperm fun i hi => List.mem_range.2 (h2.lt i hi)) ?_
      rw [h2.length, hh]; simp
    have hp2 := takeAt_perm c53Data hperm
    have hr : takeAt c53Data (List.range 2) = c53Data := takeAt_range c53Data
    rw [hr] at hp2
    have h5 := h3 0 0
    have h6 : Spec.sumSq (takeAt c53Data best.subset) 0 0 = 0 := by
      unfold Spec.sumSq
      rw [(hp2.map _).sum_eq]
      simp [c53Data]
    rw [h6] at h5
    intro r hr
    obtain ⟨d, hd, rfl⟩ := List.mem_map.1 hr
    exact sum_sq_eq_zero (fun d : (Fin 1 → ℝ) × ℝ => d.2 - (best.model.intercept + ∑ j, d.1 j * best.model.coef j)) _ h5 d
      (hp2.mem_iff.2 hd)
  obtain ⟨st', hfit, -⟩ := (C53_fit_partial (linRegExists 1) (argsortStable ℝ) choiceFirst 2 (by norm_num) (by norm_num) (fun _ _ _ => some 1)
    (fun _ _ _ => some 1) (c53Cfg true) rfl ⟨none, none, none⟩ c53Data none _ best hb).2 hzero
  have := hst 1 (linRegExists 1) (argsortStable ℝ) choiceFirst 2 (fun _ _ _ => some 1) (fun _ _ _ => some 1) (c53Cfg true) ⟨none, none, none⟩
    c53Data _ _ st' (by norm_num) (by norm_num) (by norm_num [c53Cfg]) (by norm_num [c53Cfg]) le_rfl (by simp [c53Data])
    (by simp [c53Cfg]) (by simp [c53Cfg]) (by norm_num [c53Cfg]) hfit
  simp at this

/-! Examples -/

/-- Three observations not on a line. -/
def ltsData : List ((Fin 1 → ℝ) × ℝ) := [(![0], 0), (![1], 0), (![2], 1)]

/-- The hypotheses of C49, C50 (for a C-step and the loop). -/
example (m : LinModel 1) : ∃ r, ltsCStep (linRegExists 1) (argsortStable ℝ) ltsData 2 m = .ok r :=
  C49_total _ _ _ _ (by norm_num) (by simp [ltsData]) le_rfl m

example (m : LinModel 1) (l : ℝ) : ∃ c, ltsConverge (linRegExists 1) (argsortStable ℝ) ltsData 2 0 9 m l = some (.ok c) := by
  obtain ⟨r, hr⟩ := C50_terminates (linRegExists 1) (argsortStable ℝ) ltsData 2 (by simp [ltsData]) 0 le_rfl m l 9 (by simp [ltsData])
  obtain ⟨c, rfl⟩ := (C50_loss _ _ ltsData 2 (by simp [ltsData]) 0 9 m l r hr).2 (by norm_num) le_rfl
  exact ⟨c, hr⟩

/-- `[0, 1]` are two positions, as in C50. -/
example : Spec.Positions ltsData.length 2 [0, 1] := ⟨by simp, rfl, by simp [ltsData]⟩

/-- The hypotheses of C51, C98, C99: the search succeeds. -/
theorem ltsData_search (rew : Bool) :
    ∃ best, ltsSearch (linRegExists 1) (argsortStable ℝ) choiceFirst (c53Cfg rew) ltsData none (2 ^ 3 + 1) = some (.ok best) := by
  have hout := (C99_search_outcome (linRegExists 1) (argsortStable ℝ) choiceFirst (c53Cfg rew) ltsData none
    (by norm_num [c53Cfg]) (2 ^ 3 + 1) (by simp [ltsData])).2 ⟨by norm_num [c53Cfg], by norm_num [c53Cfg]⟩
  exact ((hout.2 (by simp [c53Cfg])).2 ⟨by norm_num, by simp [ltsData]⟩).2 (by simp [c53Cfg])

/-- The hypotheses of C53 and C100: the raw model does not fit all three observations and `fit` succeeds. -/
example : ∃ st', ltsFit (linRegExists 1) (argsortStable ℝ) choiceFirst 2 (fun _ _ _ => some 1) (fun _ _ _ => some 1) (c53Cfg true)
    ⟨none, none, none⟩ ltsData none (2 ^ 3 + 1) = some (.ok (), st') := by
  obtain ⟨best, hb⟩ := ltsData_search true
  refine (C53_fit_partial _ _ _ 2 (by norm_num) (by norm_num) _ _ (c53Cfg true) rfl _ ltsData none _ best hb).1 ?_
  by_contra hne
  push Not at hne
  simp only [Spec.residuals, ltsData, List.map_cons, List.map_nil, List.mem_cons, List.not_mem_nil, or_false, forall_eq_or_imp, forall_eq,
    Finset.univ_unique, Finset.sum_singleton] at hne
  obtain ⟨h1, h2, h3⟩ := hne
  norm_num at h1 h2 h3
  linarith

end
end Robpy
