import Verif.Props.LTSBreakdown
import Verif.Props.SRegWitness

/-! C175: S-regression under contamination. -/

namespace Robpy
open Matrix

section
variable {p : ℕ}

/-- One update of the scale does not shrink it by more than a fixed factor below the median absolute residual. -/
theorem scaleUpdate_ge {c b : ℝ} (hc : 0 < c) (hb : 0 < b) {res : List ℝ} {a t : ℝ} (hne : res ≠ []) (ht : 0 < t) (hta : t ≤ a)
    (hhalf : res.length ≤ 2 * res.countP (fun r => decide (0.6745 * a ≤ |r|))) :
    t * Real.sqrt (tukeyRho c 0.6745 / (2 * b)) ≤ Spec.scaleUpdate (tukeyRho c) b res t := by
  unfold Spec.scaleUpdate
  refine mul_le_mul_of_nonneg_left (Real.sqrt_le_sqrt ?_) ht.le
  have hq : 0 ≤ tukeyRho c 0.6745 := (C13_range c 0.6745 hc).1
  have hsum : (res.countP (fun r => decide (0.6745 * a ≤ |r|)) : ℝ) * tukeyRho c 0.6745 ≤ (res.map fun r => tukeyRho c (r / t)).sum := by
    clear hhalf hne
    induction res with
    | nil => simp
    | cons r l ih =>
      have h0 := (C13_range c (r / t) hc).1
      rw [List.countP_cons, List.map_cons, List.sum_cons]
      split_ifs with h
      · have h1 : tukeyRho c 0.6745 ≤ tukeyRho c (r / t) := by
          refine C13_mono c _ _ hc ?_
          rw [abs_div, abs_of_pos ht, le_div_iff₀ ht, abs_of_pos (by norm_num)]
          have : 0.6745 * a ≤ |r| := by simpa using h
          nlinarith
        push_cast
        linarith
      · push_cast
        linarith
  have hn : (0:ℝ) < res.length := by exact_mod_cast List.length_pos_iff.2 hne
  have hh : (res.length : ℝ) ≤ 2 * (res.countP (fun r => decide (0.6745 * a ≤ |r|)) : ℝ) := by exact_mod_cast hhalf
  rw [div_le_div_iff₀ (by positivity) hb]
  have h2 : tukeyRho c 0.6745 / 2 ≤ (res.map fun r => tukeyRho c (r / t)).sum / res.length := by
    rw [div_le_div_iff₀ (by norm_num) hn]
    nlinarith
  nlinarith

/-- The scale after `j` updates from the scaled median absolute residual, from below. -/
theorem iterate_ge {c b : ℝ} (hc : 0 < c) (hb : 0 < b) {res : List ℝ} {a : ℝ} (hne : res ≠ []) (ha : 0 ≤ a)
    (hhalf : res.length ≤ 2 * res.countP (fun r => decide (0.6745 * a ≤ |r|))) (j : ℕ) :
    (min 1 (Real.sqrt (tukeyRho c 0.6745 / (2 * b)))) ^ j * a ≤ (Spec.scaleUpdate (tukeyRho c) b res)^[j] a := by
  set q := min 1 (Real.sqrt (tukeyRho c 0.6745 / (2 * b))) with hq
  have hq1 : q ≤ 1 := min_le_left _ _
  have hq2 : q ≤ Real.sqrt (tukeyRho c 0.6745 / (2 * b)) := min_le_right _ _
  have hq0 : 0 ≤ q := le_min zero_le_one (Real.sqrt_nonneg _)
  rcases ha.eq_or_lt with rfl | ha
  · rw [mul_zero]; exact iterate_nonneg _ _ _ _ le_rfl
  induction j with
  | zero => simp
  | succ j ih =>
    rw [Function.iterate_succ_apply']
    set s := (Spec.scaleUpdate (tukeyRho c) b res)^[j] a
    have hs0 : 0 ≤ s := iterate_nonneg _ _ _ _ ha.le
    have hqj : q ^ j ≤ 1 := pow_le_one₀ hq0 hq1
    have hmin : q ^ j * a ≤ min s a := le_min ih (by nlinarith)
    rcases hs0.eq_or_lt with h0 | hs
    · rw [← h0] at ih ⊢
      have : q ^ j * a = 0 := le_antisymm ih (by positivity)
      rw [pow_succ, mul_right_comm, this, zero_mul]
      exact scaleUpdate_nonneg _ _ _ le_rfl
    have ht : 0 < min s a := lt_min hs ha
    calc q ^ (j + 1) * a = q ^ j * a * q := by ring
      _ ≤ min s a * q := mul_le_mul_of_nonneg_right hmin hq0
      _ ≤ min s a * Real.sqrt (tukeyRho c 0.6745 / (2 * b)) := mul_le_mul_of_nonneg_left hq2 ht.le
      _ ≤ Spec.scaleUpdate (tukeyRho c) b res (min s a) := scaleUpdate_ge hc hb hne ht (min_le_right _ _) hhalf
      _ ≤ Spec.scaleUpdate (tukeyRho c) b res s := scaleUpdate_mono hc hb res ht (min_le_left _ _)

/-- The median absolute residual is bounded by the scale that comes from it. -/
theorem median_le_of_scale {c b M : ℝ} (hc : 0 < c) (hb : 0 < b) (J : ℕ) :
    ∃ r, ∀ (res : List ℝ) (med s : ℝ) (j : ℕ), res ≠ [] → npMedian (res.map fun r => |r|) = some med → j ≤ J →
      s = (Spec.scaleUpdate (tukeyRho c) b res)^[j] (med / 0.6745) → s ≤ M → med ≤ r := by
  have hpos : 0 < tukeyRho c 0.6745 := by
    have h := tukey_ratio (c := c) (x := max c 0.6745) (y := 0.6745) hc (by
      rw [abs_of_pos (by norm_num : (0:ℝ) < 0.6745), abs_of_pos (lt_max_of_lt_left hc : 0 < max c 0.6745)]; exact le_max_right _ _)
    have h1 : tukeyRho c c ≤ tukeyRho c (max c 0.6745) := C13_mono c _ _ hc (by
      rw [abs_of_pos hc, abs_of_pos (lt_max_of_lt_left hc : 0 < max c 0.6745)]; exact le_max_left _ _)
    have h2 : tukeyRho c c = c ^ 2 / 6 := by
      unfold tukeyRho
      rw [if_pos (abs_of_pos hc).le]
      field_simp
      norm_num
    have h3 : 0 < tukeyRho c (max c 0.6745) := by 
      rw [h2] at h1
      have : 0 < c ^ 2 / 6 := by positivity
      linarith
    have h4 : 0 < (0.6745 : ℝ) ^ 2 * tukeyRho c (max c 0.6745) := by positivity
    have h5 : 0 < (max c 0.6745) ^ 2 := by
      have : 0 < max c 0.6745 := lt_max_of_lt_left hc
      positivity
    by_contra hcon
    nlinarith
  set q := min 1 (Real.sqrt (tukeyRho c 0.6745 / (2 * b))) with hq
  have hq0 : 0 < q := lt_min one_pos (Real.sqrt_pos.2 (by positivity))
  have hq1 : q ≤ 1 := min_le_left _ _
  refine ⟨0.6745 * (|M| / q ^ J), fun res med s j hne hmed hj hs hM => ?_⟩
  have hm0 : 0 ≤ med := by
    have := sInitialScale_nonneg res
    unfold sInitialScale at this
    rw [hmed] at this
    simp only [Option.getD_some] at this
    by_contra hneg
    have h1 : med / 0.6745 < 0 := div_neg_of_neg_of_pos (not_le.1 hneg) (by norm_num)
    linarith
  have h1 := iterate_ge hc hb (a := med / 0.6745) hne (by positivity) (by
    have := (npMedian_half hmed).2
    rw [List.length_map, List.countP_map] at this
    refine this.trans_eq ?_
    congr 1
    refine List.countP_congr fun r _ => ?_
    simp only [Function.comp, decide_eq_true_eq]
    rw [mul_div_cancel₀ _ (by norm_num)]) j
  rw [← hs, ← hq] at h1
  have h2 : q ^ J ≤ q ^ j := pow_le_pow_of_le_one hq0.le hq1 hj
  have h3 : med / 0.6745 * q ^ J ≤ |M| := by
    have h4 : 0 ≤ med / 0.6745 := by positivity
    have h5 := le_abs_self M
    nlinarith
  have h4 : med / 0.6745 ≤ |M| / q ^ J := by rw [le_div_iff₀ (by positivity)]; exact h3
  rw [div_le_iff₀ (by norm_num)] at h4
  linarith

/-- Coefficients close to bounded ones are bounded. -/
theorem close_bounded {k : ℕ} {tol N : ℝ} (ht0 : 0 ≤ tol) (ht1 : tol < 1) (hN : 0 ≤ N) {m prev : Fin k → ℝ} (hp : prev ⬝ᵥ prev ≤ N ^ 2)
    (h : Real.sqrt (∑ j, (m j - prev j) * (m j - prev j)) ≤ tol * max tol (Real.sqrt (∑ j, m j * m j))) (j : Fin k) :
    |m j| ≤ (N + 1) / (1 - tol) := by
  have e1 : ∑ j, (m j - prev j) * (m j - prev j) = (m - prev) ⬝ᵥ (m - prev) := rfl
  have e2 : ∑ j, m j * m j = m ⬝ᵥ m := rfl
  rw [e1, e2] at h
  set a := Real.sqrt (m ⬝ᵥ m) with ha
  set d := Real.sqrt ((m - prev) ⬝ᵥ (m - prev)) with hd
  have ha0 : 0 ≤ a := Real.sqrt_nonneg _
  have hd0 : 0 ≤ d := Real.sqrt_nonneg _
  have haa : a ^ 2 = m ⬝ᵥ m := Real.sq_sqrt (dot_self_nonneg _)
  have hdd : d ^ 2 = (m - prev) ⬝ᵥ (m - prev) := Real.sq_sqrt (dot_self_nonneg _)
  have h1 : m ⬝ᵥ prev ≤ a * N := by
    refine le_of_abs_le (abs_le_of_sq_le_sq ?_ (by positivity))
    calc (m ⬝ᵥ prev) ^ 2 ≤ (m ⬝ᵥ m) * (prev ⬝ᵥ prev) := dot_sq_le _ _
      _ ≤ a ^ 2 * N ^ 2 := by rw [haa]; exact mul_le_mul_of_nonneg_left hp (dot_self_nonneg _)
      _ = (a * N) ^ 2 := by ring
  have h2 : m ⬝ᵥ (m - prev) ≤ a * d := by
    refine le_of_abs_le (abs_le_of_sq_le_sq ?_ (by positivity))
    calc (m ⬝ᵥ (m - prev)) ^ 2 ≤ (m ⬝ᵥ m) * ((m - prev) ⬝ᵥ (m - prev)) := dot_sq_le _ _
      _ = (a * d) ^ 2 := by rw [← haa, ← hdd]; ring
  rw [dotProduct_sub] at h2
  have h3 : a ≤ N + d := by
    by_contra hcon
    push Not at hcon
    nlinarith
  have h4 : a ≤ (N + 1) / (1 - tol) := by
    rw [le_div_iff₀ (by linarith)]
    rcases max_cases tol a with ⟨e, h5⟩ | ⟨e, h5⟩ <;> rw [e] at h <;> nlinarith
  refine le_trans (abs_le_of_sq_le_sq ?_ ha0) h4
  rw [haa, pow_two]
  exact Finset.single_le_sum (f := fun j => m j * m j) (fun j _ => mul_self_nonneg _) (Finset.mem_univ j)

/-- Good observations in general position have no constant column. -/
theorem gp_not_constant {G X : List (Fin p → ℝ)} (hG : Spec.RowsInGeneralPosition G) (hsub : ∀ x ∈ G, x ∈ X) (hn : p < G.length) :
    ¬ hasConstant X := by
  rintro ⟨j, v, hv, hall⟩
  have := hG (Pi.single j 1) (by
    intro h
    have := congrFun h j
    simp at this) v
  rw [List.countP_eq_length.2 (fun x hx => by simpa using hall x (hsub x hx))] at this
  omega

/-- The design with an intercept, observation by observation. -/
theorem zip_cons (X : List ((Fin p → ℝ) × ℝ)) :
    ((X.map Prod.fst).map fun x => (Fin.cons 1 x : Fin (p + 1) → ℝ)).zip (X.map Prod.snd) =
      X.map fun d => ((Fin.cons 1 d.1 : Fin (p + 1) → ℝ), d.2) := by
  induction X with
  | nil => rfl
  | cons d X ih => simpa using ih

/-- **C175**: for every number `M` there is a bound, which depends on the good observations and the parameters only, for the
coefficients of every S-regression whose reported scale is at most `M`, whatever outliers are added. -/
theorem C175_certified_partial {G : List ((Fin p → ℝ) × ℝ)} (hG : Spec.RowsInGeneralPosition (G.map Prod.fst)) (cfg : SConfig) {c : ℝ}
    (hc : 0 < c) (hR : cfg.rho = .tukey c) (hb : 0 < cfg.b) (hmax : cfg.maxScaleIterations ≠ 0) (hi : cfg.fitIntercept = true)
    (ht0 : 0 ≤ cfg.relativeTolerance) (ht1 : cfg.relativeTolerance < 1) (M : ℝ) :
    ∃ K : ℝ, ∀ (W : WLSReg) (srt : ArgSort ℝ) (ch : Choice ℕ) (X O : List ((Fin p → ℝ) × ℝ)) (st st' : SState) (fuel : ℕ) (s : ℝ),
      X.Perm (O ++ G) → O.length + 2 * (p + 1) ≤ G.length →
      sFit W srt ch cfg st (X.map Prod.fst) (X.map Prod.snd) fuel = some (.ok (), st') → st'.scale_ = some s → s ≤ M →
      ∃ beta : Fin (p + 1) → ℝ, st'.model = some ⟨p + 1, beta⟩ ∧ ∀ j, |beta j| ≤ K := by
  obtain ⟨r, hr⟩ := median_le_of_scale (M := M) hc hb cfg.maxScaleIterations
  obtain ⟨K, hK0, hK⟩ := model_bounded hG r
  refine ⟨(2 * K + 1) / (1 - cfg.relativeTolerance), fun W srt ch X O st st' fuel s hX hO h hs hM => ?_⟩
  have hlen : X.length = O.length + G.length := by simpa using hX.length_eq
  have hnc : ¬ hasConstant (X.map Prod.fst) := by
    refine gp_not_constant hG (fun x hx => ?_) (by simp; omega)
    obtain ⟨d, hd, rfl⟩ := List.mem_map.1 hx
    exact List.mem_map.2 ⟨d, hX.mem_iff.2 (List.mem_append_right _ hd), rfl⟩
  have hne : X ≠ [] := by
    intro h0
    rw [h0] at hlen
    simp at hlen
    omega
  unfold sFit sDesign addConstant at h
  rw [if_pos hi, if_neg (by simpa using hne), if_neg hnc] at h
  simp only at h
  rw [zip_cons] at h
  set D := X.map fun d => ((Fin.cons 1 d.1 : Fin (p + 1) → ℝ), d.2) with hD
  rcases hs' : sSearch W srt ch cfg D fuel with _ | (e | ⟨m, s'⟩)
  · rw [hs'] at h; simp at h
  · rw [hs'] at h; simp at h
  · rw [hs'] at h
    simp only [Option.some.injEq, Prod.mk.injEq, true_and] at h
    subst h
    simp only [Option.some.injEq] at hs
    subst hs
    refine ⟨m, rfl, ?_⟩
    obtain ⟨results, -, h1, -, h2⟩ := C104_reported W srt ch cfg c hc hR hmax D (by simp [hD]; omega) fuel m s' hs'
    obtain ⟨-, prev, h3, ⟨med, j, h4, h5, h6⟩, -, -⟩ := h2 _ h1
    simp only at h3 h6
    have hmed : med ≤ r := by
      refine hr (D.map fun d => ∑ j, d.1 j * prev j - d.2) med s' (j + 1) (by simpa [hD] using hne) ?_ h5 h6 hM
      rw [← h4, List.map_map]
      congr 1
      exact List.map_congr_left fun d _ => abs_sub_comm _ _
    set mp : LinModel p := ⟨prev 0, fun j => prev j.succ⟩ with hmp
    have hres : ∀ d : (Fin p → ℝ) × ℝ, d.2 - ∑ j, (Fin.cons 1 d.1 : Fin (p + 1) → ℝ) j * prev j = resid mp d := by
      intro d
      rw [resid_dot, Fin.sum_univ_succ]
      simp [hmp, dotProduct]
    have hcount : p + 1 ≤ G.countP (fun d => decide (|resid mp d| ≤ r)) := by
      have h7 := (npMedian_half h4).1
      rw [hD, List.map_map, List.length_map, List.countP_map, hX.countP_eq, List.countP_append, hlen] at h7
      have h8 := List.countP_le_length (l := O) (p := (fun x => decide (x ≤ med)) ∘ ((fun d : (Fin (p + 1) → ℝ) × ℝ => |d.2 - ∑ j, d.1 j * prev j|) ∘
        fun d => ((Fin.cons 1 d.1 : Fin (p + 1) → ℝ), d.2)))
      have h9 : G.countP ((fun x => decide (x ≤ med)) ∘ ((fun d : (Fin (p + 1) → ℝ) × ℝ => |d.2 - ∑ j, d.1 j * prev j|) ∘
        fun d => ((Fin.cons 1 d.1 : Fin (p + 1) → ℝ), d.2))) ≤ G.countP (fun d => decide (|resid mp d| ≤ r)) := by
        refine List.countP_mono_left fun d _ hd => ?_
        simp only [Function.comp, decide_eq_true_eq, hres] at hd ⊢
        exact hd.trans hmed
      omega
    obtain ⟨g1, g2⟩ := hK mp hcount
    refine close_bounded ht0 ht1 (by positivity) ?_ h3
    have e : prev ⬝ᵥ prev = mp.intercept * mp.intercept + mp.coef ⬝ᵥ mp.coef := by
      simp only [dotProduct, Fin.sum_univ_succ, hmp]
    rw [e]
    have := abs_le.1 g1
    nlinarith [sq_nonneg K, abs_mul_abs_self mp.intercept, abs_nonneg mp.intercept]

/-- **C175** for the default parameters. -/
theorem C175_default_partial {G : List ((Fin p → ℝ) × ℝ)} (hG : Spec.RowsInGeneralPosition (G.map Prod.fst)) (M : ℝ) :
    ∃ K : ℝ, ∀ (W : WLSReg) (srt : ArgSort ℝ) (ch : Choice ℕ) (X O : List ((Fin p → ℝ) × ℝ)) (st st' : SState) (fuel : ℕ) (s : ℝ),
      X.Perm (O ++ G) → O.length + 2 * (p + 1) ≤ G.length →
      sFit W srt ch sDefault st (X.map Prod.fst) (X.map Prod.snd) fuel = some (.ok (), st') → st'.scale_ = some s → s ≤ M →
      ∃ beta : Fin (p + 1) → ℝ, st'.model = some ⟨p + 1, beta⟩ ∧ ∀ j, |beta j| ≤ K :=
  C175_certified_partial hG sDefault (c := 1.547) (by norm_num) rfl (by norm_num [sDefault]) (by simp [sDefault]) rfl (by norm_num [sDefault])
    (by norm_num [sDefault]) M

end

/-- The hypotheses of the C175 theorems: good observations at 0, ..., 5 with targets 0 and two outliers anywhere; if the targets of the
outliers are 0 as well, the fit returns. -/
example (a b : ℝ) : Spec.RowsInGeneralPosition (c171Good.map Prod.fst) ∧ ([(![a], (0:ℝ)), (![b], 0)] : List ((Fin 1 → ℝ) × ℝ)).length + 2 * (1 + 1) ≤ c171Good.length ∧
    ∃ st' s, sFit wlsExists (argsortStable ℝ) choiceFirst sDefault ⟨none, none⟩ ((c171Good ++ [(![a], 0), (![b], 0)]).map Prod.fst)
      ((c171Good ++ [(![a], 0), (![b], 0)]).map Prod.snd) 1 = some (.ok (), st') ∧ st'.scale_ = some s := by
  refine ⟨c171_gp, by simp [c171Good], ?_⟩
  unfold sFit sDesign addConstant
  rw [if_pos (show sDefault.fitIntercept = true from rfl), if_neg (by simp [c171Good]), if_neg (gp_not_constant c171_gp (by
    intro x hx
    rw [List.map_append]
    exact List.mem_append_left _ hx) (by simp [c171Good]))]
  simp only
  rw [zip_cons]
  obtain ⟨s, hs⟩ := search_zero wlsExists (argsortStable ℝ) choiceFirst
    ((c171Good ++ [(![a], 0), (![b], 0)]).map fun d : (Fin 1 → ℝ) × ℝ => ((Fin.cons 1 d.1 : Fin (1 + 1) → ℝ), d.2)) (by simp [c171Good]) (by
      intro d hd
      simp [c171Good] at hd
      rcases hd with rfl | rfl | rfl | rfl | rfl | rfl | rfl | rfl <;> rfl) 0
  rw [hs]
  exact ⟨_, s, rfl, rfl⟩

end Robpy
