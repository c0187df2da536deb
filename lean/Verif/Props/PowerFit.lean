import Verif.Model.PowerFit
import Verif.Props.PowerTransform
import Verif.Props.UnivariateMCD
import Verif.Props.CellFit
import Verif.Lemmas.Median
import Verif.Props.TauOneStep

/-! # Properties C142-C147: the estimation of the power transformer -/

namespace Robpy

/-! ### Means and variances -/

theorem sum_sub_mean {y : List ℝ} (hy : y ≠ []) : (y.map fun v => v - mean y).sum = 0 := by
  have hl : (y.length : ℝ) ≠ 0 := by
    have := List.length_pos_iff.2 hy
    positivity
  have : (y.map fun v => v - mean y).sum = y.sum - y.length * mean y := by
    have : ∀ c : ℝ, (y.map fun v => v - c).sum = y.sum - y.length * c := by
      intro c
      clear hl hy
      induction y with
      | nil => simp
      | cons a y ih => simp only [List.map_cons, List.sum_cons, List.length_cons, ih]; push_cast; ring
    exact this _
  rw [this]
  unfold mean
  field_simp
  ring

theorem sum_sq_sub_mean {y : List ℝ} (hy : y ≠ []) : (y.map fun v => (v - mean y) ^ 2).sum = y.length * var y := by
  have hl : (y.length : ℝ) ≠ 0 := by
    have := List.length_pos_iff.2 hy
    positivity
  unfold var
  conv_rhs => rw [mean]
  rw [List.length_map]
  field_simp

theorem sum_map_div (y : List ℝ) (f : ℝ → ℝ) (s : ℝ) : (y.map fun v => f v / s).sum = (y.map f).sum / s := by
  induction y with
  | nil => simp
  | cons a y ih => simp only [List.map_cons, List.sum_cons, ih]; ring

theorem var_nonneg' (y : List ℝ) : 0 ≤ var y := by
  unfold var mean
  apply div_nonneg _ (Nat.cast_nonneg _)
  apply List.sum_nonneg
  intro a ha
  obtain ⟨v, -, rfl⟩ := List.mem_map.1 ha
  positivity

/-- Standardised values have sum of squares `n`. -/
theorem sum_sq_std {y : List ℝ} (hy : y ≠ []) (hv : var y ≠ 0) :
    (y.map fun v => ((v - mean y) / Real.sqrt (var y)) ^ 2).sum = (y.length : ℝ) := by
  have e : (fun v : ℝ => ((v - mean y) / Real.sqrt (var y)) ^ 2) = fun v => (v - mean y) ^ 2 / var y := by
    funext v
    rw [div_pow, Real.sq_sqrt (var_nonneg' y)]
  rw [e, sum_map_div, sum_sq_sub_mean hy]
  field_simp

theorem sum_std {y : List ℝ} (hy : y ≠ []) : (y.map fun v => (v - mean y) / Real.sqrt (var y)).sum = 0 := by
  rw [sum_map_div, sum_sub_mean hy, zero_div]

theorem var_zero_const {y : List ℝ} (hv : var y = 0) : ∀ v ∈ y, v = mean y := by
  intro v hm
  have hy : y ≠ [] := fun e => by rw [e] at hm; simp at hm
  have h := sum_sq_sub_mean hy
  rw [hv, mul_zero] at h
  have hle := List.single_le_sum (l := y.map fun v => (v - mean y) ^ 2) (by
    intro a ha
    obtain ⟨v, -, rfl⟩ := List.mem_map.1 ha
    positivity) _ (List.mem_map_of_mem (f := fun v => (v - mean y) ^ 2) hm)
  rw [h] at hle
  have : (v - mean y) ^ 2 = 0 := le_antisymm hle (sq_nonneg _)
  have := pow_eq_zero_iff (n := 2) (by norm_num) |>.1 this
  linarith

/-! ### Masks -/

theorem maskTake_sublist {α : Type} (w : List Bool) (x : List α) : (maskTake w x).Sublist x := by
  unfold maskTake
  refine (List.Sublist.map _ List.filter_sublist).trans ?_
  induction x generalizing w with
  | nil => simp
  | cons a x ih =>
    cases w with
    | nil => simp
    | cons b w => simpa using ih w

theorem maskTake_map {α β : Type} (w : List Bool) (f : α → β) (x : List α) :
    maskTake w (x.map f) = (maskTake w x).map f := by
  unfold maskTake
  rw [List.zip_map_left, List.filter_map, List.map_map, List.map_map]
  rfl

/-- A mask computed from the values keeps exactly the values that satisfy the condition. -/
theorem maskTake_of_map {α : Type} (p : α → Bool) (x : List α) : maskTake (x.map p) x = x.filter p := by
  unfold maskTake
  induction x with
  | nil => rfl
  | cons a x ih =>
    simp only [List.map_cons, List.zip_cons_cons, List.filter_cons]
    split_ifs
    · rw [List.map_cons, ih]
    · exact ih

/-! ### What a fit is made of -/

/-- The plain transformation of one value. -/
noncomputable def famFun (fam : PTMethod) (lam : ℝ) : ℝ → ℝ :=
  match fam with
  | .boxcox => boxcox lam
  | .yeojohnson => yeojohnson lam

theorem plainArr_eq (fam : PTMethod) (lam : ℝ) (x : List ℝ) : plainArr fam lam x = x.map (famFun fam lam) := by
  cases fam <;> rfl

theorem rewLoop_parts {num : PTNum} {fam : PTMethod} {range : ℝ × ℝ} {x : List ℝ} (k : ℕ) {zt : List (Option ℝ)}
    {last r : Option (ℝ × List ℝ × List Bool)} (h : rewLoop num fam range x k zt last = .ok r) :
    (k = 0 ∧ r = last) ∨ ∃ lam zt', r = some (lam, plainArr fam lam x, inlierMask num.cutoff zt') ∧
      estimateML num fam range (maskTake (inlierMask num.cutoff zt') x) = .ok lam ∧
      (k = 1 → zt' = zt) ∧ (2 ≤ k → ∃ lam', zt' = plainStd (plainArr fam lam' x)) ∧ 1 ≤ k := by
  induction k generalizing zt last with
  | zero => exact .inl ⟨rfl, (Except.ok.inj h).symm⟩
  | succ k ih =>
    right
    unfold rewLoop at h
    obtain ⟨s, h1, h2⟩ := bind_ok h
    unfold rewStep at h1
    obtain ⟨lam, h3, h4⟩ := map_ok h1
    rcases ih h2 with ⟨hk, hr⟩ | ⟨lam', zt', hr, h5, h6, h7, h8⟩
    · subst hk
      refine ⟨lam, zt, ?_, h3, fun _ => rfl, fun h => by omega, by omega⟩
      rw [hr, ← h4]
    · refine ⟨lam', zt', hr, h5, fun h => by omega, fun _ => ?_, by omega⟩
      rcases Nat.lt_or_ge k 2 with hk | hk
      · refine ⟨lam, ?_⟩
        rw [h6 (by omega), ← h4]
      · exact h7 hk

/-- The pieces of a successful reweighting. -/
theorem reweightedML_parts {num : PTNum} {fam : PTMethod} {nsteps : ℕ} {range : ℝ × ℝ} {x : List ℝ} {lam mu sd : ℝ}
    (h : reweightedML num fam nsteps range x = .ok (lam, mu, sd)) :
    1 ≤ nsteps ∧ ∃ zt : List (Option ℝ),
      estimateML num fam range (maskTake (inlierMask num.cutoff zt) x) = .ok lam ∧
      mu = mean (maskTake (inlierMask num.cutoff zt) (plainArr fam lam x)) ∧
      sd = Real.sqrt (var (maskTake (inlierMask num.cutoff zt) (plainArr fam lam x))) ∧
      (nsteps = 1 → zt = robustStd fam (lambdaRaw num fam range x) x) ∧
      (2 ≤ nsteps → ∃ lam', zt = plainStd (plainArr fam lam' x)) := by
  unfold reweightedML at h
  obtain ⟨r, h1, h2⟩ := bind_ok h
  rcases rewLoop_parts nsteps h1 with ⟨-, rfl⟩ | ⟨lam', zt, rfl, h3, h4, h5, h6⟩
  · simp at h2
  · simp only [Except.ok.injEq, Prod.mk.injEq] at h2
    obtain ⟨rfl, rfl, rfl⟩ := h2
    exact ⟨h6, zt, h3, rfl, rfl, h4, h5⟩

/-- The data the estimation sees: sorted, and standardised as `transform` does it. -/
noncomputable def preData (f : PTFit) (x : List ℝ) : List ℝ :=
  match f.std with
  | none => npSort x
  | some (l, s, _, _) => (npSort x).map fun v => (v - l) / s

theorem fitBoxcox_parts {num : PTNum} {args : PTArgs} {x : List ℝ} {f : PTFit}
    (h : (ptEnv num args).fitBC (npSort x) = .ok f) : f.method = .boxcox ∧ ptConverged args.range f.lam ∧
    ∃ mu sd, reweightedML num .boxcox args.nsteps args.range (preData f x) = .ok (f.lam, mu, sd) ∧
      f.std = if args.standardize = true then some (0, (npMedian x).getD 0, mu, sd) else none := by
  have h' : (fitBoxcox (ptOpt num .boxcox args.nsteps) args.standardize args.range 2 (npSort x)).getD
    (.error .typeError) = .ok f := h
  simp only [fitBoxcox, runLoop, fitBoxcoxStep, ptOpt] at h'
  rw [npMedian_perm (npSort_perm x)] at h'
  rcases hr : reweightedML num .boxcox args.nsteps args.range
    (if args.standardize = true then List.map (fun v => v / (npMedian x).getD 0) (npSort x) else npSort x) with e | ⟨lam, mu, sd⟩
  · rw [hr] at h'; simp at h'
  · rw [hr] at h'
    simp only at h'
    by_cases hc : ptConverged args.range lam
    · rw [if_pos hc] at h'
      simp only [Option.getD_some, Except.ok.injEq] at h'
      subst h'
      refine ⟨rfl, hc, mu, sd, ?_, rfl⟩
      rw [← hr]
      congr 1
      unfold preData
      rcases args.standardize with _ | _
      · rfl
      · simp
    · rw [if_neg hc] at h'; simp at h'

theorem fitYeojohnson_parts {num : PTNum} {args : PTArgs} {x : List ℝ} {f : PTFit}
    (h : (ptEnv num args).fitYJ (npSort x) = .ok f) : f.method = .yeojohnson ∧ ptConverged args.range f.lam ∧
    ∃ mu sd, reweightedML num .yeojohnson args.nsteps args.range (preData f x) = .ok (f.lam, mu, sd) ∧
      f.std = if args.standardize = true then some ((npMedian x).getD 0, madNormal x, mu, sd) else none := by
  have h' : (fitYeojohnson (ptOpt num .yeojohnson args.nsteps) madNormal args.standardize args.range 2 (npSort x)).getD
    (.error .typeError) = .ok f := h
  simp only [fitYeojohnson, runLoop, fitYeojohnsonStep, ptOpt, madNormal] at h'
  rw [npMedian_perm (npSort_perm x), madRaw_perm (npSort_perm x)] at h'
  rw [← madNormal] at h'
  rcases hr : reweightedML num .yeojohnson args.nsteps args.range
    (if args.standardize = true then List.map (fun v => (v - (npMedian x).getD 0) / madNormal x) (npSort x) else npSort x)
    with e | ⟨lam, mu, sd⟩
  · rw [hr] at h'; simp at h'
  · rw [hr] at h'
    simp only at h'
    by_cases hc : ptConverged args.range lam
    · rw [if_pos hc] at h'
      simp only [Option.getD_some, Except.ok.injEq] at h'
      subst h'
      refine ⟨rfl, hc, mu, sd, ?_, rfl⟩
      rw [← hr]
      congr 1
      unfold preData
      rcases args.standardize with _ | _
      · rfl
      · simp
    · rw [if_neg hc] at h'; simp at h'

/-- A fit comes from one of the two routines; Box-Cox only for strictly positive data. -/
theorem powerFit_cases {num : PTNum} {args : PTArgs} {m : PTChoice} {x : List ℝ} {f : PTFit}
    (h : powerFit num args m x = .ok f) :
    ((ptEnv num args).fitBC (npSort x) = .ok f ∧ x ≠ [] ∧ (∀ v ∈ x, 0 < v) ∧ (m = .boxcox ∨ m = .auto)) ∨
    ((ptEnv num args).fitYJ (npSort x) = .ok f ∧ (m = .yeojohnson ∨ m = .auto)) := by
  unfold powerFit ptFit getMethod at h
  rcases m with _ | _ | _ | _
  · simp only at h
    by_cases h0 : x = []
    · rw [if_pos h0] at h; simp at h
    rw [if_neg h0] at h
    by_cases h1 : ∃ v ∈ x, v ≤ 0
    · rw [if_pos h1] at h
      simp only at h
      rcases hf : (ptEnv num args).fitYJ (npSort x) with e | g
      · rw [hf] at h; simp at h
      · rw [hf] at h
        simp only [Except.ok.injEq] at h
        exact .inr ⟨by rw [← h], .inr rfl⟩
    · rw [if_neg h1] at h
      push Not at h1
      simp only at h
      rcases hf : (ptEnv num args).fitBC (npSort x) with e | g
      · rw [hf] at h; simp at h
      · rw [hf] at h
        simp only at h
        rcases hg : (ptEnv num args).fitYJ (npSort x) with e | g'
        · rw [hg] at h; simp at h
        · rw [hg] at h
          simp only at h
          by_cases hc : (ptEnv num args).crit x g < (ptEnv num args).crit x g'
          · rw [if_pos hc] at h
            simp only [Except.ok.injEq] at h
            exact .inl ⟨by rw [← h], h0, h1, .inr rfl⟩
          · rw [if_neg hc] at h
            simp only [Except.ok.injEq] at h
            exact .inr ⟨by rw [← h], .inr rfl⟩
  · simp only at h
    by_cases h0 : x = [] ∨ ∃ v ∈ x, v ≤ 0
    · rw [if_pos h0] at h; simp at h
    · rw [if_neg h0] at h
      push Not at h0
      simp only at h
      rcases hf : (ptEnv num args).fitBC (npSort x) with e | g
      · rw [hf] at h; simp at h
      · rw [hf] at h
        simp only [Except.ok.injEq] at h
        exact .inl ⟨by rw [← h], h0.1, h0.2, .inl rfl⟩
  · simp only at h
    rcases hf : (ptEnv num args).fitYJ (npSort x) with e | g
    · rw [hf] at h; simp at h
    · rw [hf] at h
      simp only [Except.ok.injEq] at h
      exact .inr ⟨by rw [← h], .inl rfl⟩
  · simp at h

/-- The pieces of a successful fit. -/
theorem powerFit_parts {num : PTNum} {args : PTArgs} {m : PTChoice} {x : List ℝ} {f : PTFit}
    (h : powerFit num args m x = .ok f) : ptConverged args.range f.lam ∧ (f.method = .boxcox → ∀ v ∈ x, 0 < v) ∧
    ∃ mu sd, reweightedML num f.method args.nsteps args.range (preData f x) = .ok (f.lam, mu, sd) ∧
      f.std = if args.standardize = true then
        some (if f.method = .boxcox then 0 else (npMedian x).getD 0,
          if f.method = .boxcox then (npMedian x).getD 0 else madNormal x, mu, sd) else none := by
  rcases powerFit_cases h with ⟨h1, -, hp, -⟩ | ⟨h1, -⟩
  · obtain ⟨hm, hc, mu, sd, h2, h3⟩ := fitBoxcox_parts h1
    refine ⟨hc, fun _ => hp, mu, sd, ?_, ?_⟩
    · rw [hm]; exact h2
    · rw [if_pos hm, if_pos hm]; exact h3
  · obtain ⟨hm, hc, mu, sd, h2, h3⟩ := fitYeojohnson_parts h1
    refine ⟨hc, fun e => by rw [hm] at e; simp at e, mu, sd, ?_, ?_⟩
    · rw [hm]; exact h2
    · have hn : f.method ≠ .boxcox := by rw [hm]; simp
      simp only [if_neg hn]; exact h3

/-! ### The last weights -/

/-- An observation keeps its weight in the last step if its transformed value is within `c` standard deviations of
the mean of all transformed values. -/
noncomputable def keepsWeight (c : ℝ) (g : ℝ → ℝ) (x : List ℝ) (u : ℝ) : Bool :=
  open Classical in
  decide (var (x.map g) ≠ 0 ∧ |(g u - mean (x.map g)) / Real.sqrt (var (x.map g))| ≤ c)

theorem mask_plainStd (c : ℝ) (fam : PTMethod) (lam : ℝ) (x : List ℝ) :
    inlierMask c (plainStd (plainArr fam lam x)) = x.map (keepsWeight c (famFun fam lam) x) := by
  unfold inlierMask plainStd
  rw [plainArr_eq, List.map_map, List.map_map]
  refine List.map_congr_left fun u _ => ?_
  simp only [Function.comp, keepsWeight, npDiv]
  by_cases hv : var (x.map (famFun fam lam)) = 0
  · rw [hv, Real.sqrt_zero, if_pos rfl]
    simp
  · have : Real.sqrt (var (x.map (famFun fam lam))) ≠ 0 := by
      rw [Real.sqrt_ne_zero']
      exact lt_of_le_of_ne (var_nonneg' _) (Ne.symm hv)
    rw [if_neg this]
    simp [hv]

theorem countP_mul_sq_le {α : Type} (l : List α) (g : α → ℝ) (p : α → Bool) {c : ℝ} (hc : 0 ≤ c)
    (hp : ∀ a ∈ l, p a = true → c < |g a|) :
    (l.countP p : ℝ) * c ^ 2 ≤ (l.map fun a => g a ^ 2).sum ∧
      (0 < l.countP p → (l.countP p : ℝ) * c ^ 2 < (l.map fun a => g a ^ 2).sum) := by
  induction l with
  | nil => simp
  | cons a l ih =>
    obtain ⟨h1, h2⟩ := ih fun b hb => hp b (List.mem_cons_of_mem _ hb)
    rw [List.map_cons, List.sum_cons, List.countP_cons]
    by_cases ha : p a = true
    · rw [if_pos ha]
      have h3 := hp a List.mem_cons_self ha
      have h4 : c ^ 2 < g a ^ 2 := by
        rw [← sq_abs (g a)]
        exact pow_lt_pow_left₀ h3 hc (by norm_num)
      push_cast
      constructor
      · nlinarith
      · intro; nlinarith
    · rw [if_neg ha]
      have := sq_nonneg (g a)
      push_cast
      constructor
      · rw [add_zero]; linarith
      · intro h
        have := h2 (by omega)
        rw [add_zero]; linarith

/-- At most a fraction `1 / c ^ 2` of the observations loses its weight. -/
theorem few_lose {c : ℝ} (hc : 0 ≤ c) (g : ℝ → ℝ) {x : List ℝ} (hv : var (x.map g) ≠ 0) :
    (x.countP fun u => !keepsWeight c g x u : ℝ) * c ^ 2 ≤ x.length ∧
      (0 < (x.countP fun u => !keepsWeight c g x u) → (x.countP fun u => !keepsWeight c g x u : ℝ) * c ^ 2 < x.length) := by
  have hx : x ≠ [] := by
    rintro rfl
    exact hv (by simp [var, mean])
  have h := countP_mul_sq_le x (fun u => (g u - mean (x.map g)) / Real.sqrt (var (x.map g)))
    (fun u => !keepsWeight c g x u) hc (by
      intro u _ hu
      simp only [keepsWeight, Bool.not_eq_true', decide_eq_false_iff_not, not_and, not_le] at hu
      exact hu hv)
  have e : (x.map fun u => ((g u - mean (x.map g)) / Real.sqrt (var (x.map g))) ^ 2).sum = (x.length : ℝ) := by
    have := sum_sq_std (y := x.map g) (by simpa using hx) hv
    rw [List.map_map, List.length_map] at this
    exact this
  rw [e] at h
  exact h

/-! ### The value `transform` gives a training observation -/

/-- `transform` of one observation. -/
theorem transform_cell {f : PTFit} {l s mu sd : ℝ} (hf : f.std = some (l, s, mu, sd)) (hs : s ≠ 0) (hsd : sd ≠ 0)
    (hl : f.method = .boxcox → l = 0) {I : List ℝ} (hI : I ≠ []) (hp : f.method = .boxcox → ∀ v ∈ I, 0 < v) :
    ptTransform f I = .ok ((I.map fun v => (famFun f.method f.lam ((v - l) / s) - mu) / sd).map some) := by
  obtain ⟨m, lam, std⟩ := f
  simp only at hf
  subst hf
  unfold ptTransform
  rcases m with _ | _
  · simp only
    have hl0 : l = 0 := hl rfl
    have hpos : ¬ (I = [] ∨ ∃ v ∈ I, v ≤ 0) := by
      rintro (h | ⟨v, hv, h⟩)
      · exact hI h
      · exact absurd (hp rfl v hv) (not_lt.2 h)
    rw [if_neg hpos, List.map_map]
    congr 1
    refine List.map_congr_left fun v _ => ?_
    simp only [ptCell, Option.map_some, npDiv, if_neg hs, Option.bind_some, if_neg hsd, Function.comp, famFun, hl0]
  · simp only
    rw [List.map_map]
    congr 1
    refine List.map_congr_left fun v _ => ?_
    simp only [ptCell, npDiv, if_neg hs, Option.bind_some, if_neg hsd, Function.comp, famFun]

/-- The observations with weight 1, in the units of the data. -/
theorem inliers_of_fit {num : PTNum} {args : PTArgs} {m : PTChoice} {x : List ℝ} {f : PTFit}
    (h : powerFit num args m x = .ok f) {l s mu sd : ℝ} (hf : f.std = some (l, s, mu, sd)) :
    1 ≤ args.nsteps ∧ (f.method = .boxcox → l = 0 ∧ ∀ v ∈ x, 0 < v) ∧ ∃ w : List Bool,
      estimateML num f.method args.range ((maskTake w (npSort x)).map fun v => (v - l) / s) = .ok f.lam ∧
      mu = mean ((maskTake w (npSort x)).map fun v => famFun f.method f.lam ((v - l) / s)) ∧
      sd = Real.sqrt (var ((maskTake w (npSort x)).map fun v => famFun f.method f.lam ((v - l) / s))) ∧
      (2 ≤ args.nsteps → ∃ lam', w = (npSort x).map
        (keepsWeight num.cutoff (fun v => famFun f.method lam' ((v - l) / s)) (npSort x))) := by
  obtain ⟨-, hp, mu', sd', h1, h2⟩ := powerFit_parts h
  rw [hf] at h2
  by_cases h3 : args.standardize = true
  swap
  · rw [if_neg h3] at h2; simp at h2
  · rw [if_pos h3] at h2
    simp only [Option.some.injEq, Prod.mk.injEq] at h2
    obtain ⟨hl, -, rfl, rfl⟩ := h2
    have hpre : preData f x = (npSort x).map fun v => (v - l) / s := by
      unfold preData
      rw [hf]
    rw [hpre] at h1
    obtain ⟨hn, zt, h4, h5, h6, -, h8⟩ := reweightedML_parts h1
    refine ⟨hn, fun e => ⟨hl.trans (if_pos e), hp e⟩, inlierMask num.cutoff zt, ?_, ?_, ?_, fun h9 => ?_⟩
    · rw [← maskTake_map]; exact h4
    · rw [h5, plainArr_eq, List.map_map, maskTake_map]; rfl
    · rw [h6, plainArr_eq, List.map_map, maskTake_map]; rfl
    · obtain ⟨lam', rfl⟩ := h8 h9
      refine ⟨lam', ?_⟩
      rw [mask_plainStd, List.map_map]
      refine List.map_congr_left fun v _ => ?_
      simp only [Function.comp, keepsWeight, List.map_map]
      rfl

/-! ## C142 -/

/-- Mean 0 and standard deviation 1. -/
def Spec.ZeroOne (Y : List ℝ) : Prop := Y.sum = 0 ∧ (Y.map (· ^ 2)).sum = (Y.length : ℝ)

theorem mean_nil_var : var ([] : List ℝ) = 0 := by simp [var, mean]

theorem zeroOne_std {y : List ℝ} (hv : var y ≠ 0) :
    Spec.ZeroOne (y.map fun v => (v - mean y) / Real.sqrt (var y)) := by
  have hy : y ≠ [] := by rintro rfl; exact hv mean_nil_var
  refine ⟨sum_std hy, ?_⟩
  rw [List.map_map, List.length_map]
  exact sum_sq_std hy hv

/-- **C142**: after a fit with standardisation there is a group of observations that `transform` gives mean 0 and
standard deviation 1, and lambda is what the optimiser finds for the standardised values of that group. -/
theorem C142_inliers {num : PTNum} {args : PTArgs} {m : PTChoice} {x : List ℝ} {f : PTFit}
    (h : powerFit num args m x = .ok f) {l s mu sd : ℝ} (hf : f.std = some (l, s, mu, sd)) (hg : f.Good) :
    ∃ I Y : List ℝ, I ≠ [] ∧ I.Sublist (npSort x) ∧ ptTransform f I = .ok (Y.map some) ∧ Spec.ZeroOne Y ∧
      f.lam = num.minimize (mlObjective f.method (I.map fun v => (v - l) / s)) args.range := by
  obtain ⟨hs, hsd⟩ := hg _ _ _ _ hf
  obtain ⟨-, hb, w, h1, h2, h3, -⟩ := inliers_of_fit h hf
  set I := maskTake w (npSort x)
  have hsub : I.Sublist (npSort x) := maskTake_sublist _ _
  have hI : I ≠ [] := by
    intro e
    rw [e, List.map_nil, mean_nil_var, Real.sqrt_zero] at h3
    exact hsd.ne' h3
  have hv : var (I.map fun v => famFun f.method f.lam ((v - l) / s)) ≠ 0 := by
    intro e
    rw [e, Real.sqrt_zero] at h3
    exact hsd.ne' h3
  refine ⟨I, _, hI, hsub, transform_cell hf hs.ne' hsd.ne' (fun e => (hb e).1) hI fun e v hv => ?_, ?_, ?_⟩
  · exact (hb e).2 v ((npSort_perm x).mem_iff.1 (hsub.subset hv))
  · have := zeroOne_std hv
    rw [← h2, ← h3, List.map_map] at this
    exact this
  · unfold estimateML at h1
    split_ifs at h1 with h4
    exact (Except.ok.inj h1).symm

/-! ## C143 -/

/-- **C143** (partial): if there are two steps or more, the observations left out of the final location and scale are
so few that `cutoff ^ 2` times their number is at most the number of observations, and a value that at least a fraction
`1 / cutoff ^ 2` of the observations share is never left out. -/
theorem C143_few_partial {num : PTNum} {args : PTArgs} {m : PTChoice} {x : List ℝ} {f : PTFit}
    (h : powerFit num args m x = .ok f) {l s mu sd : ℝ} (hf : f.std = some (l, s, mu, sd)) (hg : f.Good)
    (hn : 2 ≤ args.nsteps) (hc : 0 ≤ num.cutoff) :
    ∃ I Y : List ℝ, I ≠ [] ∧ I.Sublist (npSort x) ∧ ptTransform f I = .ok (Y.map some) ∧ Spec.ZeroOne Y ∧
      ((x.length : ℝ) - I.length) * num.cutoff ^ 2 ≤ x.length ∧
      ∀ u ∈ x, (x.length : ℝ) ≤ x.count u * num.cutoff ^ 2 → u ∈ I := by
  obtain ⟨hs, hsd⟩ := hg _ _ _ _ hf
  obtain ⟨-, hb, w, h1, h2, h3, h4⟩ := inliers_of_fit h hf
  obtain ⟨lam', hw⟩ := h4 hn
  set g := fun v => famFun f.method lam' ((v - l) / s)
  have hmask : maskTake w (npSort x) = (npSort x).filter (keepsWeight num.cutoff g (npSort x)) := by
    rw [hw]; exact maskTake_of_map _ _
  rw [hmask] at h1 h2 h3
  set I := (npSort x).filter (keepsWeight num.cutoff g (npSort x)) with hIdef
  have hsub : I.Sublist (npSort x) := List.filter_sublist
  have hI : I ≠ [] := by
    intro e
    rw [e, List.map_nil, mean_nil_var, Real.sqrt_zero] at h3
    exact hsd.ne' h3
  have hv : var (I.map fun v => famFun f.method f.lam ((v - l) / s)) ≠ 0 := by
    intro e
    rw [e, Real.sqrt_zero] at h3
    exact hsd.ne' h3
  have hv' : var ((npSort x).map g) ≠ 0 := by
    obtain ⟨u, hu⟩ := List.exists_mem_of_ne_nil I hI
    have := (List.mem_filter.1 hu).2
    simp only [keepsWeight, decide_eq_true_eq] at this
    exact this.1
  obtain ⟨hfew, hstrict⟩ := few_lose hc g hv'
  refine ⟨I, _, hI, hsub, transform_cell hf hs.ne' hsd.ne' (fun e => (hb e).1) hI fun e v hv => ?_, ?_, ?_, ?_⟩
  · exact (hb e).2 v ((npSort_perm x).mem_iff.1 (hsub.subset hv))
  · have := zeroOne_std hv
    rw [← h2, ← h3, List.map_map] at this
    exact this
  · have e : (npSort x).length = I.length + (npSort x).countP fun u => !keepsWeight num.cutoff g (npSort x) u := by
      rw [hIdef, ← List.countP_eq_length_filter]
      have := List.length_eq_countP_add_countP (keepsWeight num.cutoff g (npSort x)) (l := npSort x)
      simpa using this
    rw [npSort_length] at e hfew
    have e' : (x.length : ℝ) - I.length = ((npSort x).countP fun u => !keepsWeight num.cutoff g (npSort x) u : ℕ) := by
      rw [e]; push_cast; ring
    rw [e']
    exact hfew
  · intro u hu hcount
    by_contra hnot
    have hk : keepsWeight num.cutoff g (npSort x) u = false := by
      by_contra hk
      exact hnot (List.mem_filter.2 ⟨(npSort_perm x).mem_iff.2 hu, by simpa using hk⟩)
    have hle : x.count u ≤ (npSort x).countP fun u => !keepsWeight num.cutoff g (npSort x) u := by
      rw [← (npSort_perm x).count_eq]
      unfold List.count
      refine List.countP_mono_left fun v _ hv => ?_
      rw [beq_iff_eq] at hv
      subst hv
      simp [hk]
    have hpos : 0 < x.count u := List.count_pos_iff.2 hu
    have := hstrict (by omega)
    rw [npSort_length] at this
    have h5 : (x.count u : ℝ) * num.cutoff ^ 2 ≤
        ((npSort x).countP fun u => !keepsWeight num.cutoff g (npSort x) u : ℕ) * num.cutoff ^ 2 :=
      mul_le_mul_of_nonneg_right (by exact_mod_cast hle) (sq_nonneg _)
    linarith

theorem famFun_injOn {fam : PTMethod} {lam u v : ℝ} (huv : u ≠ v) (h : fam = .boxcox → 0 < u ∧ 0 < v) :
    famFun fam lam u ≠ famFun fam lam v := by
  rcases fam with _ | _
  · obtain ⟨h1, h2⟩ := h rfl
    rcases lt_or_gt_of_ne huv with h3 | h3
    · exact (boxcox_strictMono lam h1 h3).ne
    · exact (boxcox_strictMono lam h2 h3).ne'
  · rcases lt_or_gt_of_ne huv with h3 | h3
    · exact (yeojohnson_strictMono lam h3).ne
    · exact (yeojohnson_strictMono lam h3).ne'

/-- Transformed data with two distinct values are not constant. -/
theorem var_famFun {fam : PTMethod} {lam l s : ℝ} (hs : 0 < s) {x : List ℝ} (hd : ∃ u ∈ x, ∃ v ∈ x, u ≠ v)
    (hp : fam = .boxcox → l = 0 ∧ ∀ v ∈ x, 0 < v) : var (x.map fun v => famFun fam lam ((v - l) / s)) ≠ 0 := by
  obtain ⟨u, hu, v, hv, huv⟩ := hd
  intro h0
  have h1 := var_zero_const h0 _ (List.mem_map_of_mem hu)
  have h2 := var_zero_const h0 _ (List.mem_map_of_mem hv)
  refine famFun_injOn (fam := fam) (lam := lam) (u := (u - l) / s) (v := (v - l) / s) ?_ ?_ (h1.trans h2.symm)
  · intro e
    field_simp at e
    exact huv (by linarith)
  · intro e
    obtain ⟨rfl, hpos⟩ := hp e
    have := hpos u hu
    have := hpos v hv
    constructor
    · rw [sub_zero]; positivity
    · rw [sub_zero]; positivity

theorem madNormal_nonneg (x : List ℝ) : 0 ≤ madNormal x := by
  unfold madNormal
  refine div_nonneg ?_ normalQuartile_pos.le
  rcases hm : madRaw x with _ | s
  · simp
  · simpa using madRaw_nonneg hm

/-- The standardisation before the transformation divides by a positive number. -/
theorem scalePre_pos {num : PTNum} {args : PTArgs} {m : PTChoice} {x : List ℝ} {f : PTFit}
    (h : powerFit num args m x = .ok f) {l s mu sd : ℝ} (hf : f.std = some (l, s, mu, sd))
    (hm : f.method = .yeojohnson → madNormal x ≠ 0) : 0 < s := by
  obtain ⟨-, hp, mu', sd', -, h2⟩ := powerFit_parts h
  rw [hf] at h2
  by_cases h3 : args.standardize = true
  swap
  · rw [if_neg h3] at h2; simp at h2
  rw [if_pos h3] at h2
  simp only [Option.some.injEq, Prod.mk.injEq] at h2
  obtain ⟨-, rfl, -, -⟩ := h2
  by_cases hb : f.method = .boxcox
  · rw [if_pos hb]
    have hx : x ≠ [] := by
      rcases powerFit_cases h with ⟨-, h4, -⟩ | ⟨h4, -⟩
      · exact h4
      · rw [(fitYeojohnson_parts h4).1] at hb; simp at hb
    obtain ⟨md, hmd⟩ := npMedian_isSome hx
    rw [hmd]
    by_contra hle
    have hle' : md ≤ 0 := not_lt.1 hle
    have hpos : 0 < x.length := List.length_pos_iff.2 hx
    have := (npMedian_half hmd).1
    have hz : x.countP (fun v => decide (v ≤ md)) = 0 := by
      rw [List.countP_eq_zero]
      intro v hv
      have := hp hb v hv
      simp only [decide_eq_true_eq, not_le]
      linarith
    omega
  · rw [if_neg hb]
    have hyj : f.method = .yeojohnson := by
      rcases hm' : f.method with _ | _
      · exact absurd hm' hb
      · rfl
    exact lt_of_le_of_ne (madNormal_nonneg x) (Ne.symm (hm hyj))

/-- **C143 for small samples**: with two or more steps and at most `cutoff ^ 2` observations (6 for the default
quantile) no observation is ever recognised as an outlier, however far away: all transformed values are within the
cutoff. -/
theorem C143_masked {num : PTNum} {args : PTArgs} {m : PTChoice} {x : List ℝ} {f : PTFit}
    (h : powerFit num args m x = .ok f) (hstd : args.standardize = true) (hn : 2 ≤ args.nsteps) (hc : 0 ≤ num.cutoff)
    (hsmall : (x.length : ℝ) ≤ num.cutoff ^ 2) (hd : ∃ u ∈ x, ∃ v ∈ x, u ≠ v)
    (hm : f.method = .yeojohnson → madNormal x ≠ 0) :
    f.Good ∧ ∀ v ∈ x, ∃ y, ptTransform f [v] = .ok [some y] ∧ |y| ≤ num.cutoff := by
  obtain ⟨l, s, mu, sd, hf⟩ : ∃ l s mu sd, f.std = some (l, s, mu, sd) := by
    obtain ⟨-, -, mu, sd, -, h2⟩ := powerFit_parts h
    rw [if_pos hstd] at h2
    exact ⟨_, _, _, _, h2⟩
  have hs := scalePre_pos h hf hm
  obtain ⟨-, hb, w, h1, h2, h3, h4⟩ := inliers_of_fit h hf
  obtain ⟨lam', hw⟩ := h4 hn
  have hd' : ∃ u ∈ npSort x, ∃ v ∈ npSort x, u ≠ v := by
    obtain ⟨u, hu, v, hv, huv⟩ := hd
    exact ⟨u, (npSort_perm x).mem_iff.2 hu, v, (npSort_perm x).mem_iff.2 hv, huv⟩
  have hb' : f.method = .boxcox → l = 0 ∧ ∀ v ∈ npSort x, 0 < v := fun e =>
    ⟨(hb e).1, fun v hv => (hb e).2 v ((npSort_perm x).mem_iff.1 hv)⟩
  have hv' := var_famFun (lam := lam') hs hd' hb'
  have hv := var_famFun (lam := f.lam) hs hd' hb'
  obtain ⟨-, hstrict⟩ := few_lose hc _ hv'
  have h0 : ((npSort x).countP fun u => !keepsWeight num.cutoff (fun v => famFun f.method lam' ((v - l) / s)) (npSort x) u) = 0 := by
    by_contra hne
    have hlt := hstrict (Nat.pos_of_ne_zero hne)
    rw [npSort_length] at hlt
    have : (1 : ℝ) ≤ ((npSort x).countP fun u =>
        !keepsWeight num.cutoff (fun v => famFun f.method lam' ((v - l) / s)) (npSort x) u : ℕ) := by
      exact_mod_cast Nat.pos_of_ne_zero hne
    nlinarith [sq_nonneg num.cutoff]
  have hall : maskTake w (npSort x) = npSort x := by
    rw [hw, maskTake_of_map, List.filter_eq_self]
    intro u hu
    have := (List.countP_eq_zero.1 h0) u hu
    simpa using this
  rw [hall] at h2 h3
  have hsd : 0 < sd := by
    rw [h3]
    exact Real.sqrt_pos.2 (lt_of_le_of_ne (var_nonneg' _) (Ne.symm hv))
  refine ⟨?_, fun v hvx => ?_⟩
  · intro l' s' mu' sd' hf'
    rw [hf] at hf'
    simp only [Option.some.injEq, Prod.mk.injEq] at hf'
    obtain ⟨-, rfl, -, rfl⟩ := hf'
    exact ⟨hs, hsd⟩
  · refine ⟨_, transform_cell hf hs.ne' hsd.ne' (fun e => (hb e).1) (by simp) (fun e u hu => ?_), ?_⟩
    · rw [List.mem_singleton] at hu
      subst hu
      exact (hb e).2 u hvx
    · have hz := (zeroOne_std hv).2
      rw [← h2, ← h3, List.map_map, List.map_map, List.length_map, List.length_map, npSort_length] at hz
      have hle := List.single_le_sum (l := (npSort x).map fun v => ((famFun f.method f.lam ((v - l) / s) - mu) / sd) ^ 2) (by
        intro a ha
        obtain ⟨v, -, rfl⟩ := List.mem_map.1 ha
        positivity) _ (List.mem_map_of_mem (f := fun v => ((famFun f.method f.lam ((v - l) / s) - mu) / sd) ^ 2)
          ((npSort_perm x).mem_iff.2 hvx))
      have hz' : ((npSort x).map fun v => ((famFun f.method f.lam ((v - l) / s) - mu) / sd) ^ 2).sum = (x.length : ℝ) := hz
      rw [hz'] at hle
      exact abs_le_of_sq_le_sq (hle.trans hsmall) hc

/-! ### When a fit succeeds -/

theorem rewLoop_yj (num : PTNum) (range : ℝ × ℝ) (x : List ℝ) (k : ℕ) (zt : List (Option ℝ))
    (last : Option (ℝ × List ℝ × List Bool)) : ∃ r, rewLoop num .yeojohnson range x k zt last = .ok r ∧
      (r = last ∨ ∃ g lam xt w, r = some (lam, xt, w) ∧ lam = num.minimize g range) := by
  induction k generalizing zt last with
  | zero => exact ⟨last, rfl, .inl rfl⟩
  | succ k ih =>
    unfold rewLoop
    obtain ⟨r, hr, h⟩ := ih (plainStd (plainArr .yeojohnson
      (num.minimize (mlObjective .yeojohnson (maskTake (inlierMask num.cutoff zt) x)) range) x))
      (some (num.minimize (mlObjective .yeojohnson (maskTake (inlierMask num.cutoff zt) x)) range,
        plainArr .yeojohnson (num.minimize (mlObjective .yeojohnson (maskTake (inlierMask num.cutoff zt) x)) range) x,
        inlierMask num.cutoff zt))
    refine ⟨r, ?_, ?_⟩
    · rw [← hr]
      unfold rewStep estimateML
      simp only
      rw [if_neg (by simp)]
      rfl
    · rcases h with h | h
      · exact .inr ⟨_, _, _, _, h, rfl⟩
      · exact .inr h

/-- `fit` with one of the two methods in closed form. -/
theorem powerFit_boxcox_eq (num : PTNum) (args : PTArgs) (x : List ℝ) :
    powerFit num args .boxcox x = open Classical in
      if x = [] ∨ ∃ v ∈ x, v ≤ 0 then .error .valueError
      else (reweightedML num .boxcox args.nsteps args.range
        (if args.standardize = true then (npSort x).map (fun v => v / (npMedian x).getD 0) else npSort x)).bind fun r =>
          if ptConverged args.range r.1 then
            .ok ⟨.boxcox, r.1, if args.standardize = true then some (0, (npMedian x).getD 0, r.2.1, r.2.2) else none⟩
          else .error .typeError := by
  unfold powerFit ptFit getMethod
  simp only
  by_cases h0 : x = [] ∨ ∃ v ∈ x, v ≤ 0
  · rw [if_pos h0, if_pos h0]
  · rw [if_neg h0, if_neg h0]
    simp only [ptEnv, fitBoxcox, runLoop, fitBoxcoxStep, ptOpt]
    rw [npMedian_perm (npSort_perm x)]
    rcases reweightedML num .boxcox args.nsteps args.range
      (if args.standardize = true then List.map (fun v => v / (npMedian x).getD 0) (npSort x) else npSort x) with e | ⟨lam, mu, sd⟩
    · rfl
    · simp only [Except.bind]
      by_cases hc : ptConverged args.range lam
      · simp only [if_pos hc]; rfl
      · simp only [if_neg hc]; rfl

theorem powerFit_yeojohnson_eq (num : PTNum) (args : PTArgs) (x : List ℝ) :
    powerFit num args .yeojohnson x = open Classical in
      (reweightedML num .yeojohnson args.nsteps args.range
        (if args.standardize = true then (npSort x).map (fun v => (v - (npMedian x).getD 0) / madNormal x) else npSort x)).bind
        fun r =>
          if ptConverged args.range r.1 then
            .ok ⟨.yeojohnson, r.1, if args.standardize = true then some ((npMedian x).getD 0, madNormal x, r.2.1, r.2.2) else none⟩
          else .error .typeError := by
  unfold powerFit ptFit getMethod
  simp only [ptEnv, fitYeojohnson, runLoop, fitYeojohnsonStep, ptOpt]
  have hmad : madNormal (npSort x) = madNormal x := by
    unfold madNormal
    rw [madRaw_perm (npSort_perm x)]
  rw [npMedian_perm (npSort_perm x), hmad]
  rcases reweightedML num .yeojohnson args.nsteps args.range
    (if args.standardize = true then List.map (fun v => (v - (npMedian x).getD 0) / madNormal x) (npSort x) else npSort x)
    with e | ⟨lam, mu, sd⟩
  · rfl
  · simp only [Except.bind]
    by_cases hc : ptConverged args.range lam
    · simp only [if_pos hc]; rfl
    · simp only [if_neg hc]; rfl

/-- With at least one step, a Yeo-Johnson fit succeeds if the optimiser stays away from the ends of the range. -/
theorem powerFit_yeojohnson_ok (num : PTNum) (args : PTArgs) (x : List ℝ) (hn : 1 ≤ args.nsteps)
    (hopt : ∀ g, ptConverged args.range (num.minimize g args.range)) :
    ∃ f, powerFit num args .yeojohnson x = .ok f ∧ f.method = .yeojohnson := by
  rw [powerFit_yeojohnson_eq]
  generalize (if args.standardize = true then (npSort x).map (fun v => (v - (npMedian x).getD 0) / madNormal x) else npSort x)
    = z
  obtain ⟨r, hr, h⟩ := rewLoop_yj num args.range z args.nsteps
    (robustStd .yeojohnson (lambdaRaw num .yeojohnson args.range z) z) none
  have hrne : ∃ g lam xt w, r = some (lam, xt, w) ∧ lam = num.minimize g args.range := by
    rcases h with h | h
    · rcases rewLoop_parts _ hr with ⟨h0, -⟩ | ⟨lam, zt, h1, -⟩
      · omega
      · rw [h] at h1; simp at h1
    · exact h
  obtain ⟨g, lam, xt, w, rfl, hl⟩ := hrne
  have e : reweightedML num .yeojohnson args.nsteps args.range z =
      .ok (lam, mean (maskTake w xt), Real.sqrt (var (maskTake w xt))) := by
    unfold reweightedML
    rw [hr]
    rfl
  rw [e]
  simp only [Except.bind]
  rw [if_pos (by rw [hl]; exact hopt g)]
  exact ⟨_, rfl, rfl⟩

/-- Full statement of C143: in a sample with at least three other observations, an observation that is far enough away
gets a transformed value beyond the cutoff. -/
def C143_statement : Prop :=
  ∀ (num : PTNum) (args : PTArgs), 0 < num.cutoff →
    (∀ g r, r.1 ≤ r.2 → r.1 ≤ num.minimize g r ∧ num.minimize g r ≤ r.2) →
    args.standardize = true → 1 ≤ args.nsteps → ∀ clean : List ℝ, 3 ≤ clean.length → madNormal clean ≠ 0 →
      ∃ B, ∀ M > B, ∀ f y, powerFit num args .yeojohnson (M :: clean) = .ok f → ptTransform f [M] = .ok [some y] →
        num.cutoff < y

/-- The optimiser of the example: the middle of the range. -/
noncomputable def midNum (c : ℝ) : PTNum := ⟨fun _ r => (r.1 + r.2) / 2, fun _ => 0, c⟩

/-- The default arguments. -/
noncomputable def defaultArgs : PTArgs := ⟨true, (-4, 6), 2⟩

theorem midNum_converged (c : ℝ) (g : ℝ → Option ℝ) : ptConverged defaultArgs.range ((midNum c).minimize g defaultArgs.range) := by
  norm_num [ptConverged, defaultArgs, midNum, abs_of_neg, abs_of_pos]

theorem npSort_123M {M : ℝ} (hM : 3 < M) : npSort [M, 1, 2, 3] = [1, 2, 3, M] := by
  have hp : List.Perm [M, 1, 2, 3] [1, 2, 3, M] := List.perm_append_comm (l₁ := [M]) (l₂ := [1, 2, 3])
  rw [npSort_eq_of_perm hp]
  apply npSort_eq_self
  simp only [List.pairwise_cons, List.mem_cons, List.not_mem_nil, or_false]
  refine ⟨?_, ?_, ?_, by simp, List.Pairwise.nil⟩
  · rintro a (rfl | rfl | rfl) <;> linarith
  · rintro a (rfl | rfl) <;> linarith
  · rintro a rfl; linarith

theorem madNormal_123M {M : ℝ} (hM : 10 < M) : madNormal [M, 1, 2, 3] ≠ 0 := by
  have hmed : npMedian [M, 1, 2, 3] = some (5 / 2) := by
    unfold npMedian
    rw [npSort_123M (by linarith)]
    norm_num
  have hmad : madRaw [M, 1, 2, 3] = some 1 := by
    unfold madRaw
    rw [hmed]
    simp only [List.map_cons, List.map_nil]
    have e : [|M - 5 / 2|, |(1:ℝ) - 5 / 2|, |(2:ℝ) - 5 / 2|, |(3:ℝ) - 5 / 2|] = [M - 5 / 2, 3 / 2, 1 / 2, 1 / 2] := by
      rw [abs_of_pos (by linarith)]
      norm_num [abs_of_neg, abs_of_pos]
    rw [e]
    have hs : npSort [M - 5 / 2, 3 / 2, 1 / 2, 1 / 2] = [1 / 2, 1 / 2, 3 / 2, M - 5 / 2] := by
      rw [npSort_eq_of_perm (List.reverse_perm [M - 5 / 2, 3 / 2, 1 / 2, 1 / 2]).symm]
      apply npSort_eq_self
      simp only [List.reverse_cons, List.reverse_nil, List.nil_append, List.cons_append, List.pairwise_cons, List.mem_cons,
        List.not_mem_nil, or_false]
      refine ⟨?_, ?_, ?_, by simp, List.Pairwise.nil⟩
      · rintro a (rfl | rfl | rfl) <;> linarith
      · rintro a (rfl | rfl) <;> linarith
      · rintro a rfl; linarith
    unfold npMedian
    rw [hs]
    norm_num
  unfold madNormal
  rw [hmad]
  exact div_ne_zero (by norm_num) normalQuartile_pos.ne'

/-- **C143 is violated**: with the default arguments an observation beside 1, 2 and 3 has a transformed value of at
most the cutoff, however large it is. -/
theorem C143_violated : ¬ C143_statement := by
  intro h
  have hmad3 : madNormal [1, 2, 3] ≠ 0 := by
    have hmed : npMedian [(1:ℝ), 2, 3] = some 2 := by
      unfold npMedian
      rw [npSort_eq_self (by norm_num)]
      norm_num
    have : madRaw [(1:ℝ), 2, 3] = some 1 := by
      unfold madRaw
      rw [hmed]
      simp only [List.map_cons, List.map_nil]
      have e : [|(1:ℝ) - 2|, |(2:ℝ) - 2|, |(3:ℝ) - 2|] = [1, 0, 1] := by norm_num [abs_of_neg]
      have hs : npSort [(1:ℝ), 0, 1] = [0, 1, 1] := by
        rw [npSort_eq_of_perm (List.Perm.swap 0 1 [1])]
        exact npSort_eq_self (by norm_num)
      rw [e]
      unfold npMedian
      rw [hs]
      norm_num
    unfold madNormal
    rw [this]
    exact div_ne_zero (by norm_num) normalQuartile_pos.ne'
  obtain ⟨B, hB⟩ := h (midNum 2.5758) defaultArgs (by norm_num [midNum]) (by
    intro g r hr
    constructor <;> simp only [midNum] <;> linarith) rfl (by norm_num [defaultArgs]) [1, 2, 3] (by simp) hmad3
  set M := max B 10 + 1
  have hM : 10 < M := by have := le_max_right B 10; simp only [M]; linarith
  have hMB : B < M := by have := le_max_left B 10; simp only [M]; linarith
  obtain ⟨f, hf, -⟩ := powerFit_yeojohnson_ok (midNum 2.5758) defaultArgs [M, 1, 2, 3] (by norm_num [defaultArgs])
    (midNum_converged _)
  obtain ⟨-, hall⟩ := C143_masked hf rfl (by norm_num [defaultArgs]) (by norm_num [midNum]) (by norm_num [midNum])
    ⟨1, by simp, 2, by simp, by norm_num⟩ (fun _ => madNormal_123M hM)
  obtain ⟨y, hy, hle⟩ := hall M (by simp)
  have := hB M hMB f y hf hy
  exact absurd (le_abs_self y) (by linarith [hle])

/-- The hypotheses of C142 and C143 are met by that fit. -/
example : ∃ f l s mu sd, powerFit (midNum 2.5758) defaultArgs .yeojohnson [100, 1, 2, 3] = .ok f ∧
    f.std = some (l, s, mu, sd) ∧ f.Good ∧ 2 ≤ defaultArgs.nsteps ∧ (0:ℝ) ≤ (midNum 2.5758).cutoff := by
  obtain ⟨f, hf, -⟩ := powerFit_yeojohnson_ok (midNum 2.5758) defaultArgs [100, 1, 2, 3] (by norm_num [defaultArgs])
    (midNum_converged _)
  obtain ⟨hg, -⟩ := C143_masked hf rfl (by norm_num [defaultArgs]) (by norm_num [midNum]) (by norm_num [midNum])
    ⟨1, by simp, 2, by simp, by norm_num⟩ (fun _ => madNormal_123M (by norm_num))
  obtain ⟨-, -, mu, sd, -, h2⟩ := powerFit_parts hf
  exact ⟨f, _, _, mu, sd, hf, h2, hg, by norm_num [defaultArgs], by norm_num [midNum]⟩

/-! ## C144 -/

/-- Full statement of C144: whatever number of steps is asked for, `fit` does not read an unassigned variable. -/
def C144_statement : Prop :=
  ∀ (num : PTNum) (args : PTArgs) (m : PTChoice) (x : List ℝ), powerFit num args m x ≠ .error .unboundLocalError

theorem reweightedML_zero (num : PTNum) (fam : PTMethod) (range : ℝ × ℝ) (x : List ℝ) :
    reweightedML num fam 0 range x = .error .unboundLocalError := rfl

/-- **C144, zero steps**: every fit on data that the method accepts raises UnboundLocalError. -/
theorem C144_zero (num : PTNum) (args : PTArgs) (hn : args.nsteps = 0) {x : List ℝ} (hx : x ≠ []) (hp : ∀ v ∈ x, 0 < v)
    {m : PTChoice} (hm : m ≠ .other) : powerFit num args m x = .error .unboundLocalError := by
  have hB : powerFit num args .boxcox x = .error .unboundLocalError := by
    have h0 : ¬ (x = [] ∨ ∃ v ∈ x, v ≤ 0) := by
      rintro (h | ⟨v, hv, h⟩)
      · exact hx h
      · exact absurd (hp v hv) (not_lt.2 h)
    rw [powerFit_boxcox_eq, if_neg h0, hn, reweightedML_zero]
    rfl
  rcases m with _ | _ | _ | _
  · unfold powerFit ptFit getMethod at hB ⊢
    have h0 : ¬ (x = [] ∨ ∃ v ∈ x, v ≤ 0) := by
      rintro (h | ⟨v, hv, h⟩)
      · exact hx h
      · exact absurd (hp v hv) (not_lt.2 h)
    have h1 : ¬ ∃ v ∈ x, v ≤ 0 := fun h => h0 (.inr h)
    simp only [if_neg h0] at hB
    simp only [if_neg hx, if_neg h1]
    rcases hr : (ptEnv num args).fitBC (npSort x) with e | g
    · rw [hr] at hB
      simpa using hB
    · rw [hr] at hB; simp at hB
  · exact hB
  · rw [powerFit_yeojohnson_eq, hn, reweightedML_zero]
    rfl
  · exact absurd rfl hm

theorem C144_violated : ¬ C144_statement := fun h =>
  h (midNum 1) ⟨true, (-4, 6), 0⟩ .yeojohnson [1] (C144_zero _ _ rfl (by simp) (by simp) (by simp))

theorem rewLoop_error {num : PTNum} {fam : PTMethod} {range : ℝ × ℝ} {x : List ℝ} (k : ℕ) {zt : List (Option ℝ)}
    {last : Option (ℝ × List ℝ × List Bool)} {e : PyErr} (h : rewLoop num fam range x k zt last = .error e) :
    e = .valueError := by
  induction k generalizing zt last with
  | zero => simp [rewLoop] at h
  | succ k ih =>
    unfold rewLoop at h
    rcases hr : rewStep num fam range x zt with e' | r
    · rw [hr] at h
      have he : e' = e := by simpa [Except.bind] using h
      subst he
      unfold rewStep estimateML at hr
      simp only at hr
      split_ifs at hr
      · simpa [Except.map] using hr.symm
      · simp [Except.map] at hr
    · rw [hr] at h
      exact ih h

theorem reweightedML_error {num : PTNum} {fam : PTMethod} {nsteps : ℕ} {range : ℝ × ℝ} {x : List ℝ} {e : PyErr}
    (hn : 1 ≤ nsteps) (h : reweightedML num fam nsteps range x = .error e) : e = .valueError := by
  unfold reweightedML at h
  rcases hr : rewLoop num fam range x nsteps (robustStd fam (lambdaRaw num fam range x) x) none with e' | r
  · rw [hr] at h
    have he : e' = e := by simpa [Except.bind] using h
    subst he
    exact rewLoop_error _ hr
  · rw [hr] at h
    rcases rewLoop_parts _ hr with ⟨h0, -⟩ | ⟨lam, zt, rfl, -⟩
    · omega
    · simp [Except.bind] at h

/-- **C144** (partial): with at least one step the fits with an explicit method raise ValueError or TypeError only;
Yeo-Johnson does not raise ValueError. Missing: zero steps (violated). -/
theorem C144_positive_partial (num : PTNum) (args : PTArgs) (hn : 1 ≤ args.nsteps) (x : List ℝ) {e : PyErr} :
    (powerFit num args .boxcox x = .error e → e = .valueError ∨ e = .typeError) ∧
    (powerFit num args .yeojohnson x = .error e → e = .typeError) := by
  constructor
  · rw [powerFit_boxcox_eq]
    intro h
    by_cases h0 : x = [] ∨ ∃ v ∈ x, v ≤ 0
    · rw [if_pos h0] at h
      exact .inl (Except.error.inj h).symm
    · rw [if_neg h0] at h
      revert h
      generalize (if args.standardize = true then (npSort x).map (fun v => v / (npMedian x).getD 0) else npSort x) = z
      intro h
      rcases hr : reweightedML num .boxcox args.nsteps args.range z with e' | r
      · rw [hr] at h
        have he : e' = e := by simpa [Except.bind] using h
        subst he
        exact .inl (reweightedML_error hn hr)
      · rw [hr] at h
        simp only [Except.bind] at h
        split_ifs at h
        exact .inr (Except.error.inj h).symm
  · rw [powerFit_yeojohnson_eq]
    generalize (if args.standardize = true then (npSort x).map (fun v => (v - (npMedian x).getD 0) / madNormal x) else npSort x)
      = z
    intro h
    obtain ⟨r, hr, -⟩ := rewLoop_yj num args.range z args.nsteps
      (robustStd .yeojohnson (lambdaRaw num .yeojohnson args.range z) z) none
    rcases hr' : reweightedML num .yeojohnson args.nsteps args.range z with e' | r'
    · unfold reweightedML at hr'
      rw [hr] at hr'
      rcases rewLoop_parts _ hr with ⟨h0, -⟩ | ⟨lam, zt, rfl, -⟩
      · omega
      · simp [Except.bind] at hr'
    · rw [hr'] at h
      simp only [Except.bind] at h
      split_ifs at h
      exact (Except.error.inj h).symm

/-! ## C145 -/

/-- **C145**, Box-Cox: with standardisation, measuring the data in another unit changes neither lambda nor the
transformed values, nor whether `fit` raises. -/
theorem C145_boxcox (num : PTNum) (args : PTArgs) (hs : args.standardize = true) {a : ℝ} (ha : 0 < a) (x : List ℝ) :
    (∀ e, powerFit num args .boxcox x = .error e → powerFit num args .boxcox (x.map (a * ·)) = .error e) ∧
    ∀ f, powerFit num args .boxcox x = .ok f →
      ∃ f', powerFit num args .boxcox (x.map (a * ·)) = .ok f' ∧ f'.lam = f.lam ∧
        ∀ Z, ptTransform f' (Z.map (a * ·)) = ptTransform f Z := by
  have hdata : (npSort (x.map (a * ·))).map (fun v => v / (npMedian (x.map (a * ·))).getD 0) =
      (npSort x).map fun v => v / (npMedian x).getD 0 := by
    have h1 := npSort_map_affine ha 0 x
    simp only [add_zero] at h1
    rw [h1, npMedian_scale, List.map_map]
    refine List.map_congr_left fun v _ => ?_
    rcases npMedian x with _ | md
    · simp
    · simp only [Function.comp, Option.map_some, Option.getD_some]
      exact mul_div_mul_left _ _ ha.ne'
  have hbad : (x.map (a * ·) = [] ∨ ∃ v ∈ x.map (a * ·), v ≤ 0) ↔ (x = [] ∨ ∃ v ∈ x, v ≤ 0) := by
    simp only [List.map_eq_nil_iff, List.mem_map, exists_exists_and_eq_and]
    refine or_congr Iff.rfl (exists_congr fun v => and_congr Iff.rfl ?_)
    constructor
    · intro h; by_contra h'; nlinarith
    · intro h; nlinarith
  rw [powerFit_boxcox_eq, powerFit_boxcox_eq]
  simp only [hs, if_true, hdata, hbad]
  by_cases h0 : x = [] ∨ ∃ v ∈ x, v ≤ 0
  · simp only [if_pos h0]
    exact ⟨fun _ h => h, fun f h => by simp at h⟩
  · simp only [if_neg h0]
    rcases reweightedML num .boxcox args.nsteps args.range ((npSort x).map fun v => v / (npMedian x).getD 0) with e | ⟨lam, mu, sd⟩
    · exact ⟨fun _ h => h, fun f h => by simp [Except.bind] at h⟩
    · simp only [Except.bind]
      by_cases hc : ptConverged args.range lam
      · simp only [if_pos hc]
        refine ⟨fun e h => by simp at h, fun f h => ?_⟩
        rw [Except.ok.injEq] at h
        subst h
        refine ⟨_, rfl, rfl, fun Z => ?_⟩
        unfold ptTransform
        simp only
        have hbadZ : (Z.map (a * ·) = [] ∨ ∃ v ∈ Z.map (a * ·), v ≤ 0) ↔ (Z = [] ∨ ∃ v ∈ Z, v ≤ 0) := by
          simp only [List.map_eq_nil_iff, List.mem_map, exists_exists_and_eq_and]
          refine or_congr Iff.rfl (exists_congr fun v => and_congr Iff.rfl ?_)
          constructor
          · intro h; by_contra h'; nlinarith
          · intro h; nlinarith
        simp only [hbadZ]
        split_ifs
        · rfl
        · rw [List.map_map]
          congr 1
          refine List.map_congr_left fun v _ => ?_
          simp only [Function.comp, ptCell, Option.map_some, npMedian_scale, sub_zero]
          congr 1
          unfold npDiv
          rcases npMedian x with _ | md
          · simp
          · simp only [Option.map_some, Option.getD_some, mul_eq_zero, ha.ne', false_or]
            split_ifs
            · rfl
            · rw [mul_div_mul_left _ _ ha.ne']
      · simp only [if_neg hc]
        exact ⟨fun _ h => h, fun f h => by simp at h⟩

/-- **C145**, Yeo-Johnson: the same for a change of unit and origin. -/
theorem C145_yeojohnson (num : PTNum) (args : PTArgs) (hs : args.standardize = true) {a : ℝ} (ha : 0 < a) (b : ℝ)
    {x : List ℝ} (hm : madNormal x ≠ 0) :
    (∀ e, powerFit num args .yeojohnson x = .error e →
      powerFit num args .yeojohnson (x.map fun v => a * v + b) = .error e) ∧
    ∀ f, powerFit num args .yeojohnson x = .ok f →
      ∃ f', powerFit num args .yeojohnson (x.map fun v => a * v + b) = .ok f' ∧ f'.lam = f.lam ∧
        ∀ Z, ptTransform f' (Z.map fun v => a * v + b) = ptTransform f Z := by
  have hx : x ≠ [] := by
    rintro rfl
    exact hm (by simp [madNormal, madRaw, npMedian])
  obtain ⟨md, hmd⟩ := npMedian_isSome hx
  have hmad : madNormal (x.map fun v => a * v + b) = a * madNormal x := by
    unfold madNormal
    rw [madRaw_affine, abs_of_pos ha]
    rcases madRaw x with _ | s
    · simp
    · simp only [Option.map_some, Option.getD_some]; ring
  have hmed : (npMedian (x.map fun v => a * v + b)).getD 0 = a * md + b := by
    rw [npMedian_affine, hmd]; rfl
  have hcell : ∀ v, (a * v + b - (a * md + b)) / (a * madNormal x) = (v - md) / madNormal x := by
    intro v
    rw [show a * v + b - (a * md + b) = a * (v - md) by ring]
    exact mul_div_mul_left _ _ ha.ne'
  have hdata : (npSort (x.map fun v => a * v + b)).map (fun v => (v - (a * md + b)) / (a * madNormal x)) =
      (npSort x).map fun v => (v - md) / madNormal x := by
    rw [npSort_map_affine ha b x, List.map_map]
    exact List.map_congr_left fun v _ => hcell v
  rw [powerFit_yeojohnson_eq, powerFit_yeojohnson_eq]
  simp only [hs, if_true, hmad, hmed, hdata, hmd, Option.getD_some]
  rcases reweightedML num .yeojohnson args.nsteps args.range ((npSort x).map fun v => (v - md) / madNormal x) with e | ⟨lam, mu, sd⟩
  · exact ⟨fun _ h => h, fun f h => by simp [Except.bind] at h⟩
  · simp only [Except.bind]
    by_cases hc : ptConverged args.range lam
    · simp only [if_pos hc]
      refine ⟨fun e h => by simp at h, fun f h => ?_⟩
      rw [Except.ok.injEq] at h
      subst h
      refine ⟨_, rfl, rfl, fun Z => ?_⟩
      unfold ptTransform
      simp only
      rw [List.map_map]
      congr 1
      refine List.map_congr_left fun v _ => ?_
      simp only [Function.comp, ptCell]
      congr 1
      unfold npDiv
      rw [if_neg hm, if_neg (mul_ne_zero ha.ne' hm), hcell]
    · simp only [if_neg hc]
      exact ⟨fun _ h => h, fun f h => by simp at h⟩

/-- The hypotheses of `C145_yeojohnson` are met. -/
example : madNormal [100, 1, 2, 3] ≠ 0 ∧ ∃ f, powerFit (midNum 2.5758) defaultArgs .yeojohnson [100, 1, 2, 3] = .ok f := by
  obtain ⟨f, hf, -⟩ := powerFit_yeojohnson_ok (midNum 2.5758) defaultArgs [100, 1, 2, 3] (by norm_num [defaultArgs])
    (midNum_converged _)
  exact ⟨madNormal_123M (by norm_num), f, hf⟩

/-! ## C146 -/

/-- **C146**: the fitted transformation does not depend on the order of the observations. -/
theorem C146_order (num : PTNum) (args : PTArgs) (m : PTChoice) {x x' : List ℝ} (h : x.Perm x') :
    powerFit num args m x = powerFit num args m x' := by
  have hs : npSort x = npSort x' := npSort_eq_of_perm h
  have hnil : (x = []) = (x' = []) := by
    apply propext
    constructor
    · rintro rfl; exact List.nil_perm.1 h
    · rintro rfl; exact List.perm_nil.1 h
  have hneg : (∃ v ∈ x, v ≤ 0) = ∃ v ∈ x', v ≤ 0 := by
    apply propext
    exact exists_congr fun v => and_congr h.mem_iff Iff.rfl
  have hg : getMethod m x = getMethod m x' := by
    unfold getMethod
    simp only [hnil, hneg]
  have hc : ∀ g, (ptEnv num args).crit x g = (ptEnv num args).crit x' g := by
    intro g
    show (robnormality num g.method g.lam x).getD 0 = (robnormality num g.method g.lam x').getD 0
    unfold robnormality
    rw [hs]
  unfold powerFit ptFit
  rw [hg, hs]
  simp only [hc]

/-! ## C147 -/

/-- The explicit method a fit ended with. -/
def PTMethod.choice : PTMethod → PTChoice
  | .boxcox => .boxcox
  | .yeojohnson => .yeojohnson

/-- **C147**: `method='auto'` gives exactly the fit of the explicit method it chose; it chooses Box-Cox only for
strictly positive data, and then the criterion of the chosen fit is not larger than that of the other one. -/
theorem C147_auto {num : PTNum} {args : PTArgs} {x : List ℝ} {f : PTFit} (h : powerFit num args .auto x = .ok f) :
    powerFit num args f.method.choice x = .ok f ∧ (f.method = .boxcox → ∀ v ∈ x, 0 < v) ∧
    ((∀ v ∈ x, 0 < v) → ∀ m' g, m' ≠ f.method → powerFit num args m'.choice x = .ok g →
      (robnormality num f.method f.lam x).getD 0 ≤ (robnormality num g.method g.lam x).getD 0) := by
  have hx : x ≠ [] := by
    rintro rfl
    simp [powerFit, ptFit, getMethod] at h
  have hBC : (∀ v ∈ x, 0 < v) → ∀ g, powerFit num args .boxcox x = .ok g ↔ (ptEnv num args).fitBC (npSort x) = .ok g := by
    intro hp g
    have h0 : ¬ (x = [] ∨ ∃ v ∈ x, v ≤ 0) := by
      rintro (h | ⟨v, hv, h⟩)
      · exact hx h
      · exact absurd (hp v hv) (not_lt.2 h)
    unfold powerFit ptFit getMethod
    simp only [if_neg h0]
    rcases (ptEnv num args).fitBC (npSort x) with e | g' <;> simp
  have hYJ : ∀ g, powerFit num args .yeojohnson x = .ok g ↔ (ptEnv num args).fitYJ (npSort x) = .ok g := by
    intro g
    unfold powerFit ptFit getMethod
    simp only
    rcases (ptEnv num args).fitYJ (npSort x) with e | g' <;> simp
  have hmB : ∀ g, (ptEnv num args).fitBC (npSort x) = .ok g → g.method = .boxcox := fun g hg => (fitBoxcox_parts hg).1
  have hmY : ∀ g, (ptEnv num args).fitYJ (npSort x) = .ok g → g.method = .yeojohnson := fun g hg =>
    (fitYeojohnson_parts hg).1
  have hsplit : ((¬ ∀ v ∈ x, 0 < v) ∧ (ptEnv num args).fitYJ (npSort x) = .ok f) ∨
      ((∀ v ∈ x, 0 < v) ∧ ∃ g g', (ptEnv num args).fitBC (npSort x) = .ok g ∧ (ptEnv num args).fitYJ (npSort x) = .ok g' ∧
        ((f = g ∧ (ptEnv num args).crit x g < (ptEnv num args).crit x g') ∨
          (f = g' ∧ (ptEnv num args).crit x g' ≤ (ptEnv num args).crit x g))) := by
    unfold powerFit ptFit getMethod at h
    simp only [if_neg hx] at h
    by_cases h1 : ∃ v ∈ x, v ≤ 0
    · left
      refine ⟨fun hp => ?_, ?_⟩
      · obtain ⟨v, hv, h2⟩ := h1
        exact absurd (hp v hv) (not_lt.2 h2)
      · rw [if_pos h1] at h
        simp only at h
        rcases hf : (ptEnv num args).fitYJ (npSort x) with e | g
        · rw [hf] at h; simp at h
        · rw [hf] at h
          simp only [Except.ok.injEq] at h
          rw [h]
    · right
      rw [if_neg h1] at h
      push Not at h1
      refine ⟨h1, ?_⟩
      simp only at h
      rcases hf : (ptEnv num args).fitBC (npSort x) with e | g
      · rw [hf] at h; simp at h
      rw [hf] at h
      simp only at h
      rcases hg : (ptEnv num args).fitYJ (npSort x) with e | g'
      · rw [hg] at h; simp at h
      rw [hg] at h
      simp only at h
      refine ⟨g, g', rfl, rfl, ?_⟩
      by_cases hc : (ptEnv num args).crit x g < (ptEnv num args).crit x g'
      · rw [if_pos hc] at h
        simp only [Except.ok.injEq] at h
        exact .inl ⟨h.symm, hc⟩
      · rw [if_neg hc] at h
        simp only [Except.ok.injEq] at h
        exact .inr ⟨h.symm, not_lt.1 hc⟩
  rcases hsplit with ⟨hn, hf⟩ | ⟨hp, g, g', hg, hg', ⟨rfl, hlt⟩ | ⟨rfl, hle⟩⟩
  · have hm := hmY f hf
    refine ⟨?_, fun e => by rw [hm] at e; simp at e, fun hp => absurd hp hn⟩
    rw [hm]
    exact (hYJ f).2 hf
  · have hm := hmB f hg
    refine ⟨?_, fun _ => hp, fun _ m' k hne hk => ?_⟩
    · rw [hm]; exact (hBC hp f).2 hg
    · have : m' = .yeojohnson := by
        rcases m' with _ | _
        · rw [hm] at hne; exact absurd rfl hne
        · rfl
      subst this
      have e := (hYJ k).1 hk
      rw [hg'] at e
      cases e
      exact hlt.le
  · have hm := hmY f hg'
    refine ⟨?_, fun _ => hp, fun _ m' k hne hk => ?_⟩
    · rw [hm]; exact (hYJ f).2 hg'
    · have : m' = .boxcox := by
        rcases m' with _ | _
        · rfl
        · rw [hm] at hne; exact absurd rfl hne
      subst this
      have e := (hBC hp k).1 hk
      rw [hg] at e
      cases e
      exact hle

/-- `method='auto'` on data with a negative value. -/
example : ∃ f, powerFit (midNum 2.5758) defaultArgs .auto [-1, 1, 2, 3] = .ok f := by
  obtain ⟨f, hf, -⟩ := powerFit_yeojohnson_ok (midNum 2.5758) defaultArgs [-1, 1, 2, 3] (by norm_num [defaultArgs])
    (midNum_converged _)
  refine ⟨f, ?_⟩
  rw [← hf]
  unfold powerFit ptFit getMethod
  simp only [if_neg (List.cons_ne_nil _ _)]
  rw [if_pos ⟨-1, by simp, by norm_num⟩]

end Robpy
