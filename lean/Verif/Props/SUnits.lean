import Verif.Props.SEquiv
import Verif.Props.SOrder
import Verif.Props.LTSEquiv
import Verif.Props.LTSWitness

/-! C193: S-regression on targets in other units. -/

namespace Robpy
variable {k : ℕ}

/-- As `sRunLoop_sim`, for states with an invariant. -/
theorem sRunLoop_on {σ : Type} (T : σ → σ) (P : σ → Prop) {f f' : σ → Except PyErr (σ ⊕ σ)}
    (h : ∀ s, P s → f' (T s) = (f s).map (Sum.map T T)) (hP : ∀ s s', P s → f s = .ok (.inl s') → P s') (fuel : ℕ)
    (s : σ) (hs : P s) : runLoop f' fuel (T s) = (runLoop f fuel s).map (Except.map T) := by
  induction fuel generalizing s with
  | zero => rfl
  | succ fuel ih =>
    unfold runLoop
    rw [h s hs]
    rcases hf : f s with e | (s' | a)
    · rfl
    · exact ih s' (hP s s' hs hf)
    · rfl

theorem sBest_on (T : (Fin k → ℝ) → Fin k → ℝ) (t : ℝ → ℝ) (ht : ∀ u v, t u < t v ↔ u < v) (c : (Fin k → ℝ) × ℝ)
    (l : List ((Fin k → ℝ) × ℝ)) : sBest (Prod.map T t c) (l.map (Prod.map T t)) = Prod.map T t (sBest c l) := by
  unfold sBest
  induction l generalizing c with
  | nil => rfl
  | cons d l ih =>
    simp only [List.map_cons, List.foldl_cons]
    rw [← ih]
    congr 1
    by_cases h : d.2 < c.2
    · rw [if_pos h, if_pos (by simpa using (ht _ _).2 h)]
    · have h2 : ¬ (Prod.map T t d).2 < (Prod.map T t c).2 := fun h' => h ((ht _ _).1 h')
      rw [if_neg h, if_neg h2]

/-- If the steps on two samples correspond for coefficients with a property that the steps keep, so do the results. -/
theorem sSearch_on (W : WLSReg) (srt : ArgSort ℝ) (ch : Choice ℕ) (cfg : SConfig) (tau : ℝ) (D D' : List ((Fin k → ℝ) × ℝ))
    (T : (Fin k → ℝ) → Fin k → ℝ) (t : ℝ → ℝ) (P : (Fin k → ℝ) → Prop) (hlen : D'.length = D.length)
    (ht : ∀ u v, t u < t v ↔ u < v) (hsrt : ∀ l, srt.toFun (l.map t) = srt.toFun l)
    (hstep : ∀ beta, P beta → sIStep W { cfg with scaleTolerance := tau } D' (sRes D' (T beta)) =
      (sIStep W cfg D (sRes D beta)).map (Prod.map T t))
    (hP : ∀ beta c, P beta → sIStep W cfg D (sRes D beta) = .ok c → P c.1)
    (hfit : ∀ i < cfg.nInitialSubsets, k + 1 ≤ D.length →
      W.fit ((takeAt D' (ch.pick (cfg.randomState + i) D.length (k + 1))).map fun d => (d.1, d.2, 1)) =
        T (W.fit ((takeAt D (ch.pick (cfg.randomState + i) D.length (k + 1))).map fun d => (d.1, d.2, 1))))
    (hstart : ∀ i < cfg.nInitialSubsets, k + 1 ≤ D.length →
      P (W.fit ((takeAt D (ch.pick (cfg.randomState + i) D.length (k + 1))).map fun d => (d.1, d.2, 1))))
    (hscale : ∀ beta, sInitialScale (sRes D' (T beta)) = t (sInitialScale (sRes D beta)))
    (hconv : ∀ a b, P a → P b → sConverged cfg.relativeTolerance (T a) (T b) = sConverged cfg.relativeTolerance a b) (fuel : ℕ) :
    sSearch W srt ch { cfg with scaleTolerance := tau } D' fuel = (sSearch W srt ch cfg D fuel).map (Except.map (Prod.map T t)) := by
  have hsteps' : ∀ j beta c, P beta → sISteps W { cfg with scaleTolerance := tau } D' j (Prod.map T t c) ((sRes D' (T beta)).map fun r => -r) =
      (sISteps W cfg D j c ((sRes D beta).map fun r => -r)).map (Prod.map T t) := by
    intro j
    induction j with
    | zero => intro beta c _; rfl
    | succ j ih =>
      intro beta c hb
      unfold sISteps
      rw [sIStep_neg, sIStep_neg, hstep beta hb]
      rcases h : sIStep W cfg D (sRes D beta) with e | c'
      · rfl
      · exact ih c'.1 c' (hP beta c' hb h)
  have hsteps : ∀ j beta c, P beta → sISteps W { cfg with scaleTolerance := tau } D' j (Prod.map T t c) (sRes D' (T beta)) =
      (sISteps W cfg D j c (sRes D beta)).map (Prod.map T t) := by
    intro j beta c hb
    rcases j with _ | j
    · rfl
    · unfold sISteps
      rw [hstep beta hb]
      rcases h : sIStep W cfg D (sRes D beta) with e | c'
      · rfl
      · exact hsteps' j c'.1 c' (hP beta c' hb h)
  have hkeep' : ∀ j beta c c', P beta → P c.1 → sISteps W cfg D j c ((sRes D beta).map fun r => -r) = .ok c' → P c'.1 := by
    intro j
    induction j with
    | zero =>
      intro beta c c' _ hc h
      simp only [sISteps, Except.ok.injEq] at h
      rwa [← h]
    | succ j ih =>
      intro beta c c' hb hc h
      unfold sISteps at h
      rw [sIStep_neg] at h
      rcases h1 : sIStep W cfg D (sRes D beta) with e | c1
      · rw [h1] at h
        simp [Except.bind] at h
      · rw [h1] at h
        have := hP beta c1 hb h1
        exact ih c1.1 c1 c' this this h
  have hkeep : ∀ j beta c c', P beta → P c.1 → sISteps W cfg D j c (sRes D beta) = .ok c' → P c'.1 := by
    intro j beta c c' hb hc h
    rcases j with _ | j
    · simp only [sISteps, Except.ok.injEq] at h
      rwa [← h]
    · unfold sISteps at h
      rcases h1 : sIStep W cfg D (sRes D beta) with e | c1
      · rw [h1] at h
        simp [Except.bind] at h
      · rw [h1] at h
        have := hP beta c1 hb h1
        exact hkeep' j c1.1 c1 c' this this h
  have hinit : ∀ i < cfg.nInitialSubsets, sInitial W ch { cfg with scaleTolerance := tau } D' i =
      (sInitial W ch cfg D i).map (Option.map (Prod.map T t)) ∧ ∀ c, sInitial W ch cfg D i = .ok (some c) → P c.1 := by
    intro i hi
    unfold sInitial
    rw [hlen]
    by_cases hn : D.length < k + 1
    · rw [if_pos hn, if_pos hn]
      exact ⟨rfl, by simp⟩
    · rw [if_neg hn, if_neg hn]
      simp only
      rw [hfit i hi (by omega), hscale]
      have hb := hstart i hi (by omega)
      generalize W.fit ((takeAt D (ch.pick (cfg.randomState + i) D.length (k + 1))).map fun d => (d.1, d.2, 1)) = beta at *
      have := hsteps cfg.nInitialISteps beta (beta, sInitialScale (sRes D beta)) hb
      simp only [Prod.map] at this
      have hk := fun c' => hkeep cfg.nInitialISteps beta (beta, sInitialScale (sRes D beta)) c' hb hb
      rw [this]
      rcases hst : sISteps W cfg D cfg.nInitialISteps (beta, sInitialScale (sRes D beta)) (sRes D beta) with e | c
      · refine ⟨by cases e <;> rfl, fun c hc => ?_⟩
        cases e <;> simp at hc
      · refine ⟨rfl, fun c' hc => ?_⟩
        simp only [Except.ok.injEq, Option.some.injEq] at hc
        rw [← hc]
        exact hk c hst
  have hloop : ∀ s : ((Fin k → ℝ) × ℝ) × Bool, P s.1.1 → sStep W { cfg with scaleTolerance := tau } D' (Prod.map (Prod.map T t) id s) =
      (sStep W cfg D s).map (Sum.map (Prod.map (Prod.map T t) id) (Prod.map (Prod.map T t) id)) := by
    rintro ⟨⟨beta, s⟩, bound⟩ hb
    unfold sStep
    simp only [Prod.map, id] at hb ⊢
    rw [hstep beta hb]
    rcases h1 : sIStep W cfg D (sRes D beta) with e | c
    · cases e <;> simp only [Except.map] <;> try rfl
      rcases bound <;> rfl
    · simp only [Except.map, Prod.map, id]
      have hcv := hconv beta c.1 hb (hP beta c hb h1)
      change (if sConverged cfg.relativeTolerance (T beta) (T c.1) = true then Except.ok (Sum.inr ((T c.1, t c.2), true))
        else Except.ok (Sum.inl ((T c.1, t c.2), true))) = _
      by_cases h : sConverged cfg.relativeTolerance beta c.1 = true
      · rw [if_pos h, if_pos (hcv.trans h)]
        rfl
      · rw [if_neg h, if_neg (fun h' => h (hcv.symm.trans h'))]
        rfl
  have hloopP : ∀ s s' : ((Fin k → ℝ) × ℝ) × Bool, P s.1.1 → sStep W cfg D s = .ok (.inl s') → P s'.1.1 := by
    rintro ⟨⟨beta, s⟩, bound⟩ s' hb h
    unfold sStep at h
    simp only at hb h
    rcases h1 : sIStep W cfg D (sRes D beta) with e | c
    · rw [h1] at h
      cases e <;> simp at h
      rcases bound <;> simp at h
    · rw [h1] at h
      simp only at h
      by_cases hcv : sConverged cfg.relativeTolerance beta c.1 = true
      · rw [if_pos hcv] at h
        simp at h
      · rw [if_neg hcv] at h
        simp only [Except.ok.injEq, Sum.inl.injEq] at h
        rw [← h]
        exact hP beta c hb h1
  have himp : ∀ (l : List ((Fin k → ℝ) × ℝ)) (bound : Bool), (∀ c ∈ l, P c.1) →
      sImprove W { cfg with scaleTolerance := tau } D' fuel (l.map (Prod.map T t)) bound =
        (sImprove W cfg D fuel l bound).map (Except.map (List.map (Prod.map T t))) := by
    intro l
    induction l with
    | nil => intro bound _; rfl
    | cons c l ih =>
      intro bound hl
      rw [List.map_cons]
      unfold sImprove
      have h := sRunLoop_on (Prod.map (Prod.map T t) id) (fun s => P s.1.1) hloop hloopP fuel (c, bound) (hl c (by simp))
      have e : Prod.map (Prod.map T t) id (c, bound) = (Prod.map T t c, bound) := rfl
      rw [e] at h
      rw [h]
      rcases runLoop (sStep W cfg D) fuel (c, bound) with _ | (e | r)
      · rfl
      · rfl
      · simp only [Option.map_some, Except.map, Run.andThen]
        have e2 : (Prod.map (Prod.map T t) id r).2 = r.2 := rfl
        rw [e2, ih r.2 fun c hc => hl c (by simp [hc])]
        rcases sImprove W cfg D fuel l r.2 with _ | (e | cs) <;> rfl
  unfold sSearch
  simp only
  rw [sMapExcept_sim (Option.map (Prod.map T t)) (List.range cfg.nInitialSubsets) fun i hi => (hinit i (List.mem_range.1 hi)).1]
  rcases hos : mapExcept (sInitial W ch cfg D) (List.range cfg.nInitialSubsets) with e | os
  · rfl
  · simp only [Except.map, Run.andThen]
    have e1 : (os.map (Option.map (Prod.map T t))).filterMap id = (os.filterMap id).map (Prod.map T t) := by
      rw [List.filterMap_map, List.map_filterMap]
      rfl
    rw [e1]
    have hc : ∀ c ∈ os.filterMap id, P c.1 := by
      intro c hc
      rw [List.mem_filterMap] at hc
      obtain ⟨o, ho, rfl⟩ := hc
      obtain ⟨i, hi, h⟩ := mapExcept_mem hos _ ho
      exact (hinit i (List.mem_range.1 hi)).2 c h
    generalize os.filterMap id = cands at *
    have e2 : (cands.map (Prod.map T t)).map Prod.snd = (cands.map Prod.snd).map t := by
      rw [List.map_map, List.map_map]
      rfl
    rw [e2, hsrt, takeAt_map, himp _ _ fun c h => hc c (mem_takeAt h)]
    rcases sImprove W cfg D fuel (takeAt cands ((srt.toFun (cands.map Prod.snd)).take cfg.nBestSubsets)) false with _ | (e | cs)
    · rfl
    · rfl
    · rcases cs with _ | ⟨c, l⟩
      · rfl
      · simp only [Option.map_some, Except.map, List.map_cons]
        rw [sBest_on T t ht]

/-! Other units -/

theorem sWeight_smul (R : Rho ℝ) {a : ℝ} (ha : 0 < a) (s : ℝ) {r : ℝ} (hr : r ≠ 0) : sWeight R (a * s) (a * r) = sWeight R s r := by
  unfold sWeight
  by_cases hs : s = 0
  · rw [if_pos hs, if_pos (by rw [hs, mul_zero])]
  · rw [if_neg hs, if_neg (mul_ne_zero ha.ne' hs), if_neg hr, if_neg (mul_ne_zero ha.ne' hr), mul_div_mul_left _ _ ha.ne']

theorem sScaleStep_smul (R : Rho ℝ) (b : ℝ) {a : ℝ} (ha : 0 < a) (res : List ℝ) (s : ℝ) :
    sScaleStep R b (res.map (a * ·)) (a * s) = (sScaleStep R b res s).map (a * ·) := by
  unfold sScaleStep
  by_cases hs : s = 0
  · rw [if_pos hs, if_pos (by rw [hs, mul_zero])]
    cases R <;> simp
  · rw [if_neg hs, if_neg (mul_ne_zero ha.ne' hs)]
    have : sRhoMean R (res.map (a * ·)) (a * s) = sRhoMean R res s := by
      unfold sRhoMean
      rw [List.map_map, List.length_map]
      congr 2
      refine List.map_congr_left fun r _ => ?_
      simp only [Function.comp]
      rw [mul_div_mul_left _ _ ha.ne']
    rw [this]
    simp only [Option.map_some, Option.some.injEq]
    ring

theorem sGetScale_smul (R : Rho ℝ) (b tol : ℝ) {a : ℝ} (ha : 0 < a) (res : List ℝ) (j : ℕ) (s : ℝ) :
    sGetScale R b (a * tol) (res.map (a * ·)) j (a * s) = (sGetScale R b tol res j s).map (Option.map (a * ·)) := by
  induction j generalizing s with
  | zero => rfl
  | succ j ih =>
    unfold sGetScale
    rw [sScaleStep_smul R b ha]
    rcases sScaleStep R b res s with _ | s'
    · rfl
    · simp only [Option.map_some]
      have hiff : (|a * s - a * s'| < a * tol ∨ j = 0) ↔ (|s - s'| < tol ∨ j = 0) := by
        rw [← mul_sub, abs_mul, abs_of_pos ha, mul_lt_mul_iff_right₀ ha]
      by_cases h : |s - s'| < tol ∨ j = 0
      · rw [if_pos h, if_pos (hiff.2 h)]
        rfl
      · rw [if_neg h, if_neg (fun h' => h (hiff.1 h')), ih]

theorem sInitialScale_smul {a : ℝ} (ha : 0 < a) (res : List ℝ) : sInitialScale (res.map (a * ·)) = a * sInitialScale res := by
  unfold sInitialScale
  have : (res.map (a * ·)).map (fun r => |r|) = (res.map fun r => |r|).map fun x => a * x := by
    rw [List.map_map, List.map_map]
    refine List.map_congr_left fun r _ => ?_
    simp only [Function.comp]
    rw [abs_mul, abs_of_pos ha]
  rw [this, npMedian_scale]
  rcases npMedian (res.map fun r => |r|) with _ | m
  · simp
  · simp only [Option.map_some, Option.getD_some]
    ring

theorem WLSReg.fit_smul (W : WLSReg) {D : List ((Fin k → ℝ) × ℝ × ℝ)} (hw : ∀ d ∈ D, 0 ≤ d.2.2) {a : ℝ} (ha : 0 < a) :
    W.fit (D.map fun d => (d.1, a * d.2.1, d.2.2)) = a • W.fit D := by
  have e : ∀ m, wssr (D.map fun d => (d.1, a * d.2.1, d.2.2)) m = a ^ 2 * wssr D (a⁻¹ • m) := by
    intro m
    unfold wssr
    rw [List.map_map, ← List.sum_map_mul_left]
    congr 1
    refine List.map_congr_left fun d _ => ?_
    simp only [Function.comp]
    rw [dotRow_smul]
    field_simp
  have e' : a⁻¹ • a • W.fit D = W.fit D := by rw [smul_smul, inv_mul_cancel₀ ha.ne', one_smul]
  have ha2 : 0 < a ^ 2 := by positivity
  refine W.fit_unique ?_ ?_ ?_
  · intro d hd
    obtain ⟨d', hd', rfl⟩ := List.mem_map.1 hd
    exact hw d' hd'
  · intro m
    rw [e, e, e']
    exact mul_le_mul_of_nonneg_left (W.isMin D hw _) ha2.le
  · intro m hm
    rw [e, e, e'] at hm
    have := W.minNorm D hw _ (mul_left_cancel₀ ha2.ne' hm)
    have h1 : ∑ j, (a • W.fit D) j ^ 2 = a ^ 2 * ∑ j, W.fit D j ^ 2 := by
      rw [Finset.mul_sum]
      exact Finset.sum_congr rfl fun j _ => by simp only [Pi.smul_apply, smul_eq_mul]; ring
    have h2 : ∑ j, m j ^ 2 = a ^ 2 * ∑ j, (a⁻¹ • m) j ^ 2 := by
      rw [Finset.mul_sum]
      exact Finset.sum_congr rfl fun j _ => by simp only [Pi.smul_apply, smul_eq_mul]; field_simp
    rw [h1, h2]
    exact mul_le_mul_of_nonneg_left this ha2.le

/-- The targets in other units. -/
def Spec.scaleTargets (a : ℝ) (D : List ((Fin k → ℝ) × ℝ)) : List ((Fin k → ℝ) × ℝ) := D.map fun d => (d.1, a * d.2)

theorem sRes_smul (a : ℝ) (D : List ((Fin k → ℝ) × ℝ)) (beta : Fin k → ℝ) :
    sRes (Spec.scaleTargets a D) (a • beta) = (sRes D beta).map (a * ·) := by
  unfold sRes Spec.scaleTargets
  rw [List.map_map, List.map_map]
  refine List.map_congr_left fun d _ => ?_
  simp only [Function.comp]
  rw [dotRow_smul]
  ring

/-- **C193** (full statement): if all targets are multiplied by a positive number, so are the coefficients and the scale. -/
def C193_statement : Prop :=
  ∀ (k : ℕ) (W : WLSReg) (srt : ArgSort ℝ) (ch : Choice ℕ) (D : List ((Fin k → ℝ) × ℝ)) (a : ℝ) (fuel : ℕ), 0 < a → Spec.ComparesOnly srt →
    sSearch W srt ch sDefault (Spec.scaleTargets a D) fuel =
      (sSearch W srt ch sDefault D fuel).map (Except.map fun m => (a • m.1, a * m.2))

/-- **C193** (partial): one i-step from coefficients that fit no observation exactly, with `scale_tolerance` in the same units. -/
theorem C193_step_partial (W : WLSReg) (cfg : SConfig) (hc : 0 < cfg.rho.const) (D : List ((Fin k → ℝ) × ℝ)) {a : ℝ} (ha : 0 < a)
    (beta : Fin k → ℝ) (hne : ∀ d ∈ D, d.2 ≠ ∑ j, d.1 j * beta j) :
    sIStep W { cfg with scaleTolerance := a * cfg.scaleTolerance } (Spec.scaleTargets a D) (sRes (Spec.scaleTargets a D) (a • beta)) =
      (sIStep W cfg D (sRes D beta)).map fun m => (a • m.1, a * m.2) := by
  rw [sRes_smul]
  unfold sIStep
  simp only
  rw [sInitialScale_smul ha, sGetScale_smul _ _ _ ha]
  rcases h : sGetScale cfg.rho cfg.b cfg.scaleTolerance (sRes D beta) cfg.maxScaleIterations (sInitialScale (sRes D beta)) with
    e | (_ | s)
  · rfl
  · rfl
  · simp only [Except.map, Option.map_some, Except.ok.injEq, Prod.mk.injEq, and_true]
    have hs := sGetScale_nonneg _ _ _ _ _ (sInitialScale_nonneg _) h
    rw [← W.fit_smul (fun d hd => by
      obtain ⟨r, -, hr⟩ := List.mem_map.1 (sWeighted_mem hd)
      rw [← hr]
      exact sWeight_nonneg hc hs r) ha]
    congr 1
    have hw : ((sRes D beta).map (a * ·)).map (sWeight cfg.rho (a * s)) = (sRes D beta).map (sWeight cfg.rho s) := by
      rw [List.map_map]
      refine List.map_congr_left fun r hr => ?_
      obtain ⟨d, hd, rfl⟩ := List.mem_map.1 hr
      refine sWeight_smul _ ha s fun h0 => hne d hd ?_
      exact (sub_eq_zero.1 h0).symm
    rw [hw]
    unfold sWeighted Spec.scaleTargets
    rw [List.map_zipWith, List.zipWith_map_left]

/-- Coefficients the search may visit: it contains the first fits, is closed under i-steps, none of its members fits an observation
exactly, and the coefficients are not small in the old or the new units. -/
def Spec.visits (W : WLSReg) (ch : Choice ℕ) (cfg : SConfig) (D : List ((Fin k → ℝ) × ℝ)) (a : ℝ) (V : Set (Fin k → ℝ)) : Prop :=
  (∀ i < cfg.nInitialSubsets, W.fit ((takeAt D (ch.pick (cfg.randomState + i) D.length (k + 1))).map fun d => (d.1, d.2, 1)) ∈ V) ∧
  (∀ beta ∈ V, ∀ m, sIStep W cfg D (sRes D beta) = .ok m → m.1 ∈ V) ∧
  (∀ beta ∈ V, ∀ d ∈ D, d.2 ≠ ∑ j, d.1 j * beta j) ∧
  ∀ beta ∈ V, cfg.relativeTolerance ≤ Real.sqrt (∑ j, beta j * beta j) ∧ cfg.relativeTolerance ≤ a * Real.sqrt (∑ j, beta j * beta j)

theorem vecNorm_smul_pos {a : ℝ} (ha : 0 < a) (v : Fin k → ℝ) : vecNorm (a • v) = a * vecNorm v := by
  unfold vecNorm
  have : ∑ j, (a • v) j * (a • v) j = a ^ 2 * ∑ j, v j * v j := by
    rw [Finset.mul_sum]
    exact Finset.sum_congr rfl fun j _ => by simp only [Pi.smul_apply, smul_eq_mul]; ring
  rw [this, Real.sqrt_mul (by positivity), Real.sqrt_sq ha.le]

/-- **C193** (partial): the whole search, for every setting, if the algorithm visits no coefficients that are tiny or fit an observation
exactly and `scale_tolerance` is given in the same units.  Missing: one `scale_tolerance` for all units, exact fits. -/
theorem C193_search_partial (W : WLSReg) (srt : ArgSort ℝ) (ch : Choice ℕ) (cfg : SConfig) (hc : 0 < cfg.rho.const)
    (hsrt : Spec.ComparesOnly srt) (D : List ((Fin k → ℝ) × ℝ)) {a : ℝ} (ha : 0 < a) (V : Set (Fin k → ℝ))
    (hV : Spec.visits W ch cfg D a V) (fuel : ℕ) :
    sSearch W srt ch { cfg with scaleTolerance := a * cfg.scaleTolerance } (Spec.scaleTargets a D) fuel =
      (sSearch W srt ch cfg D fuel).map (Except.map fun m => (a • m.1, a * m.2)) := by
  refine sSearch_on W srt ch cfg (a * cfg.scaleTolerance) D (Spec.scaleTargets a D) (a • ·) (a * ·) (· ∈ V) (by simp [Spec.scaleTargets])
    (fun u v => mul_lt_mul_iff_right₀ ha) (fun l => hsrt a ha l)
    (fun beta hb => C193_step_partial W cfg hc D ha beta (hV.2.2.1 beta hb)) (fun beta m hb h => hV.2.1 beta hb m h) ?_ (fun i hi _ => hV.1 i hi) ?_ ?_ fuel
  · intro i _ _
    rw [← W.fit_smul _ ha]
    · congr 1
      unfold Spec.scaleTargets
      rw [takeAt_map, List.map_map, List.map_map]
      rfl
    · intro d hd
      obtain ⟨d', -, rfl⟩ := List.mem_map.1 hd
      exact zero_le_one
  · intro beta
    rw [sRes_smul, sInitialScale_smul ha]
  · intro x y _ hy
    obtain ⟨h1, h2⟩ := hV.2.2.2 y hy
    change cfg.relativeTolerance ≤ vecNorm y at h1
    change cfg.relativeTolerance ≤ a * vecNorm y at h2
    unfold sConverged
    rw [← smul_sub, vecNorm_smul_pos ha, vecNorm_smul_pos ha, max_eq_right h1, max_eq_right h2]
    refine decide_eq_decide.2 ?_
    rw [mul_left_comm, mul_le_mul_iff_right₀ ha]

/-! A search that stays where it starts -/

theorem sSearch_fixed (W : WLSReg) (srt : ArgSort ℝ) (ch : Choice ℕ) (cfg : SConfig) (D : List ((Fin k → ℝ) × ℝ)) (X : (Fin k → ℝ) × ℝ)
    (hn : 0 < cfg.nInitialSubsets) (hb : 0 < cfg.nBestSubsets) (htol : 0 ≤ cfg.relativeTolerance)
    (hinit : ∀ i < cfg.nInitialSubsets, sInitial W ch cfg D i = .ok (some X)) (hstep : sIStep W cfg D (sRes D X.1) = .ok X) (fuel : ℕ) :
    sSearch W srt ch cfg D (fuel + 1) = some (.ok X) := by
  have hconv : sConverged cfg.relativeTolerance X.1 X.1 = true := by
    unfold sConverged
    rw [sub_self]
    have h0 : vecNorm (0 : Fin k → ℝ) = 0 := by simp [vecNorm]
    rw [h0, decide_eq_true_eq]
    exact mul_nonneg htol (htol.trans (le_max_left _ _))
  have hrun : ∀ bound, runLoop (sStep W cfg D) (fuel + 1) (X, bound) = some (.ok (X, true)) := by
    intro bound
    unfold runLoop sStep
    simp only
    rw [hstep]
    simp only
    rw [if_pos hconv]
  have himp : ∀ (l : List ((Fin k → ℝ) × ℝ)) (bound : Bool), (∀ c ∈ l, c = X) → sImprove W cfg D (fuel + 1) l bound = some (.ok l) := by
    intro l
    induction l with
    | nil => intro bound _; rfl
    | cons c l ih =>
      intro bound hl
      obtain rfl := hl c (by simp)
      unfold sImprove
      rw [hrun]
      simp only [Run.andThen]
      rw [ih true fun c hc => hl c (by simp [hc])]
  have hbest : ∀ l : List ((Fin k → ℝ) × ℝ), (∀ c ∈ l, c = X) → sBest X l = X := by
    intro l
    unfold sBest
    induction l with
    | nil => intro _; rfl
    | cons c l ih =>
      intro hl
      obtain rfl := hl c (by simp)
      rw [List.foldl_cons, if_neg (lt_irrefl _)]
      exact ih fun c hc => hl c (by simp [hc])
  unfold sSearch
  obtain ⟨os, hos⟩ := mapExcept_all_ok (f := sInitial W ch cfg D) (List.range cfg.nInitialSubsets) fun i hi =>
    ⟨_, hinit i (List.mem_range.1 hi)⟩
  rw [hos]
  simp only [Run.andThen]
  have hall : ∀ o ∈ os, o = some X := by
    intro o ho
    obtain ⟨i, hi, h⟩ := mapExcept_mem hos o ho
    rw [hinit i (List.mem_range.1 hi)] at h
    exact (Except.ok.inj h).symm
  have hcands : ∀ c ∈ os.filterMap id, c = X := by
    intro c hc
    obtain ⟨o, ho, h⟩ := List.mem_filterMap.1 hc
    rw [hall o ho] at h
    exact (Option.some.inj h).symm
  have hlen : (os.filterMap id).length = os.length := by
    clear hos hcands
    induction os with
    | nil => rfl
    | cons o os ih =>
      rw [hall o (by simp)]
      have e : (some X :: os).filterMap id = X :: os.filterMap id := rfl
      rw [e, List.length_cons, List.length_cons, ih fun o ho => hall o (by simp [ho])]
  have hlos := (mapExcept_ok hos).length_eq
  rw [List.length_range] at hlos
  generalize os.filterMap id = cands at *
  have hsel : ∀ i ∈ (srt.toFun (cands.map Prod.snd)).take cfg.nBestSubsets, i < cands.length := fun i hi => by
    simpa using srt.lt _ i (List.mem_of_mem_take hi)
  have hl2 := takeAt_length cands _ hsel
  rw [List.length_take, srt.length, List.length_map] at hl2
  rw [himp _ _ fun c hc => hcands c (mem_takeAt hc)]
  have hmem : ∀ c ∈ takeAt cands ((srt.toFun (cands.map Prod.snd)).take cfg.nBestSubsets), c = X := fun c hc => hcands c (mem_takeAt hc)
  generalize takeAt cands ((srt.toFun (cands.map Prod.snd)).take cfg.nBestSubsets) = l at *
  rcases l with _ | ⟨c, l⟩
  · simp only [List.length_nil] at hl2
    omega
  · simp only
    rw [hmem c (by simp), hbest l fun c hc => hmem c (by simp [hc])]

/-- Two targets, a constant column. -/
def c193Data (a : ℝ) : List ((Fin 1 → ℝ) × ℝ) := [(![1], 0), (![1], 2 * a)]

theorem dotRow_c193 (x : ℝ) : dotRow (![1] : Fin 1 → ℝ) (fun _ => x) = x := by simp [dotRow]

theorem c193_fit (W : WLSReg) (a : ℝ) {w : ℝ} (hw : 0 < w) : W.fit [((![1] : Fin 1 → ℝ), (0 : ℝ), w), (![1], 2 * a, w)] = fun _ => a := by
  have e : ∀ m : Fin 1 → ℝ, wssr [((![1] : Fin 1 → ℝ), (0 : ℝ), w), (![1], 2 * a, w)] m = w * (2 * (m 0 - a) ^ 2 + 2 * a ^ 2) := by
    intro m
    have hm : m = fun _ => m 0 := by funext j; rw [Subsingleton.elim j 0]
    rw [hm]
    unfold wssr
    simp only [List.map_cons, List.map_nil, List.sum_cons, List.sum_nil, dotRow_c193]
    ring
  refine W.fit_unique (by simp [hw.le]) ?_ ?_
  · intro m
    rw [e, e]
    exact mul_le_mul_of_nonneg_left (by nlinarith [sq_nonneg (m 0 - a)]) hw.le
  · intro m hm
    rw [e, e] at hm
    have h1 := mul_left_cancel₀ hw.ne' hm
    have h2 : (m 0 - a) ^ 2 = 0 := by nlinarith
    have h3 : m 0 = a := by have := pow_eq_zero_iff (two_ne_zero) |>.1 h2; linarith
    simp [h3]

theorem c193_res (a : ℝ) : sRes (c193Data a) (fun _ => a) = [1, -1].map (a * ·) := by
  simp only [sRes, c193Data, List.map_cons, List.map_nil, dotRow_c193]
  simp
  ring

theorem c193_median : sInitialScale [1, -1] = 1 / 0.6745 := by
  unfold sInitialScale
  obtain ⟨m, hm⟩ := npMedian_isSome (xs := ([1, -1] : List ℝ).map fun r => |r|) (by simp)
  obtain ⟨h1, h2⟩ := npMedian_half hm
  have e : ([1, -1] : List ℝ).map (fun r => |r|) = [1, 1] := by simp
  rw [e] at h1 h2
  have hm1 : m = 1 := by
    apply le_antisymm
    · by_contra h
      have : ¬ m ≤ 1 := h
      simp [List.countP_cons, this] at h2
    · by_contra h
      simp [List.countP_cons, h] at h1
  rw [hm, hm1]
  rfl

/-- The scale of the two residuals after one and after two iterations, in units of the residuals. -/
noncomputable def c193s1 : ℝ := Spec.scaleUpdate (tukeyRho 1.547) 0.5 [1, -1] (1 / 0.6745)
noncomputable def c193s2 : ℝ := Spec.scaleUpdate (tukeyRho 1.547) 0.5 [1, -1] c193s1

theorem c193_update {s : ℝ} (hs : 1 / 1.547 ≤ s) :
    Spec.scaleUpdate (tukeyRho 1.547) 0.5 [1, -1] s ^ 2 = 1 - (1 / s ^ 2) / 1.547 ^ 2 + (1 / s ^ 2) ^ 2 / (3 * 1.547 ^ 4) := by
  have hs0 : 0 < s := lt_of_lt_of_le (by norm_num) hs
  have hx : 1 / s ≤ 1.547 := by
    rw [div_le_iff₀ hs0]
    rw [div_le_iff₀ (by norm_num)] at hs
    linarith
  have hr : tukeyRho 1.547 (1 / s) = (1 / s) ^ 2 / 2 - (1 / s) ^ 4 / (2 * 1.547 ^ 2) + (1 / s) ^ 6 / (6 * 1.547 ^ 4) := by
    unfold tukeyRho
    rw [if_pos (by rw [abs_of_pos (by positivity)]; exact hx)]
  have hr2 : tukeyRho 1.547 (-1 / s) = tukeyRho 1.547 (1 / s) := by
    rw [neg_div]
    exact (C13_even 1.547 (1 / s)).1
  have hpos : 0 ≤ tukeyRho 1.547 (1 / s) := by
    rw [hr]
    have h1 : (1 / s) ^ 2 ≤ 1.547 ^ 2 := pow_le_pow_left₀ (by positivity) hx 2
    have h2 : 0 ≤ (1 / s) ^ 2 := by positivity
    have e : (1 / s) ^ 2 / 2 - (1 / s) ^ 4 / (2 * 1.547 ^ 2) + (1 / s) ^ 6 / (6 * 1.547 ^ 4) =
        (1 / s) ^ 2 / 2 * (1 - (1 / s) ^ 2 / 1.547 ^ 2) + (1 / s) ^ 6 / (6 * 1.547 ^ 4) := by ring
    rw [e]
    have h3 : 0 ≤ 1 - (1 / s) ^ 2 / 1.547 ^ 2 := by
      rw [sub_nonneg, div_le_one (by norm_num)]
      exact h1
    positivity
  unfold Spec.scaleUpdate
  simp only [List.map_cons, List.map_nil, List.sum_cons, List.sum_nil, List.length_cons, List.length_nil]
  rw [hr2, mul_pow, Real.sq_sqrt (by push_cast; positivity), hr]
  push_cast
  field_simp
  ring

theorem c193_bounds : 0 < c193s1 ∧ 0.8 ≤ c193s1 ^ 2 ∧ c193s1 ^ 2 ≤ 0.83 ∧ 0 < c193s2 ∧ 1 < 1.547 ^ 2 * c193s2 ^ 2 ∧ c193s2 < c193s1 := by
  have h1 : c193s1 ^ 2 = _ := c193_update (s := 1 / 0.6745) (by norm_num)
  have n1 : 0 ≤ c193s1 := scaleUpdate_nonneg _ _ _ (by norm_num)
  have b1 : 0.8 ≤ c193s1 ^ 2 := by rw [h1]; norm_num
  have b2 : c193s1 ^ 2 ≤ 0.83 := by rw [h1]; norm_num
  have p1 : 0 < c193s1 := lt_of_le_of_ne n1 fun h => by rw [← h] at b1; norm_num at b1
  have h2 : c193s2 ^ 2 = _ := c193_update (s := c193s1) (by
    refine abs_le_of_sq_le_sq' ?_ n1 |>.2
    exact le_trans (by norm_num) b1)
  have n2 : 0 ≤ c193s2 := scaleUpdate_nonneg _ _ _ n1
  have hu1 : 1 / c193s1 ^ 2 ≤ 1.25 := by rw [div_le_iff₀ (by positivity)]; linarith
  have hu2 : 1.2 ≤ 1 / c193s1 ^ 2 := by rw [le_div_iff₀ (by positivity)]; linarith
  generalize 1 / c193s1 ^ 2 = u at *
  have b3 : 1 < 1.547 ^ 2 * c193s2 ^ 2 := by
    rw [h2]
    have : 0 ≤ u ^ 2 / (3 * 1.547 ^ 4) := by positivity
    norm_num at this ⊢
    nlinarith
  have b4 : c193s2 ^ 2 < 0.7 := by
    rw [h2]
    have : u ^ 2 ≤ 1.5625 := by nlinarith
    norm_num
    nlinarith
  refine ⟨p1, b1, b2, lt_of_le_of_ne n2 fun h => by rw [← h] at b3; norm_num at b3, b3, ?_⟩
  exact lt_of_pow_lt_pow_left₀ 2 n1 (by linarith)

/-- An i-step on the two targets: `g` is the scale in units of the residuals, with the tolerance in the same units. -/
theorem c193_step (W : WLSReg) {a : ℝ} (ha : 0 < a) {g : ℝ} (hg0 : 0 < g) (hg1 : 1 < 1.547 ^ 2 * g ^ 2)
    (hg : sGetScale (.tukey 1.547) 0.5 (1e-10 / a) [1, -1] 2 (1 / 0.6745) = .ok (some g)) :
    sIStep W sDefault (c193Data a) (sRes (c193Data a) fun _ => a) = .ok (fun _ => a, a * g) := by
  unfold sIStep
  have h1 : sGetScale sDefault.rho sDefault.b sDefault.scaleTolerance (sRes (c193Data a) fun _ => a) sDefault.maxScaleIterations
      (sInitialScale (sRes (c193Data a) fun _ => a)) = .ok (some (a * g)) := by
    rw [c193_res, sInitialScale_smul ha, c193_median]
    have : sDefault.scaleTolerance = a * (1e-10 / a) := by rw [mul_div_cancel₀ _ ha.ne']; rfl
    rw [this, sGetScale_smul _ _ _ ha]
    change (sGetScale (.tukey 1.547) 0.5 (1e-10 / a) [1, -1] 2 (1 / 0.6745)).map _ = _
    rw [hg]
    rfl
  rw [h1]
  simp only [Except.ok.injEq, Prod.mk.injEq, and_true]
  have hw : 0 < sWeight (.tukey 1.547) (a * g) (a * 1) := by
    rw [sWeight_smul _ ha _ one_ne_zero, sWeight_tukey (by norm_num) hg0]
    have hn : Spec.notZero 1 = 1 := by simp [Spec.notZero]
    have hcg : 1 < 1.547 * g := by nlinarith
    unfold Spec.bisquareWeight
    rw [hn, if_pos (by rw [abs_one]; exact hcg.le)]
    have : (1 / (1.547 * g)) ^ 2 < 1 := by
      rw [div_pow, div_lt_one (by positivity)]
      nlinarith
    have h0 : 0 < 1 - (1 / (1.547 * g)) ^ 2 := by linarith
    positivity
  have hws : sWeighted (c193Data a) ((sRes (c193Data a) fun _ => a).map (sWeight sDefault.rho (a * g))) =
      [(![1], 0, sWeight (.tukey 1.547) (a * g) (a * 1)), (![1], 2 * a, sWeight (.tukey 1.547) (a * g) (a * 1))] := by
    rw [c193_res]
    simp only [sWeighted, c193Data, List.map_cons, List.map_nil, List.zipWith_cons_cons, List.zipWith_nil_left]
    have : a * -1 = -(a * 1) := by ring
    rw [this, sWeight_neg]
    rfl
  rw [hws]
  exact c193_fit W a hw

/-- Every start fits both targets. -/
theorem c193_start (W : WLSReg) (ch : Choice ℕ) (a : ℝ) (seed : ℕ) :
    W.fit ((takeAt (c193Data a) (ch.pick seed (c193Data a).length (1 + 1))).map fun d => (d.1, d.2, (1 : ℝ))) = fun _ => a := by
  have hle : 1 + 1 ≤ (c193Data a).length := by simp [c193Data]
  have hp : (ch.pick seed (c193Data a).length (1 + 1)).Perm (List.range (c193Data a).length) := by
    refine List.Subperm.perm_of_length_le ?_ ?_
    · exact (ch.nodup _ _ _ hle).subperm fun j hj => List.mem_range.2 (ch.lt _ _ _ hle j hj)
    · rw [ch.length _ _ _ hle, List.length_range]
      simp [c193Data]
  have hp2 := takeAt_perm (c193Data a) hp
  rw [takeAt_range] at hp2
  rw [W.fit_perm (hp2.map _) (by simp [c193Data])]
  exact c193_fit W a one_pos

/-- The outcome on the two targets. -/
theorem c193_search (W : WLSReg) (srt : ArgSort ℝ) (ch : Choice ℕ) {a : ℝ} (ha : 0 < a) {g : ℝ} (hg0 : 0 < g) (hg1 : 1 < 1.547 ^ 2 * g ^ 2)
    (hg : sGetScale (.tukey 1.547) 0.5 (1e-10 / a) [1, -1] 2 (1 / 0.6745) = .ok (some g)) (fuel : ℕ) :
    sSearch W srt ch sDefault (c193Data a) (fuel + 1) = some (.ok (fun _ => a, a * g)) := by
  have hstep := c193_step W ha hg0 hg1 hg
  refine sSearch_fixed W srt ch sDefault (c193Data a) (fun _ => a, a * g) (by norm_num [sDefault]) (by norm_num [sDefault])
    (by norm_num [sDefault]) ?_ hstep fuel
  intro i _
  have hfit := c193_start W ch a (sDefault.randomState + i)
  unfold sInitial
  rw [if_neg (by simp [c193Data])]
  simp only
  rw [hfit]
  have hN : sDefault.nInitialISteps = 2 := rfl
  rw [hN]
  unfold sISteps
  rw [hstep]
  simp only [Except.bind]
  unfold sISteps
  rw [sIStep_neg, hstep]
  rfl

theorem c193_one {tau : ℝ} (h : 1 / 0.6745 - c193s1 < tau) :
    sGetScale (.tukey 1.547) 0.5 tau [1, -1] 2 (1 / 0.6745) = .ok (some c193s1) := by
  have habs : |1 / 0.6745 - c193s1| = 1 / 0.6745 - c193s1 := by
    obtain ⟨p1, b1, b2, -⟩ := c193_bounds
    exact abs_of_nonneg (by norm_num; nlinarith)
  unfold sGetScale
  rw [sScaleStep_tukey]
  simp only
  have hc : |1 / 0.6745 - Spec.scaleUpdate (tukeyRho 1.547) 0.5 [1, -1] (1 / 0.6745)| < tau ∨ 1 = 0 := Or.inl (by
    change |1 / 0.6745 - c193s1| < tau
    rw [habs]
    exact h)
  rw [if_pos hc]
  rfl

theorem c193_two {tau : ℝ} (h : tau ≤ 1 / 0.6745 - c193s1) :
    sGetScale (.tukey 1.547) 0.5 tau [1, -1] 2 (1 / 0.6745) = .ok (some c193s2) := by
  unfold sGetScale
  rw [sScaleStep_tukey]
  simp only
  have hc : ¬ (|1 / 0.6745 - Spec.scaleUpdate (tukeyRho 1.547) 0.5 [1, -1] (1 / 0.6745)| < tau ∨ 1 = 0) := by
    rintro (h' | h')
    · have h2 : |1 / 0.6745 - c193s1| < tau := h'
      have := le_abs_self (1 / 0.6745 - c193s1)
      linarith
    · omega
  rw [if_neg hc]
  unfold sGetScale
  rw [sScaleStep_tukey]
  simp only
  rw [if_pos (Or.inr trivial)]
  rfl

theorem c193_gap : 0.5 ≤ 1 / 0.6745 - c193s1 ∧ 1 / 0.6745 - c193s1 < 1 := by
  obtain ⟨p1, b1, b2, -⟩ := c193_bounds
  have h1 : c193s1 ≤ 0.92 := by nlinarith
  have h2 : 0.89 ≤ c193s1 := by nlinarith
  constructor
  · norm_num; linarith
  · norm_num; linarith

/-- With the defaults the targets 0 and 2 give the scale after two iterations, the same targets in units that are `10 ^ 10` times larger the
scale after one iteration, which is larger in the same units: `scale_tolerance` is an absolute number. -/
theorem C193_outcomes (W : WLSReg) (srt : ArgSort ℝ) (ch : Choice ℕ) (fuel : ℕ) :
    sSearch W srt ch sDefault (c193Data 1) (fuel + 1) = some (.ok (fun _ => 1, c193s2)) ∧
    sSearch W srt ch sDefault (c193Data 1e-10) (fuel + 1) = some (.ok (fun _ => 1e-10, 1e-10 * c193s1)) ∧ c193s2 < c193s1 := by
  obtain ⟨p1, b1, b2, p2, b3, hlt⟩ := c193_bounds
  obtain ⟨g1, g2⟩ := c193_gap
  refine ⟨?_, ?_, hlt⟩
  · have := c193_search W srt ch one_pos p2 b3 (c193_two (by norm_num at g1 ⊢; linarith)) fuel
    rwa [one_mul] at this
  · exact c193_search W srt ch (by norm_num) p1 (by nlinarith) (c193_one (by norm_num at g2 ⊢; linarith)) fuel

/-- The hypotheses of `C193_search_partial` for the defaults and the targets 0 and 2, in all units that are not tiny. -/
theorem c193_visits (W : WLSReg) (ch : Choice ℕ) {a : ℝ} (ha : 1e-7 ≤ a) : Spec.visits W ch sDefault (c193Data 1) a {fun _ => 1} := by
  obtain ⟨p1, b1, b2, p2, b3, hlt⟩ := c193_bounds
  have hstep := c193_step W one_pos p2 b3 (c193_two (by have := c193_gap.1; norm_num at this ⊢; linarith))
  refine ⟨fun i _ => c193_start W ch 1 _, ?_, ?_, ?_⟩
  · rintro beta rfl m hm
    rw [hstep] at hm
    rw [← Except.ok.inj hm]
    rfl
  · rintro beta rfl d hd
    simp only [c193Data, List.mem_cons, List.not_mem_nil, or_false] at hd
    rcases hd with rfl | rfl <;> norm_num
  · rintro beta rfl
    have : Real.sqrt (∑ j : Fin 1, (fun _ : Fin 1 => (1 : ℝ)) j * (fun _ : Fin 1 => (1 : ℝ)) j) = 1 := by simp
    rw [this]
    constructor
    · norm_num [sDefault]
    · rw [mul_one]
      exact ha

example (W : WLSReg) (ch : Choice ℕ) (fuel : ℕ) :
    sSearch W (argsortStable ℝ) ch { sDefault with scaleTolerance := 1000 * 1e-10 } (Spec.scaleTargets 1000 (c193Data 1)) fuel =
      (sSearch W (argsortStable ℝ) ch sDefault (c193Data 1) fuel).map (Except.map fun m => ((1000 : ℝ) • m.1, 1000 * m.2)) :=
  C193_search_partial W (argsortStable ℝ) ch sDefault (by norm_num [sDefault, Rho.const]) argsortStable_comparesOnly (c193Data 1)
    (by norm_num) _ (c193_visits W ch (by norm_num)) fuel

theorem C193_violated : ¬ C193_statement := by
  intro h
  have h1 := h 1 wlsExists (argsortStable ℝ) choiceFirst (c193Data 1) 1e-10 1 (by norm_num) argsortStable_comparesOnly
  have e : Spec.scaleTargets 1e-10 (c193Data 1) = c193Data 1e-10 := by
    simp only [Spec.scaleTargets, c193Data, List.map_cons, List.map_nil]
    norm_num
  obtain ⟨o1, o2, hlt⟩ := C193_outcomes wlsExists (argsortStable ℝ) choiceFirst 0
  rw [e, o1, o2] at h1
  simp only [Option.map_some, Except.map, Option.some.injEq, Except.ok.injEq, Prod.mk.injEq] at h1
  have := mul_left_cancel₀ (by norm_num) h1.2
  linarith

end Robpy
