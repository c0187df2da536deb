import Verif.Props.SScale
import Verif.Lemmas.WLS
import Verif.Lemmas.Median
import Verif.Lemmas.Select
import Verif.Lemmas.MCD
import Verif.Props.Covariance

/-! C102, C104, C105: prediction, result and errors of S-regression. -/

namespace Robpy

/-- The bisquare weight of a residual at a positive scale, written out. -/
noncomputable def Spec.bisquareWeight (c s r : ℝ) : ℝ := if |r| ≤ c * s then (1 - (r / (c * s)) ^ 2) ^ 2 else 0

/-- The weighted sum of squares of the targets around the linear predictions. -/
def Spec.weightedSq {k : ℕ} (D : List ((Fin k → ℝ) × ℝ)) (w : (Fin k → ℝ) × ℝ → ℝ) (beta : Fin k → ℝ) : ℝ :=
  (D.map fun d => w d * (d.2 - ∑ j, d.1 j * beta j) ^ 2).sum

/-- A residual of 0 is replaced by the machine epsilon. -/
noncomputable def Spec.notZero (r : ℝ) : ℝ := if r = 0 then 1 / 2 ^ 52 else r

theorem notZero_ne (r : ℝ) : Spec.notZero r ≠ 0 := by
  unfold Spec.notZero
  split_ifs with h
  · positivity
  · exact h

theorem sWeight_tukey {c s : ℝ} (hc : 0 < c) (hs : 0 < s) (r : ℝ) : sWeight (.tukey c) s r = Spec.bisquareWeight c s (Spec.notZero r) := by
  have h0 := notZero_ne r
  have e : (if r = 0 then npEps else r) = Spec.notZero r := rfl
  unfold sWeight
  rw [if_neg hs.ne', e]
  generalize Spec.notZero r = x at *
  unfold Rho.psi tukeyPsi Spec.bisquareWeight
  simp only
  have hiff : |x / s| ≤ c ↔ |x| ≤ c * s := by rw [abs_div, abs_of_pos hs, div_le_iff₀ hs]
  by_cases h : |x| ≤ c * s
  · rw [if_pos (hiff.2 h), if_pos h]
    field_simp
  · rw [if_neg (fun h' => h (hiff.1 h')), if_neg h, zero_div]

theorem bisquareWeight_nonneg (c s r : ℝ) : 0 ≤ Spec.bisquareWeight c s r := by
  unfold Spec.bisquareWeight
  split_ifs
  · positivity
  · exact le_rfl

section
variable {k : ℕ}

theorem sInitialScale_nonneg (res : List ℝ) : 0 ≤ sInitialScale res := by
  unfold sInitialScale
  rcases h : npMedian (res.map fun r => |r|) with _ | m
  · simp
  · have := (npMedian_half h).1
    have hm : 0 ≤ m := by
      by_contra hneg
      have h0 : (res.map fun r => |r|).countP (fun x => decide (x ≤ m)) = 0 := by
        rw [List.countP_eq_zero]
        intro x hx
        obtain ⟨r, -, rfl⟩ := List.mem_map.1 hx
        simp only [decide_eq_true_eq, not_le]
        exact (not_le.1 hneg).trans_le (abs_nonneg r)
      rw [h0] at this
      have h1 : (res.map fun r => |r|) = [] := List.length_eq_zero_iff.1 (by omega)
      rw [h1] at h
      simp [npMedian] at h
    simp only [Option.getD_some]
    exact div_nonneg hm (by norm_num)

theorem iterate_nonneg (c b : ℝ) (res : List ℝ) (j : ℕ) {s : ℝ} (hs : 0 ≤ s) : 0 ≤ (Spec.scaleUpdate (tukeyRho c) b res)^[j] s := by
  induction j with
  | zero => exact hs
  | succ j ih => rw [Function.iterate_succ_apply']; exact scaleUpdate_nonneg _ _ _ ih

/-- With the bisquare function an i-step does not raise. -/
theorem sIStep_tukey (W : WLSReg) {cfg : SConfig} {c : ℝ} (hR : cfg.rho = .tukey c) (hmax : cfg.maxScaleIterations ≠ 0)
    (D : List ((Fin k → ℝ) × ℝ)) (res : List ℝ) :
    ∃ j s, j + 1 ≤ cfg.maxScaleIterations ∧ s = (Spec.scaleUpdate (tukeyRho c) cfg.b res)^[j + 1] (sInitialScale res) ∧ 0 ≤ s ∧
      sIStep W cfg D res = .ok (W.fit (sWeighted D (res.map (sWeight (.tukey c) s))), s) := by
  obtain ⟨j, h1, h2, -⟩ := (C56_iterate c cfg.b cfg.scaleTolerance res cfg.maxScaleIterations (sInitialScale res)).2 hmax
  refine ⟨j, _, h1, rfl, iterate_nonneg _ _ _ _ (sInitialScale_nonneg res), ?_⟩
  unfold sIStep
  rw [hR, h2]

theorem sISteps_tukey (W : WLSReg) {cfg : SConfig} {c : ℝ} (hR : cfg.rho = .tukey c) (hmax : cfg.maxScaleIterations ≠ 0)
    (D : List ((Fin k → ℝ) × ℝ)) (j : ℕ) (s : (Fin k → ℝ) × ℝ) (res : List ℝ) : ∃ c, sISteps W cfg D j s res = .ok c := by
  induction j generalizing s res with
  | zero => exact ⟨s, rfl⟩
  | succ j ih =>
    obtain ⟨-, t, -, -, -, h⟩ := sIStep_tukey W hR hmax D res
    unfold sISteps
    rw [h]
    exact ih _ _

theorem sInitial_tukey (W : WLSReg) (ch : Choice ℕ) {cfg : SConfig} {c : ℝ} (hR : cfg.rho = .tukey c) (hmax : cfg.maxScaleIterations ≠ 0)
    {D : List ((Fin k → ℝ) × ℝ)} (hn : k + 1 ≤ D.length) (i : ℕ) : ∃ c, sInitial W ch cfg D i = .ok (some c) := by
  unfold sInitial
  rw [if_neg (by omega)]
  simp only
  obtain ⟨t, ht⟩ := sISteps_tukey W hR hmax D cfg.nInitialISteps
    (W.fit ((takeAt D (ch.pick (cfg.randomState + i) D.length (k + 1))).map fun d => (d.1, d.2, 1)),
      sInitialScale (sRes D (W.fit ((takeAt D (ch.pick (cfg.randomState + i) D.length (k + 1))).map fun d => (d.1, d.2, 1)))))
    (sRes D (W.fit ((takeAt D (ch.pick (cfg.randomState + i) D.length (k + 1))).map fun d => (d.1, d.2, 1))))
  rw [ht]
  exact ⟨t, rfl⟩

theorem sStep_tukey (W : WLSReg) {cfg : SConfig} {c : ℝ} (hR : cfg.rho = .tukey c) (hmax : cfg.maxScaleIterations ≠ 0)
    (D : List ((Fin k → ℝ) × ℝ)) (st : ((Fin k → ℝ) × ℝ) × Bool) :
    ∃ r, sIStep W cfg D (sRes D st.1.1) = .ok r ∧
      ((sConverged cfg.relativeTolerance st.1.1 r.1 = true ∧ sStep W cfg D st = .ok (.inr (r, true))) ∨
       (sConverged cfg.relativeTolerance st.1.1 r.1 = false ∧ sStep W cfg D st = .ok (.inl (r, true)))) := by
  obtain ⟨-, t, -, -, -, h⟩ := sIStep_tukey W hR hmax D (sRes D st.1.1)
  refine ⟨_, h, ?_⟩
  unfold sStep
  rw [h]
  simp only
  rcases hcv : sConverged cfg.relativeTolerance st.1.1 (W.fit (sWeighted D ((sRes D st.1.1).map (sWeight (.tukey c) t)))) with _ | _
  · exact Or.inr ⟨rfl, by simp⟩
  · exact Or.inl ⟨rfl, by simp⟩

theorem sLoop_tukey (W : WLSReg) {cfg : SConfig} {c : ℝ} (hR : cfg.rho = .tukey c) (hmax : cfg.maxScaleIterations ≠ 0)
    (D : List ((Fin k → ℝ) × ℝ)) (fuel : ℕ) (st : ((Fin k → ℝ) × ℝ) × Bool) (r : Except PyErr (((Fin k → ℝ) × ℝ) × Bool))
    (h : runLoop (sStep W cfg D) fuel st = some r) :
    ∃ m prev, r = .ok (m, true) ∧ sIStep W cfg D (sRes D prev) = .ok m ∧ sConverged cfg.relativeTolerance prev m.1 = true := by
  induction fuel generalizing st with
  | zero => simp [runLoop] at h
  | succ fuel ih =>
    obtain ⟨m, hm, ⟨hcv, hst⟩ | ⟨hcv, hst⟩⟩ := sStep_tukey W hR hmax D st
    · unfold runLoop at h
      rw [hst] at h
      simp only [Option.some.injEq] at h
      exact ⟨m, st.1.1, h.symm, hm, hcv⟩
    · unfold runLoop at h
      rw [hst] at h
      exact ih _ h

theorem sImprove_tukey (W : WLSReg) {cfg : SConfig} {c : ℝ} (hR : cfg.rho = .tukey c) (hmax : cfg.maxScaleIterations ≠ 0)
    (D : List ((Fin k → ℝ) × ℝ)) (fuel : ℕ) (l : List ((Fin k → ℝ) × ℝ)) (bound : Bool) (r : Except PyErr (List ((Fin k → ℝ) × ℝ)))
    (h : sImprove W cfg D fuel l bound = some r) :
    ∃ cs, r = .ok cs ∧ cs.length = l.length ∧
      ∀ m ∈ cs, ∃ prev, sIStep W cfg D (sRes D prev) = .ok m ∧ sConverged cfg.relativeTolerance prev m.1 = true := by
  induction l generalizing bound r with
  | nil =>
    simp only [sImprove, Option.some.injEq] at h
    exact ⟨[], h.symm, rfl, by simp⟩
  | cons a l ih =>
    unfold sImprove at h
    rcases h1 : runLoop (sStep W cfg D) fuel (a, bound) with _ | r1
    · rw [h1] at h; simp [Run.andThen] at h
    · obtain ⟨m, prev, rfl, h3, h4⟩ := sLoop_tukey W hR hmax D fuel _ _ h1
      rw [h1] at h
      simp only [Run.andThen] at h
      rcases h2 : sImprove W cfg D fuel l true with _ | r2
      · rw [h2] at h; simp at h
      · obtain ⟨cs, rfl, h5, h6⟩ := ih true r2 h2
        rw [h2] at h
        simp only [Option.some.injEq] at h
        refine ⟨m :: cs, h.symm, by simp [h5], ?_⟩
        intro x hx
        rcases List.mem_cons.1 hx with rfl | hx
        · exact ⟨prev, h3, h4⟩
        · exact h6 x hx

theorem sBest_spec (c : (Fin k → ℝ) × ℝ) (l : List ((Fin k → ℝ) × ℝ)) : sBest c l ∈ c :: l ∧ ∀ x ∈ c :: l, (sBest c l).2 ≤ x.2 := by
  unfold sBest
  induction l generalizing c with
  | nil => simp
  | cons a l ih =>
    rw [List.foldl_cons]
    obtain ⟨h1, h2⟩ := ih (if a.2 < c.2 then a else c)
    have h3 := h2 _ (List.mem_cons_self)
    split_ifs at h1 h2 h3 ⊢ with h
    · refine ⟨List.mem_cons_of_mem _ h1, fun x hx => ?_⟩
      rcases List.mem_cons.1 hx with rfl | hx
      · exact h3.trans h.le
      · exact h2 x hx
    · refine ⟨?_, fun x hx => ?_⟩
      · rcases List.mem_cons.1 h1 with h1 | h1
        · rw [h1]; simp
        · exact List.mem_cons_of_mem _ (List.mem_cons_of_mem _ h1)
      · rcases List.mem_cons.1 hx with rfl | hx
        · exact h3
        · rcases List.mem_cons.1 hx with rfl | hx
          · exact h3.trans (not_lt.1 h)
          · exact h2 x (List.mem_cons_of_mem _ hx)

/-- Starts, candidates and results of the search with the bisquare function. -/
theorem sSearch_tukey (W : WLSReg) (srt : ArgSort ℝ) (ch : Choice ℕ) {cfg : SConfig} {c : ℝ} (hR : cfg.rho = .tukey c)
    (hmax : cfg.maxScaleIterations ≠ 0) {D : List ((Fin k → ℝ) × ℝ)} (hn : k + 1 ≤ D.length) (fuel : ℕ)
    (r : Except PyErr ((Fin k → ℝ) × ℝ)) (h : sSearch W srt ch cfg D fuel = some r) :
    ∃ cs : List ((Fin k → ℝ) × ℝ), cs.length = min cfg.nBestSubsets cfg.nInitialSubsets ∧
      (∀ m ∈ cs, ∃ prev, sIStep W cfg D (sRes D prev) = .ok m ∧ sConverged cfg.relativeTolerance prev m.1 = true) ∧
      ((cs = [] ∧ r = .error .valueError) ∨ ∃ m ∈ cs, r = .ok m ∧ ∀ x ∈ cs, m.2 ≤ x.2) := by
  obtain ⟨os, hos⟩ := mapExcept_all_ok (f := sInitial W ch cfg D) (List.range cfg.nInitialSubsets) fun i _ =>
    (sInitial_tukey W ch hR hmax hn i).imp' some fun _ h => h
  have hlen := (mapExcept_ok hos).length_eq
  have hsome : ∀ o ∈ os, ∃ c, o = some c := by
    intro o ho
    obtain ⟨i, -, hi⟩ := mapExcept_mem hos o ho
    obtain ⟨c, hc⟩ := sInitial_tukey W ch hR hmax hn i
    rw [hc] at hi
    exact ⟨c, (Except.ok.inj hi).symm⟩
  have hflen : (os.filterMap id).length = cfg.nInitialSubsets := by
    have : ∀ l : List (Option ((Fin k → ℝ) × ℝ)), (∀ o ∈ l, ∃ c, o = some c) → (l.filterMap id).length = l.length := by
      intro l
      induction l with
      | nil => simp
      | cons o l ih =>
        intro hl
        obtain ⟨c, rfl⟩ := hl o (by simp)
        have e : List.filterMap id (some c :: l) = c :: List.filterMap id l := rfl
        rw [e, List.length_cons, List.length_cons, ih fun o ho => hl o (by simp [ho])]
    rw [this os hsome, ← hlen, List.length_range]
  unfold sSearch at h
  rw [hos] at h
  simp only [Run.andThen] at h
  set cands := os.filterMap id
  set best := takeAt cands ((srt.toFun (cands.map Prod.snd)).take cfg.nBestSubsets) with hbest
  have hblen : best.length = min cfg.nBestSubsets cfg.nInitialSubsets := by
    rw [hbest, takeAt_length _ _ fun i hi => ?_, List.length_take, srt.length, List.length_map, hflen]
    have := srt.lt _ i (List.mem_of_mem_take hi)
    simpa using this
  rcases h1 : sImprove W cfg D fuel best false with _ | r1
  · rw [h1] at h; simp at h
  · obtain ⟨cs, rfl, h3, h4⟩ := sImprove_tukey W hR hmax D fuel _ _ _ h1
    rw [h1] at h
    simp only at h
    refine ⟨cs, h3.trans hblen, h4, ?_⟩
    rcases cs with _ | ⟨m, l⟩
    · simp only [Option.some.injEq] at h
      exact Or.inl ⟨rfl, h.symm⟩
    · simp only [Option.some.injEq] at h
      obtain ⟨g1, g2⟩ := sBest_spec m l
      exact Or.inr ⟨_, g1, h.symm, g2⟩

theorem wssr_sWeighted (D : List ((Fin k → ℝ) × ℝ)) (w : (Fin k → ℝ) × ℝ → ℝ) (beta : Fin k → ℝ) :
    wssr (sWeighted D (D.map w)) beta = Spec.weightedSq D w beta := by
  unfold wssr sWeighted Spec.weightedSq dotRow
  congr 1
  rw [List.zipWith_map_right]
  simp [List.map_zipWith, List.zipWith_self]

theorem sWeighted_mem {D : List ((Fin k → ℝ) × ℝ)} {w : List ℝ} {d : (Fin k → ℝ) × ℝ × ℝ} (h : d ∈ sWeighted D w) : d.2.2 ∈ w := by
  unfold sWeighted at h
  induction D generalizing w with
  | nil => simp at h
  | cons a D ih =>
    rcases w with _ | ⟨v, w⟩
    · simp at h
    · simp only [List.zipWith_cons_cons, List.mem_cons] at h
      rcases h with rfl | h
      · simp
      · exact List.mem_cons_of_mem _ (ih h)

/-- What an i-step from the coefficients `prev` computes. -/
theorem sIStep_spec (W : WLSReg) {cfg : SConfig} {c : ℝ} (hc : 0 < c) (hR : cfg.rho = .tukey c) (hmax : cfg.maxScaleIterations ≠ 0)
    (D : List ((Fin k → ℝ) × ℝ)) (prev : Fin k → ℝ) (m : (Fin k → ℝ) × ℝ) (h : sIStep W cfg D (sRes D prev) = .ok m) :
    (∃ j, j + 1 ≤ cfg.maxScaleIterations ∧
      m.2 = (Spec.scaleUpdate (tukeyRho c) cfg.b (sRes D prev))^[j + 1] (sInitialScale (sRes D prev))) ∧ 0 ≤ m.2 ∧
    (m.2 = 0 → m.1 = 0) ∧
    (m.2 ≠ 0 → ∀ beta, Spec.weightedSq D (fun d => Spec.bisquareWeight c m.2 (Spec.notZero (∑ j, d.1 j * prev j - d.2))) m.1 ≤
      Spec.weightedSq D (fun d => Spec.bisquareWeight c m.2 (Spec.notZero (∑ j, d.1 j * prev j - d.2))) beta) := by
  obtain ⟨j, s, h1, h2, h3, h4⟩ := sIStep_tukey W hR hmax D (sRes D prev)
  rw [h4] at h
  obtain rfl := Except.ok.inj h
  refine ⟨⟨j, h1, h2⟩, h3, ?_, ?_⟩
  · intro h0
    simp only at h0 ⊢
    refine W.fit_zero fun d hd => ?_
    obtain ⟨r, -, hr⟩ := List.mem_map.1 (sWeighted_mem hd)
    rw [← hr, sWeight, if_pos h0]
  · intro h0 beta
    simp only at h0 ⊢
    have hs : 0 < s := lt_of_le_of_ne h3 (Ne.symm h0)
    have hw : (sRes D prev).map (sWeight (.tukey c) s) =
        D.map fun d => Spec.bisquareWeight c s (Spec.notZero (∑ j, d.1 j * prev j - d.2)) := by
      unfold sRes
      rw [List.map_map]
      exact List.map_congr_left fun d _ => sWeight_tukey hc hs _
    rw [hw, ← wssr_sWeighted, ← wssr_sWeighted]
    refine W.isMin _ (fun d hd => ?_) beta
    obtain ⟨x, -, hx⟩ := List.mem_map.1 (sWeighted_mem hd)
    rw [← hx]
    exact bisquareWeight_nonneg _ _ _

/-- Coefficients `m` and a scale `s` that come from one reweighting: there are coefficients `prev` within the tolerance such that `s` comes
from at most `maxIter` updates of the scaled median absolute residual of `prev`, and `m` minimises the weighted sum of squares with the
bisquare weights of the residuals of `prev` at that scale; if the scale is 0 then `m` is 0. -/
def Spec.Reweighted (c b tol : ℝ) (maxIter : ℕ) (D : List ((Fin k → ℝ) × ℝ)) (m : Fin k → ℝ) (s : ℝ) : Prop :=
  0 ≤ s ∧ ∃ prev : Fin k → ℝ, Real.sqrt (∑ j, (m j - prev j) * (m j - prev j)) ≤ tol * max tol (Real.sqrt (∑ j, m j * m j)) ∧
    (∃ med j, npMedian (D.map fun d => |d.2 - ∑ j, d.1 j * prev j|) = some med ∧ j + 1 ≤ maxIter ∧
      s = (Spec.scaleUpdate (tukeyRho c) b (D.map fun d => ∑ j, d.1 j * prev j - d.2))^[j + 1] (med / 0.6745)) ∧
    (s = 0 → m = 0) ∧
    (s ≠ 0 → ∀ beta, Spec.weightedSq D (fun d => Spec.bisquareWeight c s (Spec.notZero (∑ j, d.1 j * prev j - d.2))) m ≤
      Spec.weightedSq D (fun d => Spec.bisquareWeight c s (Spec.notZero (∑ j, d.1 j * prev j - d.2))) beta)

/-- **C104**: what a successful S-regression reports.  There are `n_best_subsets` results (fewer if there are fewer starts), each of them
a pair of coefficients and a scale that come from one reweighting; the one with the smallest scale is reported. -/
theorem C104_reported (W : WLSReg) (srt : ArgSort ℝ) (ch : Choice ℕ) (cfg : SConfig) (c : ℝ) (hc : 0 < c) (hR : cfg.rho = .tukey c)
    (hmax : cfg.maxScaleIterations ≠ 0) (D : List ((Fin k → ℝ) × ℝ)) (hn : k + 1 ≤ D.length) (fuel : ℕ) (m : Fin k → ℝ) (s : ℝ)
    (h : sSearch W srt ch cfg D fuel = some (.ok (m, s))) :
    ∃ results : List ((Fin k → ℝ) × ℝ), results.length = min cfg.nBestSubsets cfg.nInitialSubsets ∧ (m, s) ∈ results ∧
      (∀ x ∈ results, s ≤ x.2) ∧
      ∀ x ∈ results, Spec.Reweighted c cfg.b cfg.relativeTolerance cfg.maxScaleIterations D x.1 x.2 := by
  obtain ⟨cs, h1, h2, ⟨-, h3⟩ | ⟨m', h3, h4, h5⟩⟩ := sSearch_tukey W srt ch hR hmax hn fuel _ h
  · simp at h3
  · obtain rfl := Except.ok.inj h4
    refine ⟨cs, h1, h3, h5, fun x hx => ?_⟩
    obtain ⟨prev, g1, g2⟩ := h2 x hx
    obtain ⟨⟨j, k1, k1'⟩, k2, k3, k4⟩ := sIStep_spec W hc hR hmax D prev _ g1
    refine ⟨k2, prev, by simpa [sConverged, vecNorm] using g2, ?_, k3, k4⟩
    have hmap : (sRes D prev).map (fun r => |r|) = D.map fun d => |d.2 - ∑ j, d.1 j * prev j| := by
      unfold sRes
      rw [List.map_map]
      exact List.map_congr_left fun d _ => abs_sub_comm _ _
    obtain ⟨med, hmed⟩ := npMedian_isSome (xs := D.map fun d => |d.2 - ∑ j, d.1 j * prev j|) (by
      intro h0
      rw [List.map_eq_nil_iff] at h0
      rw [h0] at hn
      simp at hn)
    refine ⟨med, j, hmed, k1, ?_⟩
    rw [k1']
    unfold sInitialScale
    rw [hmap, hmed]
    rfl

theorem vecNorm_eq_zero {v : Fin k → ℝ} (h : vecNorm v ≤ 0) : v = 0 := by
  unfold vecNorm at h
  have h1 : ∑ j, v j * v j = 0 := by
    have h0 : 0 ≤ ∑ j, v j * v j := Finset.sum_nonneg fun j _ => mul_self_nonneg _
    have := le_antisymm h (Real.sqrt_nonneg _)
    exact (Real.sqrt_eq_zero h0).1 this
  funext j
  have := (Finset.sum_eq_zero_iff_of_nonneg fun j _ => mul_self_nonneg (v j)).1 h1 j (Finset.mem_univ j)
  simpa using this

/-- **C104**: with `relative_tolerance = 0` the reported coefficients and scale solve the estimating equations of an S-estimator,
`sum_i psi((y_i - x_i m) / s) x_i = 0`, provided the scale is not 0. -/
theorem C104_stationary (W : WLSReg) (srt : ArgSort ℝ) (ch : Choice ℕ) (cfg : SConfig) (c : ℝ) (hc : 0 < c) (hR : cfg.rho = .tukey c)
    (hmax : cfg.maxScaleIterations ≠ 0) (htol : cfg.relativeTolerance = 0) (D : List ((Fin k → ℝ) × ℝ)) (hn : k + 1 ≤ D.length)
    (fuel : ℕ) (m : Fin k → ℝ) (s : ℝ) (hs : s ≠ 0) (h : sSearch W srt ch cfg D fuel = some (.ok (m, s))) (i : Fin k) :
    (D.map fun d => tukeyPsi c ((d.2 - ∑ j, d.1 j * m j) / s) * d.1 i).sum = 0 := by
  obtain ⟨results, -, hmem, -, hall⟩ := C104_reported W srt ch cfg c hc hR hmax D hn fuel m s h
  obtain ⟨h0, prev, h1', -, -, h2⟩ := hall _ hmem
  have h1 : vecNorm (m - prev) ≤ cfg.relativeTolerance * max cfg.relativeTolerance (vecNorm m) := h1'
  rw [htol, zero_mul] at h1
  have hprev : prev = m := (sub_eq_zero.1 (vecNorm_eq_zero h1)).symm
  subst hprev
  have hs0 : 0 < s := lt_of_le_of_ne h0 (Ne.symm hs)
  set w := fun d : (Fin k → ℝ) × ℝ => Spec.bisquareWeight c s (Spec.notZero (∑ j, d.1 j * prev j - d.2)) with hw
  have hmin : ∀ beta, wssr (sWeighted D (D.map w)) prev ≤ wssr (sWeighted D (D.map w)) beta := by
    intro beta
    rw [wssr_sWeighted, wssr_sWeighted]
    exact h2 hs beta
  have hnorm := wls_normal hmin (Pi.single i 1)
  have e : (sWeighted D (D.map w)).map (fun d => d.2.2 * (d.2.1 - dotRow d.1 prev) * dotRow d.1 (Pi.single i 1)) =
      D.map fun d => w d * (d.2 - ∑ j, d.1 j * prev j) * d.1 i := by
    unfold sWeighted
    rw [List.zipWith_map_right]
    simp [List.map_zipWith, List.zipWith_self, dotRow, Pi.single_apply]
  rw [e] at hnorm
  have e2 : (D.map fun d => tukeyPsi c ((d.2 - ∑ j, d.1 j * prev j) / s) * d.1 i) =
      D.map fun d => s⁻¹ * (w d * (d.2 - ∑ j, d.1 j * prev j) * d.1 i) := by
    refine List.map_congr_left fun d _ => ?_
    have hneg : (∑ j, d.1 j * prev j - d.2) = -(d.2 - ∑ j, d.1 j * prev j) := by ring
    rw [hw]
    simp only
    rw [hneg]
    generalize d.2 - ∑ j, d.1 j * prev j = r
    by_cases hr : r = 0
    · subst hr
      simp [tukeyPsi]
    · unfold Spec.notZero
      rw [if_neg (by simpa using hr)]
      unfold Spec.bisquareWeight tukeyPsi
      have hiff : |r / s| ≤ c ↔ |-r| ≤ c * s := by rw [abs_div, abs_of_pos hs0, div_le_iff₀ hs0, abs_neg]
      by_cases hle : |-r| ≤ c * s
      · rw [if_pos (hiff.2 hle), if_pos hle]
        field_simp
      · rw [if_neg (fun h' => hle (hiff.1 h')), if_neg hle]
        simp
  rw [e2, List.sum_map_mul_left, hnorm, mul_zero]

/-- **C105** (full statement): with positive counts and more rows than columns of the design matrix the search of S-regression does not
raise. -/
def C105_statement : Prop :=
  ∀ (k : ℕ) (W : WLSReg) (srt : ArgSort ℝ) (ch : Choice ℕ) (cfg : SConfig) (D : List ((Fin k → ℝ) × ℝ)) (fuel : ℕ) (e : PyErr),
    cfg.nInitialSubsets ≠ 0 → cfg.nBestSubsets ≠ 0 → cfg.maxScaleIterations ≠ 0 → 0 < cfg.rho.const → 0 < cfg.b → k + 1 ≤ D.length →
    sSearch W srt ch cfg D fuel ≠ some (.error e)

/-- **C105** (partial): so it is with the bisquare function, the default; without a start or without a best model ValueError is raised.
Missing: Huber's function. -/
theorem C105_tukey_partial (W : WLSReg) (srt : ArgSort ℝ) (ch : Choice ℕ) (cfg : SConfig) (c : ℝ) (hR : cfg.rho = .tukey c)
    (hmax : cfg.maxScaleIterations ≠ 0) (D : List ((Fin k → ℝ) × ℝ)) (fuel : ℕ) (r : Except PyErr ((Fin k → ℝ) × ℝ))
    (h : sSearch W srt ch cfg D fuel = some r) :
    (r = .error .valueError ↔ cfg.nInitialSubsets = 0 ∨ cfg.nBestSubsets = 0 ∨ D.length < k + 1) ∧ (∀ e, r = .error e → e = .valueError) := by
  by_cases hn : k + 1 ≤ D.length
  · obtain ⟨cs, h1, h2, ⟨rfl, rfl⟩ | ⟨m, h3, rfl, -⟩⟩ := sSearch_tukey W srt ch hR hmax hn fuel _ h
    · refine ⟨⟨fun _ => ?_, fun _ => rfl⟩, fun e he => (Except.error.inj he).symm⟩
      simp only [List.length_nil] at h1
      rcases Nat.eq_zero_or_pos cfg.nBestSubsets with h0 | h0
      · exact Or.inr (Or.inl h0)
      · rcases Nat.eq_zero_or_pos cfg.nInitialSubsets with h0' | h0'
        · exact Or.inl h0'
        · omega
    · refine ⟨⟨fun h => (by simp at h), fun h => ?_⟩, fun e he => by simp at he⟩
      have hpos := List.length_pos_iff.2 (List.ne_nil_of_mem h3)
      rcases h with h | h | h
      · rw [h1, h] at hpos; simp at hpos
      · rw [h1, h] at hpos; simp at hpos
      · omega
  · have hlt : D.length < k + 1 := by omega
    have hr : r = .error .valueError := by
      unfold sSearch at h
      rcases hN : cfg.nInitialSubsets with _ | N
      · rw [hN] at h
        simp only [List.range_zero, mapExcept, Run.andThen, List.filterMap_nil, takeAt, List.map_nil] at h
        have hb : (List.filterMap (fun i : ℕ => ([] : List ((Fin k → ℝ) × ℝ))[i]?) (List.take cfg.nBestSubsets (srt.toFun []))) = [] := by
          rw [List.filterMap_eq_nil_iff]
          simp
        rw [hb] at h
        simpa [sImprove, eq_comm] using h
      · rw [hN, List.range_succ_eq_map] at h
        have h0 : sInitial W ch cfg D 0 = .error .valueError := by unfold sInitial; rw [if_pos hlt]
        simp only [mapExcept, h0, Except.bind, Run.andThen, Option.some.injEq] at h
        exact h.symm
    subst hr
    exact ⟨⟨fun _ => Or.inr (Or.inr hlt), fun _ => rfl⟩, fun e he => (Except.error.inj he).symm⟩

end

end Robpy
