import Verif.Props.DDCWCov
import Verif.Props.DDCWitness

/-! Runs of `DDC` inside `InitialDDCW` on data whose variables are unrelated, and a data set on which the cap of
the marked cells (C47) is exceeded. -/

namespace Robpy
open Matrix

section
variable {round3 cdf : ℝ → ℝ} {est : List (Option ℝ) → Except PyErr (Option ℝ × Option ℝ)}

local notation "E" => realEnv round3 cdf est

theorem real_sub_zero (z : Option ℝ) : (E).sub z ((E).mul (some 0) (some 0)) = z := by
  rcases z with _ | z
  · rfl
  · show some (z - 0 * 0) = some z
    simp

/-- `DDC.fit` on data without correlations of at least 0.5: every prediction and every deshrinkage factor is 0. -/
theorem fit_unrelated (cut : ℝ) (st : DDCState (Option ℝ)) {X : CellFrame (Option ℝ)}
    {ls ss : List (Option ℝ)} (hc : ddcCheck E X = .ok ())
    (hs : fitScaler E (replaceInf E X) (List.range X.p) [] [] = (.ok (), ls, ss))
    (hpair : ∀ i < X.p, ∀ j < X.p, i ≠ j → ∃ c : ℝ, |c| < 1 / 2 ∧ pairCorr E (some cut) (commonRows E X.n
      (fun k i => univariateFlag E (some cut) (zCells E ls ss X k i)) i j) = .ok (some c))
    (hosm : ∀ i < X.p, ∃ a v, cellwiseOSM ((colList X.n (zCells E ls ss X) i).filter (E).ok) = .ok (a, some v) ∧ v ≠ 0)
    (hrow : ∀ k < X.n, ∃ i < X.p, zCells E ls ss X k i ≠ none) :
    ∃ st' corr slopes d rs t, ddcFit E ⟨some cut, some 0.5⟩ false st X = (.ok (), st') ∧
      FitTrace E ⟨some cut, some 0.5⟩ false X st' ls ss corr slopes d rs t ∧
      (∀ i < X.p, d i = some 0) ∧
      (∀ k, ∀ i < X.p, predictedValues E X.p corr slopes (fun k i => univariateFlag E (some cut)
        (zCells E ls ss X k i)) k i = some 0) ∧
      ∀ i < X.p, (cellwiseOSM ((colList X.n (zCells E ls ss X) i).filter (E).ok)).map Prod.snd = .ok (rs i) := by
  obtain ⟨corr, hcorr, -, hrest⟩ := fit_steps (round3 := round3) (cdf := cdf) ⟨some cut, some 0.5⟩ st hc hs
  have hval : ∀ i < X.p, ∀ j < X.p, ∃ c : ℝ, corr i j = some c ∧ (i ≠ j → |c| < 1 / 2) := by
    intro i hi j hj
    have h0 := hcorr
    unfold robustCorrelation at h0
    rw [if_neg (by simp)] at h0
    have h1 := tabulate2_ok h0 i hi j hj
    by_cases hij : i = j
    · rw [if_pos hij] at h1
      exact ⟨1, (Except.ok.inj h1).symm, fun h => absurd hij h⟩
    · rw [if_neg hij] at h1
      obtain ⟨c, hc1, hc2⟩ := hpair (min i j) (lt_of_le_of_lt (min_le_left _ _) hi) (max i j) (max_lt hi hj) (by
        intro h
        rcases le_total i j with hle | hle
        · rw [min_eq_left hle, max_eq_right hle] at h; exact hij h
        · rw [min_eq_right hle, max_eq_left hle] at h; exact hij h.symm)
      rw [hc2] at h1
      exact ⟨c, (Except.ok.inj h1).symm, fun _ => hc1⟩
  obtain ⟨slopes, d, rs, -, -, -, hslopes, hd, hrs, hfin⟩ := hrest (by
    intro i hi j hj
    obtain ⟨c, h, -⟩ := hval i hi j hj
    rw [h]; simp)
  have hsl : ∀ i < X.p, ∀ j < X.p, slopes i j = none := by
    intro i hi j hj
    have h1 := tabulate2_ok hslopes i hi j hj
    by_cases hij : i = j
    · rw [if_pos hij] at h1
      exact (Except.ok.inj h1).symm
    · obtain ⟨c, h, hlt⟩ := hval i hi j hj
      rw [if_neg hij, h, if_pos] at h1
      · exact (Except.ok.inj h1).symm
      · show liftRel (· < ·) (some |c|) (some 0.5) = true
        unfold liftRel
        have := hlt hij
        simp only [decide_eq_true_eq]
        norm_num at this ⊢
        exact this
  have hraw : ∀ k, ∀ i < X.p, predictedValues E X.p corr slopes (fun k i => univariateFlag E (some cut)
      (zCells E ls ss X k i)) k i = some 0 := by
    intro k i hi
    unfold predictedValues
    rw [predictCell_real (c := fun j => (corr j i).getD 0) (by
      intro j hj
      obtain ⟨c, h, -⟩ := hval j hj i hi
      rw [h]; rfl)]
    congr 1
    apply Finset.sum_eq_zero
    intro j hj
    rw [hsl j (Finset.mem_range.1 hj) i hi]
    simp
  have hdz : ∀ i < X.p, d i = some 0 := by
    intro i hi
    have h1 := tabulate_ok hd i hi
    unfold robustSlope at h1
    rw [if_pos] at h1
    · exact (Except.ok.inj h1).symm
    · rw [List.all_eq_true]
      intro q hq
      obtain ⟨k, -, rfl⟩ := List.mem_map.1 hq
      exact eqb_zero_iff.2 (hraw k i hi)
  have hrsv : ∀ i < X.p, (cellwiseOSM ((colList X.n (zCells E ls ss X) i).filter (E).ok)).map Prod.snd
      = .ok (rs i) := by
    intro i hi
    have h1 := tabulate_ok hrs i hi
    have e : colList X.n (fun k i => liftNaN (· - ·) (zCells E ls ss X k i) (liftNaN (· * ·)
        (predictedValues E X.p corr slopes (fun k i => univariateFlag E (some cut)
          (zCells E ls ss X k i)) k i) (d i))) i = colList X.n (zCells E ls ss X) i := by
      unfold colList
      apply List.map_congr_left
      intro k _
      beta_reduce
      rw [hraw k i hi, hdz i hi]
      exact real_sub_zero (round3 := round3) (cdf := cdf) (est := est) _
    rw [e] at h1
    exact h1
  obtain ⟨st', t, h1, h2⟩ := hfin (by
    intro k hk
    obtain ⟨i, hi, hz⟩ := hrow k hk
    obtain ⟨a, v, hv, hv0⟩ := hosm i hi
    have h3 := hrsv i hi
    rw [hv] at h3
    have h4 : some v = rs i := Except.ok.inj h3
    exact ⟨i, hi, hz, by rw [← h4]; simp, by rw [← h4]; simpa using hv0⟩)
  exact ⟨st', corr, slopes, d, rs, t, h1, h2, hdz, hraw, hrsv⟩

end

/-! ## What `InitialDDCW` reads from `DDC` -/

/-- The output of a run of `DDC` on unrelated variables. -/
theorem ddcwDDC_unrelated {n p : ℕ} {env : DDCWEnv p} {X : Cells n p} {ls ss : List (Option ℝ)}
    (hc : ddcCheck (ddcwNumbers env) (frameOf X) = .ok ())
    (hs : fitScaler (ddcwNumbers env) (replaceInf (ddcwNumbers env) (frameOf X)) (List.range p) [] [] = (.ok (), ls, ss))
    (hpair : ∀ i < p, ∀ j < p, i ≠ j → ∃ c : ℝ, |c| < 1 / 2 ∧ pairCorr (ddcwNumbers env) (some env.ddcCutoff)
      (commonRows (ddcwNumbers env) n (fun k i => univariateFlag (ddcwNumbers env) (some env.ddcCutoff)
        (zCells (ddcwNumbers env) ls ss (frameOf X) k i)) i j) = .ok (some c))
    (hosm : ∀ i < p, ∃ a v, cellwiseOSM ((colList n (zCells (ddcwNumbers env) ls ss (frameOf X)) i).filter
      (ddcwNumbers env).ok) = .ok (a, some v) ∧ v ≠ 0)
    (hrow : ∀ k < n, ∃ i < p, zCells (ddcwNumbers env) ls ss (frameOf X) k i ≠ none) :
    ∃ (d : DDCOutput n p) (rs : ℕ → Option ℝ) (t : Option ℝ × Option ℝ), ddcwDDC env X = .ok d ∧
      (∀ j : Fin p, d.location j = ls.getD j none ∧ d.scale j = ss.getD j none) ∧
      (∀ i < p, (cellwiseOSM ((colList n (zCells (ddcwNumbers env) ls ss (frameOf X)) i).filter
        (ddcwNumbers env).ok)).map Prod.snd = .ok (rs i)) ∧
      (∀ (k : Fin n) (i : Fin p), d.stdRes k i
        = (ddcwNumbers env).div (zCells (ddcwNumbers env) ls ss (frameOf X) k i) (rs i)) ∧
      (∀ (k : Fin n) (i : Fin p), d.cellwise k i
        = (ddcwNumbers env).lt (some env.ddcCutoff) ((ddcwNumbers env).abs (d.stdRes k i))) ∧
      cellwiseOSM ((List.range n).map fun k => (ddcwNumbers env).nanmean ((List.range p).map fun i =>
        (ddcwNumbers env).chi2cdf ((ddcwNumbers env).mul
          ((ddcwNumbers env).div (zCells (ddcwNumbers env) ls ss (frameOf X) k i) (rs i))
          ((ddcwNumbers env).div (zCells (ddcwNumbers env) ls ss (frameOf X) k i) (rs i))))) = .ok t ∧
      (∀ k : Fin n, d.rowOut k = (ddcwNumbers env).lt (some env.ddcCutoff) ((ddcwNumbers env).div
        ((ddcwNumbers env).sub ((ddcwNumbers env).nanmean ((List.range p).map fun i =>
        (ddcwNumbers env).chi2cdf ((ddcwNumbers env).mul
          ((ddcwNumbers env).div (zCells (ddcwNumbers env) ls ss (frameOf X) k i) (rs i))
          ((ddcwNumbers env).div (zCells (ddcwNumbers env) ls ss (frameOf X) k i) (rs i))))) t.1) t.2)) ∧
      ∀ (k : Fin n) (i : Fin p), d.cellwise k i = false → X k i ≠ none → d.imputed k i = X k i := by
  classical
  obtain ⟨st', corr, slopes, d, rs, t, hfit, T, hdz, hraw, hrs⟩ := fit_unrelated (round3 := env.round3)
    (cdf := env.cdf) (est := fun l => .ok (env.est (l.filterMap id))) env.ddcCutoff {} (X := frameOf X) hc hs hpair hosm hrow
  obtain ⟨R, himp, hR⟩ : ∃ R, ddcImpute (ddcwNumbers env) ⟨some env.ddcCutoff, some 0.5⟩ st' (frameOf X) true
      = (.ok R, st') ∧ ∀ k i, (ddcwNumbers env).lt (some env.ddcCutoff) ((ddcwNumbers env).abs (rowStd (ddcwNumbers env)
        ⟨some env.ddcCutoff, some 0.5⟩ (frameOf X).p ls ss corr slopes d rs ((frameOf X).cell k) i)) = false →
        (ddcwNumbers env).isNaN ((replaceInf (ddcwNumbers env) (frameOf X)).cell k i) = false →
        R k i = (replaceInf (ddcwNumbers env) (frameOf X)).cell k i := by
    refine ⟨_, T.impute (X := frameOf X) rfl rfl true, ?_⟩
    intro k i h1 h2
    have h1' := h1
    unfold ddcwNumbers at h1' h2 ⊢
    rw [if_neg]
    simp only [Bool.true_and, Bool.or_eq_true, not_or, Bool.not_eq_true]
    exact ⟨h1', h2⟩
  have hstd : ∀ k, ∀ i < p, (ddcwNumbers env).sub (zCells (ddcwNumbers env) ls ss (frameOf X) k i)
      ((ddcwNumbers env).mul (predictedValues (ddcwNumbers env) (frameOf X).p corr slopes (fun k i => univariateFlag
        (ddcwNumbers env) (some env.ddcCutoff) (zCells (ddcwNumbers env) ls ss (frameOf X) k i)) k i) (d i))
      = zCells (ddcwNumbers env) ls ss (frameOf X) k i := by
    intro k i hi
    have h1 : predictedValues (ddcwNumbers env) (frameOf X).p corr slopes (fun k i => univariateFlag
        (ddcwNumbers env) (some env.ddcCutoff) (zCells (ddcwNumbers env) ls ss (frameOf X) k i)) k i = some 0 :=
      hraw k i hi
    rw [h1, hdz i hi]
    exact real_sub_zero _
  obtain ⟨pred, std, hpred, hstdeq, hst⟩ := T.hst
  have hs' : ∀ k, ∀ i < p, std k i = (ddcwNumbers env).div (zCells (ddcwNumbers env) ls ss (frameOf X) k i) (rs i) := by
    intro k i hi
    rw [hstdeq, hpred]
    have := hstd k i hi
    exact congrArg (fun z => (ddcwNumbers env).div z (rs i)) this
  have hnm : ∀ k, (List.range p).map (fun i => (ddcwNumbers env).chi2cdf ((ddcwNumbers env).mul (std k i) (std k i)))
      = (List.range p).map fun i => (ddcwNumbers env).chi2cdf ((ddcwNumbers env).mul
          ((ddcwNumbers env).div (zCells (ddcwNumbers env) ls ss (frameOf X) k i) (rs i))
          ((ddcwNumbers env).div (zCells (ddcwNumbers env) ls ss (frameOf X) k i) (rs i))) := by
    intro k
    apply List.map_congr_left
    intro i hi
    rw [hs' k i (List.mem_range.1 hi)]
  refine ⟨{ location := fun j => ls.getD j none, scale := fun j => ss.getD j none
            cellwise := fun k i => (ddcwNumbers env).lt (some env.ddcCutoff) ((ddcwNumbers env).abs (std k i))
            stdRes := fun k i => std k i
            rowOut := fun k => (ddcwNumbers env).lt (some env.ddcCutoff) ((ddcwNumbers env).div ((ddcwNumbers env).sub
              ((ddcwNumbers env).nanmean ((List.range p).map fun i =>
                (ddcwNumbers env).chi2cdf ((ddcwNumbers env).mul (std k i) (std k i)))) t.1) t.2)
            imputed := fun k i => R k i }, rs, t, ?_, fun j => ⟨rfl, rfl⟩, hrs, fun k i => hs' k i i.2,
            fun k i => rfl, ?_, ?_, ?_⟩
  · unfold ddcwDDC
    simp only
    have hfit' : ddcFit (ddcwNumbers env) ⟨some env.ddcCutoff, some 0.5⟩ false {} (frameOf X) = (.ok (), st') := by
      exact hfit
    have himp' : ddcImpute (ddcwNumbers env) ⟨some env.ddcCutoff, some 0.5⟩ st' (frameOf X) true = _ := himp
    rw [hfit']
    simp only
    rw [himp']
    simp only
    rw [hst]
    rfl
  · have ht := T.ht
    refine Eq.trans ?_ ht
    congr 1
    apply List.map_congr_left
    intro k _
    congr 1
    apply List.map_congr_left
    intro i hi
    have := hstd k i (List.mem_range.1 hi)
    exact (congrArg (fun z => (ddcwNumbers env).chi2cdf ((ddcwNumbers env).mul
      ((ddcwNumbers env).div z (rs i)) ((ddcwNumbers env).div z (rs i)))) this).symm
  · intro k
    show (ddcwNumbers env).lt _ ((ddcwNumbers env).div ((ddcwNumbers env).sub ((ddcwNumbers env).nanmean _) _) _) = _
    rw [hnm]
  · intro k i hf hx
    show R k i = X k i
    have hcell : (replaceInf (ddcwNumbers env) (frameOf X)).cell k i = X k i := by
      show (if false = true then none else (frameOf X).cell k i) = X k i
      simp [frameOf]
    have hstd' : rowStd (ddcwNumbers env) ⟨some env.ddcCutoff, some 0.5⟩ (frameOf X).p ls ss corr slopes d rs
        ((frameOf X).cell k) i = std k i := by
      rw [hstdeq, hpred]; rfl
    rw [hR k i (by rw [hstd']; exact hf) (by
      rw [hcell]
      cases hX : X k i with
      | none => exact absurd hX hx
      | some v => rfl), hcell]

/-! ## C47: the cap is exceeded for `alpha` above 0.75 -/

/-- Nine rows: the first column is present in the first five, the second in the last four. -/
def cells47 : Cells 9 2 := ![![some (-2), none], ![some (-1), none], ![some 1, none], ![some 2, none],
  ![some 1000, none], ![none, some (-2)], ![none, some (-1)], ![none, some 1], ![none, some 2]]

theorem cells47_check (env : DDCWEnv 2) : ddcCheck (ddcwNumbers env) (frameOf cells47) = .ok () := by
  classical
  unfold ddcCheck
  rw [if_neg (by simp [frameOf]), if_neg]
  rw [List.any_eq_true]
  rintro ⟨i, hi, h⟩
  have hi2 : i < 2 := List.mem_range.1 hi
  have h4 : 4 ≤ distinctCells (ddcwNumbers env) (frameOf cells47) i := by
    unfold distinctCells
    interval_cases i
    · have e : (colList (frameOf cells47).n (frameOf cells47).cell 0).filter (ddcwNumbers env).ok
          = [(-2:ℝ), -1, 1, 2, 1000].map some := rfl
      rw [e, List.Nodup.dedup (List.Nodup.map (Option.some_injective _) (by norm_num))]
      simp
    · have e : (colList (frameOf cells47).n (frameOf cells47).cell 1).filter (ddcwNumbers env).ok
          = [(-2:ℝ), -1, 1, 2].map some := rfl
      rw [e, List.Nodup.dedup (List.Nodup.map (Option.some_injective _) (by norm_num))]
      simp
  have := of_decide_eq_true h
  omega

theorem mad47 : madRaw [(-2:ℝ), -1, 1, 2, 1000] = some 2 := by
  have hm : npMedian [(-2:ℝ), -1, 1, 2, 1000] = some 1 :=
    npMedian_eq_some_iff.2 ⟨1, 1, by norm_num [Spec.IsKthSmallest, List.countP_cons],
      by norm_num [Spec.IsKthSmallest, List.countP_cons], by norm_num⟩
  unfold madRaw
  rw [hm]
  simp only [List.map_cons, List.map_nil]
  norm_num
  exact npMedian_eq_some_iff.2 ⟨2, 2, by norm_num [Spec.IsKthSmallest, List.countP_cons],
    by norm_num [Spec.IsKthSmallest, List.countP_cons], by norm_num⟩

theorem mad47' : madRaw [(-2:ℝ), -1, 1, 2] = some (3 / 2) := by
  have hm : npMedian [(-2:ℝ), -1, 1, 2] = some 0 :=
    npMedian_eq_some_iff.2 ⟨-1, 1, by norm_num [Spec.IsKthSmallest, List.countP_cons],
      by norm_num [Spec.IsKthSmallest, List.countP_cons], by norm_num⟩
  unfold madRaw
  rw [hm]
  simp only [List.map_cons, List.map_nil]
  norm_num
  exact npMedian_eq_some_iff.2 ⟨1, 2, by norm_num [Spec.IsKthSmallest, List.countP_cons],
    by norm_num [Spec.IsKthSmallest, List.countP_cons], by norm_num⟩

/-- The scale that `DDC` computes for residuals: positive and at most 4.1 MADs. -/
theorem osm_bounds {l : List ℝ} {s : ℝ} (hs : madRaw l = some s) (h : 1 / 10 ^ 12 ≤ s / normalQuartile) :
    ∃ a v, cellwiseOSM (l.map some) = .ok (a, some v) ∧ 0 < v ∧ v ≤ 4.1 * s := by
  obtain ⟨a, v, hv, hv0⟩ := osm_pos hs h
  refine ⟨a, v, hv, hv0, ?_⟩
  obtain ⟨w, hw, -, hle, -⟩ := C08_scale (.huber 2.5) (by norm_num [Rho.const]) 0.845 (1 / 10 ^ 12) (by norm_num) l s hs
  have hvw : v = w := by
    unfold cellwiseOSM oneStepM at hv
    rw [if_neg (by simp)] at hv
    have e : (l.map some).filterMap id = l := by simp
    simp only [e, hw] at hv
    have := (Prod.mk.inj (Except.ok.inj hv)).2
    exact (Option.some.inj this).symm
  rw [hvw]
  refine hle.trans ?_
  have hs0 : 0 ≤ s := madRaw_nonneg hs
  have hsq : (0.919:ℝ) ≤ Real.sqrt 0.845 := by
    apply Real.le_sqrt_of_sq_le; norm_num
  have hpos : (0:ℝ) < Real.sqrt 0.845 := by linarith
  have hc : (Rho.huber (2.5:ℝ)).const = 2.5 := rfl
  rw [hc, div_le_iff₀ hpos]
  have h1 : s / normalQuartile ≤ s * 1.4828 := by
    rw [div_le_iff₀ (normalQuartile_pos (K := ℝ))]
    unfold normalQuartile
    nlinarith
  nlinarith

theorem zCells_value {env : DDCWEnv 2} {l0 s0 l1 s1 : ℝ} (hs0 : 0 < s0) (hs1 : 0 < s1) {n : ℕ} {X : Cells n 2} (k : Fin n) :
    zCells (ddcwNumbers env) [some l0, some l1] [some s0, some s1] (frameOf X) k 0 = (X k 0).map (fun x => (x - l0) / s0) ∧
    zCells (ddcwNumbers env) [some l0, some l1] [some s0, some s1] (frameOf X) k 1 = (X k 1).map fun x => (x - l1) / s1 := by
  unfold ddcwNumbers
  constructor
  · rw [zCells_real]
    have e : (frameOf X).cell k 0 = X k 0 := by simp [frameOf]
    rw [e]
    show (if some s0 = some 0 then none else _) = _
    rw [if_neg (by simpa using hs0.ne')]
    cases X k 0 <;> rfl
  · rw [zCells_real]
    have e : (frameOf X).cell k 1 = X k 1 := by simp [frameOf]
    rw [e]
    show (if some s1 = some 0 then none else _) = _
    rw [if_neg (by simpa using hs1.ne')]
    cases X k 1 <;> rfl

/-- **C47**: on these data the cell 1000 is flagged by `DDC`, one flagged cell in nine is more than `1 - 0.9`, and
the cap marks two cells: for every scale estimator with a location within 100 and scales at most 10^6. -/
theorem C47_exceeded {env : DDCWEnv 2} (ha : NanArgSort @env.argsort) {l0 s0 l1 s1 : ℝ}
    (h0 : env.est [-2, -1, 1, 2, 1000] = (some l0, some s0)) (h1 : env.est [-2, -1, 1, 2] = (some l1, some s1))
    (hl : |l0| ≤ 100) (hs0 : 0 < s0) (hs0' : s0 ≤ 10 ^ 6) (hs1 : 0 < s1) (hs1' : s1 ≤ 10 ^ 6)
    (hcut : env.ddcCutoff ≤ 100) :
    ∃ d, ddcwDDC env cells47 = .ok d ∧ Spec.marked (fun k => ddcwFlags env.argsort 0.9 d k 0) = 2 := by
  classical
  have hsc : fitScaler (ddcwNumbers env) (replaceInf (ddcwNumbers env) (frameOf cells47)) (List.range 2) [] []
      = (.ok (), [some l0, some l1], [some s0, some s1]) := by
    have e0 : (ddcwNumbers env).est ((colList 9 (replaceInf (ddcwNumbers env) (frameOf cells47)).cell 0).filter
        (ddcwNumbers env).ok) = .ok (some l0, some s0) := congrArg Except.ok h0
    have e1 : (ddcwNumbers env).est ((colList 9 (replaceInf (ddcwNumbers env) (frameOf cells47)).cell 1).filter
        (ddcwNumbers env).ok) = .ok (some l1, some s1) := congrArg Except.ok h1
    show fitScaler (ddcwNumbers env) _ [0, 1] [] [] = _
    unfold fitScaler
    have e0' : (ddcwNumbers env).est ((colList (replaceInf (ddcwNumbers env) (frameOf cells47)).n
      (replaceInf (ddcwNumbers env) (frameOf cells47)).cell 0).filter (ddcwNumbers env).ok) = _ := e0
    rw [e0']
    simp only
    unfold fitScaler
    have e1' : (ddcwNumbers env).est ((colList (replaceInf (ddcwNumbers env) (frameOf cells47)).n
      (replaceInf (ddcwNumbers env) (frameOf cells47)).cell 1).filter (ddcwNumbers env).ok) = _ := e1
    rw [e1']
    rfl
  have hz := fun k => zCells_value (env := env) (l0 := l0) (l1 := l1) hs0 hs1 (X := cells47) k
  have hcol0 : (colList 9 (zCells (ddcwNumbers env) [some l0, some l1] [some s0, some s1] (frameOf cells47)) 0).filter
      (ddcwNumbers env).ok = ([(-2:ℝ), -1, 1, 2, 1000].map fun x => 1 / s0 * x + -l0 / s0).map some := by
    have e : colList 9 (zCells (ddcwNumbers env) [some l0, some l1] [some s0, some s1] (frameOf cells47)) 0
        = (List.finRange 9).map fun k => (cells47 k 0).map fun x => (x - l0) / s0 := by
      rw [show (List.finRange 9).map (fun k => (cells47 k 0).map fun x => (x - l0) / s0)
        = (List.finRange 9).map fun k => zCells (ddcwNumbers env) [some l0, some l1] [some s0, some s1]
          (frameOf cells47) k 0 from List.map_congr_left fun k _ => ((hz k).1).symm]
      rfl
    rw [e]
    have : ∀ x : ℝ, 1 / s0 * x + -l0 / s0 = (x - l0) / s0 := by intro x; ring
    simp only [this]
    rfl
  have hcol1 : (colList 9 (zCells (ddcwNumbers env) [some l0, some l1] [some s0, some s1] (frameOf cells47)) 1).filter
      (ddcwNumbers env).ok = ([(-2:ℝ), -1, 1, 2].map fun x => 1 / s1 * x + -l1 / s1).map some := by
    have e : colList 9 (zCells (ddcwNumbers env) [some l0, some l1] [some s0, some s1] (frameOf cells47)) 1
        = (List.finRange 9).map fun k => (cells47 k 1).map fun x => (x - l1) / s1 := by
      rw [show (List.finRange 9).map (fun k => (cells47 k 1).map fun x => (x - l1) / s1)
        = (List.finRange 9).map fun k => zCells (ddcwNumbers env) [some l0, some l1] [some s0, some s1]
          (frameOf cells47) k 1 from List.map_congr_left fun k _ => ((hz k).2).symm]
      rfl
    rw [e]
    have : ∀ x : ℝ, 1 / s1 * x + -l1 / s1 = (x - l1) / s1 := by intro x; ring
    simp only [this]
    rfl
  have hm0 := madRaw_affine (1 / s0) (-l0 / s0) [(-2:ℝ), -1, 1, 2, 1000]
  have hm1 := madRaw_affine (1 / s1) (-l1 / s1) [(-2:ℝ), -1, 1, 2]
  rw [mad47, Option.map_some, abs_of_pos (by positivity)] at hm0
  rw [mad47', Option.map_some, abs_of_pos (by positivity)] at hm1
  have hge : ∀ s : ℝ, 0 < s → s ≤ 10 ^ 6 → ∀ c : ℝ, 1 ≤ c → 1 / 10 ^ 12 ≤ 1 / s * c / normalQuartile := by
    intro s h1 h2 c hc
    rw [le_div_iff₀ (normalQuartile_pos (K := ℝ))]
    have : (1:ℝ) / 10 ^ 6 ≤ 1 / s := one_div_le_one_div_of_le h1 h2
    have hq : (normalQuartile : ℝ) ≤ 1 := by unfold normalQuartile; norm_num
    have hq0 := normalQuartile_pos (K := ℝ)
    nlinarith
  obtain ⟨a0, v0, hv0, hp0, hb0⟩ := osm_bounds hm0 (hge s0 hs0 hs0' _ (by norm_num))
  obtain ⟨a1, v1, hv1, hp1, -⟩ := osm_bounds hm1 (hge s1 hs1 hs1' _ (by norm_num))
  obtain ⟨d, rs, t, hd, -, hrs, hres, hcw, -⟩ := ddcwDDC_unrelated (env := env) (X := cells47) (cells47_check env) hsc
    (by
      intro i hi j hj hij
      refine ⟨0, by norm_num, ?_⟩
      have e : commonRows (ddcwNumbers env) 9 (fun k i => univariateFlag (ddcwNumbers env) (some env.ddcCutoff)
          (zCells (ddcwNumbers env) [some l0, some l1] [some s0, some s1] (frameOf cells47) k i)) i j = [] := by
        unfold commonRows
        rw [List.filter_eq_nil_iff]
        intro q hq
        obtain ⟨k, hk, rfl⟩ := List.mem_map.1 hq
        have hk9 : k < 9 := List.mem_range.1 hk
        have hn : ∀ i, zCells (ddcwNumbers env) [some l0, some l1] [some s0, some s1] (frameOf cells47) k i = none →
            univariateFlag (ddcwNumbers env) (some env.ddcCutoff) (zCells (ddcwNumbers env) [some l0, some l1]
              [some s0, some s1] (frameOf cells47) k i) = none := by
          intro i h
          rw [h]; unfold univariateFlag; split_ifs <;> rfl
        have hor : zCells (ddcwNumbers env) [some l0, some l1] [some s0, some s1] (frameOf cells47) k 0 = none ∨
            zCells (ddcwNumbers env) [some l0, some l1] [some s0, some s1] (frameOf cells47) k 1 = none := by
          have h := hz ⟨k, hk9⟩
          have h0 := h.1
          have h1 := h.2
          simp only at h0 h1
          rw [h0, h1]
          have : ∀ k : Fin 9, cells47 k 0 = none ∨ cells47 k 1 = none := by
            intro k; fin_cases k <;> simp [cells47]
          rcases this ⟨k, hk9⟩ with h | h
          · left; rw [h]; rfl
          · right; rw [h]; rfl
        have hok : (ddcwNumbers env).ok none = false := rfl
        interval_cases i <;> interval_cases j <;> first
          | exact absurd rfl hij
          | rcases hor with h | h
            · beta_reduce; rw [hn _ h]; simp [hok]
            · beta_reduce; rw [hn _ h]; simp [hok]
      rw [e]
      rfl)
    (by
      intro i hi
      interval_cases i
      · rw [hcol0]; exact ⟨a0, v0, hv0, hp0.ne'⟩
      · rw [hcol1]; exact ⟨a1, v1, hv1, hp1.ne'⟩)
    (by
      intro k hk
      have h := hz ⟨k, hk⟩
      have h0 := h.1
      have h1 := h.2
      simp only at h0 h1
      have : ∀ k : Fin 9, cells47 k 0 ≠ none ∨ cells47 k 1 ≠ none := by
        intro k; fin_cases k <;> simp [cells47]
      rcases this ⟨k, hk⟩ with h | h
      · exact ⟨0, by norm_num, by rw [h0]; simpa using h⟩
      · exact ⟨1, by norm_num, by rw [h1]; simpa using h⟩)
  refine ⟨d, hd, ?_⟩
  have hr0 : rs 0 = some v0 := by
    have := hrs 0 (by norm_num)
    rw [hcol0, hv0] at this
    exact (Except.ok.inj this).symm
  have hflag : d.cellwise 4 0 = true := by
    rw [hcw, hres]
    have e : zCells (ddcwNumbers env) [some l0, some l1] [some s0, some s1] (frameOf cells47) (4 : Fin 9) ((0 : Fin 2) : ℕ)
        = some ((1000 - l0) / s0) := (hz 4).1
    rw [e]
    show (ddcwNumbers env).lt _ ((ddcwNumbers env).abs ((ddcwNumbers env).div _ (rs 0))) = true
    rw [hr0]
    show (ddcwNumbers env).lt _ ((ddcwNumbers env).abs (if some v0 = some 0 then none else some ((1000 - l0) / s0 / v0))) = true
    rw [if_neg (by simpa using hp0.ne')]
    show decide (env.ddcCutoff < |(1000 - l0) / s0 / v0|) = true
    rw [decide_eq_true_eq]
    refine lt_of_le_of_lt hcut (lt_of_lt_of_le ?_ (le_abs_self _))
    rw [lt_div_iff₀ hp0, lt_div_iff₀ hs0]
    have : v0 * s0 ≤ 8.2 := by
      calc v0 * s0 ≤ 4.1 * (1 / s0 * 2) * s0 := mul_le_mul_of_nonneg_right hb0 hs0.le
        _ = 8.2 := by field_simp; norm_num
    have := (abs_le.1 hl).2
    nlinarith
  have hge1 : 1 ≤ Spec.marked (fun k => d.cellwise k 0) :=
    Finset.card_pos.2 ⟨4, by simp [hflag]⟩
  have hge1' : (1:ℝ) ≤ Spec.marked (fun k => d.cellwise k 0) := by exact_mod_cast hge1
  exact C47_capped (res := fun k => d.stdRes k 0) ha (by
    rw [lt_div_iff₀ (by norm_num)]
    norm_num
    linarith)

/-- The full statement of C47: no column has more than `(1 - alpha) n` marked cells (`alpha` as raised on line 60). -/
def C47_statement : Prop :=
  ∀ (n p : ℕ) (env : DDCWEnv p), NanArgSort @env.argsort → ∀ (alpha al : ℝ) (X : Cells n p) (d : DDCOutput n p),
    cellAlpha alpha n = .ok al → ddcwDDC env X = .ok d →
      ∀ i, (Spec.marked (fun k => ddcwFlags env.argsort al d k i) : ℝ) ≤ (1 - al) * n

/-- Numbers for examples: the spectral theorem as `eigh`, an estimator that always returns location 0 and scale 2,
the constants of the code. -/
noncomputable def envPlain (p : ℕ) : DDCWEnv p where
  eigh := eighSpectral
  order := fun _ => 1
  est := fun _ => (some 0, some 2)
  b := 1.5
  c := 4
  q1 := 1.540793
  q2 := 0.8622731
  chi50 := 1.386
  chi99 := 9.21
  round3 := id
  cdf := fun _ => 0
  ddcCutoff := 1.6448536
  argsort := @stableArgsort

/-- **C47** is violated by the code: with `alpha = 0.9` and nine rows, two cells of the first column are marked. -/
theorem C47_violated : ¬ C47_statement := by
  intro h
  obtain ⟨d, hd, h2⟩ := C47_exceeded (env := envPlain 2) (l0 := 0) (s0 := 2) (l1 := 0) (s1 := 2) stableArgsort_spec rfl rfl
    (by norm_num) (by norm_num) (by norm_num) (by norm_num) (by norm_num) (by norm_num [envPlain])
  have hal : cellAlpha 0.9 9 = .ok (0.9 : ℝ) := by
    unfold cellAlpha
    rw [if_pos (by norm_num)]
    norm_num
  have h3 := h 9 2 (envPlain 2) stableArgsort_spec 0.9 0.9 cells47 d hal hd 0
  rw [h2] at h3
  norm_num at h3

/-- A column that is capped (for `C47_capped` and `C125_largest_partial`): two of four cells flagged, `alpha` 0.75. -/
example : 1 - (0.75 : ℝ) < (Spec.marked ![false, true, true, false] : ℝ) / (4 : ℕ) := by
  rw [show Spec.marked ![false, true, true, false] = 2 by decide]; norm_num

/-- The hypothesis of `C127_cellmcd` and `C127_one_column` is only that there is one column; that of
`C129_missing_disables` is met by any data with a missing cell. -/
example : ∃ (k : Fin 9) (j : Fin 2), cells47 k j = none := ⟨0, 1, rfl⟩

/-- The hypotheses of `C129_complete_partial`: complete rows with distances 1, 1, 1, 100, the last of which is far. -/
example : ∃ (RD : Fin 4 → Option ℝ) (r : Fin 4 → ℝ), (∀ k, RD k = some (r k)) ∧ (∀ k, 0 ≤ r k) ∧
    Spec.FarRow 1.386 9.21 RD 3 := by
  refine ⟨fun k => some (![1, 1, 1, 100] k), ![1, 1, 1, 100], fun k => rfl, ?_, 100, 1, rfl, ?_, by norm_num⟩
  · intro k; fin_cases k <;> simp
  · show npMedian [(1:ℝ), 1, 1, 100] = some 1
    exact npMedian_eq_some_iff.2 ⟨1, 1, by norm_num [Spec.IsKthSmallest, List.countP_cons],
      by norm_num [Spec.IsKthSmallest, List.countP_cons], by norm_num⟩

end Robpy
