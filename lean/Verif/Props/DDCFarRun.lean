import Verif.Props.DDCFar
import Verif.Props.DDCWRun

/-! A run of `DDC` on data with far cells: the hypotheses of C186 are met. -/

namespace Robpy

/-- Column 0 of the data set: four clean cells and the cells `b` and `-b`. -/
def farCol (b : ℝ) : ℕ → ℝ
  | 0 => -2 | 1 => -1 | 2 => 1 | 3 => 2 | 4 => b | 5 => -b | _ => 0

/-- Column 1 of the data set. -/
def farCol1 : ℕ → ℝ
  | 0 => 1 | 1 => -2 | 2 => 2 | 3 => -1 | _ => 0

/-- Six rows, two columns that are not correlated in the first four rows; two cells of the first column are far. -/
def frameFar (b : ℝ) : CellFrame (Option ℝ) where
  n := 6
  p := 2
  numeric := true
  cell k i := some (if i = 0 then farCol b k else farCol1 k)

/-- The far cells. -/
def farSet (k i : ℕ) : Bool := decide (i = 0) && (decide (k = 4) || decide (k = 5))

theorem frameFar_pushed {B b : ℝ} (h : B < b) : Spec.pushed (frameFar 0) farSet (fun k _ => decide (k = 4)) B (frameFar b) := by
  refine ⟨rfl, rfl, fun k i hS => ?_, fun k i hS => ?_⟩
  · by_cases hi : i = 0
    · subst hi
      simp only [farSet, decide_true, Bool.true_and, Bool.or_eq_false_iff, decide_eq_false_iff_not] at hS
      have : farCol b k = farCol 0 k := by
        rcases k with _ | _ | _ | _ | _ | _ | k <;> first | rfl | exact absurd rfl hS.1 | exact absurd rfl hS.2
      simp [frameFar, this]
    · simp [frameFar, hi]
  · simp only [farSet, Bool.and_eq_true, Bool.or_eq_true, decide_eq_true_eq] at hS
    obtain ⟨rfl, rfl | rfl⟩ := hS
    · exact ⟨b, rfl, Or.inl ⟨by simp, h⟩⟩
    · exact ⟨-b, rfl, Or.inr ⟨by simp, by linarith⟩⟩

theorem frameFar_check {round3 cdf est} {b : ℝ} (hb : 2 < b) : ddcCheck (realEnv round3 cdf est) (frameFar b) = .ok () := by
  unfold ddcCheck
  rw [if_neg (by simp [frameFar]), if_neg]
  rw [List.any_eq_true]
  rintro ⟨i, hi, h⟩
  have hi2 : i < 2 := List.mem_range.1 hi
  have hsub : ∀ l : List (Option ℝ), (∀ x ∈ l, x ∈ colList 6 (frameFar b).cell i ∧ x ≠ none) → l.Nodup → l.length = 4 →
      4 ≤ distinctCells (realEnv round3 cdf est) (frameFar b) i := by
    intro l hl hn h4
    unfold distinctCells
    rw [← h4, ← List.Nodup.dedup hn]
    refine (List.Nodup.subperm (List.nodup_dedup l) ?_).length_le
    intro x hx
    obtain ⟨h1, h2⟩ := hl x (List.mem_dedup.1 hx)
    rw [List.mem_dedup, List.mem_filter]
    refine ⟨h1, ?_⟩
    rcases x with _ | x
    · exact absurd rfl h2
    · rfl
  have h4 : 4 ≤ distinctCells (realEnv round3 cdf est) (frameFar b) i := by
    interval_cases i
    · refine hsub [some (-2), some (-1), some 1, some 2] ?_ (by norm_num) rfl
      intro x hx
      simp only [List.mem_cons, List.not_mem_nil, or_false] at hx
      refine ⟨List.mem_map.2 ?_, by rcases hx with rfl | rfl | rfl | rfl <;> simp⟩
      rcases hx with rfl | rfl | rfl | rfl
      · exact ⟨0, by decide, rfl⟩
      · exact ⟨1, by decide, rfl⟩
      · exact ⟨2, by decide, rfl⟩
      · exact ⟨3, by decide, rfl⟩
    · refine hsub [some 1, some (-2), some 2, some (-1)] ?_ (by norm_num) rfl
      intro x hx
      simp only [List.mem_cons, List.not_mem_nil, or_false] at hx
      refine ⟨List.mem_map.2 ?_, by rcases hx with rfl | rfl | rfl | rfl <;> simp⟩
      rcases hx with rfl | rfl | rfl | rfl
      · exact ⟨0, by decide, rfl⟩
      · exact ⟨1, by decide, rfl⟩
      · exact ⟨2, by decide, rfl⟩
      · exact ⟨3, by decide, rfl⟩
  have := of_decide_eq_true h
  omega

theorem medFar : npMedian [(-2:ℝ), -1, 1, 2, 100, -100] = some 0 :=
  npMedian_eq_some_iff.2 ⟨-1, 1, by norm_num [Spec.IsKthSmallest, List.countP_cons],
    by norm_num [Spec.IsKthSmallest, List.countP_cons], by norm_num⟩

theorem madFar : madRaw [(-2:ℝ), -1, 1, 2, 100, -100] = some 2 := by
  unfold madRaw
  rw [medFar]
  simp only [List.map_cons, List.map_nil]
  norm_num
  exact npMedian_eq_some_iff.2 ⟨2, 2, by norm_num [Spec.IsKthSmallest, List.countP_cons],
    by norm_num [Spec.IsKthSmallest, List.countP_cons], by norm_num⟩

theorem madFar_b {b : ℝ} (hb : 61 ≤ b) : madRaw ((List.range 6).map (farCol b)) = some 2 := by
  have h : Spec.farApart (List.range 6) (fun k => farSet k 0) 2 60 (farCol 100) (farCol b) := by
    intro k hk
    have hk6 : k < 6 := List.mem_range.1 hk
    interval_cases k <;> simp [farSet, farCol] <;> norm_num
    · linarith
    · linarith
  obtain ⟨m, s, -, -, h1, h2, -⟩ := madRaw_far h (by simp [Spec.farMinority, farSet, List.range_succ, List.countP_cons, List.countP_append])
    (by norm_num) (by norm_num)
  have e : (List.range 6).map (farCol 100) = [(-2:ℝ), -1, 1, 2, 100, -100] := by
    simp [List.range_succ, farCol]
  rw [e, madFar] at h1
  rw [h2, h1]

/-- Location and scale of the first column. -/
theorem osmFar {b : ℝ} (hb : 61 ≤ b) : ∃ s, cellwiseOSM ((List.range 6).map fun k => some (farCol b k)) = .ok (some 0, some s) ∧ 2 ≤ s ∧ s ≤ 9 := by
  have h : Spec.farCells (List.range 6) (fun k => farSet k 0) 2 60 (fun k => some (farCol 100 k)) fun k => some (farCol b k) := by
    intro k hk
    have hk6 : k < 6 := List.mem_range.1 hk
    interval_cases k <;> simp [farSet, farCol] <;> norm_num
    · linarith
    · linarith
  rw [osm_far h (by simp [Spec.farMinority, farSet, List.range_succ, List.countP_cons, List.countP_append]) (by norm_num) (by norm_num)]
  have e : (List.range 6).map (fun k => some (farCol 100 k)) = [(-2:ℝ), -1, 1, 2, 100, -100].map some := by
    simp [List.range_succ, farCol]
  rw [e]
  obtain ⟨a, s, hs, hs0, hs1⟩ := osm_bounds madFar (by unfold normalQuartile; norm_num)
  have hcalc := hs
  unfold cellwiseOSM oneStepM at hcalc
  rw [if_neg (by simp)] at hcalc
  have e2 : ([(-2:ℝ), -1, 1, 2, 100, -100].map some).filterMap id = [-2, -1, 1, 2, 100, -100] := by simp
  simp only [e2] at hcalc
  obtain ⟨h1, h2⟩ := Prod.mk.inj (Except.ok.inj hcalc)
  have hloc : oneStepLocation (.tukey (3:ℝ)) (1 / 10 ^ 12) [-2, -1, 1, 2, 100, -100] = some 0 := by
    unfold oneStepLocation
    simp only [medFar, madFar]
    unfold weightedMean
    rw [if_neg]
    · congr 1
      rw [div_eq_zero_iff]
      left
      norm_num [safeMad, normalQuartile, oneStepWeight, Rho.psi, tukeyPsi, abs_div]
    · norm_num [safeMad, normalQuartile, oneStepWeight, Rho.psi, tukeyPsi, abs_div]
  rw [hloc] at h1
  refine ⟨s, by rw [hs, h1], ?_, by linarith⟩
  unfold oneStepScale at h2
  simp only [medFar, madFar] at h2
  rw [if_neg (by unfold normalQuartile; norm_num)] at h2
  rw [← Option.some.inj h2]
  have hq : (2:ℝ) ≤ 2 / normalQuartile := by unfold normalQuartile; norm_num
  have hr : (1:ℝ) ≤ Real.sqrt (1 / 0.845 * mean ([(-2:ℝ), -1, 1, 2, 100, -100].map fun x => (Rho.huber 2.5).psi ((x - 0) / (2 / normalQuartile)) ^ 2)) := by
    apply Real.le_sqrt_of_sq_le
    norm_num [mean, Rho.psi, huberPsi, npSign, normalQuartile, abs_div]
  nlinarith

theorem medFar1 : npMedian [(1:ℝ), -2, 2, -1, 0, 0] = some 0 :=
  npMedian_eq_some_iff.2 ⟨0, 0, by norm_num [Spec.IsKthSmallest, List.countP_cons],
    by norm_num [Spec.IsKthSmallest, List.countP_cons], by norm_num⟩

theorem madFar1 : madRaw [(1:ℝ), -2, 2, -1, 0, 0] = some 1 := by
  unfold madRaw
  rw [medFar1]
  simp only [List.map_cons, List.map_nil]
  norm_num
  exact npMedian_eq_some_iff.2 ⟨1, 1, by norm_num [Spec.IsKthSmallest, List.countP_cons],
    by norm_num [Spec.IsKthSmallest, List.countP_cons], by norm_num⟩

/-- Location and scale of the second column. -/
theorem osmFar1 : ∃ s, cellwiseOSM ((List.range 6).map fun k => some (farCol1 k)) = .ok (some 0, some s) ∧ 1 ≤ s ∧ s ≤ 9 := by
  have e : (List.range 6).map (fun k => some (farCol1 k)) = [(1:ℝ), -2, 2, -1, 0, 0].map some := by
    simp [List.range_succ, farCol1]
  rw [e]
  obtain ⟨a, s, hs, hs0, hs1⟩ := osm_bounds madFar1 (by unfold normalQuartile; norm_num)
  have hcalc := hs
  unfold cellwiseOSM oneStepM at hcalc
  rw [if_neg (by simp)] at hcalc
  have e2 : ([(1:ℝ), -2, 2, -1, 0, 0].map some).filterMap id = [1, -2, 2, -1, 0, 0] := by simp
  simp only [e2] at hcalc
  obtain ⟨h1, h2⟩ := Prod.mk.inj (Except.ok.inj hcalc)
  have hloc : oneStepLocation (.tukey (3:ℝ)) (1 / 10 ^ 12) [1, -2, 2, -1, 0, 0] = some 0 := by
    unfold oneStepLocation
    simp only [medFar1, madFar1]
    unfold weightedMean
    rw [if_neg]
    · congr 1
      rw [div_eq_zero_iff]
      left
      norm_num [safeMad, normalQuartile, oneStepWeight, Rho.psi, tukeyPsi, abs_div]
    · norm_num [safeMad, normalQuartile, oneStepWeight, Rho.psi, tukeyPsi, abs_div]
  rw [hloc] at h1
  refine ⟨s, by rw [hs, h1], ?_, by linarith⟩
  unfold oneStepScale at h2
  simp only [medFar1, madFar1] at h2
  rw [if_neg (by unfold normalQuartile; norm_num)] at h2
  rw [← Option.some.inj h2]
  have hq : (1:ℝ) ≤ 1 / normalQuartile := by unfold normalQuartile; norm_num
  have hr : (2 / 3:ℝ) ≤ Real.sqrt (1 / 0.845 * mean ([(1:ℝ), -2, 2, -1, 0, 0].map fun x => (Rho.huber 2.5).psi ((x - 0) / (1 / normalQuartile)) ^ 2)) := by
    apply Real.le_sqrt_of_sq_le
    norm_num [mean, Rho.psi, huberPsi, npSign, normalQuartile, abs_div]
  have hq2 : (3 / 2:ℝ) ≤ 1 / normalQuartile ∨ (1.48:ℝ) ≤ 1 / normalQuartile := by right; unfold normalQuartile; norm_num
  have hr2 : (0.7:ℝ) ≤ Real.sqrt (1 / 0.845 * mean ([(1:ℝ), -2, 2, -1, 0, 0].map fun x => (Rho.huber 2.5).psi ((x - 0) / (1 / normalQuartile)) ^ 2)) := by
    apply Real.le_sqrt_of_sq_le
    norm_num [mean, Rho.psi, huberPsi, npSign, normalQuartile, abs_div]
  rcases hq2 with hq2 | hq2 <;> nlinarith

section
variable {round3 cdf : ℝ → ℝ}

local notation "E" => realEnv round3 cdf cellwiseOSM

theorem frameFar_scaler {b s₀ s₁ : ℝ} (h0 : cellwiseOSM ((List.range 6).map fun k => some (farCol b k)) = .ok (some 0, some s₀))
    (h1 : cellwiseOSM ((List.range 6).map fun k => some (farCol1 k)) = .ok (some 0, some s₁)) :
    fitScaler E (replaceInf E (frameFar b)) (List.range 2) [] [] = (.ok (), [some 0, some 0], [some s₀, some s₁]) := by
  rw [replaceInf_real]
  have e0 : (colList 6 (frameFar b).cell 0).filter (E).ok = (List.range 6).map fun k => some (farCol b k) := by
    refine (List.filter_eq_self.2 ?_).trans rfl
    intro x hx
    obtain ⟨k, -, rfl⟩ := List.mem_map.1 hx
    rfl
  have e1 : (colList 6 (frameFar b).cell 1).filter (E).ok = (List.range 6).map fun k => some (farCol1 k) := by
    refine (List.filter_eq_self.2 ?_).trans rfl
    intro x hx
    obtain ⟨k, -, rfl⟩ := List.mem_map.1 hx
    rfl
  have f0 : (E).est ((colList (frameFar b).n (frameFar b).cell 0).filter (E).ok) = .ok (some 0, some s₀) := by
    rw [show (frameFar b).n = 6 from rfl, e0]; exact h0
  have f1 : (E).est ((colList (frameFar b).n (frameFar b).cell 1).filter (E).ok) = .ok (some 0, some s₁) := by
    rw [show (frameFar b).n = 6 from rfl, e1]; exact h1
  have hr : List.range 2 = [0, 1] := rfl
  rw [hr]
  unfold fitScaler
  rw [f0]
  simp only
  unfold fitScaler
  rw [f1]
  rfl

/-- `fit` on these data. -/
theorem frameFar_fit (st : DDCState (Option ℝ)) {b : ℝ} (hb : 10000 ≤ b) :
    ∃ st', ddcFit E ⟨some 1000, some 0.5⟩ false st (frameFar b) = (.ok (), st') ∧
      (∀ g, st'.rawPred = some g → ∀ k, ∀ i < 2, g k i = some 0) ∧
      ∃ rs, st'.resScales = some rs ∧ ∀ i < 2, ∃ r : ℝ, rs i = some r ∧ r ≠ 0 := by
  obtain ⟨s₀, h0, h0a, h0b⟩ := osmFar (b := b) (by linarith)
  obtain ⟨s₁, h1, h1a, h1b⟩ := osmFar1
  have hz0 : ∀ k, zCells E [some 0, some 0] [some s₀, some s₁] (frameFar b) k 0 = some (farCol b k / s₀) := by
    intro k
    rw [zCells_zOf]
    simp only [zOf, divNaN, frameFar, liftNaN, List.getD_cons_zero, Option.some.injEq, if_true, sub_zero]
    rw [if_neg (by linarith)]
  have hz1 : ∀ k, zCells E [some 0, some 0] [some s₀, some s₁] (frameFar b) k 1 = some (farCol1 k / s₁) := by
    intro k
    rw [zCells_zOf]
    simp only [zOf, divNaN, frameFar, liftNaN, List.getD_cons_succ, List.getD_cons_zero, Option.some.injEq, one_ne_zero, if_false, sub_zero]
    rw [if_neg (by linarith)]
  have hc1 : ∀ k, |farCol1 k / s₁| ≤ 2 := by
    intro k
    have : |farCol1 k| ≤ 2 := by
      rcases k with _ | _ | _ | _ | k
      · norm_num [farCol1]
      · norm_num [farCol1]
      · norm_num [farCol1]
      · norm_num [farCol1]
      · show |(0:ℝ)| ≤ 2
        norm_num
    rw [abs_div, abs_of_pos (by linarith : 0 < s₁), div_le_iff₀ (by linarith)]
    linarith
  have hc0 : ∀ k < 4, |farCol b k / s₀| ≤ 2 := by
    intro k hk
    have : |farCol b k| ≤ 2 := by
      interval_cases k <;> norm_num [farCol]
    rw [abs_div, abs_of_pos (by linarith : 0 < s₀), div_le_iff₀ (by linarith)]
    linarith
  have hflag : ∀ x : ℝ, |x| ≤ 2 → univariateFlag E (some 1000) (some x) = some x := by
    intro x hx
    unfold univariateFlag
    rw [if_neg]
    show ¬ liftRel (· < ·) (some 1000) (some |x|) = true
    unfold liftRel
    simp only [decide_eq_true_eq, not_lt]
    linarith
  have hflagN : ∀ x : ℝ, 1000 < |x| → univariateFlag E (some 1000) (some x) = none := by
    intro x hx
    unfold univariateFlag
    rw [if_pos]
    · rfl
    · show liftRel (· < ·) (some 1000) (some |x|) = true
      unfold liftRel
      simp only [decide_eq_true_eq]
      exact hx
  have hbig : 1000 < |b / s₀| ∧ 1000 < |-b / s₀| := by
    have : 1000 < b / s₀ := by rw [lt_div_iff₀ (by linarith)]; linarith
    rw [neg_div, abs_neg, abs_of_pos (by linarith)]
    exact ⟨this, this⟩
  let U := fun k i => univariateFlag E (some 1000) (zCells E [some 0, some 0] [some s₀, some s₁] (frameFar b) k i)
  have hU0 : (List.range 6).map (fun k => U k 0) = [some (-2 / s₀), some (-1 / s₀), some (1 / s₀), some (2 / s₀), none, none] := by
    have h : ∀ k < 4, U k 0 = some (farCol b k / s₀) := fun k hk => by
      show univariateFlag E (some 1000) (zCells E [some 0, some 0] [some s₀, some s₁] (frameFar b) k 0) = _
      rw [hz0, hflag _ (hc0 k hk)]
    have h4 : U 4 0 = none := by
      show univariateFlag E (some 1000) (zCells E [some 0, some 0] [some s₀, some s₁] (frameFar b) 4 0) = _
      rw [hz0]; exact hflagN _ hbig.1
    have h5 : U 5 0 = none := by
      show univariateFlag E (some 1000) (zCells E [some 0, some 0] [some s₀, some s₁] (frameFar b) 5 0) = _
      rw [hz0]; exact hflagN _ hbig.2
    have hr : List.range 6 = [0, 1, 2, 3, 4, 5] := rfl
    rw [hr]
    simp only [List.map_cons, List.map_nil, h 0 (by norm_num), h 1 (by norm_num), h 2 (by norm_num), h 3 (by norm_num), h4, h5, farCol]
  have hU1 : ∀ k, U k 1 = some (farCol1 k / s₁) := fun k => by
    show univariateFlag E (some 1000) (zCells E [some 0, some 0] [some s₀, some s₁] (frameFar b) k 1) = _
    rw [hz1, hflag _ (hc1 k)]
  let L : List (ℝ × ℝ) := [(-2 / s₀, 1 / s₁), (-1 / s₀, -2 / s₁), (1 / s₀, 2 / s₁), (2 / s₀, -1 / s₁)]
  have hU0' : U 0 0 = some (-2 / s₀) ∧ U 1 0 = some (-1 / s₀) ∧ U 2 0 = some (1 / s₀) ∧ U 3 0 = some (2 / s₀) ∧ U 4 0 = none ∧ U 5 0 = none := by
    have hr : List.range 6 = [0, 1, 2, 3, 4, 5] := rfl
    rw [hr] at hU0
    simpa using hU0
  obtain ⟨u0, u1, u2, u3, u4, u5⟩ := hU0'
  have hr : List.range 6 = [0, 1, 2, 3, 4, 5] := rfl
  have hcr01 : commonRows E 6 U 0 1 = cellPairs L := by
    unfold commonRows
    rw [hr]
    simp only [List.map_cons, List.map_nil, u0, u1, u2, u3, u4, u5, hU1, farCol1]
    rfl
  have hcr10 : commonRows E 6 U 1 0 = cellPairs (L.map Prod.swap) := by
    unfold commonRows
    rw [hr]
    simp only [List.map_cons, List.map_nil, u0, u1, u2, u3, u4, u5, hU1, farCol1]
    rfl
  have hLb : ∀ q ∈ L, |q.1| ≤ 2 ∧ |q.2| ≤ 2 := by
    intro q hq
    simp only [L, List.mem_cons, List.not_mem_nil, or_false] at hq
    rcases hq with rfl | rfl | rfl | rfl
    · exact ⟨hc0 0 (by norm_num), hc1 0⟩
    · exact ⟨hc0 1 (by norm_num), hc1 1⟩
    · exact ⟨hc0 2 (by norm_num), hc1 2⟩
    · exact ⟨hc0 3 (by norm_num), hc1 3⟩
  have hp : pearson L = some 0 := by
    have p0 : 0 < s₀ := by linarith
    have p1 : 0 < s₁ := by linarith
    unfold pearson
    have m0 : mean (L.map Prod.fst) = 0 := by simp [L, mean]; field_simp; norm_num
    have m1 : mean (L.map Prod.snd) = 0 := by simp [L, mean]; field_simp; norm_num
    have c00 : centredSum Prod.fst Prod.fst L = 10 / s₀ ^ 2 := by
      unfold centredSum; rw [m0]; simp [L]; field_simp; norm_num
    have c11 : centredSum Prod.snd Prod.snd L = 10 / s₁ ^ 2 := by
      unfold centredSum; rw [m1]; simp [L]; field_simp; norm_num
    have c01 : centredSum Prod.fst Prod.snd L = 0 := by
      unfold centredSum; rw [m0, m1]; simp [L]; field_simp; norm_num
    simp only [c00, c11, c01]
    rw [if_neg]
    · simp
    · push_neg
      constructor <;> positivity
  have hosm : ∀ i < (frameFar b).p, ∃ a v, cellwiseOSM ((colList (frameFar b).n (zCells E [some 0, some 0] [some s₀, some s₁] (frameFar b)) i).filter
      (E).ok) = .ok (a, some v) ∧ v ≠ 0 := by
    intro i hi
    have hi2 : i < 2 := hi
    have hall : ∀ (f : ℕ → ℝ) (s' m' : ℝ), 0 < s' → s' ≤ 9 → 1 ≤ m' → madRaw ((List.range 6).map f) = some m' →
        (∀ k, zCells E [some 0, some 0] [some s₀, some s₁] (frameFar b) k i = some (f k / s')) →
        ∃ a v, cellwiseOSM ((colList (frameFar b).n (zCells E [some 0, some 0] [some s₀, some s₁] (frameFar b)) i).filter (E).ok)
          = .ok (a, some v) ∧ v ≠ 0 := by
      intro f s' m' hs' hs9 hm' hmad hz
      have e : (colList (frameFar b).n (zCells E [some 0, some 0] [some s₀, some s₁] (frameFar b)) i).filter (E).ok =
          (((List.range 6).map f).map fun x => 1 / s' * x + 0).map some := by
        refine (List.filter_eq_self.2 ?_).trans ?_
        · intro x hx
          obtain ⟨k, -, rfl⟩ := List.mem_map.1 hx
          simp only [hz]
          rfl
        · unfold colList
          rw [List.map_map, List.map_map]
          apply List.map_congr_left
          intro k _
          simp only [hz, Function.comp_apply]
          congr 1
          ring
      rw [e]
      have hmad2 : madRaw (((List.range 6).map f).map fun x => 1 / s' * x + 0) = some (|1 / s'| * m') := by
        rw [madRaw_affine, hmad]; rfl
      obtain ⟨a, v, hv, hv0⟩ := osm_pos hmad2 (by
        have : (1 / 9:ℝ) ≤ 1 / s' := one_div_le_one_div_of_le hs' hs9
        rw [abs_of_pos (by positivity)]
        rw [le_div_iff₀ normalQuartile_pos]
        have : (1 / 9:ℝ) * 1 ≤ 1 / s' * m' := mul_le_mul this hm' (by norm_num) (by positivity)
        refine le_trans ?_ this
        unfold normalQuartile
        norm_num)
      exact ⟨a, v, hv, hv0.ne'⟩
    interval_cases i
    · exact hall (farCol b) s₀ 2 (by linarith) h0b (by norm_num) (madFar_b (by linarith)) hz0
    · refine hall farCol1 s₁ 1 (by linarith) h1b le_rfl ?_ hz1
      have e : (List.range 6).map farCol1 = [(1:ℝ), -2, 2, -1, 0, 0] := by
        simp [List.range_succ, farCol1]
      rw [e, madFar1]
  obtain ⟨st', corr, slopes, d, rs, t, hfit, T, hd, hraw, hrs⟩ := fit_unrelated (round3 := round3) (cdf := cdf) (est := cellwiseOSM) 1000 st
    (X := frameFar b) (frameFar_check (by linarith)) (frameFar_scaler h0 h1) (by
      intro i hi j hj hij
      have hi2 : i < 2 := hi
      have hj2 : j < 2 := hj
      refine ⟨0, by norm_num, ?_⟩
      interval_cases i <;> interval_cases j
      · exact absurd rfl hij
      · refine (congrArg _ hcr01).trans ?_
        rw [pairCorr_small (by simp [L]) hLb, hp]
      · refine (congrArg _ hcr10).trans ?_
        rw [pairCorr_small (by simp [L]) (by
          intro q hq
          obtain ⟨q', hq', rfl⟩ := List.mem_map.1 hq
          exact ⟨(hLb q' hq').2, (hLb q' hq').1⟩), pearson_swap, hp]
      · exact absurd rfl hij) hosm (by
      intro k _
      refine ⟨1, (by decide : 1 < 2), ?_⟩
      rw [hz1]
      simp)
  obtain ⟨_, _, -, -, hst⟩ := T.hst
  refine ⟨st', hfit, fun g hg k i hi => ?_, rs, by rw [hst], fun i hi => ?_⟩
  · rw [hst] at hg
    rw [← Option.some.inj hg]
    exact hraw k i hi
  · obtain ⟨a, v, hv, hv0⟩ := hosm i hi
    have e := hrs i hi
    rw [hv] at e
    exact ⟨v, (Except.ok.inj e).symm, hv0⟩

/-- The hypotheses of `C186_far` are met: for every bound there are two data sets with far cells beyond it; `fit` succeeds on the first,
and the second passes the checks of `fit`. -/
example (B : ℝ) : (∀ i < (frameFar 0).p, Spec.farMinority (Spec.filled (frameFar 0) farSet i) fun k => farSet k i) ∧
    ∃ X X' st, X.cell 4 0 ≠ X'.cell 4 0 ∧ Spec.pushed (frameFar 0) farSet (fun k _ => decide (k = 4)) B X ∧
      Spec.pushed (frameFar 0) farSet (fun k _ => decide (k = 4)) B X' ∧ ddcCheck E X' = .ok () ∧
      ddcFit E ⟨some 1000, some 0.5⟩ false {} X = (.ok (), st) ∧
      ∀ g, st.rawPred = some g → Spec.minorityPredicted (frameFar 0) farSet g := by
  refine ⟨fun i hi => ?_, ?_⟩
  · have hi2 : i < 2 := hi
    interval_cases i <;> simp [Spec.farMinority, Spec.filled, frameFar, farSet, List.range_succ, List.countP_cons, List.countP_append]
  · obtain ⟨st, hfit, hg, -⟩ := frameFar_fit (round3 := round3) (cdf := cdf) {} (b := max B 10000 + 1) (by linarith [le_max_right B 10000])
    refine ⟨frameFar (max B 10000 + 1), frameFar (max B 10000 + 2), st, ?_, frameFar_pushed (by linarith [le_max_left B 10000]),
      frameFar_pushed (by linarith [le_max_left B 10000]), frameFar_check (by linarith [le_max_right B 10000]), hfit, fun g h i hi => Or.inr ?_⟩
    · simp [frameFar, farCol]
    · rw [List.filter_eq_nil_iff]
      intro k _
      simp [hg g h k i hi]

/-- C186 on these data: the two far cells are flagged, wherever they are beyond some bound. -/
theorem frameFar_flagged : ∃ B, ∀ b, B < b → ∃ st fl, ddcFit E ⟨some 1000, some 0.5⟩ false {} (frameFar b) = (.ok (), st) ∧
    st.cellwise = some fl ∧ fl.2 4 0 = true ∧ fl.2 5 0 = true := by
  obtain ⟨B, hB⟩ := C186_far (round3 := round3) (cdf := cdf) (X₀ := frameFar 0) (S := farSet) (up := fun k _ => decide (k = 4))
    (some 1000) (some 0.5) rfl false (by
      intro i hi
      have hi2 : i < 2 := hi
      interval_cases i <;> simp [Spec.farMinority, Spec.filled, frameFar, farSet, List.range_succ, List.countP_cons, List.countP_append])
  refine ⟨max B 10000, fun b hb => ?_⟩
  have h1 := lt_of_le_of_lt (le_max_left _ _) hb
  have h2 := lt_of_le_of_lt (le_max_right _ _) hb
  obtain ⟨st, hfit, hg, rs, hrs, hrs0⟩ := frameFar_fit (round3 := round3) (cdf := cdf) {} (b := b) h2.le
  obtain ⟨st', hfit', hsame, hflag⟩ := hB (frameFar b) (frameFar b) (frameFar_pushed h1) (frameFar_pushed h1) (frameFar_check (by linarith))
    {} {} st hfit (by
      intro g h i hi
      refine Or.inr ?_
      rw [List.filter_eq_nil_iff]
      intro k _
      simp [hg g h k i hi])
  obtain ⟨fl, -, hfl, -, -⟩ := hsame.cellwise
  obtain ⟨r, hr, hr0⟩ := hrs0 0 (by norm_num)
  have key := hflag fl rs hfl (hsame.resScales.trans hrs) 0 (by decide : 0 < 2) r hr hr0
  exact ⟨st', fl, hfit', hfl, key 4 (by decide : 4 < 6) rfl, key 5 (by decide : 5 < 6) rfl⟩

end

end Robpy
