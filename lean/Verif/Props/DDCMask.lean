import Verif.Props.DDCFarRun
import Verif.Props.DDCSlopes

/-! C187: far cells that are a minority of their column, but not of the cells with a prediction, are not flagged. -/

namespace Robpy

/-- A least-squares slope through pairs on a line, apart from pairs with `x = 0`. -/
theorem leastSquares_line {l : List (ℝ × ℝ)} {β b : ℝ} (h : Spec.LeastSquaresSlope l b) (hl : ∀ q ∈ l, q.1 ≠ 0 → q.2 = β * q.1)
    (hne : ∃ q ∈ l, q.1 ≠ 0) : b = β := by
  have hle := h.1 β
  have expand : ∀ l : List (ℝ × ℝ), (∀ q ∈ l, q.1 ≠ 0 → q.2 = β * q.1) →
      Spec.ssrOrigin b l = Spec.ssrOrigin β l + (l.map fun q => ((β - b) * q.1) ^ 2).sum := by
    intro l hl
    unfold Spec.ssrOrigin
    induction l with
    | nil => simp
    | cons q l ih =>
      simp only [List.map_cons, List.sum_cons]
      rw [ih fun q hq => hl q (List.mem_cons_of_mem _ hq)]
      by_cases h0 : q.1 = 0
      · rw [h0]; ring
      · rw [hl q List.mem_cons_self h0]; ring
  rw [expand l hl] at hle
  obtain ⟨q, hq, hq0⟩ := hne
  have hpos : ((β - b) * q.1) ^ 2 ≤ (l.map fun q => ((β - b) * q.1) ^ 2).sum :=
    List.single_le_sum (by
      intro x hx
      obtain ⟨q, -, rfl⟩ := List.mem_map.1 hx
      positivity) _ (List.mem_map.2 ⟨q, hq, rfl⟩)
  have h0 : (β - b) * q.1 = 0 := by
    have : ((β - b) * q.1) ^ 2 ≤ 0 := by linarith
    exact pow_eq_zero_iff (two_ne_zero) |>.1 (le_antisymm this (sq_nonneg _))
  rcases mul_eq_zero.1 h0 with h | h
  · linarith
  · exact absurd h hq0

/-- `_robust_slope` when the pairs near the first slope are on a line. -/
theorem robustSlope_line {round3 cdf : ℝ → ℝ} {est : List (Option ℝ) → Except PyErr (Option ℝ × Option ℝ)} {cut m s : ℝ} {a : Option ℝ}
    {l : List (ℝ × ℝ)} (hm : npMedian ((l.filter fun q => q.1 ≠ 0).map fun q => q.2 / q.1) = some m)
    (hs : cellwiseOSM ((l.map fun q => q.2 - m * q.1).map some) = .ok (a, some s))
    (hl : ∀ q ∈ l, q.1 ≠ 0 → |q.2 - m * q.1| ≤ cut * s → q.2 = m * q.1)
    (hne : ∃ q ∈ l, q.1 ≠ 0 ∧ |q.2 - m * q.1| ≤ cut * s) :
    robustSlope (realEnv round3 cdf est) (some cut) (l.map somePair) = .ok (some m) := by
  obtain ⟨b, hb, -, hT⟩ := robustSlope_spec (round3 := round3) (cdf := cdf) (est := est) cut l
  obtain ⟨q, hq, hq0, hqs⟩ := hne
  obtain ⟨m', kept, hm', hsub, hk, -, hls⟩ := hT ⟨q, hq, hq0⟩
  obtain rfl : m = m' := Option.some.inj (hm.symm.trans hm')
  have hsc : osmScale (l.map fun q => q.2 - m * q.1) = some s := by
    unfold osmScale; rw [hs]
  have : b = m := by
    refine leastSquares_line hls (fun q' hq' h0 => ?_) ⟨q, (hk q hq).2 ⟨s, hsc, hqs⟩, hq0⟩
    obtain ⟨s', hs', hle⟩ := (hk q' (hsub.subset hq')).1 hq'
    obtain rfl : s = s' := Option.some.inj (hsc.symm.trans hs')
    exact hl q' (hsub.subset hq') h0 hle
  rw [hb, this]

/-- The robust correlation of a pair when no row is outlying. -/
theorem pairCorr_cells {round3 cdf : ℝ → ℝ} {est : List (Option ℝ) → Except PyErr (Option ℝ × Option ℝ)} {l : List (ℝ × ℝ)} {cut s1 s2 : ℝ}
    {a1 a2 : Option ℝ} (hl : l ≠ []) (h1 : cellwiseOSM ((l.map fun q => q.1 + q.2).map some) = .ok (a1, some s1))
    (h2 : cellwiseOSM ((l.map fun q => q.1 - q.2).map some) = .ok (a2, some s2))
    (h : ∀ q ∈ l, ∀ c : ℝ, c = min (max ((s1 * s1 - s2 * s2) / 4) (-0.99)) 0.99 →
      Real.sqrt ((q.1 ^ 2 + q.2 ^ 2 - 2 * c * (q.1 * q.2)) / (1 - c ^ 2)) < cut) :
    pairCorr (realEnv round3 cdf est) (some cut) (cellPairs l) = .ok (pearson l) := by
  have hne : (cellPairs l).isEmpty = false := by cases l <;> simp_all [cellPairs]
  have e1 : ((cellPairs l).map fun q => (realEnv round3 cdf est).add q.1 q.2) = (l.map fun q => q.1 + q.2).map some := by
    unfold cellPairs; rw [List.map_map, List.map_map]; rfl
  have e2 : ((cellPairs l).map fun q => (realEnv round3 cdf est).sub q.1 q.2) = (l.map fun q => q.1 - q.2).map some := by
    unfold cellPairs; rw [List.map_map, List.map_map]; rfl
  unfold pairCorr
  rw [hne, e1, e2]
  have h1' : (realEnv round3 cdf est).osm ((l.map fun q => q.1 + q.2).map some) = .ok (a1, some s1) := h1
  have h2' : (realEnv round3 cdf est).osm ((l.map fun q => q.1 - q.2).map some) = .ok (a2, some s2) := h2
  rw [h1', h2']
  simp only [Bool.false_eq_true, if_false]
  show Except.ok _ = _
  congr 1
  have hc : (realEnv round3 cdf est).clip ((realEnv round3 cdf est).div ((realEnv round3 cdf est).sub
      ((realEnv round3 cdf est).mul (some s1) (some s1)) ((realEnv round3 cdf est).mul (some s2) (some s2)))
      (realEnv round3 cdf est).four) = some (min (max ((s1 * s1 - s2 * s2) / 4) (-0.99)) 0.99) := by
    show Option.map _ (if some (4:ℝ) = some 0 then none else _) = _
    rw [if_neg (by norm_num)]
    rfl
  show (realEnv round3 cdf est).corrcoef ((cellPairs l).filter fun q => (realEnv round3 cdf est).lt
    ((realEnv round3 cdf est).mahal ((realEnv round3 cdf est).clip ((realEnv round3 cdf est).div
      ((realEnv round3 cdf est).sub ((realEnv round3 cdf est).mul (some s1) (some s1))
        ((realEnv round3 cdf est).mul (some s2) (some s2))) (realEnv round3 cdf est).four)) q) (some cut)) = _
  rw [hc]
  have hf : (cellPairs l).filter (fun q => (realEnv round3 cdf est).lt ((realEnv round3 cdf est).mahal
      (some (min (max ((s1 * s1 - s2 * s2) / 4) (-0.99)) 0.99)) q) (some cut)) = cellPairs l := by
    rw [List.filter_eq_self]
    intro q hq
    obtain ⟨⟨x, y⟩, hxy, rfl⟩ := List.mem_map.1 hq
    show liftRel (· < ·) (some _) (some cut) = true
    unfold liftRel
    simp only [decide_eq_true_eq]
    exact h _ hxy _ rfl
  rw [hf]
  show pearson (somePairs (cellPairs l)) = _
  rw [somePairs_cellPairs]

/-- The scale of two opposite numbers. -/
theorem osm_two {x : ℝ} (hx : 1 / 10 ≤ |x|) : ∃ a v, cellwiseOSM ([-x, x].map some) = .ok (a, some v) ∧ 0 < v ∧ v ^ 2 = x ^ 2 / 0.845 := by
  have hq := normalQuartile_pos (K := ℝ)
  have hx0 : 0 < |x| := by linarith
  have e : [-x, x] = [(-1:ℝ), 1].map fun y => x * y + 0 := by simp
  have hm1 : npMedian [(-1:ℝ), 1] = some 0 :=
    npMedian_eq_some_iff.2 ⟨-1, 1, by norm_num [Spec.IsKthSmallest, List.countP_cons],
      by norm_num [Spec.IsKthSmallest, List.countP_cons], by norm_num⟩
  have hmad1 : madRaw [(-1:ℝ), 1] = some 1 := by
    unfold madRaw
    rw [hm1]
    simp only [List.map_cons, List.map_nil]
    norm_num
    exact npMedian_eq_some_iff.2 ⟨1, 1, by norm_num [Spec.IsKthSmallest, List.countP_cons],
      by norm_num [Spec.IsKthSmallest, List.countP_cons], by norm_num⟩
  have hm : npMedian [-x, x] = some 0 := by rw [e, npMedian_affine, hm1]; simp
  have hmad : madRaw [-x, x] = some |x| := by rw [e, madRaw_affine, hmad1]; simp
  have hbig : ¬ |x| / normalQuartile < 1 / 10 ^ 12 := by
    rw [not_lt, le_div_iff₀ hq]
    refine le_trans ?_ hx
    unfold normalQuartile
    norm_num
  have hmean : mean ([-x, x].map fun y => (Rho.huber (2.5:ℝ)).psi ((y - 0) / (|x| / normalQuartile)) ^ 2) = normalQuartile ^ 2 := by
    rcases lt_or_gt_of_ne (abs_pos.1 hx0) with hneg | hpos
    · have h1 : (x - 0) / (|x| / normalQuartile) = -normalQuartile := by have := hneg.ne; rw [abs_of_neg hneg]; field_simp; try ring
      have h2 : (-x - 0) / (|x| / normalQuartile) = normalQuartile := by have := hneg.ne; rw [abs_of_neg hneg]; field_simp; try ring
      simp only [List.map_cons, List.map_nil, h1, h2]
      norm_num [mean, Rho.psi, huberPsi, npSign, normalQuartile]
    · have h1 : (x - 0) / (|x| / normalQuartile) = normalQuartile := by rw [abs_of_pos hpos]; field_simp; ring
      have h2 : (-x - 0) / (|x| / normalQuartile) = -normalQuartile := by rw [abs_of_pos hpos]; field_simp; ring
      simp only [List.map_cons, List.map_nil, h1, h2]
      norm_num [mean, Rho.psi, huberPsi, npSign, normalQuartile]
  refine ⟨oneStepLocation (.tukey 3) (1 / 10 ^ 12) [-x, x], |x| / normalQuartile * Real.sqrt (1 / 0.845 * normalQuartile ^ 2), ?_, ?_, ?_⟩
  · unfold cellwiseOSM oneStepM
    rw [if_neg (by simp)]
    have e2 : ([-x, x].map some).filterMap id = [-x, x] := by simp
    simp only [e2]
    have hsc : oneStepScale (.huber (2.5:ℝ)) 0.845 (1 / 10 ^ 12) [-x, x] =
        some (|x| / normalQuartile * Real.sqrt (1 / 0.845 * normalQuartile ^ 2)) := by
      unfold oneStepScale
      simp only [hm, hmad]
      rw [if_neg hbig, hmean]
    rw [hsc]
  · positivity
  · rw [mul_pow, Real.sq_sqrt (by positivity), div_pow, sq_abs]
    field_simp

/-- Column 0 of the data set: clean cells -1 and 1, and the far cells `2b`, `-2b`, `b`, `-b`. -/
def maskCol (b : ℝ) : ℕ → ℝ
  | 0 => -1 | 1 => 1 | 2 => 2 * b | 3 => -(2 * b) | 4 => b | 5 => -b | 6 => 1 | 7 => -1 | 8 => 1 | 9 => -1 | _ => 0

/-- Column 1 of the data set, missing from row 6 on. -/
def maskCol1 : ℕ → ℝ
  | 0 => -1 | 1 => 1 | 2 => 2 | 3 => -2 | 4 => 1 | 5 => -1 | _ => 0

/-- Ten rows, two columns. -/
def frameMask (b : ℝ) : CellFrame (Option ℝ) where
  n := 10
  p := 2
  numeric := true
  cell k i := if i = 0 then some (maskCol b k) else if k < 6 then some (maskCol1 k) else none

/-- The far cells: rows 2 to 5 of column 0. -/
def maskSet (k i : ℕ) : Bool := decide (i = 0) && (decide (2 ≤ k) && decide (k < 6))

theorem frameMask_pushed {B b : ℝ} (h : B < b) (hb : 0 < b) :
    Spec.pushed (frameMask 0) maskSet (fun k _ => decide (k % 2 = 0)) B (frameMask b) := by
  refine ⟨rfl, rfl, fun k i hS => ?_, fun k i hS => ?_⟩
  · by_cases hi : i = 0
    · subst hi
      simp only [maskSet, decide_true, Bool.true_and, Bool.and_eq_false_iff, decide_eq_false_iff_not] at hS
      have : maskCol b k = maskCol 0 k := by
        rcases k with _ | _ | _ | _ | _ | _ | _ | _ | _ | _ | k <;> first | rfl | (exfalso; omega)
      simp [frameMask, this]
    · simp [frameMask, hi]
  · simp only [maskSet, Bool.and_eq_true, decide_eq_true_eq] at hS
    obtain ⟨rfl, h1, h2⟩ := hS
    interval_cases k
    · exact ⟨2 * b, rfl, Or.inl ⟨by simp, by linarith⟩⟩
    · exact ⟨-(2 * b), rfl, Or.inr ⟨by simp, by linarith⟩⟩
    · exact ⟨b, rfl, Or.inl ⟨by simp, h⟩⟩
    · exact ⟨-b, rfl, Or.inr ⟨by simp, by linarith⟩⟩

theorem frameMask_minority : ∀ i < (frameMask 0).p, Spec.farMinority (Spec.filled (frameMask 0) maskSet i) fun k => maskSet k i := by
  intro i hi
  have hi2 : i < 2 := hi
  interval_cases i <;> simp [Spec.farMinority, Spec.filled, frameMask, maskSet, List.range_succ, List.countP_cons, List.countP_append]

/-- A frame with four different values in each column passes the checks of `fit`. -/
theorem check_of_four {round3 cdf est} {X : CellFrame (Option ℝ)} (hn : X.numeric = true)
    (h : ∀ i < X.p, ∃ l : List ℝ, l.Nodup ∧ l.length = 4 ∧ ∀ x ∈ l, ∃ k < X.n, X.cell k i = some x) :
    ddcCheck (realEnv round3 cdf est) X = .ok () := by
  unfold ddcCheck
  rw [if_neg (by simp [hn]), if_neg]
  rw [List.any_eq_true]
  rintro ⟨i, hi, hd⟩
  obtain ⟨l, h1, h2, h3⟩ := h i (List.mem_range.1 hi)
  have h4 : 4 ≤ distinctCells (realEnv round3 cdf est) X i := by
    unfold distinctCells
    have hnd : (l.map some).Nodup := h1.map (Option.some_injective _)
    have hlen : (l.map (some : ℝ → Option ℝ)).length = 4 := by rw [List.length_map, h2]
    rw [← hlen]
    refine (List.Nodup.subperm hnd ?_).length_le
    intro x hx
    obtain ⟨y, hy, rfl⟩ := List.mem_map.1 hx
    obtain ⟨k, hk, e⟩ := h3 y hy
    rw [List.mem_dedup, List.mem_filter]
    exact ⟨List.mem_map.2 ⟨k, List.mem_range.2 hk, e⟩, rfl⟩
  have := of_decide_eq_true hd
  omega

theorem frameMask_check {round3 cdf est} {b : ℝ} (hb : 2 < b) : ddcCheck (realEnv round3 cdf est) (frameMask b) = .ok () := by
  refine check_of_four rfl fun i hi => ?_
  have hi2 : i < 2 := hi
  interval_cases i
  · refine ⟨[-1, 1, b, -b], ?_, rfl, ?_⟩
    · simp only [List.nodup_cons, List.mem_cons, List.not_mem_nil, or_false, not_or, not_false_eq_true, List.nodup_nil, and_true]
      refine ⟨⟨?_, ?_, ?_⟩, ⟨?_, ?_⟩, ?_⟩ <;> intro h <;> linarith
    · intro x hx
      simp only [List.mem_cons, List.not_mem_nil, or_false] at hx
      rcases hx with rfl | rfl | rfl | rfl
      · exact ⟨0, by simp [frameMask], rfl⟩
      · exact ⟨1, by simp [frameMask], rfl⟩
      · exact ⟨4, by simp [frameMask], rfl⟩
      · exact ⟨5, by simp [frameMask], rfl⟩
  · refine ⟨[-1, 1, 2, -2], by norm_num, rfl, ?_⟩
    intro x hx
    simp only [List.mem_cons, List.not_mem_nil, or_false] at hx
    rcases hx with rfl | rfl | rfl | rfl
    · exact ⟨0, by simp [frameMask], rfl⟩
    · exact ⟨1, by simp [frameMask], rfl⟩
    · exact ⟨2, by simp [frameMask], rfl⟩
    · exact ⟨3, by simp [frameMask], rfl⟩

theorem medMask : npMedian [(-1:ℝ), 1, 200, -200, 100, -100, 1, -1, 1, -1] = some 0 :=
  npMedian_eq_some_iff.2 ⟨-1, 1, by norm_num [Spec.IsKthSmallest, List.countP_cons],
    by norm_num [Spec.IsKthSmallest, List.countP_cons], by norm_num⟩

theorem madMask : madRaw [(-1:ℝ), 1, 200, -200, 100, -100, 1, -1, 1, -1] = some 1 := by
  unfold madRaw
  rw [medMask]
  simp only [List.map_cons, List.map_nil]
  norm_num
  exact npMedian_eq_some_iff.2 ⟨1, 1, by norm_num [Spec.IsKthSmallest, List.countP_cons],
    by norm_num [Spec.IsKthSmallest, List.countP_cons], by norm_num⟩

/-- Location and scale of the first column. -/
theorem osmMask {b : ℝ} (hb : 100 ≤ b) :
    ∃ s, cellwiseOSM ((List.range 10).map fun k => some (maskCol b k)) = .ok (some 0, some s) ∧ 2.6 ≤ s ∧ s ≤ 2.75 := by
  have h : Spec.farCells (List.range 10) (fun k => maskSet k 0) 1 60 (fun k => some (maskCol 100 k)) fun k => some (maskCol b k) := by
    intro k hk
    have hk6 : k < 10 := List.mem_range.1 hk
    interval_cases k <;> simp [maskSet, maskCol] <;> norm_num <;> linarith
  rw [osm_far h (by simp [Spec.farMinority, maskSet, List.range_succ, List.countP_cons, List.countP_append]) (by norm_num) (by norm_num)]
  have e : (List.range 10).map (fun k => some (maskCol 100 k)) = [(-1:ℝ), 1, 200, -200, 100, -100, 1, -1, 1, -1].map some := by
    simp [List.range_succ, maskCol]
    norm_num
  rw [e]
  unfold cellwiseOSM oneStepM
  rw [if_neg (by simp)]
  have e2 : ([(-1:ℝ), 1, 200, -200, 100, -100, 1, -1, 1, -1].map some).filterMap id = [-1, 1, 200, -200, 100, -100, 1, -1, 1, -1] := by simp
  simp only [e2]
  have hloc : oneStepLocation (.tukey (3:ℝ)) (1 / 10 ^ 12) [-1, 1, 200, -200, 100, -100, 1, -1, 1, -1] = some 0 := by
    unfold oneStepLocation
    simp only [medMask, madMask]
    unfold weightedMean
    rw [if_neg]
    · congr 1
      rw [div_eq_zero_iff]
      left
      norm_num [safeMad, normalQuartile, oneStepWeight, Rho.psi, tukeyPsi, abs_div]
    · norm_num [safeMad, normalQuartile, oneStepWeight, Rho.psi, tukeyPsi, abs_div]
  have hq : (1.48:ℝ) ≤ 1 / normalQuartile ∧ 1 / normalQuartile ≤ (1.49:ℝ) := by unfold normalQuartile; constructor <;> norm_num
  have hsc : ∃ s, oneStepScale (.huber (2.5:ℝ)) 0.845 (1 / 10 ^ 12) [-1, 1, 200, -200, 100, -100, 1, -1, 1, -1] = some s ∧ 2.6 ≤ s ∧ s ≤ 2.75 := by
    unfold oneStepScale
    simp only [medMask, madMask]
    rw [if_neg (by unfold normalQuartile; norm_num)]
    refine ⟨_, rfl, ?_⟩
    have h1 : (1.8:ℝ) ≤ Real.sqrt (1 / 0.845 * mean ([(-1:ℝ), 1, 200, -200, 100, -100, 1, -1, 1, -1].map fun x =>
        (Rho.huber 2.5).psi ((x - 0) / (1 / normalQuartile)) ^ 2)) := by
      apply Real.le_sqrt_of_sq_le
      norm_num [mean, Rho.psi, huberPsi, npSign, normalQuartile, abs_div]
    have h2 : Real.sqrt (1 / 0.845 * mean ([(-1:ℝ), 1, 200, -200, 100, -100, 1, -1, 1, -1].map fun x =>
        (Rho.huber 2.5).psi ((x - 0) / (1 / normalQuartile)) ^ 2)) ≤ 1.83 := by
      rw [Real.sqrt_le_left (by norm_num)]
      norm_num [mean, Rho.psi, huberPsi, npSign, normalQuartile, abs_div]
    constructor
    · nlinarith [hq.1, h1]
    · nlinarith [hq.2, h2]
  obtain ⟨s, hs, hs1, hs2⟩ := hsc
  exact ⟨s, by rw [hloc, hs], hs1, hs2⟩

theorem medMask1 : npMedian [(-1:ℝ), 1, 2, -2, 1, -1] = some 0 :=
  npMedian_eq_some_iff.2 ⟨-1, 1, by norm_num [Spec.IsKthSmallest, List.countP_cons],
    by norm_num [Spec.IsKthSmallest, List.countP_cons], by norm_num⟩

theorem madMask1 : madRaw [(-1:ℝ), 1, 2, -2, 1, -1] = some 1 := by
  unfold madRaw
  rw [medMask1]
  simp only [List.map_cons, List.map_nil]
  norm_num
  exact npMedian_eq_some_iff.2 ⟨1, 1, by norm_num [Spec.IsKthSmallest, List.countP_cons],
    by norm_num [Spec.IsKthSmallest, List.countP_cons], by norm_num⟩

/-- Location and scale of the second column. -/
theorem osmMask1 : ∃ s, cellwiseOSM ((List.range 6).map fun k => some (maskCol1 k)) = .ok (some 0, some s) ∧ 1.5 ≤ s ∧ s ≤ 1.6 := by
  have e : (List.range 6).map (fun k => some (maskCol1 k)) = [(-1:ℝ), 1, 2, -2, 1, -1].map some := by
    simp [List.range_succ, maskCol1]
  rw [e]
  unfold cellwiseOSM oneStepM
  rw [if_neg (by simp)]
  have e2 : ([(-1:ℝ), 1, 2, -2, 1, -1].map some).filterMap id = [-1, 1, 2, -2, 1, -1] := by simp
  simp only [e2]
  have hloc : oneStepLocation (.tukey (3:ℝ)) (1 / 10 ^ 12) [-1, 1, 2, -2, 1, -1] = some 0 := by
    unfold oneStepLocation
    simp only [medMask1, madMask1]
    unfold weightedMean
    rw [if_neg]
    · congr 1
      rw [div_eq_zero_iff]
      left
      norm_num [safeMad, normalQuartile, oneStepWeight, Rho.psi, tukeyPsi, abs_div]
    · norm_num [safeMad, normalQuartile, oneStepWeight, Rho.psi, tukeyPsi, abs_div]
  have hq : (1.48:ℝ) ≤ 1 / normalQuartile ∧ 1 / normalQuartile ≤ (1.49:ℝ) := by unfold normalQuartile; constructor <;> norm_num
  have hsc : ∃ s, oneStepScale (.huber (2.5:ℝ)) 0.845 (1 / 10 ^ 12) [-1, 1, 2, -2, 1, -1] = some s ∧ 1.5 ≤ s ∧ s ≤ 1.6 := by
    unfold oneStepScale
    simp only [medMask1, madMask1]
    rw [if_neg (by unfold normalQuartile; norm_num)]
    refine ⟨_, rfl, ?_⟩
    have h1 : (1.03:ℝ) ≤ Real.sqrt (1 / 0.845 * mean ([(-1:ℝ), 1, 2, -2, 1, -1].map fun x =>
        (Rho.huber 2.5).psi ((x - 0) / (1 / normalQuartile)) ^ 2)) := by
      apply Real.le_sqrt_of_sq_le
      norm_num [mean, Rho.psi, huberPsi, npSign, normalQuartile, abs_div]
    have h2 : Real.sqrt (1 / 0.845 * mean ([(-1:ℝ), 1, 2, -2, 1, -1].map fun x =>
        (Rho.huber 2.5).psi ((x - 0) / (1 / normalQuartile)) ^ 2)) ≤ 1.04 := by
      rw [Real.sqrt_le_left (by norm_num)]
      norm_num [mean, Rho.psi, huberPsi, npSign, normalQuartile, abs_div]
    constructor
    · nlinarith [hq.1, h1]
    · nlinarith [hq.2, h2]
  obtain ⟨s, hs, hs1, hs2⟩ := hsc
  exact ⟨s, by rw [hloc, hs], hs1, hs2⟩

section
variable {round3 cdf : ℝ → ℝ}

local notation "E" => realEnv round3 cdf cellwiseOSM

theorem frameMask_scaler {b s₀ s₁ : ℝ} (h0 : cellwiseOSM ((List.range 10).map fun k => some (maskCol b k)) = .ok (some 0, some s₀))
    (h1 : cellwiseOSM ((List.range 6).map fun k => some (maskCol1 k)) = .ok (some 0, some s₁)) :
    fitScaler E (replaceInf E (frameMask b)) (List.range 2) [] [] = (.ok (), [some 0, some 0], [some s₀, some s₁]) := by
  rw [replaceInf_real]
  have e0 : (colList 10 (frameMask b).cell 0).filter (E).ok = (List.range 10).map fun k => some (maskCol b k) := by
    refine (List.filter_eq_self.2 ?_).trans rfl
    intro x hx
    obtain ⟨k, -, rfl⟩ := List.mem_map.1 hx
    rfl
  have e1 : (colList 10 (frameMask b).cell 1).filter (E).ok = (List.range 6).map fun k => some (maskCol1 k) := by
    have hr : List.range 10 = [0, 1, 2, 3, 4, 5, 6, 7, 8, 9] := rfl
    have hr6 : List.range 6 = [0, 1, 2, 3, 4, 5] := rfl
    unfold colList
    rw [hr, hr6]
    simp [frameMask, DDCEnv.ok, realEnv]
  have f0 : (E).est ((colList (frameMask b).n (frameMask b).cell 0).filter (E).ok) = .ok (some 0, some s₀) := by
    rw [show (frameMask b).n = 10 from rfl, e0]; exact h0
  have f1 : (E).est ((colList (frameMask b).n (frameMask b).cell 1).filter (E).ok) = .ok (some 0, some s₁) := by
    rw [show (frameMask b).n = 10 from rfl, e1]; exact h1
  have hr : List.range 2 = [0, 1] := rfl
  rw [hr]
  unfold fitScaler
  rw [f0]
  simp only
  unfold fitScaler
  rw [f1]
  rfl

/-- The correlation of the two clean rows. -/
theorem mask_corr {cut x y : ℝ} (hcut : 2 ≤ cut) (hx1 : 1 / 2.75 ≤ x) (hx2 : x ≤ 1 / 2.6) (hy1 : 1 / 1.6 ≤ y) (hy2 : y ≤ 1 / 1.5) :
    pairCorr E (some cut) (cellPairs [(-x, -y), (x, y)]) = .ok (some 1) := by
  have hx0 : (0.36:ℝ) ≤ x := le_trans (by norm_num) hx1
  have hx0' : x ≤ (0.39:ℝ) := hx2.trans (by norm_num)
  have hy0 : (0.62:ℝ) ≤ y := le_trans (by norm_num) hy1
  have hy0' : y ≤ (0.67:ℝ) := hy2.trans (by norm_num)
  obtain ⟨a1, v1, h1, h1p, h1e⟩ := osm_two (x := x + y) (by rw [abs_of_pos (by linarith)]; linarith)
  obtain ⟨a2, v2, h2, h2p, h2e⟩ := osm_two (x := x - y) (by rw [abs_of_neg (by linarith)]; linarith)
  have e1 : ([(-x, -y), (x, y)] : List (ℝ × ℝ)).map (fun q => q.1 + q.2) = [-(x + y), x + y] := by
    simp; ring
  have e2 : ([(-x, -y), (x, y)] : List (ℝ × ℝ)).map (fun q => q.1 - q.2) = [-(x - y), x - y] := by
    simp; ring
  have hxx : 0 < x := by linarith
  have hyy : 0 < y := by linarith
  rw [pairCorr_cells (by simp) (by rw [e1]; exact h1) (by rw [e2]; exact h2)]
  · congr 1
    unfold pearson centredSum mean
    norm_num
    refine ⟨⟨hxx.ne', hyy.ne'⟩, ?_⟩
    rw [← Real.sqrt_mul (by positivity), show (x * x + x * x) * (y * y + y * y) = (x * y + x * y) ^ 2 by ring,
      Real.sqrt_sq (by positivity), div_self (by positivity)]
  · intro q hq c hc
    have hval : (v1 * v1 - v2 * v2) / 4 = x * y / 0.845 := by
      have : v1 * v1 - v2 * v2 = (x + y) ^ 2 / 0.845 - (x - y) ^ 2 / 0.845 := by rw [← h1e, ← h2e]; ring
      rw [this]; ring
    have hxy1 : x * y ≤ 0.27 := by nlinarith
    have hxy0 : 0.2 ≤ x * y := by nlinarith
    rw [hval, max_eq_left (by rw [le_div_iff₀ (by norm_num)]; nlinarith), min_eq_left (by rw [div_le_iff₀ (by norm_num)]; nlinarith)] at hc
    have hc0 : 0 ≤ c := by rw [hc]; apply div_nonneg <;> nlinarith
    have hc1 : c ≤ 0.33 := by rw [hc, div_le_iff₀ (by norm_num)]; nlinarith
    refine lt_of_lt_of_le ?_ hcut
    rw [Real.sqrt_lt' (by norm_num), div_lt_iff₀ (by nlinarith)]
    simp only [List.mem_cons, List.not_mem_nil, or_false] at hq
    rcases hq with rfl | rfl <;> simp only <;> nlinarith

theorem mask_median {b : ℝ} (hb : 100 ≤ b) : npMedian [b - 1, 1 - b, 0, 0, 0, 0, 1, -1, 1, -1] = some 0 := by
  have h1 : (1:ℝ) < b := by linarith
  have h2 : ¬ b < 1 := by linarith
  have h3 : ¬ b ≤ 1 := by linarith
  exact npMedian_eq_some_iff.2 ⟨0, 0, by norm_num [Spec.IsKthSmallest, List.countP_cons, h1, h2, h3, h1.le],
    by norm_num [Spec.IsKthSmallest, List.countP_cons, h1, h2, h3, h1.le], by norm_num⟩

theorem mask_mad {b : ℝ} (hb : 100 ≤ b) : madRaw [b - 1, 1 - b, 0, 0, 0, 0, 1, -1, 1, -1] = some 1 := by
  have h1 : ¬ b - 1 < 1 := by linarith
  have h2 : ¬ b - 1 ≤ 1 := by linarith
  unfold madRaw
  rw [mask_median hb]
  simp only [List.map_cons, List.map_nil, sub_zero]
  rw [abs_of_nonneg (by linarith : 0 ≤ b - 1), abs_of_nonpos (by linarith : 1 - b ≤ 0), neg_sub]
  norm_num
  exact npMedian_eq_some_iff.2 ⟨1, 1, by norm_num [Spec.IsKthSmallest, List.countP_cons, -tsub_le_iff_right, -sub_lt_iff_lt_add, h1, h2],
    by norm_num [Spec.IsKthSmallest, List.countP_cons, -tsub_le_iff_right, h1, h2], by norm_num⟩

theorem mask_ratio {b : ℝ} (hb : 100 ≤ b) : npMedian [1, 1, b, b, b, b] = some b := by
  have h1 : (1:ℝ) < b := by linarith
  exact npMedian_eq_some_iff.2 ⟨b, b, by norm_num [Spec.IsKthSmallest, List.countP_cons, h1, h1.le],
    by norm_num [Spec.IsKthSmallest, List.countP_cons, h1, h1.le], by norm_num⟩

/-- The fit: the four far cells are not flagged, the two clean cells with a predictor are. -/
theorem frameMask_fit (st : DDCState (Option ℝ)) {cut b : ℝ} (hc2 : 2 ≤ cut) (hc9 : cut ≤ 9) (hb : 100 ≤ b) :
    ∃ st' fl rs r, ddcFit E ⟨some cut, some 0.5⟩ false st (frameMask b) = (.ok (), st') ∧ st'.cellwise = some fl ∧
      st'.resScales = some rs ∧ rs 0 = some r ∧ r ≠ 0 ∧ fl.2 0 0 = true ∧ fl.2 1 0 = true ∧
      ∀ k, 2 ≤ k → k < 6 → fl.2 k 0 = false := by
  obtain ⟨s₀, h0, h0a, h0b⟩ := osmMask hb
  obtain ⟨s₁, h1, h1a, h1b⟩ := osmMask1
  have p0 : 0 < s₀ := by linarith
  have p1 : 0 < s₁ := by linarith
  have hz0 : ∀ k, zCells E [some 0, some 0] [some s₀, some s₁] (frameMask b) k 0 = some (maskCol b k / s₀) := by
    intro k
    rw [zCells_zOf]
    simp only [zOf, divNaN, frameMask, liftNaN, List.getD_cons_zero, Option.some.injEq, if_true, sub_zero]
    rw [if_neg (by linarith)]
  have hz1 : ∀ k, zCells E [some 0, some 0] [some s₀, some s₁] (frameMask b) k 1 = if k < 6 then some (maskCol1 k / s₁) else none := by
    intro k
    rw [zCells_zOf]
    by_cases hk : k < 6
    · simp only [zOf, divNaN, frameMask, liftNaN, List.getD_cons_succ, List.getD_cons_zero, Option.some.injEq, one_ne_zero, if_false, sub_zero,
        if_pos hk]
      rw [if_neg (by linarith)]
    · simp only [zOf, divNaN, frameMask, liftNaN, List.getD_cons_succ, List.getD_cons_zero, Option.some.injEq, one_ne_zero, if_false, if_neg hk]
      rw [if_neg (by linarith)]
  have hflag : ∀ x : ℝ, |x| ≤ cut → univariateFlag E (some cut) (some x) = some x := by
    intro x hx
    unfold univariateFlag
    rw [if_neg]
    show ¬ liftRel (· < ·) (some cut) (some |x|) = true
    unfold liftRel
    simp only [decide_eq_true_eq, not_lt]
    exact hx
  have hflagN : ∀ x : ℝ, cut < |x| → univariateFlag E (some cut) (some x) = none := by
    intro x hx
    unfold univariateFlag
    rw [if_pos]
    · rfl
    · show liftRel (· < ·) (some cut) (some |x|) = true
      unfold liftRel
      simp only [decide_eq_true_eq]
      exact hx
  let U := fun k i => univariateFlag E (some cut) (zCells E [some 0, some 0] [some s₀, some s₁] (frameMask b) k i)
  have hU0n : ∀ k, 2 ≤ k → k < 6 → U k 0 = none := by
    intro k hk1 hk2
    show univariateFlag E (some cut) (zCells E [some 0, some 0] [some s₀, some s₁] (frameMask b) k 0) = _
    rw [hz0]
    refine hflagN _ ?_
    rw [abs_div, abs_of_pos p0, lt_div_iff₀ p0]
    have hcs : cut * s₀ ≤ 9 * 2.75 := mul_le_mul hc9 h0b p0.le (by norm_num)
    have : b ≤ |maskCol b k| := by
      interval_cases k
      · show b ≤ |2 * b|; rw [abs_of_pos (by linarith)]; linarith
      · show b ≤ |-(2 * b)|; rw [abs_neg, abs_of_pos (by linarith)]; linarith
      · show b ≤ |b|; rw [abs_of_pos (by linarith)]
      · show b ≤ |-b|; rw [abs_neg, abs_of_pos (by linarith)]
    linarith
  have hU0 : ∀ k, (k < 2 ∨ 6 ≤ k) → U k 0 = some (maskCol b k / s₀) := by
    intro k hk
    show univariateFlag E (some cut) (zCells E [some 0, some 0] [some s₀, some s₁] (frameMask b) k 0) = _
    rw [hz0]
    refine hflag _ ?_
    rw [abs_div, abs_of_pos p0, div_le_iff₀ p0]
    have hcs : 2 * 2.6 ≤ cut * s₀ := mul_le_mul hc2 h0a (by norm_num) (by linarith)
    have : |maskCol b k| ≤ 1 := by
      rcases k with _ | _ | _ | _ | _ | _ | _ | _ | _ | _ | k
      all_goals first | (exfalso; omega) | (norm_num [maskCol]; done) | (show |(0:ℝ)| ≤ 1; norm_num)
    linarith
  have hU1 : ∀ k < 6, U k 1 = some (maskCol1 k / s₁) := by
    intro k hk
    show univariateFlag E (some cut) (zCells E [some 0, some 0] [some s₀, some s₁] (frameMask b) k 1) = _
    rw [hz1, if_pos hk]
    refine hflag _ ?_
    rw [abs_div, abs_of_pos p1, div_le_iff₀ p1]
    have hcs : 2 * 1.5 ≤ cut * s₁ := mul_le_mul hc2 h1a (by norm_num) (by linarith)
    have : |maskCol1 k| ≤ 2 := by interval_cases k <;> norm_num [maskCol1]
    linarith
  have hU1n : ∀ k, 6 ≤ k → U k 1 = none := by
    intro k hk
    show univariateFlag E (some cut) (zCells E [some 0, some 0] [some s₀, some s₁] (frameMask b) k 1) = _
    rw [hz1, if_neg (by omega)]
    rfl
  have hr : List.range 10 = [0, 1, 2, 3, 4, 5, 6, 7, 8, 9] := rfl
  have hcr01 : commonRows E 10 U 0 1 = cellPairs [(-(1 / s₀), -(1 / s₁)), (1 / s₀, 1 / s₁)] := by
    unfold commonRows
    rw [hr]
    simp only [List.map_cons, List.map_nil, hU0 0 (by omega), hU0 1 (by omega), hU0n 2 (by omega) (by omega), hU0n 3 (by omega) (by omega),
      hU0n 4 (by omega) (by omega), hU0n 5 (by omega) (by omega), hU1 0 (by omega), hU1 1 (by omega), hU1n 6 le_rfl, hU1n 7 (by omega),
      hU1n 8 (by omega), hU1n 9 (by omega), maskCol, maskCol1, neg_div]
    simp [DDCEnv.ok, realEnv, cellPairs]
  have hcr10 : commonRows E 10 U 1 0 = [(-(1 / s₁), -(1 / s₀)), (1 / s₁, 1 / s₀)].map somePair := by
    unfold commonRows
    rw [hr]
    simp only [List.map_cons, List.map_nil, hU0 0 (by omega), hU0 1 (by omega), hU0n 2 (by omega) (by omega), hU0n 3 (by omega) (by omega),
      hU0n 4 (by omega) (by omega), hU0n 5 (by omega) (by omega), hU1 0 (by omega), hU1 1 (by omega), hU1n 6 le_rfl, hU1n 7 (by omega),
      hU1n 8 (by omega), hU1n 9 (by omega), maskCol, maskCol1, neg_div]
    simp [DDCEnv.ok, realEnv, somePair]
  obtain ⟨corr, hcorr, -, hrest⟩ := fit_steps (round3 := round3) (cdf := cdf) (est := cellwiseOSM) ⟨some cut, some 0.5⟩ st (X := frameMask b)
    (frameMask_check (by linarith)) (frameMask_scaler h0 h1)
  have hpair : pairCorr E (some cut) (commonRows E 10 U 0 1) = .ok (some 1) := by
    rw [hcr01]
    exact mask_corr hc2 (one_div_le_one_div_of_le p0 h0b) (one_div_le_one_div_of_le (by norm_num) h0a)
      (one_div_le_one_div_of_le p1 h1b) (one_div_le_one_div_of_le (by norm_num) h1a)
  have hcv : ∀ i < 2, ∀ j < 2, corr i j = some 1 := by
    intro i hi j hj
    have e := hcorr
    unfold robustCorrelation at e
    rw [if_neg (by simp)] at e
    have e1 := tabulate2_ok e i hi j hj
    by_cases hij : i = j
    · rw [if_pos hij] at e1
      exact (Except.ok.inj e1).symm
    · rw [if_neg hij] at e1
      have hmin : min i j = 0 := by omega
      have hmax : max i j = 1 := by omega
      rw [hmin, hmax] at e1
      exact (Except.ok.inj (hpair.symm.trans e1)).symm
  obtain ⟨slopes, d, rs, -, -, -, hslopes, hd, hrs, hfin⟩ := hrest (by
    intro i hi j hj
    rw [hcv i hi j hj]; simp)
  have hsl : slopes 1 0 = some (s₁ / s₀) := by
    have e1 := tabulate2_ok hslopes 1 (by decide : 1 < 2) 0 (by decide : 0 < 2)
    rw [if_neg (by decide), hcv 1 (by norm_num) 0 (by norm_num), if_neg] at e1
    · have e2 : robustSlope E (some cut) (commonRows E 10 U 1 0) = .ok (some (s₁ / s₀)) := by
        rw [hcr10]
        obtain ⟨a, v, hv, hv0⟩ := osm_some (l := [-(1 / s₀) - s₁ / s₀ * -(1 / s₁), 1 / s₀ - s₁ / s₀ * (1 / s₁)]) (by simp)
        have hn1 : ¬ (1 / s₁ = 0) := by positivity
        refine robustSlope_line (m := s₁ / s₀) (s := v) (a := a) ?_ (by simpa using hv) ?_ ?_
        · have e : ([(-(1 / s₁), -(1 / s₀)), (1 / s₁, 1 / s₀)].filter fun q => q.1 ≠ 0) = [(-(1 / s₁), -(1 / s₀)), (1 / s₁, 1 / s₀)] := by
            rw [List.filter_eq_self]
            intro q hq
            simp only [List.mem_cons, List.not_mem_nil, or_false] at hq
            rcases hq with rfl | rfl
            · simpa using p1.ne'
            · simpa using p1.ne'
          rw [e]
          have e3 : [(-(1 / s₁), -(1 / s₀)), (1 / s₁, 1 / s₀)].map (fun q : ℝ × ℝ => q.2 / q.1) = [s₁ / s₀, s₁ / s₀] := by
            simp only [List.map_cons, List.map_nil]
            congr 1
            · field_simp
            · congr 1
              field_simp
          rw [e3]
          exact npMedian_eq_some_iff.2 ⟨s₁ / s₀, s₁ / s₀, by simp [Spec.IsKthSmallest, List.countP_cons],
            by simp [Spec.IsKthSmallest, List.countP_cons], by ring⟩
        · intro q hq _ _
          simp only [List.mem_cons, List.not_mem_nil, or_false] at hq
          rcases hq with rfl | rfl
          · simp only; field_simp
          · simp only; field_simp
        · refine ⟨(1 / s₁, 1 / s₀), by simp, hn1, ?_⟩
          have : (1 / s₀ - s₁ / s₀ * (1 / s₁)) = 0 := by field_simp; ring
          simp only [this, abs_zero]
          positivity
      exact (Except.ok.inj (e2.symm.trans e1)).symm
    · show ¬ liftRel (· < ·) (some |(1:ℝ)|) (some 0.5) = true
      unfold liftRel
      simp only [decide_eq_true_eq]
      norm_num
  have hraw : ∀ k < 10, predictedValues E 2 corr slopes U k 0 = some (maskCol1 k / s₀) := by
    intro k hk
    unfold predictedValues
    rw [predictCell_real (c := fun _ => 1) (fun j hj => hcv j hj 0 (by norm_num))]
    congr 1
    rw [Finset.sum_range_succ, Finset.sum_range_succ, Finset.sum_range_zero, Finset.sum_range_succ, Finset.sum_range_succ, Finset.sum_range_zero]
    have w0 : weightReal (fun _ => 1) (U k) 0 0 = 0 := by simp [weightReal]
    rw [w0, hsl]
    by_cases hk6 : k < 6
    · have w1 : weightReal (fun _ => 1) (U k) 0 1 = 1 := by
        unfold weightReal
        rw [if_pos ⟨by norm_num, by norm_num, by rw [hU1 k hk6]; simp⟩]
        simp
      rw [w1, hU1 k hk6]
      simp only [Option.getD_some]
      field_simp
      ring
    · rw [hU1n k (by omega)]
      have : maskCol1 k = 0 := by interval_cases k <;> first | (exfalso; omega) | rfl
      rw [this]
      simp
  -- the residual list
  let base : List ℝ := [b - 1, 1 - b, 0, 0, 0, 0, 1, -1, 1, -1]
  obtain ⟨a, v, hv, hv0, hvle⟩ := osm_bounds (l := base.map fun x => 1 / s₀ * x + 0) (s := |1 / s₀| * 1)
    (by rw [madRaw_affine, mask_mad hb]; rfl) (by
      rw [mul_one, abs_of_pos (by positivity), le_div_iff₀ normalQuartile_pos]
      have : (1 / 2.75:ℝ) ≤ 1 / s₀ := one_div_le_one_div_of_le p0 h0b
      refine le_trans ?_ this
      unfold normalQuartile
      norm_num)
  rw [mul_one, abs_of_pos (by positivity)] at hvle
  have hfar : cut * v < (b - 1) / s₀ := by
    have : 4.1 * (1 / s₀) = 4.1 / s₀ := by ring
    rw [this] at hvle
    have h2 : cut * (4.1 / s₀) < (b - 1) / s₀ := by
      rw [← mul_div_assoc]
      exact div_lt_div_of_pos_right (by linarith) p0
    have h3 : cut * v ≤ cut * (4.1 / s₀) := mul_le_mul_of_nonneg_left hvle (by linarith)
    linarith
  have hresv : ∀ k, maskCol b k / s₀ - b * (maskCol1 k / s₀) = (maskCol b k - b * maskCol1 k) / s₀ := by
    intro k; ring
  have hbase : ((List.range 10).map fun k => maskCol b k / s₀ - b * (maskCol1 k / s₀)) = base.map fun x => 1 / s₀ * x + 0 := by
    rw [hr]
    simp only [List.map_cons, List.map_nil, hresv, maskCol, maskCol1, base]
    ring_nf
  let P : List (ℝ × ℝ) := (List.range 10).map fun k => (maskCol1 k / s₀, maskCol b k / s₀)
  have hd0 : d 0 = some b := by
    have e1 := tabulate_ok hd 0 (by decide : 0 < 2)
    have e2 : robustSlope E (some cut) (P.map somePair) = .ok (some b) := by
      refine robustSlope_line (m := b) (s := v) (a := a) ?_ ?_ ?_ ?_
      · have e : (P.filter fun q => q.1 ≠ 0).map (fun q => q.2 / q.1) = [1, 1, b, b, b, b] := by
          have ef : P.filter (fun q => q.1 ≠ 0) = [0, 1, 2, 3, 4, 5].map fun k => (maskCol1 k / s₀, maskCol b k / s₀) := by
            simp [P, hr, maskCol1, p0.ne', neg_div]
          rw [ef]
          simp only [List.map_cons, List.map_nil, maskCol, maskCol1]
          have g1 : 1 / s₀ / (1 / s₀) = 1 := div_self (by positivity)
          have g2 : 2 * b / s₀ / (2 / s₀) = b := by field_simp
          have g4 : b / s₀ / (1 / s₀) = b := by field_simp
          simp only [neg_div, div_neg, neg_neg, g1, g2, g4]
        rw [e]
        exact mask_ratio hb
      · rw [← hv, ← hbase]
        simp only [P, List.map_map, Function.comp_def]
      · intro q hq h0' hle
        obtain ⟨k, hk, rfl⟩ := List.mem_map.1 hq
        have hk10 : k < 10 := List.mem_range.1 hk
        simp only at h0' hle ⊢
        rw [hresv, abs_div, abs_of_pos p0] at hle
        have hbad : ∀ x : ℝ, |x| = b - 1 → ¬ |x| / s₀ ≤ cut * v := by
          intro x hx h; rw [hx] at h; linarith
        have e0 : |(-1:ℝ) - b * -1| = b - 1 := by rw [show (-1:ℝ) - b * -1 = b - 1 by ring, abs_of_pos (by linarith)]
        have e1 : |(1:ℝ) - b * 1| = b - 1 := by rw [mul_one, abs_sub_comm, abs_of_pos (by linarith)]
        interval_cases k
        · exact absurd hle (hbad _ e0)
        · exact absurd hle (hbad _ e1)
        · simp only [maskCol, maskCol1]; ring
        · simp only [maskCol, maskCol1]; ring
        · simp only [maskCol, maskCol1]; ring
        · simp only [maskCol, maskCol1]; ring
        all_goals exact absurd (by simp [maskCol1]) h0'
      · refine ⟨(maskCol1 4 / s₀, maskCol b 4 / s₀), List.mem_map.2 ⟨4, by simp, rfl⟩, ?_, ?_⟩
        · simpa [maskCol1] using p0.ne'
        · rw [hresv]
          simp only [maskCol, maskCol1]
          rw [mul_one, sub_self, zero_div, abs_zero]
          positivity
    have e3 : ((List.range 10).filter fun k => (E).ok (zCells E [some 0, some 0] [some s₀, some s₁] (frameMask b) k 0)).map
        (fun k => (predictedValues E 2 corr slopes U k 0, zCells E [some 0, some 0] [some s₀, some s₁] (frameMask b) k 0)) = P.map somePair := by
      have ef : (List.range 10).filter (fun k => (E).ok (zCells E [some 0, some 0] [some s₀, some s₁] (frameMask b) k 0)) = List.range 10 := by
        rw [List.filter_eq_self]
        intro k _
        rw [hz0]; rfl
      rw [ef, List.map_map]
      apply List.map_congr_left
      intro k hk
      rw [hraw k (List.mem_range.1 hk), hz0]
      rfl
    rw [← e3] at e2
    exact (Except.ok.inj (e2.symm.trans e1)).symm
  have hres : ∀ k < 10, liftNaN (· - ·) (zCells E [some 0, some 0] [some s₀, some s₁] (frameMask b) k 0)
      (liftNaN (· * ·) (predictedValues E 2 corr slopes U k 0) (d 0)) = some ((maskCol b k - b * maskCol1 k) / s₀) := by
    intro k hk
    rw [hz0, hraw k hk, hd0]
    show some (maskCol b k / s₀ - maskCol1 k / s₀ * b) = _
    congr 1
    ring
  have hrs0 : rs 0 = some v := by
    have e1 := tabulate_ok hrs 0 (by decide : 0 < 2)
    have e2 : (colList 10 (fun k i => liftNaN (· - ·) (zCells E [some 0, some 0] [some s₀, some s₁] (frameMask b) k i)
        (liftNaN (· * ·) (predictedValues E 2 corr slopes U k i) (d i))) 0).filter (E).ok =
        (base.map fun x => 1 / s₀ * x + 0).map some := by
      rw [← hbase, List.map_map]
      refine (List.filter_eq_self.2 ?_).trans ?_
      · intro x hx
        obtain ⟨k, hk, rfl⟩ := List.mem_map.1 hx
        simp only
        rw [hres k (List.mem_range.1 hk)]
        rfl
      · unfold colList
        apply List.map_congr_left
        intro k hk
        simp only [Function.comp_apply]
        rw [hres k (List.mem_range.1 hk), hresv]
    have e3 : (cellwiseOSM ((colList 10 (fun k i => liftNaN (· - ·) (zCells E [some 0, some 0] [some s₀, some s₁] (frameMask b) k i)
        (liftNaN (· * ·) (predictedValues E 2 corr slopes U k i) (d i))) 0).filter (E).ok)).map Prod.snd = .ok (some v) := by
      rw [e2, hv]; rfl
    exact (Except.ok.inj (e3.symm.trans e1)).symm
  obtain ⟨st', t, hfit, T⟩ := hfin (by
    intro k hk
    exact ⟨0, (by decide : 0 < 2), by rw [hz0]; simp, by rw [hrs0]; simp, by rw [hrs0]; simpa using hv0.ne'⟩)
  obtain ⟨_, _, rfl, rfl, hst⟩ := T.hst
  have hstd : ∀ k < 10, ((E).lt (some cut) ((E).abs ((E).div ((E).sub (zCells E [some 0, some 0] [some s₀, some s₁] (frameMask b) k 0)
      ((E).mul (predictedValues E 2 corr slopes U k 0) (d 0))) (rs 0)))) = decide (cut < |(maskCol b k - b * maskCol1 k) / s₀ / v|) := by
    intro k hk
    have e : (E).sub (zCells E [some 0, some 0] [some s₀, some s₁] (frameMask b) k 0) ((E).mul (predictedValues E 2 corr slopes U k 0) (d 0))
        = some ((maskCol b k - b * maskCol1 k) / s₀) := hres k hk
    rw [e, hrs0]
    have e2 : (E).div (some ((maskCol b k - b * maskCol1 k) / s₀)) (some v) = some ((maskCol b k - b * maskCol1 k) / s₀ / v) := by
      show (if some v = some 0 then none else some _) = _
      rw [if_neg (by simpa using hv0.ne')]
    rw [e2]
    rfl
  have hbigf : cut < (b - 1) / s₀ / v := by rw [lt_div_iff₀ hv0]; exact hfar
  refine ⟨st', _, rs, v, hfit, by rw [hst], by rw [hst], hrs0, hv0.ne', ?_, ?_, ?_⟩
  · refine (hstd 0 (by norm_num)).trans ?_
    simp only [maskCol, maskCol1, decide_eq_true_eq]
    rw [show (-1:ℝ) - b * -1 = b - 1 by ring, abs_of_pos (by linarith)]
    exact hbigf
  · refine (hstd 1 (by norm_num)).trans ?_
    simp only [maskCol, maskCol1, decide_eq_true_eq]
    rw [show ((1:ℝ) - b * 1) / s₀ / v = -((b - 1) / s₀ / v) by ring, abs_neg, abs_of_pos (by linarith)]
    exact hbigf
  · intro k hk1 hk2
    refine (hstd k (by omega)).trans ?_
    have : maskCol b k - b * maskCol1 k = 0 := by
      interval_cases k <;> simp only [maskCol, maskCol1] <;> ring
    rw [this]
    norm_num
    linarith

end

/-- C187 in full: far cells that are a minority of their column are flagged. -/
def C187_statement : Prop :=
  ∀ (round3 cdf : ℝ → ℝ) (cut m : ℝ), 0 < cut → 0 < m → m ≤ 1 → ∀ (X₀ : CellFrame (Option ℝ)) (S up : ℕ → ℕ → Bool),
    (∀ i < X₀.p, Spec.farMinority (Spec.filled X₀ S i) fun k => S k i) →
    ∃ B, ∀ X, Spec.pushed X₀ S up B X → ∀ st₀ st,
      ddcFit (realEnv round3 cdf cellwiseOSM) ⟨some cut, some m⟩ false st₀ X = (.ok (), st) → Spec.farFlagged X₀ S st

/-- C187 is violated, for every cutoff from 2 to 9 (the default is about 2.576) and the default `min_correlation`: for every bound there is a
data set with ten rows and two columns whose four far cells lie beyond it and are not flagged, while a clean cell is.  The four far rows are
the majority of the rows in which the predictor is observed. -/
theorem C187_masked (round3 cdf : ℝ → ℝ) {cut : ℝ} (h2 : 2 ≤ cut) (h9 : cut ≤ 9) (B : ℝ) : ∃ X st fl,
    Spec.pushed (frameMask 0) maskSet (fun k _ => decide (k % 2 = 0)) B X ∧
    ddcFit (realEnv round3 cdf cellwiseOSM) ⟨some cut, some 0.5⟩ false {} X = (.ok (), st) ∧ st.cellwise = some fl ∧
    (∀ k < 10, maskSet k 0 = true → fl.2 k 0 = false) ∧ (∃ k < 10, maskSet k 0 = false ∧ fl.2 k 0 = true) ∧
    ¬ Spec.farFlagged (frameMask 0) maskSet st := by
  have hB := le_max_left B 100
  have h100 := le_max_right B 100
  obtain ⟨st, fl, rs, r, hfit, hfl, hrs, hr, hr0, f0, -, hnot⟩ := frameMask_fit (round3 := round3) (cdf := cdf) {} h2 h9
    (b := max B 100 + 1) (by linarith)
  refine ⟨_, st, fl, frameMask_pushed (by linarith) (by linarith), hfit, hfl, fun k _ hk => ?_, ⟨0, by norm_num, rfl, f0⟩, fun h => ?_⟩
  · simp only [maskSet, decide_true, Bool.true_and, Bool.and_eq_true, decide_eq_true_eq] at hk
    exact hnot k hk.1 hk.2
  · have := h fl rs hfl hrs 0 (by decide : 0 < 2) r hr hr0 2 (by decide : 2 < 10) rfl
    rw [hnot 2 le_rfl (by norm_num)] at this
    cases this

theorem C187_violated : ¬ C187_statement := by
  intro h
  obtain ⟨B, hB⟩ := h id id 2.5 0.5 (by norm_num) (by norm_num) (by norm_num) (frameMask 0) maskSet (fun k _ => decide (k % 2 = 0))
    frameMask_minority
  obtain ⟨X, st, -, hX, hfit, -, -, -, hn⟩ := C187_masked id id (cut := 2.5) (by norm_num) (by norm_num) B
  exact hn (hB X hX _ st hfit)

/-- C187, the part that holds: the far cells are flagged when they are also a minority of the cells whose prediction is not 0.  Missing:
this condition speaks of the predictions of the fit, and cannot be dropped (`C187_masked`). -/
theorem C187_flagged_partial (round3 cdf : ℝ → ℝ) (cut m : ℝ) (X₀ : CellFrame (Option ℝ)) (S up : ℕ → ℕ → Bool)
    (h1 : ∀ i < X₀.p, Spec.farMinority (Spec.filled X₀ S i) fun k => S k i) :
    ∃ B, ∀ X, Spec.pushed X₀ S up B X → ∀ st₀ st,
      ddcFit (realEnv round3 cdf cellwiseOSM) ⟨some cut, some m⟩ false st₀ X = (.ok (), st) →
      (∀ g, st.rawPred = some g → Spec.minorityPredicted X₀ S g) → Spec.farFlagged X₀ S st := by
  obtain ⟨B, hB⟩ := C186_far (round3 := round3) (cdf := cdf) (up := up) (some cut) (some m) rfl false h1
  refine ⟨B, fun X hX st₀ st hfit hg => ?_⟩
  obtain ⟨st', hfit', -, hfl⟩ := hB X X hX hX (ddcFit_ok hfit).1 st₀ st₀ st hfit hg
  rw [hfit] at hfit'
  rw [(Prod.mk.inj hfit').2]
  exact hfl

/-- The hypotheses of `C187_flagged_partial` are met beyond every bound by the data set of `C186_far`. -/
example (B : ℝ) : ∃ X st, Spec.pushed (frameFar 0) farSet (fun k _ => decide (k = 4)) B X ∧
    ddcFit (realEnv id id cellwiseOSM) ⟨some 1000, some 0.5⟩ false {} X = (.ok (), st) ∧
    ∀ g, st.rawPred = some g → Spec.minorityPredicted (frameFar 0) farSet g := by
  obtain ⟨st, hfit, hg, -⟩ := frameFar_fit (round3 := id) (cdf := id) {} (b := max B 10000 + 1) (by linarith [le_max_right B 10000])
  refine ⟨_, st, frameFar_pushed (by linarith [le_max_left B 10000]), hfit, fun g h i hi => Or.inr ?_⟩
  rw [List.filter_eq_nil_iff]
  intro k _
  simp [hg g h k i hi]

end Robpy
