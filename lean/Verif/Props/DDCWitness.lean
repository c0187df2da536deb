import Verif.Props.DDCPred

/-! A concrete data set for `DDC`: `C67_violated`, and the example that the hypotheses of the theorems about
`DDC` can be met. -/

namespace Robpy

section
variable {round3 cdf : ℝ → ℝ} {est : List (Option ℝ) → Except PyErr (Option ℝ × Option ℝ)}

theorem osm_some {l : List ℝ} (h : l ≠ []) : ∃ a s, cellwiseOSM (l.map some) = .ok (a, some s) ∧ 0 ≤ s := by
  obtain ⟨m, hm⟩ := madRaw_isSome h
  obtain ⟨v, hv, hv0, -⟩ := C08_scale (.huber 2.5) (by norm_num [Rho.const]) 0.845 (1 / 10 ^ 12) (by norm_num) l m hm
  refine ⟨oneStepLocation (.tukey 3) (1 / 10 ^ 12) l, v, ?_, hv0⟩
  unfold cellwiseOSM oneStepM
  rw [if_neg]
  · have : (l.map some).filterMap id = l := by simp
    simp only [this]
    rw [hv]
  · simp

/-- The scale of a sample whose MAD is not tiny is positive. -/
theorem osm_pos {l : List ℝ} {s : ℝ} (hs : madRaw l = some s) (h : 1 / 10 ^ 12 ≤ s / normalQuartile) :
    ∃ a v, cellwiseOSM (l.map some) = .ok (a, some v) ∧ 0 < v := by
  obtain ⟨m, hm, hmad⟩ := madRaw_spec hs
  have hq := normalQuartile_pos (K := ℝ)
  have hs0 : 0 < s := by
    by_contra hcon
    have : s / normalQuartile ≤ 0 := div_nonpos_of_nonpos_of_nonneg (not_lt.1 hcon) hq.le
    have h2 : (0:ℝ) < 1 / 10 ^ 12 := by positivity
    linarith
  have hmadpos : 0 < s / normalQuartile := div_pos hs0 hq
  have hX : l ≠ [] := by rintro rfl; simp [npMedian] at hm
  have hl : (0:ℝ) < l.length := by exact_mod_cast List.length_pos_iff.2 hX
  obtain ⟨x, hx, hxm⟩ : ∃ x ∈ l, x ≠ m := by
    by_contra hcon
    push Not at hcon
    have : npMedian (l.map fun x => |x - m|) = some s := by
      unfold madRaw at hs; rw [hm] at hs; exact hs
    obtain ⟨-, h2⟩ := npMedian_bounds this 0 0 (by
      intro y hy
      obtain ⟨x, hx, rfl⟩ := List.mem_map.1 hy
      rw [hcon x hx]; simp)
    linarith
  refine ⟨oneStepLocation (.tukey 3) (1 / 10 ^ 12) l, s / normalQuartile * Real.sqrt (1 / 0.845 * mean (l.map fun x =>
    (Rho.huber (2.5 : ℝ)).psi ((x - m) / (s / normalQuartile)) ^ 2)), ?_, ?_⟩
  · unfold cellwiseOSM oneStepM
    rw [if_neg (by simp)]
    have : (l.map some).filterMap id = l := by simp
    simp only [this]
    congr 2
    unfold oneStepScale
    simp only [hm, hs]
    rw [if_neg (not_lt.2 h)]
  · apply mul_pos hmadpos
    apply Real.sqrt_pos.2
    apply mul_pos (by norm_num)
    unfold mean
    rw [List.length_map]
    apply div_pos _ hl
    have hr : (x - m) / (s / normalQuartile) ≠ 0 := div_ne_zero (sub_ne_zero.2 hxm) hmadpos.ne'
    have hpsi : (Rho.huber (2.5 : ℝ)).psi ((x - m) / (s / normalQuartile)) ≠ 0 := by
      show huberPsi 2.5 _ ≠ 0
      unfold huberPsi
      split_ifs
      · exact hr
      · apply mul_ne_zero (by norm_num)
        unfold npSign
        rcases lt_or_gt_of_ne hr with h0 | h0
        · rw [if_pos h0]; norm_num
        · rw [if_neg (not_lt.2 h0.le), if_pos h0]; norm_num
    exact lt_of_lt_of_le (sq_pos_of_ne_zero hpsi)
      (List.single_le_sum (by
        intro y hy
        obtain ⟨z, -, rfl⟩ := List.mem_map.1 hy
        exact sq_nonneg _) _ (List.mem_map.2 ⟨x, hx, rfl⟩))

/-- Pairs of numbers as pairs of cells. -/
def cellPairs (l : List (ℝ × ℝ)) : List (Option ℝ × Option ℝ) := l.map fun q => (some q.1, some q.2)

theorem somePairs_cellPairs (l : List (ℝ × ℝ)) : somePairs (cellPairs l) = l := by
  induction l with
  | nil => rfl
  | cons q l ih =>
    have e : somePairs (cellPairs (q :: l)) = (q.1, q.2) :: somePairs (cellPairs l) := rfl
    rw [e, ih]

theorem mahal_lt {c x y : ℝ} (hc : |c| ≤ 0.99) (hx : |x| ≤ 2) (hy : |y| ≤ 2) :
    Real.sqrt ((x ^ 2 + y ^ 2 - 2 * c * (x * y)) / (1 - c ^ 2)) < 1000 := by
  rw [Real.sqrt_lt' (by norm_num)]
  obtain ⟨c1, c2⟩ := abs_le.1 hc
  obtain ⟨x1, x2⟩ := abs_le.1 hx
  obtain ⟨y1, y2⟩ := abs_le.1 hy
  have hc2 : c ^ 2 ≤ 0.9801 := by nlinarith
  have h1 : 0 < 1 - c ^ 2 := by linarith
  rw [div_lt_iff₀ h1]
  have hx2 : x ^ 2 ≤ 4 := by nlinarith
  have hy2 : y ^ 2 ≤ 4 := by nlinarith
  have h3 : |c * (x * y)| ≤ 4 := by
    rw [abs_mul, abs_mul]
    have : |x| * |y| ≤ 2 * 2 := mul_le_mul hx hy (abs_nonneg _) (by norm_num)
    have h0 : 0 ≤ |x| * |y| := by positivity
    nlinarith [abs_nonneg c]
  have := (abs_le.1 h3).1
  nlinarith

/-- With small values and a large cutoff the robust correlation of a pair is Pearson's. -/
theorem pairCorr_small {l : List (ℝ × ℝ)} (hl : l ≠ []) (h : ∀ q ∈ l, |q.1| ≤ 2 ∧ |q.2| ≤ 2) :
    pairCorr (realEnv round3 cdf est) (some 1000) (cellPairs l) = .ok (pearson l) := by
  have hne : (cellPairs l).isEmpty = false := by cases l <;> simp_all [cellPairs]
  have e1 : ((cellPairs l).map fun q => (realEnv round3 cdf est).add q.1 q.2) = (l.map fun q => q.1 + q.2).map some := by
    unfold cellPairs; rw [List.map_map, List.map_map]; rfl
  have e2 : ((cellPairs l).map fun q => (realEnv round3 cdf est).sub q.1 q.2) = (l.map fun q => q.1 - q.2).map some := by
    unfold cellPairs; rw [List.map_map, List.map_map]; rfl
  obtain ⟨a1, s1, h1, -⟩ := osm_some (l := l.map fun q => q.1 + q.2) (by simpa using hl)
  obtain ⟨a2, s2, h2, -⟩ := osm_some (l := l.map fun q => q.1 - q.2) (by simpa using hl)
  unfold pairCorr
  rw [hne, e1, e2]
  have h1' : (realEnv round3 cdf est).osm ((l.map fun q => q.1 + q.2).map some) = .ok (a1, some s1) := h1
  have h2' : (realEnv round3 cdf est).osm ((l.map fun q => q.1 - q.2).map some) = .ok (a2, some s2) := h2
  rw [h1', h2']
  simp only [Bool.false_eq_true, if_false]
  show Except.ok _ = _
  congr 1
  set c0 : ℝ := min (max ((s1 * s1 - s2 * s2) / 4) (-0.99)) 0.99 with hc0
  have hc : (realEnv round3 cdf est).clip ((realEnv round3 cdf est).div ((realEnv round3 cdf est).sub
      ((realEnv round3 cdf est).mul (some s1) (some s1)) ((realEnv round3 cdf est).mul (some s2) (some s2)))
      (realEnv round3 cdf est).four) = some c0 := by
    show Option.map _ (if some (4:ℝ) = some 0 then none else _) = _
    rw [if_neg (by norm_num)]
    rfl
  show (realEnv round3 cdf est).corrcoef ((cellPairs l).filter fun q => (realEnv round3 cdf est).lt
    ((realEnv round3 cdf est).mahal ((realEnv round3 cdf est).clip ((realEnv round3 cdf est).div
      ((realEnv round3 cdf est).sub ((realEnv round3 cdf est).mul (some s1) (some s1))
        ((realEnv round3 cdf est).mul (some s2) (some s2))) (realEnv round3 cdf est).four)) q) (some 1000)) = _
  have hcb : |c0| ≤ 0.99 := by
    rw [abs_le]
    constructor
    · exact le_min (le_max_right _ _) (by norm_num)
    · exact min_le_right _ _
  rw [hc]
  have hf : (cellPairs l).filter (fun q => (realEnv round3 cdf est).lt ((realEnv round3 cdf est).mahal (some c0) q)
      (some 1000)) = cellPairs l := by
    rw [List.filter_eq_self]
    intro q hq
    obtain ⟨⟨x, y⟩, hxy, rfl⟩ := List.mem_map.1 hq
    show liftRel (· < ·) (some _) (some 1000) = true
    unfold liftRel
    simp only [decide_eq_true_eq]
    exact mahal_lt hcb (h _ hxy).1 (h _ hxy).2
  rw [hf]
  show pearson (somePairs (cellPairs l)) = _
  rw [somePairs_cellPairs]

end

/-! ### The data set -/

/-- A user-defined scale estimator that returns location 0 and scale 1. -/
def estUnit : List (Option ℝ) → Except PyErr (Option ℝ × Option ℝ) := fun _ => .ok (some 0, some 1)

/-- Column 0 and column 2. -/
def colA : ℕ → ℝ
  | 0 => -2 | 1 => -1 | 2 => 1 | _ => 2

/-- Column 1. -/
def colB : ℕ → ℝ
  | 0 => -2 | 1 => 1 | 2 => -1 | _ => 2

/-- Four rows, three columns: the first and the third agree, the second has correlation 0.6 with them. -/
def frameW : CellFrame (Option ℝ) where
  n := 4
  p := 3
  numeric := true
  cell k i := some (if i = 1 then colB k else colA k)

theorem distinctCells_four {round3 cdf est} {X : CellFrame (Option ℝ)} {i : ℕ} {a b c d : ℝ}
    (h : colList X.n X.cell i = [some a, some b, some c, some d]) (hn : [a, b, c, d].Nodup) :
    distinctCells (realEnv round3 cdf est) X i = 4 := by
  unfold distinctCells
  rw [h]
  have e : [some a, some b, some c, some d].filter (realEnv round3 cdf est).ok = [a, b, c, d].map some := rfl
  rw [e, List.Nodup.dedup (hn.map (Option.some_injective _))]
  rfl

theorem frameW_check (round3 cdf est) : ddcCheck (realEnv round3 cdf est) frameW = .ok () := by
  unfold ddcCheck
  rw [if_neg (by simp [frameW]), if_neg]
  rw [List.any_eq_true]
  rintro ⟨i, hi, h⟩
  have h4 : distinctCells (realEnv round3 cdf est) frameW i = 4 := by
    by_cases h1 : i = 1
    · subst h1
      exact distinctCells_four (a := -2) (b := 1) (c := -1) (d := 2) rfl (by norm_num)
    · refine distinctCells_four (a := -2) (b := -1) (c := 1) (d := 2) ?_ (by norm_num)
      show [_, _, _, _] = _
      simp [frameW, h1, colA]
  rw [h4] at h
  simp at h

theorem frameW_scaler (round3 cdf) : fitScaler (realEnv round3 cdf estUnit) (replaceInf (realEnv round3 cdf estUnit)
    frameW) (List.range frameW.p) [] [] = (.ok (), [some 0, some 0, some 0], [some 1, some 1, some 1]) := rfl

section
variable {round3 cdf : ℝ → ℝ} {est : List (Option ℝ) → Except PyErr (Option ℝ × Option ℝ)}

local notation "E" => realEnv round3 cdf est

theorem frameW_z {k i : ℕ} (hi : i < 3) :
    zCells E [some 0, some 0, some 0] [some 1, some 1, some 1] frameW k i = frameW.cell k i := by
  have h1 : ([some 0, some 0, some 0] : List (Option ℝ)).getD i none = some 0 := by interval_cases i <;> rfl
  have h2 : ([some 1, some 1, some 1] : List (Option ℝ)).getD i none = some 1 := by interval_cases i <;> rfl
  rw [zCells_real, h1, h2]
  show (if some (1:ℝ) = some 0 then none else _) = _
  rw [if_neg (by norm_num)]
  show some ((_ - 0) / 1) = some _
  simp

theorem colA_le (k : ℕ) : |colA k| ≤ 2 := by
  rcases k with _ | _ | _ | k
  · norm_num [colA]
  · norm_num [colA]
  · norm_num [colA]
  · show |(2:ℝ)| ≤ 2
    norm_num

theorem colB_le (k : ℕ) : |colB k| ≤ 2 := by
  rcases k with _ | _ | _ | k
  · norm_num [colB]
  · norm_num [colB]
  · norm_num [colB]
  · show |(2:ℝ)| ≤ 2
    norm_num

theorem frameW_u {k i : ℕ} (hi : i < 3) :
    univariateFlag E (some 1000) (zCells E [some 0, some 0, some 0] [some 1, some 1, some 1] frameW k i)
      = frameW.cell k i := by
  rw [frameW_z hi]
  unfold univariateFlag
  rw [if_neg]
  show ¬ liftRel (· < ·) (some 1000) (some |if i = 1 then colB k else colA k|) = true
  unfold liftRel
  simp only [decide_eq_true_eq, not_lt]
  split_ifs
  · linarith [colB_le k]
  · linarith [colA_le k]

/-- The values of column `i` of `frameW`. -/
def valW (i k : ℕ) : ℝ := if i = 1 then colB k else colA k

theorem frameW_common {i j : ℕ} (hi : i < 3) (hj : j < 3) :
    commonRows E frameW.n (fun k i => univariateFlag E (some 1000)
      (zCells E [some 0, some 0, some 0] [some 1, some 1, some 1] frameW k i)) i j
      = cellPairs ((List.range 4).map fun k => (valW i k, valW j k)) := by
  unfold commonRows cellPairs
  rw [List.map_map]
  have e : ((List.range frameW.n).map fun k => (univariateFlag E (some 1000)
      (zCells E [some 0, some 0, some 0] [some 1, some 1, some 1] frameW k i), univariateFlag E (some 1000)
      (zCells E [some 0, some 0, some 0] [some 1, some 1, some 1] frameW k j)))
      = (List.range 4).map ((fun q : ℝ × ℝ => ((some q.1 : Option ℝ), (some q.2 : Option ℝ))) ∘ fun k => (valW i k, valW j k)) := by
    apply List.map_congr_left
    intro k _
    rw [frameW_u hi, frameW_u hj]
    rfl
  rw [e, List.filter_eq_self]
  intro q hq
  obtain ⟨k, -, rfl⟩ := List.mem_map.1 hq
  rfl

theorem frameW_pearson (i j : ℕ) (hi : i < 3) (hj : j < 3) :
    pearson ((List.range 4).map fun k => (valW i k, valW j k))
      = some (if (i = 1 ↔ j = 1) then 1 else 3 / 5) := by
  have e : (List.range 4) = [0, 1, 2, 3] := rfl
  have hs : Real.sqrt 10 * Real.sqrt 10 = 10 := Real.mul_self_sqrt (by norm_num)
  unfold pearson centredSum mean
  rw [e]
  interval_cases i <;> interval_cases j <;>
    norm_num [valW, colA, colB, hs]

theorem frameW_slope : robustSlope E (some 1000) (cellPairs ((List.range 4).map fun k => (valW 0 k, valW 2 k)))
    = .ok (some 1) := by
  have hl : (List.range 4).map (fun k => (valW 0 k, valW 2 k)) = [((-2:ℝ), (-2:ℝ)), (-1, -1), (1, 1), (2, 2)] := rfl
  rw [hl]
  have hne : ∀ x : ℝ, x ≠ 0 → (E).eqb (some x) (E).zero = false := by
    intro x hx
    rw [Bool.eq_false_iff]
    intro h
    exact hx (Option.some.inj (eqb_zero_iff.1 h))
  have hf : (cellPairs [((-2:ℝ), (-2:ℝ)), (-1, -1), (1, 1), (2, 2)]).filter (fun q => !(E).eqb q.1 (E).zero)
      = cellPairs [((-2:ℝ), (-2:ℝ)), (-1, -1), (1, 1), (2, 2)] := by
    rw [List.filter_eq_self]
    intro q hq
    simp only [cellPairs, List.map_cons, List.map_nil, List.mem_cons, List.not_mem_nil, or_false] at hq
    rcases hq with rfl | rfl | rfl | rfl <;> simp [hne]
  have hdiv : ∀ x : ℝ, x ≠ 0 → (E).div (some x) (some x) = some 1 := by
    intro x hx
    show (if some x = some 0 then none else some (x / x)) = some 1
    rw [if_neg (by simpa using hx), div_self hx]
  unfold robustSlope
  rw [if_neg, hf]
  · simp only [cellPairs, List.map_cons, List.map_nil, hdiv (-2) (by norm_num), hdiv (-1) (by norm_num),
      hdiv 1 (by norm_num), hdiv 2 (by norm_num)]
    have hm : (E).median [some 1, some 1, some 1, some 1] = some 1 := by
      show (some [(1:ℝ), 1, 1, 1]).bind npMedian = some 1
      rw [Option.bind_some]
      exact npMedian_eq_some_iff.2 ⟨1, 1, by norm_num [Spec.IsKthSmallest, List.countP_cons],
        by norm_num [Spec.IsKthSmallest, List.countP_cons], by norm_num⟩
    rw [hm]
    have hr : ∀ x : ℝ, (E).sub (some x) ((E).mul (some 1) (some x)) = some 0 := by
      intro x
      show some (x - 1 * x) = some 0
      simp
    obtain ⟨a, s, hosm, hs0⟩ := osm_some (l := [(0:ℝ), 0, 0, 0]) (by simp)
    have hosm' : (E).osm [some 0, some 0, some 0, some 0] = .ok (a, some s) := hosm
    simp only [hr]
    rw [hosm']
    show Except.ok _ = _
    congr 1
    have hle : (E).le ((E).abs (some 0)) ((E).mul (some 1000) (some s)) = true := by
      show liftRel (· ≤ ·) (some |0|) (some (1000 * s)) = true
      unfold liftRel
      simp only [decide_eq_true_eq, abs_zero]
      positivity
    simp only [List.filter_cons, hr, hle, if_true, List.filter_nil]
    show some (lstsq1 [((-2:ℝ), (-2:ℝ)), (-1, -1), (1, 1), (2, 2)]) = some 1
    unfold lstsq1
    norm_num
  · rw [List.all_eq_true]
    intro h
    have := h (some (-2), some (-2)) (by simp [cellPairs])
    rw [hne (-2) (by norm_num)] at this
    cases this

/-- `fit` with `min_correlation=0.9` on this data set, for every scale estimator that gives its columns
location 0 and scale 1. -/
theorem frameW_fit_est (hs : fitScaler E (replaceInf E frameW) (List.range frameW.p) [] []
    = (.ok (), [some 0, some 0, some 0], [some 1, some 1, some 1])) (st : DDCState (Option ℝ)) :
    ∃ st' corr slopes d rs t, ddcFit E ⟨some 1000, some (9 / 10)⟩ false st frameW = (.ok (), st') ∧
      FitTrace E ⟨some 1000, some (9 / 10)⟩ false frameW st' [some 0, some 0, some 0] [some 1, some 1, some 1]
        corr slopes d rs t ∧
      (∀ i < 3, ∀ j < 3, corr i j = some (if (i = 1 ↔ j = 1) then 1 else 3 / 5)) ∧ slopes 0 2 = some 1 := by
  obtain ⟨corr, hcorr, -, hrest⟩ := fit_steps (round3 := round3) (cdf := cdf) ⟨some 1000, some (9 / 10)⟩ st
    (frameW_check round3 cdf est) hs
  have hval : ∀ i < 3, ∀ j < 3, corr i j = some (if (i = 1 ↔ j = 1) then 1 else 3 / 5) := by
    intro i hi j hj
    have h0 := hcorr
    unfold robustCorrelation at h0
    rw [if_neg (by simp)] at h0
    have h1 := tabulate2_ok h0 i hi j hj
    by_cases hij : i = j
    · rw [if_pos hij] at h1
      rw [← Except.ok.inj h1, if_pos (by rw [hij])]
      rfl
    · rw [if_neg hij, frameW_common (lt_of_le_of_lt (min_le_left _ _) hi) (max_lt hi hj), pairCorr_small (by simp) (by
        intro q hq
        obtain ⟨k, -, rfl⟩ := List.mem_map.1 hq
        unfold valW
        constructor <;> simp only <;> split_ifs <;> first | exact colA_le k | exact colB_le k),
        frameW_pearson _ _ (lt_of_le_of_lt (min_le_left _ _) hi) (max_lt hi hj)] at h1
      rw [← Except.ok.inj h1]
      rcases le_total i j with hle | hle
      · rw [min_eq_left hle, max_eq_right hle]
      · rw [min_eq_right hle, max_eq_left hle]; simp only [Iff.comm]
  obtain ⟨slopes, d, rs, -, -, -, hslopes, hd, hrs, hfin⟩ := hrest (by
    intro i hi j hj
    rw [hval i hi j hj]; simp)
  have hlt : ∀ r : ℝ, (E).lt ((E).abs (some r)) (some (9 / 10)) = decide (|r| < 9 / 10) := by
    intro r
    show liftRel (· < ·) (some |r|) (some (9 / 10)) = _
    unfold liftRel
    simp only [decide_eq_decide]
  have hs02 : slopes 0 2 = some 1 := by
    have h1 := tabulate2_ok hslopes 0 (by decide) 2 (by decide)
    rw [if_neg (by norm_num), hval 0 (by norm_num) 2 (by norm_num), hlt,
      if_neg (by norm_num), frameW_common (by norm_num) (by norm_num), frameW_slope] at h1
    exact (Except.ok.inj h1).symm
  have hs1 : ∀ j < 3, slopes j 1 = none := by
    intro j hj
    have h1 := tabulate2_ok hslopes j hj 1 (by decide)
    by_cases hj1 : j = 1
    · rw [if_pos hj1] at h1
      exact (Except.ok.inj h1).symm
    · rw [if_neg hj1, hval j hj 1 (by norm_num), hlt, if_pos] at h1
      · exact (Except.ok.inj h1).symm
      · simp only [hj1]; norm_num
  -- column 1 has no predictors
  have hraw1 : ∀ k, predictedValues E 3 corr slopes (fun k i => univariateFlag E (some 1000)
      (zCells E [some 0, some 0, some 0] [some 1, some 1, some 1] frameW k i)) k 1 = some 0 := by
    intro k
    unfold predictedValues
    rw [predictCell_real (c := fun j => if (j = 1 ↔ (1:ℕ) = 1) then 1 else 3 / 5) (fun j hj => hval j hj 1 (by norm_num))]
    congr 1
    apply Finset.sum_eq_zero
    intro j hj
    rw [hs1 j (Finset.mem_range.1 hj)]
    simp
  have hd1 : d 1 = some 0 := by
    have h1 := tabulate_ok hd 1 (by decide)
    unfold robustSlope at h1
    rw [if_pos] at h1
    · exact (Except.ok.inj h1).symm
    · rw [List.all_eq_true]
      intro q hq
      obtain ⟨k, -, rfl⟩ := List.mem_map.1 hq
      exact eqb_zero_iff.2 (hraw1 k)
  have hrs1 : ∃ v : ℝ, rs 1 = some v ∧ 0 < v := by
    have h1 := tabulate_ok hrs 1 (by decide)
    have hcol : (colList frameW.n (fun k i => liftNaN (· - ·) (zCells E [some 0, some 0, some 0]
        [some 1, some 1, some 1] frameW k i) (liftNaN (· * ·) (predictedValues E frameW.p corr slopes
        (fun k i => univariateFlag E (some 1000)
          (zCells E [some 0, some 0, some 0] [some 1, some 1, some 1] frameW k i)) k i) (d i))) 1).filter (E).ok
        = [(-2:ℝ), 1, -1, 2].map some := by
      have e : colList frameW.n (fun k i => liftNaN (· - ·) (zCells E [some 0, some 0, some 0]
        [some 1, some 1, some 1] frameW k i) (liftNaN (· * ·) (predictedValues E frameW.p corr slopes
        (fun k i => univariateFlag E (some 1000)
          (zCells E [some 0, some 0, some 0] [some 1, some 1, some 1] frameW k i)) k i) (d i))) 1
          = [(-2:ℝ), 1, -1, 2].map some := by
        have e2 : [(-2:ℝ), 1, -1, 2].map some = (List.range 4).map fun k => some (colB k) := rfl
        rw [e2]
        unfold colList
        apply List.map_congr_left
        intro k _
        have h0 : predictedValues E frameW.p corr slopes (fun k i => univariateFlag E (some 1000)
          (zCells E [some 0, some 0, some 0] [some 1, some 1, some 1] frameW k i)) k 1 = some 0 := hraw1 k
        beta_reduce
        rw [h0, hd1, frameW_z (by norm_num)]
        show some (colB k - 0 * 0) = _
        simp
      rw [e]; rfl
    rw [hcol] at h1
    have hm : npMedian [(-2:ℝ), 1, -1, 2] = some 0 :=
      npMedian_eq_some_iff.2 ⟨-1, 1, by norm_num [Spec.IsKthSmallest, List.countP_cons],
        by norm_num [Spec.IsKthSmallest, List.countP_cons], by norm_num⟩
    have hmad : madRaw [(-2:ℝ), 1, -1, 2] = some (3 / 2) := by
      unfold madRaw
      rw [hm]
      simp only [List.map_cons, List.map_nil]
      norm_num
      exact npMedian_eq_some_iff.2 ⟨1, 2, by norm_num [Spec.IsKthSmallest, List.countP_cons],
        by norm_num [Spec.IsKthSmallest, List.countP_cons], by norm_num⟩
    obtain ⟨a, v, hv, hv0⟩ := osm_pos hmad (by unfold normalQuartile; norm_num)
    rw [hv] at h1
    exact ⟨v, (Except.ok.inj h1).symm, hv0⟩
  obtain ⟨v, hv, hv0⟩ := hrs1
  obtain ⟨st', t, h1, h2⟩ := hfin (by
    intro k hk
    refine ⟨1, by decide, ?_, by rw [hv]; simp, by rw [hv]; simpa using hv0.ne'⟩
    rw [frameW_z (by norm_num)]
    simp [frameW])
  exact ⟨st', corr, slopes, d, rs, t, h1, h2, hval, hs02⟩

end

/-- `fit` with `min_correlation=0.9` on this data set. -/
theorem frameW_fit {round3 cdf : ℝ → ℝ} (st : DDCState (Option ℝ)) :
    ∃ st' corr slopes d rs t,
      ddcFit (realEnv round3 cdf estUnit) ⟨some 1000, some (9 / 10)⟩ false st frameW = (.ok (), st') ∧
      FitTrace (realEnv round3 cdf estUnit) ⟨some 1000, some (9 / 10)⟩ false frameW st' [some 0, some 0, some 0]
        [some 1, some 1, some 1] corr slopes d rs t ∧
      (∀ i < 3, ∀ j < 3, corr i j = some (if (i = 1 ↔ j = 1) then 1 else 3 / 5)) ∧ slopes 0 2 = some 1 :=
  frameW_fit_est (frameW_scaler round3 cdf) st

/-- **C67** is violated by the code: with `min_correlation=0.9`, three columns of which the first and the third are
equal and the second has correlation 0.6 with both, the (raw) prediction of the first cell of the third column is
-2 / 1.6 = -1.25 although the only variable with correlation at least 0.9 predicts -2. -/
theorem C67_violated : ¬ C67_statement := by
  intro h
  obtain ⟨st', corr, slopes, d, rs, t, hfit, T, hval, hs⟩ := frameW_fit (round3 := id) (cdf := id) {}
  obtain ⟨pred, std, -, -, hst⟩ := T.hst
  have hc : ∀ j < frameW.p, corr j 2 = some (if (j = 1 ↔ (2:ℕ) = 1) then 1 else 3 / 5) :=
    fun j hj => hval j hj 2 (by norm_num)
  have h1 := h id id estUnit 1000 (9 / 10) {} st' frameW hfit _ _ _ _ _ (by rw [hst]) (by rw [hst]) (by rw [hst])
    (by rw [hst]) (by rw [hst]) 0 (by decide) 2 (by decide) _ hc
  have h2 := C67_computed hfit (by rw [hst]) (by rw [hst]) (by rw [hst])
    (by rw [hst]) (by rw [hst]) 0 2 (by decide) _ hc _ rfl
  rw [h2] at h1
  have h3 := Option.some.inj h1
  unfold Spec.weightedAverage at h3
  have hu : ∀ j < 3, Spec.usable 1000 (frameW.cell 0 j) (([some 0, some 0, some 0] : List (Option ℝ)).getD j none)
      (([some 1, some 1, some 1] : List (Option ℝ)).getD j none) = some (-2) := by
    intro j hj
    rw [← usable_eq (round3 := id) (cdf := id) (est := estUnit), frameW_u hj]
    interval_cases j <;> rfl
  rw [Finset.sum_filter, Finset.sum_filter, Finset.sum_filter, Finset.sum_filter] at h3
  rw [show frameW.p = 3 from rfl] at h3
  simp only [Finset.sum_range_succ, Finset.sum_range_zero, hu 0 (by norm_num), hu 1 (by norm_num),
    hu 2 (by norm_num), hs] at h3
  norm_num at h3
  have hne : ¬ (some (-2 : ℝ) = none) := by simp
  simp only [hne, if_false] at h3
  norm_num at h3

end Robpy
