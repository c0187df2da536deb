import Verif.Model.Boxplot
import Verif.Lemmas.Median
import Mathlib.Data.List.GetD
import Mathlib.Tactic.Positivity
import Mathlib.Tactic.NormNum

/-! # Properties C17 and C18: the adjusted boxplot -/

namespace Robpy
open Spec

section
variable {K : Type} [Field K] [LinearOrder K] [IsStrictOrderedRing K]

theorem sorted_getD_mono {s : List K} (hs : s.Pairwise (· ≤ ·)) {i j : ℕ} (hij : i ≤ j)
    (hj : j < s.length) : s.getD i 0 ≤ s.getD j 0 := by
  rw [List.getD_eq_getElem _ _ (by omega), List.getD_eq_getElem _ _ hj]
  rcases hij.eq_or_lt with rfl | h
  · exact le_rfl
  · exact List.pairwise_iff_getElem.1 hs i j _ _ h

/-- Interpolation stays between its two neighbours. -/
theorem lerpAt_between {s : List K} (hs : s.Pairwise (· ≤ ·)) {den pos : ℕ} (hd : 0 < den)
    (hn : 0 < s.length) (hp : pos ≤ (s.length - 1) * den) :
    s.getD (pos / den) 0 ≤ lerpAt s den pos ∧
    lerpAt s den pos ≤ s.getD (min (pos / den + 1) (s.length - 1)) 0 := by
  have hi : pos / den ≤ s.length - 1 := Nat.div_le_of_le_mul (by rw [mul_comm]; exact hp)
  have h1 : s.getD (pos / den) 0 ≤ s.getD (min (pos / den + 1) (s.length - 1)) 0 :=
    sorted_getD_mono hs (by omega) (by omega)
  have hd' : (0:K) < den := by exact_mod_cast hd
  have hf0 : (0:K) ≤ ((pos % den : ℕ) : K) / den := by positivity
  have hf1 : ((pos % den : ℕ) : K) / den ≤ 1 := by
    rw [div_le_one hd']; exact_mod_cast (Nat.mod_lt _ hd).le
  unfold lerpAt
  simp only
  constructor <;> nlinarith

/-- Interpolation in a sorted array is monotone in the position. -/
theorem lerpAt_mono {s : List K} (hs : s.Pairwise (· ≤ ·)) {den p q : ℕ} (hd : 0 < den)
    (hn : 0 < s.length) (hpq : p ≤ q) (hq : q ≤ (s.length - 1) * den) :
    lerpAt s den p ≤ lerpAt s den q := by
  have hi : q / den ≤ s.length - 1 := Nat.div_le_of_le_mul (by rw [mul_comm]; exact hq)
  have hij : p / den ≤ q / den := Nat.div_le_div_right hpq
  rcases hij.eq_or_lt with h | h
  · have hmod : p % den ≤ q % den := by
      have := Nat.div_add_mod p den
      have := Nat.div_add_mod q den
      rw [h] at *
      omega
    have h1 : s.getD (q / den) 0 ≤ s.getD (min (q / den + 1) (s.length - 1)) 0 :=
      sorted_getD_mono hs (by omega) (by omega)
    have hd' : (0:K) < den := by exact_mod_cast hd
    have : ((p % den : ℕ) : K) / den ≤ ((q % den : ℕ) : K) / den :=
      div_le_div_of_nonneg_right (by exact_mod_cast hmod) hd'.le
    unfold lerpAt
    simp only [h]
    nlinarith
  · have h1 := (lerpAt_between hs hd hn (hpq.trans hq)).2
    have h2 := (lerpAt_between hs hd hn hq).1
    have h3 : s.getD (min (p / den + 1) (s.length - 1)) 0 ≤ s.getD (q / den) 0 :=
      sorted_getD_mono hs (by omega) (by omega)
    exact h1.trans (h3.trans h2)

/-- The median is the interpolated value at relative position 1/2. -/
theorem npMedian_eq_lerp {X : List K} (hX : 0 < X.length) :
    npMedian X = some (lerpAt (npSort X) 4 ((X.length - 1) * 2)) := by
  have hl := npSort_length X
  unfold npMedian
  simp only
  rw [if_neg (by omega)]
  split_ifs with h
  · have e1 : (X.length - 1) * 2 / 4 = X.length / 2 := by omega
    have e2 : (X.length - 1) * 2 % 4 = 0 := by omega
    unfold lerpAt
    simp only [e1, e2]
    rw [List.getElem?_eq_getElem (by omega), List.getD_eq_getElem _ _ (by omega)]
    simp
  · have e1 : (X.length - 1) * 2 / 4 = X.length / 2 - 1 := by omega
    have e2 : (X.length - 1) * 2 % 4 = 2 := by omega
    have e3 : min (X.length / 2 - 1 + 1) ((npSort X).length - 1) = X.length / 2 := by omega
    unfold lerpAt
    simp only [e1, e2, e3]
    rw [List.getElem?_eq_getElem (by omega), List.getElem?_eq_getElem (by omega),
      List.getD_eq_getElem _ _ (by omega), List.getD_eq_getElem _ _ (by omega)]
    simp only
    congr 1
    push_cast
    ring

theorem npMin_eq_sorted {X : List K} (hX : 0 < X.length) :
    npMin X = some ((npSort X).getD 0 0) ∧ npMax X = some ((npSort X).getD (X.length - 1) 0) := by
  have hl := npSort_length X
  have hp := npSort_perm X
  have hs := npSort_pairwise X
  constructor
  · unfold npMin
    rw [List.min?_eq_some_iff]
    constructor
    · rw [List.getD_eq_getElem _ _ (by omega)]
      exact hp.mem_iff.1 (List.getElem_mem _)
    · intro x hx
      obtain ⟨i, hi, rfl⟩ := List.getElem_of_mem (hp.mem_iff.2 hx)
      rw [← List.getD_eq_getElem _ (0:K) hi]
      exact sorted_getD_mono hs (by omega) hi
  · unfold npMax
    rw [List.max?_eq_some_iff]
    constructor
    · rw [List.getD_eq_getElem _ _ (by omega)]
      exact hp.mem_iff.1 (List.getElem_mem _)
    · intro x hx
      obtain ⟨i, hi, rfl⟩ := List.getElem_of_mem (hp.mem_iff.2 hx)
      rw [← List.getD_eq_getElem _ (0:K) hi]
      exact sorted_getD_mono hs (by omega) (by omega)

theorem lerpAt_zero (s : List K) (den : ℕ) : lerpAt s den 0 = s.getD 0 0 := by
  simp [lerpAt]

theorem lerpAt_last (s : List K) {den : ℕ} (hd : 0 < den) :
    lerpAt s den ((s.length - 1) * den) = s.getD (s.length - 1) 0 := by
  simp [lerpAt, Nat.mul_div_cancel _ hd]

/-- Order of all five statistics. -/
theorem quartiles_order (X : List K) (hX : X ≠ []) :
    ∃ m q1 q3 mn mx, npMedian X = some m ∧ percentile 1 4 X = some q1 ∧ percentile 3 4 X = some q3 ∧
      npMin X = some mn ∧ npMax X = some mx ∧ mn ≤ q1 ∧ q1 ≤ m ∧ m ≤ q3 ∧ q3 ≤ mx := by
  have hl : 0 < X.length := List.length_pos_iff.2 hX
  have hn := npSort_length X
  have hs := npSort_pairwise X
  refine ⟨_, _, _, _, _, npMedian_eq_lerp hl, by simp only [percentile]; rw [if_neg (by omega)],
    by simp only [percentile]; rw [if_neg (by omega)], (npMin_eq_sorted hl).1, (npMin_eq_sorted hl).2,
    ?_, ?_, ?_, ?_⟩
  · rw [← lerpAt_zero _ 4]
    exact lerpAt_mono hs (by omega) (by omega) (by omega) (by omega)
  · exact lerpAt_mono hs (by omega) (by omega) (by omega) (by omega)
  · exact lerpAt_mono hs (by omega) (by omega) (by omega) (by omega)
  · have := lerpAt_last (npSort X) (den := 4) (by omega)
    rw [hn] at this
    rw [← this]
    exact lerpAt_mono hs (by omega) (by omega) (by omega) (by omega)

end

/-- **C17**: for every non-empty column and every medcouple value the five statistics are ordered
and lie within the range of the data, and the fliers are exactly the observations outside the
whiskers. -/
theorem C17_order (mc : ℝ) (X : List ℝ) (hX : X ≠ []) :
    ∃ bp mn mx, boxplotColumn mc X = some bp ∧ (mn ∈ X ∧ mx ∈ X ∧ ∀ x ∈ X, mn ≤ x ∧ x ≤ mx) ∧
      mn ≤ bp.lowerWhisker ∧ bp.lowerWhisker ≤ bp.q1 ∧ bp.q1 ≤ bp.median ∧ bp.median ≤ bp.q3 ∧
      bp.q3 ≤ bp.upperWhisker ∧ bp.upperWhisker ≤ mx ∧
      (∀ x, x ∈ fliers bp X ↔ x ∈ X ∧ ¬ (bp.lowerWhisker ≤ x ∧ x ≤ bp.upperWhisker)) := by
  obtain ⟨m, q1, q3, mn, mx, hm, h1, h3, hmn, hmx, o1, o2, o3, o4⟩ := quartiles_order X hX
  have hiq : 0 ≤ q3 - q1 := by linarith
  have hlo : ∀ t : ℝ, q1 - 1.5 * Real.exp t * (q3 - q1) ≤ q1 := by
    intro t
    have := Real.exp_pos t
    have : 0 ≤ 1.5 * Real.exp t * (q3 - q1) := by positivity
    linarith
  have hup : ∀ t : ℝ, q3 ≤ q3 + 1.5 * Real.exp t * (q3 - q1) := by
    intro t
    have := Real.exp_pos t
    have : 0 ≤ 1.5 * Real.exp t * (q3 - q1) := by positivity
    linarith
  unfold boxplotColumn
  rw [hm, h1, h3, hmn, hmx]
  refine ⟨_, mn, mx, rfl, ⟨(List.min?_eq_some_iff.1 hmn).1, (List.max?_eq_some_iff.1 hmx).1,
    fun x hx => ⟨(List.min?_eq_some_iff.1 hmn).2 x hx, (List.max?_eq_some_iff.1 hmx).2 x hx⟩⟩,
    le_max_left _ _, max_le o1 (hlo _), o2, o3, le_min o4 (hup _), min_le_left _ _, ?_⟩
  intro x
  simp only [fliers, List.mem_filter, decide_eq_true_eq, not_and_or, not_le, gt_iff_lt]

/-- **C17** for a whole data matrix: one boxplot per column, in the order of the columns. -/
theorem C17_columns (mc : List ℝ → ℝ) (cols : List (List ℝ)) (h : ∀ X ∈ cols, X ≠ []) :
    ∃ bps, adjustedBoxplot mc cols = some bps ∧
      List.Forall₂ (fun X bp => boxplotColumn (mc X) X = some bp) cols bps := by
  unfold adjustedBoxplot
  induction cols with
  | nil => exact ⟨[], rfl, .nil⟩
  | cons X cols ih =>
    obtain ⟨bps, h1, h2⟩ := ih fun Y hY => h Y (by simp [hY])
    obtain ⟨bp, _, _, h3, _⟩ := C17_order (mc X) X (h X (by simp))
    refine ⟨bp :: bps, ?_, .cons h3 h2⟩
    rw [List.mapM_cons, h1, h3]
    rfl

example : ([3, 1, 2, 100] : List ℚ) ≠ [] ∧ percentile 1 4 ([3, 1, 2, 100] : List ℚ) = some (7/4) ∧
    percentile 3 4 ([3, 1, 2, 100] : List ℚ) = some (109/4) := by
  refine ⟨by decide, by decide +kernel, by decide +kernel⟩

/-! ## C18 -/

section
variable {K : Type} [Field K] [LinearOrder K] [IsStrictOrderedRing K]

omit [LinearOrder K] [IsStrictOrderedRing K] in
theorem getD_map_of_lt (f : K → K) (s : List K) {i : ℕ} (hi : i < s.length) :
    (s.map f).getD i 0 = f (s.getD i 0) := by
  rw [List.getD_eq_getElem _ _ (by simpa using hi), List.getD_eq_getElem _ _ hi, List.getElem_map]

theorem npSort_map_mono (f : K → K) (hf : Monotone f) (X : List K) :
    npSort (X.map f) = (npSort X).map f := by
  rw [npSort_eq_of_perm ((npSort_perm X).map _).symm]
  apply npSort_eq_self
  rw [List.pairwise_map]
  exact (npSort_pairwise X).imp (fun {x y} h => hf h)

theorem npSort_map_anti (f : K → K) (hf : Antitone f) (X : List K) :
    npSort (X.map f) = ((npSort X).map f).reverse := by
  rw [npSort_eq_of_perm (((npSort_perm X).map f).symm.trans (List.reverse_perm _).symm)]
  apply npSort_eq_self
  rw [List.pairwise_reverse, List.pairwise_map]
  exact (npSort_pairwise X).imp (fun {x y} h => hf h)

theorem lerpAt_map_affine (a b : K) (s : List K) {den pos : ℕ} (hd : 0 < den) (hn : 0 < s.length)
    (hp : pos ≤ (s.length - 1) * den) :
    lerpAt (s.map fun x => a * x + b) den pos = a * lerpAt s den pos + b := by
  have hi : pos / den ≤ s.length - 1 := Nat.div_le_of_le_mul (by rw [mul_comm]; exact hp)
  unfold lerpAt
  simp only [List.length_map]
  rw [getD_map_of_lt _ _ (by omega), getD_map_of_lt _ _ (by omega)]
  ring

omit [LinearOrder K] in
theorem getD_reverse_of_lt (s : List K) {i : ℕ} (hi : i < s.length) :
    s.reverse.getD i 0 = s.getD (s.length - 1 - i) 0 := by
  rw [List.getD_eq_getElem _ _ (by simpa using hi), List.getD_eq_getElem _ _ (by omega),
    List.getElem_reverse]

/-- Interpolating in the reversed array is interpolating from the other end. -/
theorem lerpAt_reverse (s : List K) {den pos : ℕ} (hd : 0 < den) (hn : 0 < s.length)
    (hp : pos ≤ (s.length - 1) * den) :
    lerpAt s.reverse den pos = lerpAt s den ((s.length - 1) * den - pos) := by
  have hd' : (den : K) ≠ 0 := by exact_mod_cast hd.ne'
  have hi : pos / den ≤ s.length - 1 := Nat.div_le_of_le_mul (by rw [mul_comm]; exact hp)
  have hdm := Nat.div_add_mod pos den
  have hml := Nat.mod_lt pos hd
  by_cases hr : pos % den = 0
  · have e : (s.length - 1) * den - pos = (s.length - 1 - pos / den) * den := by
      rw [hr, add_zero, mul_comm] at hdm
      rw [Nat.sub_mul (s.length - 1), hdm]
    rw [e]
    unfold lerpAt
    simp only [Nat.mul_div_cancel _ hd, Nat.mul_mod_left, hr, Nat.cast_zero, zero_div, zero_mul, add_zero]
    rw [getD_reverse_of_lt _ (by omega)]
  · have hi2 : pos / den + 1 ≤ s.length - 1 := by
      by_contra hc
      have : pos / den = s.length - 1 := by omega
      rw [this, mul_comm] at hdm
      omega
    have e : (s.length - 1) * den - pos = (s.length - 1 - (pos / den + 1)) * den + (den - pos % den) := by
      have h1 : (s.length - 1) * den = (s.length - 1 - (pos / den + 1)) * den + (pos / den + 1) * den := by
        rw [← Nat.add_mul]; congr 1; omega
      have h2 : (pos / den + 1) * den = den * (pos / den) + den := by ring
      omega
    have e1 : ((s.length - 1) * den - pos) / den = s.length - 1 - (pos / den + 1) := by
      rw [e, Nat.mul_comm, Nat.mul_add_div hd, Nat.div_eq_of_lt (a := den - pos % den) (by omega), add_zero]
    have e2 : ((s.length - 1) * den - pos) % den = den - pos % den := by
      rw [e, Nat.mul_comm, Nat.mul_add_mod, Nat.mod_eq_of_lt (by omega)]
    unfold lerpAt
    simp only [e1, e2, List.length_reverse]
    rw [getD_reverse_of_lt _ (by omega), getD_reverse_of_lt _ (by omega)]
    have e3 : min (pos / den + 1) (s.length - 1) = pos / den + 1 := by omega
    have e4 : min (s.length - 1 - (pos / den + 1) + 1) (s.length - 1) = s.length - 1 - pos / den := by
      clear e e1 e2 hdm hp
      generalize pos / den = i at *
      omega
    rw [e3, e4, Nat.cast_sub hml.le]
    field_simp
    ring

theorem npMinMax_map_mono (f : K → K) (hf : Monotone f) (X : List K) :
    npMin (X.map f) = (npMin X).map f ∧ npMax (X.map f) = (npMax X).map f := by
  rcases X with _ | ⟨y, ys⟩
  · exact ⟨rfl, rfl⟩
  · have hl : 0 < (y :: ys).length := by simp
    have hl' : 0 < ((y :: ys).map f).length := by simp
    rw [(npMin_eq_sorted hl').1, (npMin_eq_sorted hl).1, (npMin_eq_sorted hl').2, (npMin_eq_sorted hl).2,
      npSort_map_mono f hf]
    simp only [Option.map_some]
    rw [getD_map_of_lt _ _ (by rw [npSort_length]; exact hl), List.length_map,
      getD_map_of_lt _ _ (by rw [npSort_length]; omega)]
    exact ⟨rfl, rfl⟩

theorem npMinMax_map_anti (f : K → K) (hf : Antitone f) (X : List K) :
    npMin (X.map f) = (npMax X).map f ∧ npMax (X.map f) = (npMin X).map f := by
  rcases X with _ | ⟨y, ys⟩
  · exact ⟨rfl, rfl⟩
  · have hl : 0 < (y :: ys).length := by simp
    have hl' : 0 < ((y :: ys).map f).length := by simp
    have hn := npSort_length (y :: ys)
    rw [(npMin_eq_sorted hl').1, (npMin_eq_sorted hl).1, (npMin_eq_sorted hl').2, (npMin_eq_sorted hl).2,
      npSort_map_anti f hf]
    simp only [Option.map_some]
    rw [getD_reverse_of_lt _ (by simp [hn]), getD_reverse_of_lt _ (by simp [hn]),
      getD_map_of_lt _ _ (by simp [hn]), getD_map_of_lt _ _ (by simp [hn])]
    simp [hn]

theorem percentile_affine {a : K} (ha : 0 ≤ a) (b : K) (num den : ℕ) (hd : 0 < den) (hnd : num ≤ den)
    (X : List K) :
    percentile num den (X.map fun x => a * x + b) = (percentile num den X).map fun q => a * q + b := by
  unfold percentile
  rw [List.length_map]
  split_ifs with h
  · rfl
  · rw [npSort_map_mono _ (fun x y hxy => by
      have := mul_le_mul_of_nonneg_left hxy ha; linarith)]
    rw [lerpAt_map_affine a b _ hd (by rw [npSort_length]; omega)
      (by rw [npSort_length]; exact Nat.mul_le_mul_left _ hnd)]
    rfl

theorem percentile_neg (num den : ℕ) (hd : 0 < den) (hnd : num ≤ den) (X : List K) :
    percentile num den (X.map fun x => -x) = (percentile (den - num) den X).map fun q => -q := by
  unfold percentile
  rw [List.length_map]
  split_ifs with h
  · rfl
  · have e : (fun x : K => -x) = fun x => (-1) * x + 0 := by funext x; ring
    have hn := npSort_length X
    rw [npSort_map_anti _ (fun x y hxy => by simpa using hxy), lerpAt_reverse _ hd (by simp [hn]; omega)
      (by simp only [List.length_map, hn]; exact Nat.mul_le_mul_left _ hnd), e,
      lerpAt_map_affine _ _ _ hd (by omega) (by simp only [List.length_map, hn]; omega)]
    simp only [List.length_map, hn, Option.map_some]
    rw [← Nat.mul_sub]

end

/-- **C18**, increasing affine maps: the boxplot of `a*X+b` is the image of the boxplot of `X`
(the medcouple is invariant under such maps: same `mc`). -/
theorem C18_affine (mc : ℝ) {a : ℝ} (ha : 0 < a) (b : ℝ) (X : List ℝ) :
    boxplotColumn mc (X.map fun x => a * x + b) = (boxplotColumn mc X).map fun bp =>
      { median := a * bp.median + b, q1 := a * bp.q1 + b, q3 := a * bp.q3 + b,
        upperWhisker := a * bp.upperWhisker + b, lowerWhisker := a * bp.lowerWhisker + b } := by
  have hmono : Monotone fun x : ℝ => a * x + b := fun x y hxy => by
    have := mul_le_mul_of_nonneg_left hxy ha.le; simp only; linarith
  have hmm := npMinMax_map_mono _ hmono X
  unfold boxplotColumn
  rw [npMedian_affine, percentile_affine ha.le b 1 4 (by norm_num) (by norm_num),
    percentile_affine ha.le b 3 4 (by norm_num) (by norm_num), hmm.1, hmm.2]
  rcases npMedian X with _ | m
  · rfl
  rcases percentile 1 4 X with _ | q1
  · rfl
  rcases percentile 3 4 X with _ | q3
  · rfl
  rcases npMin X with _ | mn
  · rfl
  rcases npMax X with _ | mx
  · rfl
  simp only [Option.map_some]
  congr 2
  · rw [hmono.map_min]
    congr 1
    ring
  · rw [hmono.map_max]
    congr 1
    ring

/-- **C18**, reflection: the boxplot of `-X` (whose medcouple is `-mc`) is the mirror image. -/
theorem C18_reflection (mc : ℝ) (X : List ℝ) :
    boxplotColumn (-mc) (X.map fun x => -x) = (boxplotColumn mc X).map fun bp =>
      { median := -bp.median, q1 := -bp.q3, q3 := -bp.q1,
        upperWhisker := -bp.lowerWhisker, lowerWhisker := -bp.upperWhisker } := by
  have hanti : Antitone fun x : ℝ => -x := fun x y hxy => by simpa using hxy
  have hmm := npMinMax_map_anti _ hanti X
  have hmed : npMedian (X.map fun x => -x) = (npMedian X).map fun m => -m := by
    have := npMedian_affine (-1 : ℝ) 0 X
    simpa using this
  have e1 : (if -mc ≥ 0 then (-4:ℝ) else -3) * -mc = (if mc ≥ 0 then 3 else 4) * mc := by
    split_ifs with h1 h2 h2
    · have : mc = 0 := by linarith
      rw [this]; ring
    · ring
    · ring
    · linarith
  have e2 : (if -mc ≥ 0 then (3:ℝ) else 4) * -mc = (if mc ≥ 0 then -4 else -3) * mc := by
    split_ifs with h1 h2 h2
    · have : mc = 0 := by linarith
      rw [this]; ring
    · ring
    · ring
    · linarith
  unfold boxplotColumn
  rw [hmed, percentile_neg 1 4 (by norm_num) (by norm_num), percentile_neg 3 4 (by norm_num) (by norm_num),
    hmm.1, hmm.2, e1, e2]
  norm_num only
  rcases npMedian X with _ | m
  · rfl
  rcases percentile 1 4 X with _ | q1
  · rcases percentile 3 4 X with _ | q3 <;> rfl
  rcases percentile 3 4 X with _ | q3
  · rfl
  rcases npMin X with _ | mn
  · rcases npMax X with _ | mx <;> rfl
  rcases npMax X with _ | mx
  · rfl
  simp only [Option.map_some]
  congr 2
  · rw [← min_neg_neg]
    congr 1
    ring
  · rw [← max_neg_neg]
    congr 1
    ring

example : (0:ℝ) < 2 := by norm_num

end Robpy
