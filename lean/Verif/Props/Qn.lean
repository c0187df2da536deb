import Verif.Lemmas.Qn2
import Mathlib.Data.Nat.Choose.Basic
import Mathlib.Algebra.Order.Ring.Rat
import Mathlib.Tactic.NormNum
import Mathlib.Tactic.IntervalCases

/-!
# Properties C01, C02, C05, C10: `Qn` and `weighted_median`

All statements are for an arbitrary linearly ordered field `K` (in particular ℝ and ℚ).
-/

namespace Robpy
open Spec

variable {K : Type} [Field K] [LinearOrder K] [IsStrictOrderedRing K]

/-! ## C02: weighted_median -/

/-- **C02**: for non-negative weights of positive total, `weighted_median` terminates (Lean
accepts the recursion), does not raise, and returns a weighted median. -/
theorem C02_weighted_median {W : Type} [CommRing W] [LinearOrder W] [IsStrictOrderedRing W]
    (xs : List (K × W)) (hpos : ∀ q ∈ xs, 0 ≤ q.2) (htot : 0 < (xs.map Prod.snd).sum) :
    ∃ v, weightedMedian xs = .ok v ∧ v ∈ xs.map Prod.fst ∧ IsWeightedMedian xs v := by
  obtain ⟨v, h, hm, h1, h2, h3⟩ := weightedMedianLoop_spec (xs.map Prod.snd).sum xs 0 hpos
    (by simpa using htot.le) (by linarith)
  rw [zero_add] at h2 h3
  exact ⟨v, h, hm, h1, h2, h3⟩

/-- The weighted median is unique, so C02 determines the returned number; in particular it
does not depend on the order of the observations. -/
theorem C02_unique {W : Type} [CommRing W] [LinearOrder W] [IsStrictOrderedRing W]
    (xs : List (K × W)) (hpos : ∀ q ∈ xs, 0 ≤ q.2) {v w : K}
    (hv : IsWeightedMedian xs v) (hw : IsWeightedMedian xs w) : v = w := by
  by_contra hne
  wlog hlt : v < w generalizing v w
  · exact this hw hv (Ne.symm hne) (lt_of_le_of_ne (not_lt.1 hlt) (Ne.symm hne))
  have hmono : weightOf (fun x => decide (x ≤ v)) xs ≤ weightOf (fun x => decide (x < w)) xs := by
    clear hv hw
    induction xs with
    | nil => simp [weightOf_nil]
    | cons q xs ih =>
      have ih' := ih (fun r hr => hpos r (by simp [hr]))
      have hq := hpos q (by simp)
      rw [weightOf_cons, weightOf_cons]
      by_cases h1 : q.1 ≤ v
      · have : q.1 < w := lt_of_le_of_lt h1 hlt
        simp only [h1, this, decide_true, if_true]
        linarith
      · simp only [h1, decide_false, Bool.false_eq_true, if_false]
        split_ifs <;> linarith
  have a1 := hv.2.2
  have a2 := hw.2.1
  linarith

/-- Error branch of C02: no candidates at all raises IndexError. -/
theorem C02_empty {W : Type} [CommRing W] [LinearOrder W] :
    weightedMedian ([] : List (K × W)) = .error .indexError := by
  simp [weightedMedian, weightedMedianLoop]

example : ∃ v, weightedMedian ([(3, 1), (1, 2), (2, 0), (7, 4)] : List (ℚ × ℤ)) = .ok v ∧
    v ∈ ([(3, 1), (1, 2), (2, 0), (7, 4)] : List (ℚ × ℤ)).map Prod.fst ∧
    IsWeightedMedian ([(3, 1), (1, 2), (2, 0), (7, 4)] : List (ℚ × ℤ)) v :=
  C02_weighted_median _ (by decide) (by decide)

/-- The specification is met by 7 in the example and by no other listed value. -/
example : IsWeightedMedian ([(3, 1), (1, 2), (2, 0), (7, 4)] : List (ℚ × ℤ)) 7 ∧
    ¬ IsWeightedMedian ([(3, 1), (1, 2), (2, 0), (7, 4)] : List (ℚ × ℤ)) 3 := by
  constructor
  · unfold IsWeightedMedian; decide
  · unfold IsWeightedMedian; decide

/-! ## C01: Qn is the exact order statistic -/

/-- **C01**: without corrections Qn is the `C(h,2)`-th smallest pairwise distance,
`h = n // 2 + 1`; the loop stops after at most `n²` iterations. -/
theorem C01_qn_exact (X : List K) (hX : 2 ≤ X.length) (fuel : ℕ)
    (hf : X.length * X.length < fuel) :
    ∃ v, qnScale false false fuel X = some (.ok v) ∧
      IsKthSmallest ((X.length / 2 + 1).choose 2) (pairDists X) v := by
  obtain ⟨v, h1, h2⟩ := qnRaw_spec X hX fuel hf
  refine ⟨v, ?_, ?_⟩
  · simp [qnScale, h1]
  · rwa [Nat.choose_two_right]

/-- The small sample factor exists for every `n ≥ 2` and lies strictly between 0 and 1; for
`n < 2` Python's `None` is returned. -/
theorem C01_dn_range (n : ℕ) (hn : 2 ≤ n) :
    ∃ d, smallSampleDn (K := K) n = some d ∧ 0 < d ∧ d < 1 := by
  unfold smallSampleDn
  split_ifs with h1 h2
  · interval_cases n <;> refine ⟨_, rfl, ?_, ?_⟩ <;> norm_num
  · have hp : (0:K) < n := by exact_mod_cast (by omega : 0 < n)
    refine ⟨_, rfl, by positivity, ?_⟩
    rw [div_lt_one (by positivity)]
    linarith [show (0:K) < 14 / 10 by norm_num]
  · have hp : (0:K) < n := by exact_mod_cast (by omega : 0 < n)
    refine ⟨_, rfl, by positivity, ?_⟩
    rw [div_lt_one (by positivity)]
    linarith [show (0:K) < 38 / 10 by norm_num]

/-- **C01**, corrections: the reported scale is the order statistic times `dn(n)` (if
requested) times 2.219144 (if requested). -/
theorem C01_qn_corrected (fc cc : Bool) (X : List K) (hX : 2 ≤ X.length) (fuel : ℕ)
    (hf : X.length * X.length < fuel) :
    ∃ v d, IsKthSmallest ((X.length / 2 + 1).choose 2) (pairDists X) v ∧
      smallSampleDn (K := K) X.length = some d ∧
      qnScale fc cc fuel X =
        some (.ok ((if cc then 2.219144 else 1) * ((if fc then d else 1) * v))) := by
  obtain ⟨v, h1, h2⟩ := qnRaw_spec X hX fuel hf
  obtain ⟨d, hd, -, -⟩ := C01_dn_range (K := K) X.length hX
  refine ⟨v, d, by rwa [Nat.choose_two_right], hd, ?_⟩
  have e : (2219144 / 1000000 : K) = 2.219144 := by norm_num
  cases fc <;> cases cc <;> simp [qnScale, h1, hd, e]

/-- Error branch of C01: for fewer than two observations Qn raises ValueError. -/
theorem C01_qn_small (fc cc : Bool) (X : List K) (hX : X.length < 2) (fuel : ℕ) (hf : 0 < fuel) :
    qnScale fc cc fuel X = some (.error .valueError) := by
  obtain ⟨f, rfl⟩ : ∃ f, fuel = f + 1 := ⟨fuel - 1, by omega⟩
  have : X.length = 0 ∨ X.length = 1 := by omega
  rcases this with h | h <;>
    simp [qnScale, qnRaw, h, runLoop, qnStep, qnInit, qnFinish, qnFinalWork, npPartitionMax,
      pure, Except.pure, bind, Except.bind]

example : 2 ≤ ([1, 5, 2, 2, -3] : List ℚ).length ∧
    IsKthSmallest (Nat.choose 3 2) (pairDists ([1, 5, 2, 2, -3] : List ℚ)) 1 := by
  refine ⟨by decide, ?_⟩
  unfold IsKthSmallest; decide +kernel

/-! ## C05: equivariance -/

theorem pairDists_affine (a b : K) (X : List K) :
    pairDists (X.map fun x => a * x + b) = (pairDists X).map fun d => |a| * d := by
  induction X with
  | nil => rfl
  | cons x X ih =>
    simp only [List.map_cons, pairDists, ih, List.map_append, List.map_map]
    congr 1
    apply List.map_congr_left
    intro y _
    simp only [Function.comp]
    rw [← abs_mul]
    congr 1
    ring

theorem isKth_scale {k : ℕ} {xs : List K} {v : K} (h : IsKthSmallest k xs v) (c : K) (hc : 0 ≤ c) :
    IsKthSmallest k (xs.map fun d => c * d) (c * v) := by
  unfold IsKthSmallest at h ⊢
  rw [List.countP_map, List.countP_map]
  rcases hc.eq_or_lt with h0 | h0
  · subst h0
    have hr := isKth_range h
    constructor
    · rw [List.countP_eq_zero.2]
      · omega
      · intro x _; simp
    · rw [List.countP_eq_length.2]
      · exact hr.2
      · intro x _; simp
  · have e1 : ((fun x => decide (x < c * v)) ∘ fun d => c * d) = fun x => decide (x < v) := by
      funext x
      simp only [Function.comp]
      congr 1
      apply propext
      exact mul_lt_mul_iff_of_pos_left h0
    have e2 : ((fun x => decide (x ≤ c * v)) ∘ fun d => c * d) = fun x => decide (x ≤ v) := by
      funext x
      simp only [Function.comp]
      congr 1
      apply propext
      exact mul_le_mul_iff_of_pos_left h0
    rw [e1, e2]
    exact h

/-- **C05**, location invariance and scale equivariance, for every choice of corrections. -/
theorem C05_affine (fc cc : Bool) (X : List K) (hX : 2 ≤ X.length) (a b : K) (fuel : ℕ)
    (hf : X.length * X.length < fuel) :
    ∃ s, qnScale fc cc fuel X = some (.ok s) ∧
      qnScale fc cc fuel (X.map fun x => a * x + b) = some (.ok (|a| * s)) := by
  obtain ⟨v, d, hv, hd, hs⟩ := C01_qn_corrected fc cc X hX fuel hf
  obtain ⟨v', d', hv', hd', hs'⟩ := C01_qn_corrected fc cc (X.map fun x => a * x + b)
    (by simpa using hX) fuel (by simpa using hf)
  rw [List.length_map] at hv' hd'
  rw [pairDists_affine] at hv'
  have hvv := isKth_unique hv' (isKth_scale hv |a| (abs_nonneg a))
  have hdd : d' = d := by rw [hd] at hd'; exact (Option.some.inj hd').symm
  refine ⟨_, hs, ?_⟩
  rw [hs', hvv, hdd]
  congr 2
  ring

/-- **C05**, order independence. -/
theorem C05_perm (fc cc : Bool) (X Y : List K) (h : X.Perm Y) (fuel : ℕ) :
    qnScale fc cc fuel X = qnScale fc cc fuel Y := by
  have h1 : npSort X = npSort Y := npSort_eq_of_perm h
  have h2 : X.length = Y.length := h.length_eq
  simp only [qnScale, qnRaw, h1, h2]

theorem pairDists_nonneg (X : List K) : ∀ d ∈ pairDists X, 0 ≤ d := by
  induction X with
  | nil => simp [pairDists]
  | cons x X ih =>
    intro d hd
    simp only [pairDists, List.mem_append, List.mem_map] at hd
    rcases hd with ⟨y, _, rfl⟩ | hd
    · exact abs_nonneg _
    · exact ih d hd

/-- **C05**, the scale is never negative. -/
theorem C05_nonneg (fc cc : Bool) (X : List K) (hX : 2 ≤ X.length) (fuel : ℕ)
    (hf : X.length * X.length < fuel) :
    ∃ s, qnScale fc cc fuel X = some (.ok s) ∧ 0 ≤ s := by
  obtain ⟨v, d, hv, hd, hs⟩ := C01_qn_corrected fc cc X hX fuel hf
  obtain ⟨d', hd', h0, -⟩ := C01_dn_range (K := K) X.length hX
  rw [hd] at hd'
  cases hd'
  refine ⟨_, hs, ?_⟩
  have := pairDists_nonneg X v (isKth_mem hv)
  apply mul_nonneg
  · split_ifs <;> norm_num
  · apply mul_nonneg _ this
    split_ifs
    · exact h0.le
    · norm_num

example : 2 ≤ ([1, 5, 2, 2, -3] : List ℚ).length ∧ ([1, 5, 2, 2, -3] : List ℚ).Perm [5, 1, -3, 2, 2] := by
  decide

/-! ## C10: explosion -/

theorem countP_pairDists_ge (X : List K) (lo L : K) :
    (X.countP fun x => decide (lo ≤ x ∧ x ≤ lo + L)).choose 2 ≤
      (pairDists X).countP fun d => decide (d ≤ L) := by
  induction X with
  | nil => simp [pairDists]
  | cons x X ih =>
    rw [List.countP_cons]
    simp only [pairDists, List.countP_append]
    by_cases hx : lo ≤ x ∧ x ≤ lo + L
    · simp only [hx, and_self, decide_true, if_true]
      rw [Nat.choose_succ_succ' _ 1, Nat.choose_one_right, show 1 + 1 = 2 from rfl]
      have : X.countP (fun x => decide (lo ≤ x ∧ x ≤ lo + L)) ≤
          (X.map fun y => |x - y|).countP fun d => decide (d ≤ L) := by
        rw [List.countP_map]
        apply List.countP_mono_left
        intro y _ hy
        simp only [decide_eq_true_eq, Function.comp] at hy ⊢
        rw [abs_le]
        constructor <;> linarith [hx.1, hx.2, hy.1, hy.2]
      omega
    · simp only [hx, decide_false, Bool.false_eq_true, if_false, add_zero]
      omega

/-- **C10**: if at least `h = n // 2 + 1` observations lie in an interval of length `L`, the
uncorrected Qn is at most `L`, whatever the other observations are. -/
theorem C10_no_explosion (X : List K) (hX : 2 ≤ X.length) (lo L : K)
    (hgood : X.length / 2 + 1 ≤ X.countP fun x => decide (lo ≤ x ∧ x ≤ lo + L)) (fuel : ℕ)
    (hf : X.length * X.length < fuel) :
    ∃ v, qnScale false false fuel X = some (.ok v) ∧ 0 ≤ v ∧ v ≤ L := by
  obtain ⟨v, hs, hv⟩ := C01_qn_exact X hX fuel hf
  refine ⟨v, hs, pairDists_nonneg X v (isKth_mem hv), ?_⟩
  by_contra hlt
  push Not at hlt
  have h1 := countP_pairDists_ge X lo L
  have h2 : ((X.length / 2 + 1).choose 2) ≤ (X.countP fun x => decide (lo ≤ x ∧ x ≤ lo + L)).choose 2 :=
    Nat.choose_le_choose 2 hgood
  have h3 : ((pairDists X).countP fun d => decide (d ≤ L)) ≤ (pairDists X).countP fun d => decide (d < v) := by
    apply List.countP_mono_left
    intro d _ hd
    simp only [decide_eq_true_eq] at hd ⊢
    exact lt_of_le_of_lt hd hlt
  have h4 := hv.1
  omega

/-- Two wild outliers among five observations: the hypothesis of C10 holds with `L = 4`. -/
example : 2 ≤ ([1, 1000000, 2, 5, -3000000] : List ℚ).length ∧
    ([1, 1000000, 2, 5, -3000000] : List ℚ).length / 2 + 1 ≤
      ([1, 1000000, 2, 5, -3000000] : List ℚ).countP fun x => decide (1 ≤ x ∧ x ≤ 1 + 4) := by
  decide +kernel

end Robpy
