import Verif.Lemmas.Stats
import Mathlib.Algebra.Order.Floor.Ring
import Mathlib.Data.Rat.Floor
import Mathlib.Algebra.Order.Ring.Rat
import Mathlib.Data.Multiset.Count
import Mathlib.Data.Multiset.Filter
import Mathlib.Tactic.NormNum
import Mathlib.Tactic.Positivity

/-! # Properties C03, C04, C06, C11, C16: `UnivariateMCD` -/

namespace Robpy
open Spec

/-! ## C04: subset size -/
section C04
variable {K : Type} [Field K] [LinearOrder K] [IsStrictOrderedRing K] [FloorSemiring K]

/-- **C04**: whatever `alpha`, an accepted subset size is between `n // 2 + 1` and `n`. -/
theorem C04_range (alpha : Alpha K) (n h : ℕ) (hn : 1 ≤ n) (hh : setHSize alpha n = .ok h) :
    n / 2 + 1 ≤ h ∧ h ≤ n := by
  unfold setHSize at hh
  rcases alpha with _ | z | a
  · simp only [Except.ok.injEq] at hh
    omega
  · simp only at hh
    split_ifs at hh with h1 h2 <;> simp only [Except.ok.injEq] at hh <;> omega
  · simp only at hh
    split_ifs at hh with h1
    simp only [Except.ok.injEq] at hh
    have ha : a ≤ 1 := by
      rcases h1 with h1 | h1
      · exact h1.2
      · exact h1.le
    have : ⌊a * n⌋₊ ≤ n := by
      apply Nat.floor_le_of_le
      have : (0:K) ≤ n := by positivity
      nlinarith
    omega

/-- **C04**, error branch: ValueError is raised exactly for integers outside `[n/2, n]` other
than 1 and for floats outside `[0.5, 1]`; no other error occurs. -/
theorem C04_error (alpha : Alpha K) (n : ℕ) (e : PyErr) :
    setHSize alpha n = .error e ↔ e = .valueError ∧
      ((∃ z, alpha = .int z ∧ (2 * z < n ∨ (n : ℤ) < z) ∧ z ≠ 1) ∨
       (∃ a, alpha = .float a ∧ (a < 1 / 2 ∨ 1 < a))) := by
  unfold setHSize
  rcases alpha with _ | z | a
  · simp
  · simp only [Alpha.int.injEq, reduceCtorEq, false_and, exists_false, or_false, exists_eq_left']
    split_ifs with h1 h2
    · simp only [reduceCtorEq, false_iff]; omega
    · simp only [reduceCtorEq, false_iff]; omega
    · simp only [Except.error.injEq]
      constructor
      · intro h; exact ⟨h.symm, by omega, h2⟩
      · intro h; exact h.1.symm
  · simp only [reduceCtorEq, false_and, exists_false, false_or, Alpha.float.injEq, exists_eq_left']
    split_ifs with h1
    · simp only [reduceCtorEq, false_iff, not_and, not_or, not_lt]
      intro _
      rcases h1 with h1 | h1
      · exact h1
      · rw [h1]; norm_num
    · simp only [Except.error.injEq]
      push Not at h1
      constructor
      · intro h
        refine ⟨h.symm, ?_⟩
        by_contra hc
        push Not at hc
        exact absurd (h1.1 hc.1) (not_lt.2 hc.2)
      · intro h; exact h.1.symm

/-- **C04**: `alpha = 1` (int or float) always means the full sample. -/
theorem C04_one (n : ℕ) (hn : 1 ≤ n) :
    setHSize (K := K) (.int 1) n = .ok n ∧ setHSize (K := K) (.float 1) n = .ok n := by
  constructor
  · simp only [setHSize]
    split_ifs with h1
    · congr 1; omega
    · congr 1; omega
  · simp only [setHSize]
    rw [if_pos (Or.inr trivial)]
    simp only [one_mul, Nat.floor_natCast]
    congr 1; omega

/-- **C04**: an integer of at least `n // 2 + 1` is used as it is; a float is used as the
proportion, rounded down, whenever that is at least `n // 2 + 1`. -/
theorem C04_values (n : ℕ) :
    (∀ z : ℕ, n / 2 + 1 ≤ z → z ≤ n → setHSize (K := K) (.int z) n = .ok z) ∧
    (∀ a : K, 1 / 2 ≤ a → a ≤ 1 → n / 2 + 1 ≤ ⌊a * n⌋₊ →
      ∃ h : ℕ, setHSize (K := K) (.float a) n = .ok h ∧ (h : K) ≤ a * n ∧ a * n < h + 1) := by
  constructor
  · intro z h1 h2
    simp only [setHSize]
    rw [if_pos (by omega)]
    congr 1; omega
  · intro a h1 h2 h3
    refine ⟨⌊a * n⌋₊, ?_, ?_, ?_⟩
    · simp only [setHSize]
      rw [if_pos (Or.inl ⟨h1, h2⟩)]
      congr 1; omega
    · apply Nat.floor_le
      have : (0:K) ≤ n := by positivity
      have : (0:K) ≤ a := le_trans (by norm_num) h1
      positivity
    · exact Nat.lt_floor_add_one _

example : setHSize (K := ℚ) (.float (3/4)) 10 = .ok 7 ∧ setHSize (K := ℚ) (.int 4) 10 = .error .valueError ∧
    setHSize (K := ℚ) (.int 5) 10 = .ok 6 := by
  refine ⟨?_, by decide, by decide⟩
  have : ⌊(3/4:ℚ) * (10:ℕ)⌋₊ = 7 := by
    rw [Nat.floor_eq_iff (by norm_num)]; norm_num
  simp only [setHSize, this]
  norm_num

end C04

variable {K : Type} [Field K] [LinearOrder K] [IsStrictOrderedRing K]

/-! ## C03: global optimality -/

/-- **C03**: the raw variance is a lower bound for the variance of *every* `h`-element
sub-collection of the data and is attained by one whose mean is the raw location. -/
theorem C03_global_optimum (h : ℕ) (X : List K) (h0 : 0 < h) (hn : h ≤ X.length) :
    ∃ v l, rawEstimates h X = some (v, l) ∧
      (∃ W ≤ (X : Multiset K), Multiset.card W = h ∧ popVar W = v ∧ avg W = l) ∧
      ∀ H ≤ (X : Multiset K), Multiset.card H = h → v ≤ popVar H := by
  obtain ⟨v, l, W, e, w1, w2, w3, w4, w5⟩ := rawEstimates_spec h X h0 hn
  exact ⟨v, l, e, ⟨W, w1, w2, w3, w4⟩, w5⟩

example : 0 < 3 ∧ 3 ≤ ([7, 1, 2, 100, 3] : List ℚ).length ∧
    rawEstimates 3 ([7, 1, 2, 100, 3] : List ℚ) = some (2/3, 2) := by
  refine ⟨by decide, by decide, by decide +kernel⟩

/-! ## C06: equivariance -/

omit [LinearOrder K] in
theorem mean_map_affine [LinearOrder K] [IsStrictOrderedRing K] (a b : K) (xs : List K) (h : 0 < xs.length) :
    mean (xs.map fun x => a * x + b) = a * mean xs + b := by
  have hsum : (xs.map fun x => a * x + b).sum = a * xs.sum + xs.length * b := by
    clear h
    induction xs with
    | nil => simp
    | cons x xs ih => simp only [List.map_cons, List.sum_cons, ih, List.length_cons]; push_cast; ring
  have hc : (xs.length : K) ≠ 0 := by exact_mod_cast h.ne'
  unfold mean
  rw [hsum, List.length_map]
  field_simp

theorem var_map_affine (a b : K) (xs : List K) :
    var (xs.map fun x => a * x + b) = a ^ 2 * var xs := by
  rcases Nat.eq_zero_or_pos xs.length with h | h
  · rw [List.length_eq_zero_iff] at h; subst h; simp [var, mean]
  · unfold var
    rw [mean_map_affine a b xs h, List.map_map]
    have : ((fun x => (x - (a * mean xs + b)) ^ 2) ∘ fun x => a * x + b) =
        fun x => a ^ 2 * (x - mean xs) ^ 2 + 0 := by
      funext x; simp only [Function.comp]; ring
    rw [this]
    have h2 := mean_map_affine (a ^ 2) 0 (xs.map fun x => (x - mean xs) ^ 2) (by simpa using h)
    rw [List.map_map] at h2
    have h3 : ((fun x => a ^ 2 * x + 0) ∘ fun x => (x - mean xs) ^ 2) =
        fun x => a ^ 2 * (x - mean xs) ^ 2 + 0 := by funext x; rfl
    rw [h3] at h2
    rw [h2, add_zero]

theorem npSort_map_affine {a : K} (ha : 0 < a) (b : K) (xs : List K) :
    npSort (xs.map fun x => a * x + b) = (npSort xs).map fun x => a * x + b := by
  rw [npSort_eq_of_perm ((npSort_perm xs).map _).symm]
  apply npSort_eq_self
  rw [List.pairwise_map]
  exact (npSort_pairwise xs).imp (fun {x y} h => by nlinarith)

theorem window_map (f : K → K) (s : List K) (h i : ℕ) :
    window (s.map f) h i = (window s h i).map f := by
  simp [window]

theorem rawFold_affine {a : K} (ha : 0 < a) (b : K) (s : List K) (h : ℕ) (l : List ℕ)
    (st : Option K × ℕ) :
    l.foldl (rawStep (s.map fun x => a * x + b) h) (st.1.map (a ^ 2 * ·), st.2) =
      (((l.foldl (rawStep s h) st).1).map (a ^ 2 * ·), (l.foldl (rawStep s h) st).2) := by
  induction l generalizing st with
  | nil => rfl
  | cons i l ih =>
    rw [List.foldl_cons, List.foldl_cons, ← ih]
    congr 1
    unfold rawStep
    rw [window_map, var_map_affine]
    rcases st with ⟨_ | w, j⟩
    · rfl
    · simp only [Option.map_some]
      have ha2 : 0 < a ^ 2 := by positivity
      by_cases hlt : var (window s h i) < w
      · rw [if_pos ((mul_lt_mul_iff_of_pos_left ha2).2 hlt), if_pos hlt]; rfl
      · rw [if_neg (fun hx => hlt ((mul_lt_mul_iff_of_pos_left ha2).1 hx)), if_neg hlt]
        rfl

theorem rawEstimates_affine {a : K} (ha : 0 < a) (b : K) (h : ℕ) (X : List K) (h0 : 0 < h)
    (hn : h ≤ X.length) :
    rawEstimates h (X.map fun x => a * x + b) =
      (rawEstimates h X).map fun r => (a ^ 2 * r.1, a * r.2 + b) := by
  obtain ⟨v, h1, h2, h3, -, h5⟩ := rawFold_spec (npSort X) h (List.range (X.length - h + 1)) (none, 1)
    (by simp) (Or.inl (by simp))
  have hfold := rawFold_affine ha b (npSort X) h (List.range (X.length - h + 1)) (none, 1)
  simp only [Option.map_none] at hfold
  simp only [rawEstimates, npSort_map_affine ha, List.length_map, hfold, h1, Option.map_some, window_map]
  rw [mean_map_affine]
  rcases h5 with h5 | h5
  · rw [window_length]
    · exact h0
    · rw [npSort_length]
      rw [List.mem_range] at h5
      omega
  · rw [h5] at h1; simp at h1

theorem reweighting_affine {a : K} (ha : 0 < a) (b cutoff : K) (corr : K → K) (rv rl : K) (X : List K) :
    reweighting cutoff corr (a ^ 2 * rv) (a * rl + b) (X.map fun x => a * x + b) =
      (reweighting cutoff corr rv rl X).map fun r => (a ^ 2 * r.1, a * r.2 + b) := by
  have hmask : ∀ x, rewMask cutoff (a * rl + b) (a ^ 2 * rv) (a * x + b) = rewMask cutoff rl rv x := by
    intro x
    unfold rewMask
    have ha2 : a ^ 2 ≠ 0 := by positivity
    by_cases hv : rv = 0
    · simp [hv]
    · rw [if_neg (mul_ne_zero ha2 hv), if_neg hv]
      have : (a * x + b - (a * rl + b)) ^ 2 / (a ^ 2 * rv) = (x - rl) ^ 2 / rv := by
        field_simp
        ring
      rw [this]
  have hsel : (X.map fun x => a * x + b).filter (rewMask cutoff (a * rl + b) (a ^ 2 * rv)) =
      (X.filter (rewMask cutoff rl rv)).map fun x => a * x + b := by
    rw [List.filter_map]
    congr 1
    apply List.filter_congr
    intro x _
    simp only [Function.comp]
    exact hmask x
  unfold reweighting
  simp only [hsel, List.length_map]
  split_ifs with h0
  · rfl
  · rw [var_map_affine, mean_map_affine _ _ _ (Nat.pos_of_ne_zero h0)]
    simp only [Option.map_some]
    congr 2
    ring

/-- **C06**, affine equivariance of all estimates for `a > 0`. -/
theorem C06_affine {a : K} (ha : 0 < a) (b cutoff : K) (corrRaw : ℕ → ℕ → K) (corr : K → K)
    (h : ℕ) (X : List K) (h0 : 0 < h) (hn : h ≤ X.length) :
    mcdCalculate cutoff corrRaw corr h (X.map fun x => a * x + b) =
      (mcdCalculate cutoff corrRaw corr h X).map fun r =>
        { rawVariance := a ^ 2 * r.rawVariance, rawLocation := a * r.rawLocation + b,
          variance := r.variance.map (a ^ 2 * ·), location := r.location.map (a * · + b) } := by
  unfold mcdCalculate
  rw [List.length_map]
  split_ifs with hh
  · rw [var_map_affine, mean_map_affine _ _ _ (by omega)]
    rfl
  · rw [rawEstimates_affine ha b h X h0 hn]
    rcases rawEstimates h X with _ | ⟨v, l⟩
    · rfl
    · simp only [Option.map_some]
      have e : a ^ 2 * v * corrRaw h X.length = a ^ 2 * (v * corrRaw h X.length) := by ring
      rw [e, reweighting_affine ha]
      rcases reweighting cutoff corr (v * corrRaw h X.length) l X with _ | r <;> rfl

theorem mean_perm {xs ys : List K} (h : xs.Perm ys) : mean xs = mean ys := by
  unfold mean; rw [h.sum_eq, h.length_eq]

theorem var_perm {xs ys : List K} (h : xs.Perm ys) : var xs = var ys := by
  unfold var
  rw [mean_perm h]
  exact mean_perm (h.map _)

/-- **C06**, the estimates do not depend on the order of the observations. -/
theorem C06_perm (cutoff : K) (corrRaw : ℕ → ℕ → K) (corr : K → K) (h : ℕ) (X Y : List K)
    (hp : X.Perm Y) :
    mcdCalculate cutoff corrRaw corr h X = mcdCalculate cutoff corrRaw corr h Y := by
  have e1 : rawEstimates h X = rawEstimates h Y := by
    simp only [rawEstimates, npSort_eq_of_perm hp, hp.length_eq]
  have e2 : ∀ rv rl, reweighting cutoff corr rv rl X = reweighting cutoff corr rv rl Y := by
    intro rv rl
    have hf := hp.filter (rewMask cutoff rl rv)
    unfold reweighting
    simp only [hf.length_eq, hp.length_eq, var_perm hf, mean_perm hf]
  unfold mcdCalculate
  rw [e1, hp.length_eq, var_perm hp, mean_perm hp]
  split_ifs
  · rfl
  · rcases rawEstimates h Y with _ | ⟨v, l⟩
    · rfl
    · simp only [e2]

/-- The restriction to `a > 0` in C06 is needed: with tied window variances the first window
wins, so reflecting the data does not reflect the raw location (it does reflect the raw
variance, see `C06_reflection_variance`). -/
theorem C06_reflection_location_fails :
    rawEstimates 3 ([0, 1, 3, 4] : List ℚ) = some (14/9, 4/3) ∧
    rawEstimates 3 (([0, 1, 3, 4] : List ℚ).map fun x => -1 * x + 0) = some (14/9, -8/3) := by
  constructor <;> decide +kernel

theorem popVar_map_affine (a b : K) (s : Multiset K) :
    popVar (s.map fun x => a * x + b) = a ^ 2 * popVar s := by
  induction s using Quotient.inductionOn with
  | h xs =>
    have := var_map_affine a b xs
    rw [var_eq_popVar, var_eq_popVar] at this
    exact this

/-- **C06**, the raw variance is equivariant also under reflections (`a < 0`). -/
theorem C06_reflection_variance {a : K} (ha : a ≠ 0) (b : K) (h : ℕ) (X : List K) (h0 : 0 < h)
    (hn : h ≤ X.length) :
    (rawEstimates h (X.map fun x => a * x + b)).map Prod.fst =
      (rawEstimates h X).map fun r => a ^ 2 * r.1 := by
  obtain ⟨v, l, W, e, w1, w2, w3, w4, w5⟩ := rawEstimates_spec h X h0 hn
  obtain ⟨v', l', W', e', w1', w2', w3', w4', w5'⟩ := rawEstimates_spec h (X.map fun x => a * x + b) h0
    (by simpa using hn)
  rw [e, e']
  simp only [Option.map_some]
  congr 1
  have hX : ((X.map fun x => a * x + b : List K) : Multiset K) = (X : Multiset K).map fun x => a * x + b := rfl
  apply le_antisymm
  · have := w5' (W.map fun x => a * x + b) (hX ▸ Multiset.map_le_map w1) (by simpa using w2)
    rwa [popVar_map_affine, w3] at this
  · have hback : (W'.map fun x => a⁻¹ * x + (-(a⁻¹ * b))) ≤ (X : Multiset K) := by
      have h1 := Multiset.map_le_map (f := fun x => a⁻¹ * x + (-(a⁻¹ * b))) w1'
      rw [hX, Multiset.map_map] at h1
      have : ((fun x => a⁻¹ * x + (-(a⁻¹ * b))) ∘ fun x => a * x + b) = id := by
        funext x; simp only [Function.comp, id]; field_simp; ring
      rwa [this, Multiset.map_id] at h1
    have := w5 _ hback (by simpa using w2')
    rw [popVar_map_affine, w3'] at this
    have ha2 : 0 < a ^ 2 := by positivity
    have e2 : a ^ 2 * (a⁻¹ ^ 2 * v') = v' := by field_simp
    rw [← e2]
    exact mul_le_mul_of_nonneg_left this ha2.le

example : 0 < (2:ℚ) ∧ 0 < 2 ∧ 2 ≤ ([3, 1, 8] : List ℚ).length ∧
    ([3, 1, 8] : List ℚ).Perm [8, 3, 1] := by decide

/-! ## C11: bounded under contamination -/

theorem popVar_le_of_range (s : Multiset K) (lo L : K) (hs : 0 < Multiset.card s)
    (hr : ∀ x ∈ s, lo ≤ x ∧ x ≤ lo + L) : popVar s ≤ L ^ 2 := by
  have hc : (0:K) < (Multiset.card s : K) := by exact_mod_cast hs
  rw [popVar_eq, div_le_iff₀ hc]
  refine (ssq_avg_le lo s).trans ?_
  unfold ssq
  have : ∀ y ∈ s.map fun x => (x - lo) ^ 2, y ≤ L ^ 2 := by
    intro y hy
    obtain ⟨x, hx, rfl⟩ := Multiset.mem_map.1 hy
    have := hr x hx
    nlinarith
  have := Multiset.sum_le_card_nsmul _ _ this
  rw [Multiset.card_map, nsmul_eq_mul] at this
  linarith

theorem sq_le_ssq (s : Multiset K) (c x : K) (hx : x ∈ s) : (x - c) ^ 2 ≤ ssq c s := by
  obtain ⟨t, rfl⟩ := Multiset.exists_cons_of_mem hx
  have := ssq_nonneg c t
  unfold ssq at this ⊢
  simp only [Multiset.map_cons, Multiset.sum_cons]
  linarith

/-- **C11**: if at least `h` observations lie in an interval `[lo, lo+L]` and `2h > n`, then
whatever the other observations are, the raw variance is at most `L²`, and the raw location
has squared distance at most `h L²` to some observation of that interval. -/
theorem C11_no_explosion (h : ℕ) (X : List K) (h0 : 0 < h) (hn : h ≤ X.length)
    (h2 : X.length < 2 * h) (lo L : K)
    (hgood : h ≤ X.countP fun x => decide (lo ≤ x ∧ x ≤ lo + L)) :
    ∃ v l, rawEstimates h X = some (v, l) ∧ v ≤ L ^ 2 ∧
      ∃ g ∈ X, (lo ≤ g ∧ g ≤ lo + L) ∧ (g - l) ^ 2 ≤ h * L ^ 2 := by
  obtain ⟨v, l, W, e, w1, w2, w3, w4, w5⟩ := rawEstimates_spec h X h0 hn
  have hv : v ≤ L ^ 2 := by
    set G := X.filter fun x => decide (lo ≤ x ∧ x ≤ lo + L) with hG
    have hlen : h ≤ G.length := by rw [hG, ← List.countP_eq_length_filter]; exact hgood
    have hH : ((G.take h : List K) : Multiset K) ≤ (X : Multiset K) :=
      Multiset.coe_le.2 ((List.take_sublist h G).trans List.filter_sublist).subperm
    have hc : Multiset.card ((G.take h : List K) : Multiset K) = h := by
      rw [Multiset.coe_card, List.length_take]; omega
    refine (w5 _ hH hc).trans (popVar_le_of_range _ lo L (by omega) ?_)
    intro x hx
    have := List.mem_of_mem_take (Multiset.mem_coe.1 hx)
    simpa using (List.mem_filter.1 this).2
  refine ⟨v, l, e, hv, ?_⟩
  have hex : ∃ g ∈ W, lo ≤ g ∧ g ≤ lo + L := by
    by_contra hc
    push Not at hc
    have hle : W ≤ Multiset.filter (fun x => ¬ (lo ≤ x ∧ x ≤ lo + L)) (X : Multiset K) := by
      rw [Multiset.le_filter]
      refine ⟨w1, fun x hx h => ?_⟩
      exact absurd h.2 (not_le.2 (hc x hx h.1))
    have h3 := Multiset.card_le_card hle
    have h4 : Multiset.card (Multiset.filter (fun x => lo ≤ x ∧ x ≤ lo + L) (X : Multiset K)) +
        Multiset.card (Multiset.filter (fun x => ¬ (lo ≤ x ∧ x ≤ lo + L)) (X : Multiset K)) = X.length := by
      rw [← Multiset.card_add, Multiset.filter_add_not, Multiset.coe_card]
    have h5 : Multiset.card (Multiset.filter (fun x => lo ≤ x ∧ x ≤ lo + L) (X : Multiset K)) =
        X.countP fun x => decide (lo ≤ x ∧ x ≤ lo + L) := by
      rw [Multiset.filter_coe, Multiset.coe_card, List.countP_eq_length_filter]
    omega
  obtain ⟨g, hg, hg1⟩ := hex
  refine ⟨g, by simpa using Multiset.mem_of_le w1 hg, hg1, ?_⟩
  have h3 := sq_le_ssq W l g hg
  have hcp : (0:K) < (h:K) := by exact_mod_cast h0
  have h6 : ssq l W = h * v := by
    rw [← w3, popVar_eq, w2, w4]; field_simp
  rw [h6] at h3
  exact h3.trans (mul_le_mul_of_nonneg_left hv hcp.le)

example : 0 < 3 ∧ 3 ≤ ([1, 1000000, 2, 5, -3000000] : List ℚ).length ∧
    ([1, 1000000, 2, 5, -3000000] : List ℚ).length < 2 * 3 ∧
    3 ≤ ([1, 1000000, 2, 5, -3000000] : List ℚ).countP fun x => decide (1 ≤ x ∧ x ≤ 1 + 4) := by
  decide +kernel

/-! ## C16: finiteness -/

/-- Full statement of C16 (for every sample): the estimates are finite. -/
def C16_statement (cutoff : K) (corrRaw : ℕ → ℕ → K) (corr : K → K) : Prop :=
  ∀ (h : ℕ) (X : List K), 0 < h → h ≤ X.length → X.length / 2 + 1 ≤ h →
    ∃ r, mcdCalculate cutoff corrRaw corr h X = some r ∧ r.location.isSome ∧ r.variance.isSome

/-- **C16 is violated**: three equal values among four give NaN, whatever the constants. -/
theorem C16_violated (cutoff : ℚ) (corrRaw : ℕ → ℕ → ℚ) (corr : ℚ → ℚ) :
    ¬ C16_statement cutoff corrRaw corr := by
  intro hall
  obtain ⟨r, hr, h1, -⟩ := hall 3 [1, 1, 1, 5] (by decide) (by decide) (by decide)
  have e : rawEstimates 3 ([1, 1, 1, 5] : List ℚ) = some (0, 1) := by decide +kernel
  have e2 : reweighting cutoff corr 0 1 ([1, 1, 1, 5] : List ℚ) = none := by
    simp [reweighting, rewMask]
  simp only [mcdCalculate, e, List.length_cons, List.length_nil, zero_mul, e2] at hr
  simp at hr
  subst hr
  simp at h1

theorem ssq_eq_zero {c : K} {s : Multiset K} (h : ssq c s = 0) : ∀ x ∈ s, x = c := by
  intro x hx
  have h1 := sq_le_ssq s c x hx
  rw [h] at h1
  have : x - c = 0 := by nlinarith [sq_nonneg (x - c)]
  linarith

/-- **C16**, what does hold: for `h < n` (and consistency constants with
`1 < cutoff * corrRaw`, as for the chi-square constants of the code) the estimates are finite
exactly when no value occurs `h` or more times.  Missing with respect to C16: the tied case,
where the result is NaN. -/
theorem C16_finite_iff_partial (cutoff : K) (corrRaw : ℕ → ℕ → K) (corr : K → K) (h : ℕ) (X : List K)
    (h0 : 0 < h) (hn : h < X.length) (hpos : 0 < corrRaw h X.length)
    (hcut : 1 < cutoff * corrRaw h X.length) :
    ∃ r, mcdCalculate cutoff corrRaw corr h X = some r ∧
      ((r.location.isSome ∧ r.variance.isSome) ↔ ∀ x, X.count x < h) := by
  obtain ⟨v, l, W, e, w1, w2, w3, w4, w5⟩ := rawEstimates_spec h X h0 hn.le
  have hcp : (0:K) < (h:K) := by exact_mod_cast h0
  have h6 : ssq l W = h * v := by
    rw [← w3, popVar_eq, w2, w4]; field_simp
  have hv0 : 0 ≤ v := w3 ▸ popVar_nonneg W
  unfold mcdCalculate
  rw [if_neg hn.ne, e]
  refine ⟨_, rfl, ?_⟩
  simp only [Option.isSome_map]
  -- variance zero iff h ties
  have hzero : v = 0 ↔ ∃ x, h ≤ X.count x := by
    constructor
    · intro hv
      rw [hv, mul_zero] at h6
      refine ⟨l, ?_⟩
      have h7 := ssq_eq_zero h6
      have h8 : W = Multiset.replicate h l := Multiset.eq_replicate.2 ⟨w2, h7⟩
      rw [h8, ← Multiset.le_count_iff_replicate_le, Multiset.coe_count] at w1
      exact w1
    · rintro ⟨x, hx⟩
      have hle : Multiset.replicate h x ≤ (X : Multiset K) := by
        rw [← Multiset.le_count_iff_replicate_le, Multiset.coe_count]; exact hx
      have := w5 _ hle (by simp)
      have hz : popVar (Multiset.replicate h x) = 0 := by
        rw [popVar_eq]
        have : avg (Multiset.replicate h x) = x := by
          unfold avg
          rw [Multiset.sum_replicate, Multiset.card_replicate, nsmul_eq_mul]
          field_simp
        rw [this, ssq]
        simp
      rw [hz] at this
      exact le_antisymm this hv0
  by_cases hv : v = 0
  · have hex := hzero.1 hv
    have hnone : reweighting cutoff corr (v * corrRaw h X.length) l X = none := by
      simp [reweighting, rewMask, hv]
    rw [hnone]
    simp only [Option.isSome_none, Bool.false_eq_true, and_self, false_iff, not_forall, not_lt]
    exact hex
  · have hall : ∀ x, X.count x < h := by
      intro x
      by_contra hc
      exact hv (hzero.2 ⟨x, not_lt.1 hc⟩)
    have hvpos : 0 < v := lt_of_le_of_ne hv0 (Ne.symm hv)
    -- some element of W is within the cutoff
    have hex : ∃ x ∈ W, (x - l) ^ 2 ≤ v := by
      by_contra hc
      push Not at hc
      have : (Multiset.card W) • v < ssq l W := by
        unfold ssq
        have hne : W ≠ 0 := by intro h; rw [h] at w2; simp at w2; omega
        have := Multiset.sum_lt_sum_of_nonempty (f := fun _ => v) (g := fun x => (x - l) ^ 2) hne
          (fun x hx => hc x hx)
        simpa using this
      rw [h6, w2, nsmul_eq_mul] at this
      exact lt_irrefl _ this
    obtain ⟨x, hx, hxl⟩ := hex
    have hxX : x ∈ X := by simpa using Multiset.mem_of_le w1 hx
    have hmask : rewMask cutoff l (v * corrRaw h X.length) x = true := by
      unfold rewMask
      have hp : 0 < v * corrRaw h X.length := mul_pos hvpos hpos
      rw [if_neg hp.ne', decide_eq_true_eq, div_lt_iff₀ hp]
      nlinarith
    have hne : (X.filter (rewMask cutoff l (v * corrRaw h X.length))).length ≠ 0 := by
      rw [Ne, List.length_eq_zero_iff, List.filter_eq_nil_iff]
      push Not
      exact ⟨x, hxX, hmask⟩
    have hsome : ∃ r, reweighting cutoff corr (v * corrRaw h X.length) l X = some r := by
      simp only [reweighting, if_neg hne]
      exact ⟨_, rfl⟩
    obtain ⟨r, hr⟩ := hsome
    rw [hr]
    simp only [Option.isSome_some, and_self, true_iff]
    exact hall

/-- Hypotheses of the partial theorem hold for untied data and the constants 5.02 and 1. -/
example : (0 < 3 ∧ 3 < ([7, 1, 2, 100, 3] : List ℚ).length) ∧ (0:ℚ) < 1 ∧ (1:ℚ) < 5.02 * 1 ∧
    ∀ x, ([7, 1, 2, 100, 3] : List ℚ).count x < 3 := by
  refine ⟨by decide, by norm_num, by norm_num, ?_⟩
  intro x
  have hd : ([7, 1, 2, 100, 3] : List ℚ).Nodup := by decide +kernel
  have := List.nodup_iff_count_le_one.1 hd x
  omega

end Robpy
