import Verif.Props.Qn
import Verif.Props.UnivariateMCD
import Verif.Props.TauOneStep
import Verif.Props.RegMap

/-! C162: lower bounds for the univariate scales under contamination.  C163: when a scale is zero. -/

namespace Robpy
open _root_.Spec

section
variable {K : Type} [Field K] [LinearOrder K] [IsStrictOrderedRing K]

namespace Spec

/-- The observations of `G` differ by at least `δ` from each other. -/
def separated (δ : K) (G : List K) : Prop := G.Pairwise fun x y => δ ≤ |x - y|

end Spec

/-- At most one of the separated observations is close to a given point. -/
theorem countP_close_le_one {δ : K} {G : List K} (hG : Spec.separated δ G) (b : K) :
    G.countP (fun y => decide (|b - y| < δ / 2)) ≤ 1 := by
  induction G with
  | nil => simp
  | cons g G ih =>
    have h1 := List.pairwise_cons.1 hG
    rw [List.countP_cons]
    by_cases hg : |b - g| < δ / 2
    · have h0 : G.countP (fun y => decide (|b - y| < δ / 2)) = 0 := by
        rw [List.countP_eq_zero]
        intro y hy
        simp only [decide_eq_true_eq, not_lt]
        have h2 := h1.1 y hy
        have h3 := abs_sub_le g b y
        rw [abs_sub_comm g b] at h3
        linarith
      simp [h0, hg]
    · simp only [hg, decide_false, Bool.false_eq_true, if_false, add_zero]
      exact ih h1.2

theorem countP_pairs_separated {δ : K} {G : List K} (hδ : 0 ≤ δ) (hG : Spec.separated δ G) :
    (pairDists G).countP (fun d => decide (d < δ / 2)) = 0 := by
  induction G with
  | nil => simp [pairDists]
  | cons g G ih =>
    have h1 := List.pairwise_cons.1 hG
    rw [pairDists, List.countP_append, ih h1.2, add_zero, List.countP_map, List.countP_eq_zero]
    intro y hy
    simp only [Function.comp, decide_eq_true_eq, not_lt]
    have := h1.1 y hy
    linarith

/-- Among the pairs at most `C(m + 1, 2)` are close, `m` the number of arbitrary observations. -/
theorem countP_pairs_contaminated {δ : K} (hδ : 0 ≤ δ) {G : List K} (hG : Spec.separated δ G) (B : List K) :
    (pairDists (B ++ G)).countP (fun d => decide (d < δ / 2)) ≤ (B.length + 1).choose 2 := by
  induction B with
  | nil => rw [List.nil_append, countP_pairs_separated hδ hG]; exact Nat.zero_le _
  | cons b B ih =>
    rw [List.cons_append, pairDists, List.countP_append, List.countP_map, List.countP_append]
    have h1 := countP_close_le_one hG b
    have h2 : B.countP ((fun d => decide (d < δ / 2)) ∘ fun y => |b - y|) ≤ B.length := List.countP_le_length
    rw [List.length_cons, Nat.choose_succ_succ' (B.length + 1) 1, Nat.choose_one_right, show 1 + 1 = 2 from rfl]
    have h3 : G.countP ((fun d => decide (d < δ / 2)) ∘ fun y => |b - y|) = G.countP (fun y => decide (|b - y| < δ / 2)) := rfl
    omega

theorem separated_perm {δ : K} {G H : List K} (h : G.Perm H) (hG : Spec.separated δ G) : Spec.separated δ H :=
  h.pairwise hG fun {x y} hxy => by rw [abs_sub_comm]; exact hxy

/-- **C162** for `Qn`: with at least `n - n // 2 + 1` observations that differ by at least `δ`, the remaining (fewer than half)
arbitrary, the uncorrected Qn is at least `δ / 2`. -/
theorem C162_qn (X B G : List K) (hX : X.Perm (B ++ G)) (hm : B.length + 1 ≤ X.length / 2) (δ : K) (hδ : 0 ≤ δ)
    (hG : Spec.separated δ G) (fuel : ℕ) (hf : X.length * X.length < fuel) :
    ∃ v, qnScale false false fuel X = some (.ok v) ∧ δ / 2 ≤ v := by
  obtain ⟨v, hs, hv⟩ := C01_qn_exact X (by omega) fuel hf
  refine ⟨v, hs, ?_⟩
  by_contra hlt
  push Not at hlt
  have h1 := countP_pairs_contaminated hδ hG B
  rw [← (pairDists_perm hX).countP_eq] at h1
  have h2 : (pairDists X).countP (fun x => decide (x ≤ v)) ≤ (pairDists X).countP (fun d => decide (d < δ / 2)) := by
    apply List.countP_mono_left
    intro x _ hx
    simp only [decide_eq_true_eq] at hx ⊢
    exact lt_of_le_of_lt hx hlt
  have h3 := hv.2
  have h4 : (B.length + 1).choose 2 < (X.length / 2 + 1).choose 2 := by
    have e : (X.length / 2 + 1).choose 2 = X.length / 2 + (X.length / 2).choose 2 := by
      rw [Nat.choose_succ_succ' (X.length / 2) 1, Nat.choose_one_right]
    have := Nat.choose_le_choose 2 hm
    omega
  omega

/-- With the corrections of `Qn` the bound is multiplied by positive constants which depend on `n` only. -/
theorem C162_qn_corrected (fc cc : Bool) (X B G : List K) (hX : X.Perm (B ++ G)) (hm : B.length + 1 ≤ X.length / 2) (δ : K)
    (hδ : 0 ≤ δ) (hG : Spec.separated δ G) (fuel : ℕ) (hf : X.length * X.length < fuel) :
    ∃ v d, smallSampleDn (K := K) X.length = some d ∧ 0 < d ∧ qnScale fc cc fuel X = some (.ok v) ∧
      (if cc then 2.219144 else 1) * ((if fc then d else 1) * (δ / 2)) ≤ v := by
  obtain ⟨v, d, hv, hd, hs⟩ := C01_qn_corrected fc cc X (by omega) fuel hf
  obtain ⟨w, hw, hle⟩ := C162_qn X B G hX hm δ hδ hG fuel hf
  obtain ⟨v', d', hv', hd', hs'⟩ := C01_qn_corrected false false X (by omega) fuel hf
  obtain ⟨d2, hd2, h0, -⟩ := C01_dn_range (K := K) X.length (by omega)
  rw [hd] at hd2
  cases hd2
  rw [hw] at hs'
  simp only [Bool.false_eq_true, if_false, one_mul, Option.some.injEq, Except.ok.injEq] at hs'
  subst hs'
  have : w = v := isKth_unique hv' hv
  subst this
  refine ⟨_, d, hd, h0, hs, ?_⟩
  have hc : (0:K) ≤ if cc then 2.219144 else 1 := by split_ifs <;> norm_num
  have hd0 : (0:K) ≤ if fc then d else 1 := by split_ifs <;> [exact h0.le; norm_num]
  exact mul_le_mul_of_nonneg_left (mul_le_mul_of_nonneg_left hle hd0) hc

/-- **C162** for the median absolute deviation. -/
theorem C162_mad (X B G : List K) (hX : X.Perm (B ++ G)) (hm : B.length + 1 ≤ X.length / 2) (δ : K) (hδ : 0 ≤ δ)
    (hG : Spec.separated δ G) : ∃ s, madRaw X = some s ∧ δ / 4 ≤ s := by
  have hne : X ≠ [] := by rintro rfl; simp at hm
  obtain ⟨s, hs⟩ := madRaw_isSome hne
  refine ⟨s, hs, ?_⟩
  obtain ⟨m, -, h2⟩ := madRaw_spec hs
  obtain ⟨a, b, ha, hb, he⟩ := npMedian_eq_some_iff.1 h2
  have h0 : 0 ≤ a := by
    have := isKth_mem ha
    obtain ⟨x, -, rfl⟩ := List.mem_map.1 this
    exact abs_nonneg _
  have h3 : δ / 2 ≤ b := by
    by_contra hlt
    push Not at hlt
    have h4 := hb.2
    rw [List.length_map] at h4
    have h5 : (X.map fun x => |x - m|).countP (fun x => decide (x ≤ b)) ≤ B.length + 1 := by
      rw [(hX.map _).countP_eq, List.map_append, List.countP_append]
      have h6 : (B.map fun x => |x - m|).countP (fun x => decide (x ≤ b)) ≤ B.length := by
        simpa using List.countP_le_length (p := fun x => decide (x ≤ b)) (l := B.map fun x => |x - m|)
      have h7 : (G.map fun x => |x - m|).countP (fun x => decide (x ≤ b)) ≤ G.countP (fun y => decide (|m - y| < δ / 2)) := by
        rw [List.countP_map]
        apply List.countP_mono_left
        intro x _ hx
        simp only [Function.comp, decide_eq_true_eq] at hx ⊢
        rw [abs_sub_comm]
        exact lt_of_le_of_lt hx hlt
      have := countP_close_le_one hG m
      omega
    omega
  rw [he]
  linarith

/-- **C162** for the raw variance of `UnivariateMCD`: any `h ≥ m + 2`. -/
theorem C162_mcd (h : ℕ) (X B G : List K) (hX : X.Perm (B ++ G)) (hm : B.length + 2 ≤ h) (hn : h ≤ X.length) (δ : K) (hδ : 0 ≤ δ)
    (hG : Spec.separated δ G) : ∃ v l, rawEstimates h X = some (v, l) ∧ δ ^ 2 / (2 * h) ≤ v := by
  obtain ⟨v, l, W, e, w1, w2, w3, w4, w5⟩ := rawEstimates_spec h X (by omega) hn
  refine ⟨v, l, e, ?_⟩
  have hcp : (0:K) < (h:K) := by exact_mod_cast (by omega : 0 < h)
  have h6 : ssq l W = h * v := by
    rw [← w3, popVar_eq, w2, w4]; field_simp
  -- two separated observations in the subset
  obtain ⟨x, y, R, hW, hxy⟩ : ∃ x y, ∃ R : Multiset K, W = x ::ₘ y ::ₘ R ∧ δ ≤ |x - y| := by
    have h1 : W ≤ (B : Multiset K) + (G : Multiset K) := by
      rw [Multiset.coe_add, ← Multiset.coe_eq_coe.2 hX]; exact w1
    have h2 : W - (B : Multiset K) ≤ (G : Multiset K) := Multiset.sub_le_iff_le_add'.2 h1
    have h3 : 2 ≤ Multiset.card (W - (B : Multiset K)) := by
      have := Multiset.card_mono (Multiset.sub_le_iff_le_add (s := W) (t := (B : Multiset K)) (u := W - (B : Multiset K)) |>.1 le_rfl)
      rw [Multiset.card_add, Multiset.coe_card, w2] at this
      omega
    obtain ⟨L, hL⟩ : ∃ L : List K, (L : Multiset K) = W - (B : Multiset K) := Quot.exists_rep _
    rw [← hL, Multiset.coe_card] at h3
    obtain ⟨x, y, L', rfl⟩ : ∃ x y L', L = x :: y :: L' := by
      rcases L with _ | ⟨x, _ | ⟨y, L'⟩⟩
      · simp at h3
      · simp at h3
      · exact ⟨x, y, L', rfl⟩
    have hT1 : ({x, y} : Multiset K) ≤ W - (B : Multiset K) := by
      rw [← hL]
      exact Multiset.coe_le.2 (List.Sublist.subperm (by simp : [x, y].Sublist (x :: y :: L')))
    obtain ⟨R, hR⟩ := Multiset.le_iff_exists_add.1 (le_trans hT1 (Multiset.sub_le_self W (B : Multiset K)))
    refine ⟨x, y, R, by rw [hR]; simp [Multiset.insert_eq_cons], ?_⟩
    have h4 : ({x, y} : Multiset K) ≤ (G : Multiset K) := le_trans hT1 h2
    have h5 : ([x, y] : List K).Subperm G := by
      rw [← Multiset.coe_le]; exact h4
    obtain ⟨G', hp, hsub⟩ := h5
    have h7 := hG.sublist hsub
    have h8 := separated_perm hp h7
    simpa [Spec.separated] using h8
  have h7 : (x - l) ^ 2 + (y - l) ^ 2 ≤ ssq l W := by
    rw [hW, ssq, Multiset.map_cons, Multiset.map_cons, Multiset.sum_cons, Multiset.sum_cons]
    have : 0 ≤ (R.map fun x => (x - l) ^ 2).sum := Multiset.sum_nonneg fun z hz => by
      obtain ⟨w, -, rfl⟩ := Multiset.mem_map.1 hz
      exact sq_nonneg _
    linarith
  have h8 : δ ^ 2 ≤ (x - y) ^ 2 := by
    rw [← sq_abs (x - y)]
    exact pow_le_pow_left₀ hδ hxy 2
  rw [div_le_iff₀ (by positivity)]
  nlinarith [sq_nonneg ((x - l) + (y - l))]

end

/-- Four clean observations one unit apart and one on top of the first. -/
example : ([3, 0, 1, 0, 2] : List ℚ).Perm ([0] ++ [0, 1, 2, 3]) ∧ ([0] : List ℚ).length + 1 ≤ ([3, 0, 1, 0, 2] : List ℚ).length / 2 ∧
    Spec.separated (1:ℚ) [0, 1, 2, 3] ∧ ([0] : List ℚ).length + 2 ≤ 3 := by
  refine ⟨by decide +kernel, by decide, ?_, by decide⟩
  unfold Spec.separated
  decide +kernel

theorem sum_ge_countP_mul (f : ℝ → ℝ) (P : ℝ → Prop) [DecidablePred P] (t : ℝ) (X : List ℝ) (h0 : ∀ x ∈ X, 0 ≤ f x)
    (h : ∀ x ∈ X, P x → t ≤ f x) : (X.countP fun x => decide (P x)) * t ≤ (X.map f).sum := by
  induction X with
  | nil => simp
  | cons x X ih =>
    have ih' := ih (fun y hy => h0 y (by simp [hy])) fun y hy => h y (by simp [hy])
    rw [List.countP_cons, List.map_cons, List.sum_cons]
    have h1 := h0 x (by simp)
    by_cases hx : P x
    · have h2 := h x (by simp) hx
      simp only [hx, decide_true, if_true]
      push_cast
      linarith
    · simp only [hx, decide_false, Bool.false_eq_true, if_false, add_zero]
      linarith

/-- **C162** for `Tau` without consistency correction: the scale is at least a fixed multiple of `δ`. -/
theorem C162_tau (c1 c2 : ℝ) (hc2 : 0 < c2) (X B G : List ℝ) (hX : X.Perm (B ++ G)) (hm : B.length + 1 ≤ X.length / 2) (δ : ℝ)
    (hδ : 0 ≤ δ) (hG : Spec.separated δ G) :
    ∃ l s, tauCalculate c1 c2 none X = .ok (l, s) ∧ δ * Real.sqrt (min (c2 ^ 2 / 16) (1 / 4) / 2) ≤ s := by
  obtain ⟨s, hs, hle⟩ := C162_mad X B G hX hm δ hδ hG
  have hne : X ≠ [] := by rintro rfl; simp at hm
  have hl : (0:ℝ) < X.length := by exact_mod_cast List.length_pos_iff.2 hne
  have hs0 := madRaw_nonneg hs
  -- a lower bound for the mean of the terms
  have key : ∀ f : ℝ → ℝ, (∀ x, 0 ≤ f x) → ∀ l : ℝ, (∀ x, δ / 2 ≤ |x - l| → δ ^ 2 * min (c2 ^ 2 / 16) (1 / 4) ≤ s ^ 2 * f x) →
      δ * Real.sqrt (min (c2 ^ 2 / 16) (1 / 4) / 2) ≤ s * Real.sqrt (1 / (X.length : ℝ) * (X.map f).sum) := by
    intro f h0 l hf
    have hcount : (X.length : ℝ) ≤ 2 * (X.countP fun x => decide (δ / 2 ≤ |x - l|) : ℕ) := by
      have h1 : X.length ≤ 2 * (X.countP fun x => decide (δ / 2 ≤ |x - l|)) := by
        have h2 := List.length_eq_countP_add_countP (fun x => decide (δ / 2 ≤ |x - l|)) (l := X)
        have h3 : X.countP (fun x => decide (¬ (decide (δ / 2 ≤ |x - l|)) = true)) ≤ B.length + 1 := by
          rw [hX.countP_eq, List.countP_append]
          have h4 : B.countP (fun x => decide (¬ (decide (δ / 2 ≤ |x - l|)) = true)) ≤ B.length := List.countP_le_length
          have h5 : G.countP (fun x => decide (¬ (decide (δ / 2 ≤ |x - l|)) = true)) ≤ G.countP (fun y => decide (|l - y| < δ / 2)) := by
            apply List.countP_mono_left
            intro x _ hx
            simp only [decide_eq_true_eq, not_le] at hx ⊢
            rwa [abs_sub_comm]
          have := countP_close_le_one hG l
          omega
        omega
      exact_mod_cast h1
    have hsum := sum_ge_countP_mul (fun x => s ^ 2 * f x) (fun x => δ / 2 ≤ |x - l|) (δ ^ 2 * min (c2 ^ 2 / 16) (1 / 4)) X
      (fun x _ => mul_nonneg (sq_nonneg _) (h0 x)) fun x _ hx => hf x hx
    rw [List.sum_map_mul_left] at hsum
    have hmn : 0 ≤ min (c2 ^ 2 / 16) (1 / 4) := le_min (by positivity) (by norm_num)
    have e1 : δ * Real.sqrt (min (c2 ^ 2 / 16) (1 / 4) / 2) = Real.sqrt (δ ^ 2 * (min (c2 ^ 2 / 16) (1 / 4) / 2)) := by
      rw [Real.sqrt_mul (sq_nonneg δ), Real.sqrt_sq hδ]
    have e2 : s * Real.sqrt (1 / (X.length : ℝ) * (X.map f).sum) = Real.sqrt (s ^ 2 * (1 / (X.length : ℝ) * (X.map f).sum)) := by
      rw [Real.sqrt_mul (sq_nonneg s), Real.sqrt_sq hs0]
    rw [e1, e2]
    apply Real.sqrt_le_sqrt
    have e3 : s ^ 2 * (1 / (X.length : ℝ) * (X.map f).sum) = (s ^ 2 * (X.map f).sum) / X.length := by ring
    rw [e3, le_div_iff₀ hl]
    have h6 : (X.length : ℝ) * (δ ^ 2 * min (c2 ^ 2 / 16) (1 / 4)) ≤
        2 * (X.countP fun x => decide (δ / 2 ≤ |x - l|) : ℕ) * (δ ^ 2 * min (c2 ^ 2 / 16) (1 / 4)) :=
      mul_le_mul_of_nonneg_right hcount (by positivity)
    linarith
  -- terms equal to c2 ^ 2
  have hconst : ∀ l : ℝ, ∀ x, δ / 2 ≤ |x - l| → δ ^ 2 * min (c2 ^ 2 / 16) (1 / 4) ≤ s ^ 2 * c2 ^ 2 := by
    intro l x _
    have h1 : δ ^ 2 ≤ 16 * s ^ 2 := by
      have : δ ≤ 4 * s := by linarith
      nlinarith
    calc δ ^ 2 * min (c2 ^ 2 / 16) (1 / 4) ≤ δ ^ 2 * (c2 ^ 2 / 16) := mul_le_mul_of_nonneg_left (min_le_left _ _) (sq_nonneg _)
      _ ≤ 16 * s ^ 2 * (c2 ^ 2 / 16) := mul_le_mul_of_nonneg_right h1 (by positivity)
      _ = s ^ 2 * c2 ^ 2 := by ring
  unfold tauCalculate
  rw [hs]
  simp only [tauCorrect]
  refine ⟨_, _, rfl, ?_⟩
  rcases tauLocation c1 X with _ | l
  · exact key (fun _ => c2 ^ 2) (fun _ => by positivity) 0 (hconst 0)
  · simp only
    split_ifs with hz
    · exact key (fun _ => c2 ^ 2) (fun _ => by positivity) 0 (hconst 0)
    · refine key (fun x => tauRho c2 ((x - l) / s)) (fun x => ?_) l fun x hx => ?_
      · unfold tauRho; split_ifs <;> positivity
      · unfold tauRho
        split_ifs with h1
        · have e : s ^ 2 * ((x - l) / s) ^ 2 = |x - l| ^ 2 := by rw [sq_abs]; field_simp
          rw [e]
          calc δ ^ 2 * min (c2 ^ 2 / 16) (1 / 4) ≤ δ ^ 2 * (1 / 4) := mul_le_mul_of_nonneg_left (min_le_right _ _) (sq_nonneg _)
            _ = (δ / 2) ^ 2 := by ring
            _ ≤ |x - l| ^ 2 := pow_le_pow_left₀ (by linarith) hx 2
        · exact hconst l x hx

end Robpy
