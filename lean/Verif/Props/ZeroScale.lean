import Verif.Props.Implosion

/-! C163: when a univariate scale is zero. -/

namespace Robpy
open _root_.Spec

namespace Spec

/-- One value occurs in more than half of the observations. -/
def majorityTied (X : List ℝ) : Prop := ∃ v, X.length < 2 * X.count v

/-- The number of pairs of observations that coincide, counted value by value. -/
noncomputable def tiedPairs (X : List ℝ) : ℕ := ∑ v ∈ X.toFinset, (X.count v).choose 2

end Spec

/-- **C163** for the median absolute deviation. -/
theorem C163_mad (X : List ℝ) : madRaw X = some 0 ↔ Spec.majorityTied X := by
  constructor
  · intro hs
    obtain ⟨m, -, h2⟩ := madRaw_spec hs
    obtain ⟨a, b, ha, hb, he⟩ := npMedian_eq_some_iff.1 h2
    have hnn : ∀ k c, IsKthSmallest k (X.map fun x => |x - m|) c → 0 ≤ c := by
      intro k c hc
      obtain ⟨x, -, rfl⟩ := List.mem_map.1 (isKth_mem hc)
      exact abs_nonneg _
    have h3 : b = 0 := by linarith [hnn _ _ ha, hnn _ _ hb]
    subst h3
    refine ⟨m, ?_⟩
    have h4 := hb.2
    rw [List.length_map, List.countP_map] at h4
    have h5 : X.countP ((fun x => decide (x ≤ (0:ℝ))) ∘ fun x => |x - m|) ≤ X.count m := by
      rw [List.count]
      apply List.countP_mono_left
      intro x _ hx
      simp only [Function.comp, decide_eq_true_eq, abs_nonpos_iff, sub_eq_zero] at hx
      simp [hx]
    omega
  · rintro ⟨v, hv⟩
    exact madRaw_zero_of_majority hv

/-- **C163** for `Tau`, with or without consistency correction. -/
theorem C163_tau (c1 c2 : ℝ) (hc2 : 0 < c2) (corr : Option ℝ) (hcorr : ∀ c, corr = some c → 0 < c) (X : List ℝ) (hX : X ≠ []) :
    ∃ l s, tauCalculate c1 c2 corr X = .ok (l, s) ∧ (s = 0 ↔ Spec.majorityTied X) := by
  obtain ⟨s, hs⟩ := madRaw_isSome hX
  have hl : (0:ℝ) < X.length := by exact_mod_cast List.length_pos_iff.2 hX
  have hmad : s = 0 ↔ Spec.majorityTied X := by
    rw [← C163_mad, hs, Option.some.injEq]
  unfold tauCalculate
  rw [hs]
  refine ⟨_, _, rfl, ?_⟩
  have hcz : ∀ t : ℝ, tauCorrect corr t = 0 ↔ t = 0 := by
    intro t
    rcases corr with _ | c
    · rfl
    · have := Real.sqrt_pos.2 (hcorr c rfl)
      simp only [tauCorrect, div_eq_zero_iff, this.ne', or_false]
  rw [hcz, ← hmad]
  constructor
  · intro h0
    by_contra hne
    rcases mul_eq_zero.1 h0 with h1 | h1
    · exact hne h1
    · rw [Real.sqrt_eq_zero'] at h1
      have hconst : ∀ Y : List ℝ, Y = X.map (fun _ => c2 ^ 2) → ¬ (1 / (X.length : ℝ) * Y.sum ≤ 0) := by
        rintro Y rfl
        rw [List.map_const', List.sum_replicate, nsmul_eq_mul, not_le]
        positivity
      rcases hloc : tauLocation c1 X with _ | l
      · rw [hloc] at h1; exact hconst _ rfl h1
      · rw [hloc] at h1
        simp only [if_neg hne] at h1
        have hnn : ∀ x ∈ X, 0 ≤ tauRho c2 ((x - l) / s) := fun x _ => by unfold tauRho; split_ifs <;> positivity
        have hsum : (X.map fun x => tauRho c2 ((x - l) / s)).sum ≤ 0 := by
          by_contra hc
          push Not at hc
          have : 0 < 1 / (X.length : ℝ) * (X.map fun x => tauRho c2 ((x - l) / s)).sum := by positivity
          linarith
        -- all observations equal the location
        have hall : ∀ x ∈ X, x = l := by
          intro x hx
          have h2 : tauRho c2 ((x - l) / s) ≤ (X.map fun x => tauRho c2 ((x - l) / s)).sum :=
            List.single_le_sum (fun y hy => by
              obtain ⟨z, hz, rfl⟩ := List.mem_map.1 hy
              exact hnn z hz) _ (List.mem_map_of_mem hx)
          have h3 : tauRho c2 ((x - l) / s) = 0 := le_antisymm (by linarith) (hnn x hx)
          unfold tauRho at h3
          split_ifs at h3
          · rw [pow_eq_zero_iff two_ne_zero, div_eq_zero_iff] at h3
            rcases h3 with h3 | h3
            · linarith
            · exact absurd h3 hne
          · exact absurd h3 (by positivity)
        refine hne (hmad.2 ⟨l, ?_⟩)
        have : X.count l = X.length := List.count_eq_length.2 fun b hb => (hall b hb).symm
        rw [this]
        have := List.length_pos_iff.2 hX
        omega
  · intro h0
    rw [h0, zero_mul]

/-- The number of zero pairwise distances is the number of tied pairs. -/
theorem tiedPairs_eq (X : List ℝ) : (pairDists X).countP (fun d => decide (d ≤ 0)) = Spec.tiedPairs X := by
  induction X with
  | nil => simp [pairDists, Spec.tiedPairs]
  | cons x X ih =>
    rw [pairDists, List.countP_append, List.countP_map, ih]
    have h1 : X.countP ((fun d => decide (d ≤ (0:ℝ))) ∘ fun y => |x - y|) = X.count x := by
      rw [List.count]
      apply List.countP_congr
      intro y _
      simp only [Function.comp, decide_eq_true_eq, abs_nonpos_iff, sub_eq_zero, beq_iff_eq]
      exact eq_comm
    rw [h1]
    unfold Spec.tiedPairs
    have h2 : ∑ v ∈ X.toFinset, (X.count v).choose 2 = ∑ v ∈ (x :: X).toFinset, (X.count v).choose 2 := by
      apply Finset.sum_subset
      · intro v hv
        rw [List.mem_toFinset] at hv ⊢
        exact List.mem_cons_of_mem x hv
      · intro v _ hv
        rw [List.mem_toFinset] at hv
        rw [List.count_eq_zero.2 hv]; rfl
    rw [h2]
    have hx : x ∈ (x :: X).toFinset := by simp
    rw [← Finset.add_sum_erase _ _ hx, ← Finset.add_sum_erase _ (fun v => ((x :: X).count v).choose 2) hx]
    have h3 : ∑ v ∈ (x :: X).toFinset.erase x, (X.count v).choose 2 = ∑ v ∈ (x :: X).toFinset.erase x, ((x :: X).count v).choose 2 := by
      apply Finset.sum_congr rfl
      intro v hv
      rw [List.count_cons_of_ne (Finset.ne_of_mem_erase hv).symm]
    rw [h3, List.count_cons_self, Nat.choose_succ_succ' (X.count x) 1, Nat.choose_one_right, show 1 + 1 = 2 from rfl]
    omega

/-- **C163** for `Qn`: the scale is zero exactly if the number of tied pairs reaches `C(h, 2)`, whatever the corrections. -/
theorem C163_qn_iff_partial (fc cc : Bool) (X : List ℝ) (hX : 2 ≤ X.length) (fuel : ℕ) (hf : X.length * X.length < fuel) :
    ∃ s, qnScale fc cc fuel X = some (.ok s) ∧ (s = 0 ↔ (X.length / 2 + 1).choose 2 ≤ Spec.tiedPairs X) := by
  obtain ⟨v, d, hv, hd, hs⟩ := C01_qn_corrected fc cc X hX fuel hf
  obtain ⟨d', hd', h0, -⟩ := C01_dn_range (K := ℝ) X.length hX
  rw [hd] at hd'
  cases hd'
  refine ⟨_, hs, ?_⟩
  have h1 : (if cc then 2.219144 else 1 : ℝ) * ((if fc then d else 1) * v) = 0 ↔ v = 0 := by
    have e1 : (if cc then 2.219144 else 1 : ℝ) ≠ 0 := by split_ifs <;> norm_num
    have e2 : (if fc then d else 1 : ℝ) ≠ 0 := by split_ifs <;> [exact h0.ne'; norm_num]
    rw [mul_eq_zero, mul_eq_zero]
    constructor
    · rintro (h | h | h)
      · exact absurd h e1
      · exact absurd h e2
      · exact h
    · exact fun h => .inr (.inr h)
  rw [h1, ← tiedPairs_eq]
  have hn := pairDists_nonneg X v (isKth_mem hv)
  constructor
  · rintro rfl; exact hv.2
  · intro h2
    by_contra hne
    have hp : 0 < v := lt_of_le_of_ne hn (Ne.symm hne)
    have h3 : (pairDists X).countP (fun d => decide (d ≤ 0)) ≤ (pairDists X).countP (fun x => decide (x < v)) := by
      apply List.countP_mono_left
      intro x _ hx
      simp only [decide_eq_true_eq] at hx ⊢
      linarith
    have := hv.1
    omega

/-- The tied pairs from the multiplicities of the observations. -/
theorem two_mul_tiedPairs (X : List ℝ) : 2 * Spec.tiedPairs X = (X.map fun x => X.count x - 1).sum := by
  have h1 : (X.map fun x => X.count x - 1).sum = ∑ v ∈ X.toFinset, X.count v * (X.count v - 1) := by
    rw [Finset.sum_list_map_count]
    simp
  rw [h1, Spec.tiedPairs, Finset.mul_sum]
  apply Finset.sum_congr rfl
  intro v _
  rw [Nat.choose_two_right, mul_comm 2, Nat.div_mul_cancel (Nat.even_mul_pred_self _).two_dvd]

/-- **C163** for `Qn`, a usable condition: no value occurs more than `(h + 1) / 2` times, about a quarter of the observations. -/
theorem C163_qn_positive_partial (fc cc : Bool) (X : List ℝ) (hX : 2 ≤ X.length)
    (hc : ∀ v, 2 * X.count v ≤ X.length / 2 + 2) (fuel : ℕ) (hf : X.length * X.length < fuel) :
    ∃ s, qnScale fc cc fuel X = some (.ok s) ∧ s ≠ 0 := by
  obtain ⟨s, hs, h1⟩ := C163_qn_iff_partial fc cc X hX fuel hf
  refine ⟨s, hs, fun h0 => ?_⟩
  have h2 := h1.1 h0
  have h3 := two_mul_tiedPairs X
  have h4 : 2 * (X.map fun x => X.count x - 1).sum ≤ X.length * (X.length / 2) := by
    have : ∀ Y : List ℝ, 2 * (Y.map fun x => X.count x - 1).sum ≤ Y.length * (X.length / 2) := by
      intro Y
      induction Y with
      | nil => simp
      | cons y Y ih =>
        have := hc y
        rw [List.map_cons, List.sum_cons, List.length_cons, add_mul, mul_add]
        omega
    exact this X
  have h5 : 2 * (X.length / 2 + 1).choose 2 = (X.length / 2 + 1) * (X.length / 2) := by
    rw [Nat.choose_two_right, mul_comm 2, Nat.div_mul_cancel (Nat.even_mul_pred_self _).two_dvd]
    rfl
  have h6 : X.length ≤ 2 * (X.length / 2) + 1 := by omega
  have h7 : 1 ≤ X.length / 2 := by omega
  generalize X.length / 2 = k at *
  have : X.length * k ≤ (2 * k + 1) * k := Nat.mul_le_mul_right k h6
  nlinarith

/-- A majority of ties makes `Qn` zero. -/
theorem C163_qn_majority (fc cc : Bool) (X : List ℝ) (hX : 2 ≤ X.length) (ht : Spec.majorityTied X) (fuel : ℕ)
    (hf : X.length * X.length < fuel) : qnScale fc cc fuel X = some (.ok 0) := by
  obtain ⟨s, hs, h1⟩ := C163_qn_iff_partial fc cc X hX fuel hf
  obtain ⟨v, hv⟩ := ht
  have : s = 0 := h1.2 (by
    unfold Spec.tiedPairs
    have hm : v ∈ X.toFinset := by
      rw [List.mem_toFinset, ← List.count_pos_iff]; omega
    exact le_trans (Nat.choose_le_choose 2 (by omega)) (Finset.single_le_sum (f := fun v => (X.count v).choose 2) (fun _ _ => Nat.zero_le _) hm))
  rw [hs, this]

/-- **C163** for `OneStepM` with Huber's function for the scale: zero exactly if the normalised MAD is below `min_abs_scale`. -/
theorem C163_onestep_partial (b : ℝ) (hb : 0 < b) (delta minAbs : ℝ) (hd : 0 < delta) (h0 : 0 < minAbs) (X : List ℝ) (s : ℝ)
    (hs : madRaw X = some s) :
    ∃ v, oneStepScale (.huber b) delta minAbs X = some v ∧ (v = 0 ↔ s / normalQuartile < minAbs) := by
  obtain ⟨m, hm, h2⟩ := madRaw_spec hs
  have hX : X ≠ [] := by rintro rfl; simp [npMedian] at hm
  have hl : (0:ℝ) < X.length := by exact_mod_cast List.length_pos_iff.2 hX
  simp only [oneStepScale, hm, hs]
  split_ifs with h
  · exact ⟨0, rfl, by simp [h]⟩
  · refine ⟨_, rfl, ?_⟩
    simp only [h, iff_false]
    have hmad : 0 < s / normalQuartile := lt_of_lt_of_le h0 (not_lt.1 h)
    have hspos : 0 < s := by
      have := normalQuartile_pos (K := ℝ)
      exact (div_pos_iff_of_pos_right this).1 hmad
    -- an observation at least the MAD away from the median
    obtain ⟨x, hx, hxs⟩ : ∃ x ∈ X, s ≤ |x - m| := by
      have h3 := (npMedian_half h2).2
      by_contra hc
      push Not at hc
      have : (X.map fun x => |x - m|).countP (fun x => decide (s ≤ x)) = 0 := by
        rw [List.countP_eq_zero]
        intro y hy
        obtain ⟨z, hz, rfl⟩ := List.mem_map.1 hy
        simpa using hc z hz
      rw [this, List.length_map] at h3
      exact hX (List.length_eq_zero_iff.1 (by omega))
    have hpsi : Rho.psi (.huber b) ((x - m) / (s / normalQuartile)) ≠ 0 := by
      have hr : (x - m) / (s / normalQuartile) ≠ 0 := by
        apply div_ne_zero _ hmad.ne'
        intro h4
        rw [h4, abs_zero] at hxs
        linarith
      simp only [Rho.psi, huberPsi]
      split_ifs
      · exact hr
      · apply mul_ne_zero hb.ne'
        unfold npSign
        split_ifs with h5 h6
        · norm_num
        · norm_num
        · exact absurd (le_antisymm (not_lt.1 h6) (not_lt.1 h5)) hr
    have hsum : 0 < (X.map fun x => Rho.psi (.huber b) ((x - m) / (s / normalQuartile)) ^ 2).sum := by
      have h7 : Rho.psi (.huber b) ((x - m) / (s / normalQuartile)) ^ 2 ≤
          (X.map fun x => Rho.psi (.huber b) ((x - m) / (s / normalQuartile)) ^ 2).sum :=
        List.single_le_sum (fun y hy => by
          obtain ⟨z, -, rfl⟩ := List.mem_map.1 hy
          exact sq_nonneg _) _ (List.mem_map_of_mem hx)
      exact lt_of_lt_of_le (by positivity) h7
    have : 0 < 1 / delta * mean (X.map fun x => Rho.psi (.huber b) ((x - m) / (s / normalQuartile)) ^ 2) := by
      unfold mean
      rw [List.length_map]
      positivity
    exact (mul_pos hmad (Real.sqrt_pos.2 this)).ne'

/-- **C163**, full statement for the scales of `Tau`, `Qn` and `OneStepM` (with the default `min_abs_scale`): zero only if one value
occurs in more than half of the observations. -/
def C163_statement : Prop :=
  ∀ X : List ℝ, 2 ≤ X.length →
    (∀ c1 c2 : ℝ, 0 < c2 → ∀ l, tauCalculate c1 c2 none X = .ok (l, 0) → Spec.majorityTied X) ∧
    (∀ fc cc fuel, X.length * X.length < fuel → qnScale fc cc fuel X = some (.ok 0) → Spec.majorityTied X) ∧
    ∀ b delta : ℝ, 0 < b → 0 < delta → oneStepScale (.huber b) delta (1 / 10 ^ 12) X = some 0 → Spec.majorityTied X

/-- Eighteen observations with three values, each six times. -/
def c163X : List ℝ := List.replicate 6 1 ++ List.replicate 6 2 ++ List.replicate 6 3

theorem c163_count (v : ℝ) : c163X.count v ≤ 6 := by
  unfold c163X
  simp only [List.count_append, List.count_replicate, beq_iff_eq]
  by_cases h1 : (1:ℝ) = v
  · subst h1; norm_num
  · by_cases h2 : (2:ℝ) = v
    · subst h2; norm_num
    · rw [if_neg h1, if_neg h2]; split_ifs <;> omega

theorem c163_tied : Spec.tiedPairs c163X = 45 := by
  have h := two_mul_tiedPairs c163X
  have e : (c163X.map fun x => c163X.count x - 1).sum = 90 := by
    have h1 : c163X.count 1 = 6 := by unfold c163X; simp [List.count_append, List.count_replicate]
    have h2 : c163X.count 2 = 6 := by unfold c163X; simp [List.count_append, List.count_replicate]
    have h3 : c163X.count 3 = 6 := by unfold c163X; simp [List.count_append, List.count_replicate]
    have : ∀ f : ℝ → ℕ, (c163X.map f).sum = 6 * f 1 + 6 * f 2 + 6 * f 3 := by
      intro f; unfold c163X; simp; ring
    rw [this, h1, h2, h3]
  omega

/-- The code violates C163: `Qn` of three equally frequent values is zero. -/
theorem C163_violated : ¬ C163_statement := by
  intro h
  have hl : c163X.length = 18 := by simp [c163X]
  obtain ⟨s, hs, h1⟩ := C163_qn_iff_partial true true c163X (by omega) 1000 (by rw [hl]; norm_num)
  have h2 : s = 0 := h1.2 (by rw [c163_tied, hl]; decide)
  rw [h2] at hs
  obtain ⟨v, hv⟩ := (h c163X (by omega)).2.1 true true 1000 (by rw [hl]; norm_num) hs
  have := c163_count v
  omega

/-- Nor does it hold for `OneStepM`: five different observations of the order 1e-13. -/
theorem C163_onestep_violated : ∃ X : List ℝ, X.Nodup ∧ 2 ≤ X.length ∧ ¬ Spec.majorityTied X ∧
    ∀ b delta : ℝ, 0 < b → 0 < delta → oneStepScale (.huber b) delta (1 / 10 ^ 12) X = some 0 := by
  have hX : [0, 1, 2, 3, 4].map (fun x : ℝ => 1 / 10 ^ 13 * x + 0) ≠ [] := by simp
  have hnd : ([0, 1, 2, 3, 4].map (fun x : ℝ => 1 / 10 ^ 13 * x + 0)).Nodup := by
    apply List.Nodup.map
    · intro x y hxy
      simp only at hxy
      linarith
    · norm_num
  refine ⟨_, hnd, by simp, ?_, fun b delta hb hd => ?_⟩
  · rintro ⟨v, hv⟩
    have := List.nodup_iff_count_le_one.1 hnd v
    simp only [List.length_map, List.length_cons, List.length_nil] at hv
    omega
  · have hmed : madRaw ([0, 1, 2, 3, 4] : List ℝ) = some 1 := by
      have e1 : npMedian ([0, 1, 2, 3, 4] : List ℝ) = some 2 := by
        refine npMedian_eq_some_iff.2 ⟨2, 2, ?_, ?_, by norm_num⟩ <;>
        · unfold IsKthSmallest; norm_num [List.countP_cons]
      unfold madRaw
      rw [e1]
      refine npMedian_eq_some_iff.2 ⟨1, 1, ?_, ?_, by norm_num⟩ <;>
      · unfold IsKthSmallest; norm_num [List.countP_cons]
    have hmad := madRaw_affine (1 / 10 ^ 13 : ℝ) 0 [0, 1, 2, 3, 4]
    rw [hmed] at hmad
    obtain ⟨v, hv, h1⟩ := C163_onestep_partial b hb delta (1 / 10 ^ 12) hd (by norm_num) _ _ hmad
    rw [hv, h1.2 ?_]
    unfold normalQuartile
    rw [abs_of_pos (by norm_num)]
    norm_num

/-- The conditions of `C163_qn_positive_partial` and of `C163_qn_majority` on small samples. -/
example : (∀ v : ℝ, 2 * ([1, 1, 2, 3] : List ℝ).count v ≤ ([1, 1, 2, 3] : List ℝ).length / 2 + 2) ∧
    Spec.majorityTied [7, 7, 2, 7, 100] := by
  constructor
  · intro v
    simp only [List.count_cons, List.count_nil, List.length_cons, List.length_nil, beq_iff_eq]
    by_cases h : (1:ℝ) = v
    · subst h; norm_num
    · rw [if_neg h]; split_ifs <;> first | omega | (exfalso; linarith)
  · exact ⟨7, by norm_num [List.count_cons]⟩

end Robpy
