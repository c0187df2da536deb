import Verif.Props.TauWrapping
import Verif.Props.Implosion

/-! C176: the reported univariate locations under contamination. -/

namespace Robpy

/-- More than half of the observations lie in an interval of length `L`. -/
def Spec.majorityIn (lo L : ℝ) (X : List ℝ) : Prop := X.length < 2 * X.countP (fun x => decide (lo ≤ x ∧ x ≤ lo + L))

/-- A weighted mean lies between bounds of the observations with positive weight. -/
theorem weightedMean_support {w : ℝ → ℝ} {X : List ℝ} {l : ℝ} (h : weightedMean w X = some l) (hw : ∀ x ∈ X, 0 ≤ w x) {m r : ℝ}
    (hs : ∀ x ∈ X, w x ≠ 0 → |x - m| ≤ r) : |l - m| ≤ r := by
  unfold weightedMean at h
  split_ifs at h with h0
  obtain rfl := Option.some.inj h
  have hpos : 0 < (X.map w).sum := lt_of_le_of_ne (List.sum_nonneg (by
    intro z hz
    obtain ⟨x, hx, rfl⟩ := List.mem_map.1 hz
    exact hw x hx)) (Ne.symm h0)
  have e : (X.map fun x => w x * x).sum / (X.map w).sum - m = (X.map fun x => w x * (x - m)).sum / (X.map w).sum := by
    have : (X.map fun x => w x * (x - m)).sum = (X.map fun x => w x * x).sum - m * (X.map w).sum := by
      clear h h0 hpos hs hw
      induction X with
      | nil => simp
      | cons x X ih => simp only [List.map_cons, List.sum_cons, ih]; ring
    rw [this, sub_div, mul_div_cancel_right₀ _ hpos.ne']
  rw [e, abs_div, abs_of_pos hpos, div_le_iff₀ hpos]
  have : |(X.map fun x => w x * (x - m)).sum| ≤ (X.map fun x => r * w x).sum := by
    clear h h0 hpos e
    induction X with
    | nil => simp
    | cons x X ih =>
      simp only [List.map_cons, List.sum_cons]
      refine (abs_add_le _ _).trans (add_le_add ?_ (ih (fun y hy => hw y (by simp [hy])) fun y hy => hs y (by simp [hy])))
      by_cases hx : w x = 0
      · simp [hx]
      · rw [abs_mul, abs_of_nonneg (hw x (by simp)), mul_comm]
        exact mul_le_mul_of_nonneg_right (hs x (by simp) hx) (hw x (by simp))
  rwa [List.sum_map_mul_left] at this

/-- The same for weights which do not vanish but are bounded as functions of the residual: at least half of the observations have
weight `ω` or more, and no observation contributes more than `B`. -/
theorem weightedMean_bounded {w : ℝ → ℝ} {X : List ℝ} {l : ℝ} (h : weightedMean w X = some l) (hw : ∀ x ∈ X, 0 ≤ w x) {m B ω : ℝ}
    (hω : 0 < ω) (hB : ∀ x ∈ X, w x * |x - m| ≤ B) (hhalf : X.length ≤ 2 * X.countP (fun x => decide (ω ≤ w x))) :
    |l - m| ≤ 2 * B / ω := by
  unfold weightedMean at h
  split_ifs at h with h0
  obtain rfl := Option.some.inj h
  have hne : X ≠ [] := by rintro rfl; simp at h0
  have hn : (0:ℝ) < X.length := by exact_mod_cast List.length_pos_iff.2 hne
  have hsum : (X.countP (fun x => decide (ω ≤ w x)) : ℝ) * ω ≤ (X.map w).sum := by
    clear h h0 hne hn hB hhalf
    induction X with
    | nil => simp
    | cons x X ih =>
      have := ih fun y hy => hw y (by simp [hy])
      have hx := hw x (by simp)
      rw [List.countP_cons, List.map_cons, List.sum_cons]
      split_ifs with hxo
      · have : ω ≤ w x := by simpa using hxo
        push_cast
        linarith
      · push_cast
        linarith
  have hh : (X.length : ℝ) ≤ 2 * (X.countP (fun x => decide (ω ≤ w x)) : ℝ) := by exact_mod_cast hhalf
  have hpos : 0 < (X.map w).sum := by nlinarith
  have e : (X.map fun x => w x * x).sum / (X.map w).sum - m = (X.map fun x => w x * (x - m)).sum / (X.map w).sum := by
    have : (X.map fun x => w x * (x - m)).sum = (X.map fun x => w x * x).sum - m * (X.map w).sum := by
      clear h h0 hpos hw hne hn hB hhalf hsum hh
      induction X with
      | nil => simp
      | cons x X ih => simp only [List.map_cons, List.sum_cons, ih]; ring
    rw [this, sub_div, mul_div_cancel_right₀ _ hpos.ne']
  rw [e, abs_div, abs_of_pos hpos]
  have hnum : |(X.map fun x => w x * (x - m)).sum| ≤ X.length * B := by
    clear h h0 hpos e hne hn hhalf hsum hh
    induction X with
    | nil => simp
    | cons x X ih =>
      have h1 := ih (fun y hy => hw y (by simp [hy])) fun y hy => hB y (by simp [hy])
      simp only [List.map_cons, List.sum_cons, List.length_cons]
      refine (abs_add_le _ _).trans ?_
      rw [abs_mul, abs_of_nonneg (hw x (by simp))]
      have := hB x (by simp)
      push_cast
      linarith
  rw [div_le_div_iff₀ hpos hω]
  have hB0 : 0 ≤ B := by
    obtain ⟨x, hx⟩ := List.exists_mem_of_ne_nil X hne
    exact (mul_nonneg (hw x hx) (abs_nonneg _)).trans (hB x hx)
  calc |(X.map fun x => w x * (x - m)).sum| * ω ≤ X.length * B * ω := mul_le_mul_of_nonneg_right hnum hω.le
    _ ≤ 2 * (X.countP (fun x => decide (ω ≤ w x)) : ℝ) * B * ω := by
      exact mul_le_mul_of_nonneg_right (mul_le_mul_of_nonneg_right hh hB0) hω.le
    _ = 2 * B * ((X.countP (fun x => decide (ω ≤ w x)) : ℝ) * ω) := by ring
    _ ≤ 2 * B * (X.map w).sum := mul_le_mul_of_nonneg_left hsum (by linarith)

theorem sub_bounds {l m lo L r : ℝ} (h : |l - m| ≤ r) (h1 : lo ≤ m) (h2 : m ≤ lo + L) : lo - r ≤ l ∧ l ≤ lo + L + r := by
  have := abs_le.1 h
  constructor <;> linarith [this.1, this.2]

/-- **C176**, `Tau`: location within `c1 * L` of the interval, scale at most `c2 * L`; for `c1 > 1` a location is reported unless the
MAD is 0 (C70). -/
theorem C176_tau (c1 c2 : ℝ) (hc1 : 0 < c1) (hc2 : 0 < c2) (X : List ℝ) (lo L : ℝ) (hX : Spec.majorityIn lo L X) :
    ∃ loc scale, tauCalculate c1 c2 none X = .ok (loc, scale) ∧ 0 ≤ scale ∧ scale ≤ c2 * L ∧
      (∀ l, loc = some l → lo - c1 * L ≤ l ∧ l ≤ lo + L + c1 * L) ∧ (1 < c1 → madRaw X ≠ some 0 → loc.isSome) := by
  obtain ⟨m, s, hm, hs, hmb, hs0, hsL⟩ := C12_breakdown X lo (lo + L) hX
  obtain ⟨loc, scale, h1, h2, h3⟩ := C07_scale_bound c1 c2 hc2 X s hs
  have hloc : loc = tauLocation c1 X := by
    unfold tauCalculate at h1
    rw [hs] at h1
    simp only [Except.ok.injEq, Prod.mk.injEq] at h1
    exact h1.1.symm
  have hX0 : X ≠ [] := by rintro rfl; simp [npMedian] at hm
  refine ⟨loc, scale, h1, h2, h3.trans (by nlinarith), fun l hl => ?_, fun hc h0 => hloc ▸ (C70_finite_iff_partial c1 hc X).2 ⟨hX0, h0⟩⟩
  rw [hloc] at hl
  unfold tauLocation at hl
  rw [hm, hs] at hl
  simp only at hl
  split_ifs at hl with h0
  have hpos : 0 < s := lt_of_le_of_ne hs0 (Ne.symm h0)
  have := weightedMean_support hl (fun x _ => tauWeight_nonneg _ _) (m := m) (r := c1 * s) (by
    intro x _ hx
    unfold tauWeight at hx
    split_ifs at hx with h4
    · rw [abs_div, abs_of_pos hpos, div_le_iff₀ hpos] at h4
      exact h4
    · exact absurd rfl hx)
  exact sub_bounds (this.trans (by nlinarith)) hmb.1 hmb.2

/-- A lower bound of the weights of residuals up to 0.6745. -/
theorem oneStepWeight_ge {loc : Rho ℝ} (ha : loc.admissible) : ∃ ω > 0, ∀ r, |r| ≤ normalQuartile → ω ≤ oneStepWeight loc r := by
  have hq := normalQuartile_pos (K := ℝ)
  have hq1 := normalQuartile_lt_one (K := ℝ)
  rcases loc with c | b
  · have hc : (1:ℝ) ≤ c := ha
    have hc0 : 0 < c := by linarith
    have h1 : (normalQuartile / c : ℝ) ^ 2 < 1 := by
      rw [sq_lt_one_iff_abs_lt_one, abs_of_pos (by positivity), div_lt_one hc0]
      linarith
    have h2 : (0:ℝ) < 1 - (normalQuartile / c) ^ 2 := by linarith
    refine ⟨(1 - (normalQuartile / c) ^ 2) ^ 2, by positivity, fun r hr => ?_⟩
    unfold oneStepWeight
    split_ifs with h
    · have hr0 : r ≠ 0 := by
        rintro rfl
        rw [abs_zero] at h
        norm_num at h
      show _ ≤ tukeyPsi c r / r
      unfold tukeyPsi
      rw [if_pos (by linarith), mul_div_right_comm, div_self hr0, one_mul]
      have h3 : (r / c) ^ 2 ≤ (normalQuartile / c) ^ 2 := by
        rw [div_pow, div_pow]
        refine div_le_div_of_nonneg_right ?_ (sq_nonneg c)
        rw [← sq_abs r]
        exact pow_le_pow_left₀ (abs_nonneg r) hr 2
      exact pow_le_pow_left₀ h2.le (by linarith) 2
    · exact pow_le_one₀ h2.le (by linarith [sq_nonneg (normalQuartile / c : ℝ)])
  · have hb : 0 < b := ha
    refine ⟨min 1 b, lt_min one_pos hb, fun r hr => ?_⟩
    unfold oneStepWeight
    split_ifs with h
    · have hr0 : r ≠ 0 := by
        rintro rfl
        rw [abs_zero] at h
        norm_num at h
      show _ ≤ huberPsi b r / r
      have hr1 : |r| ≤ 1 := by linarith
      have hrp : 0 < |r| := abs_pos.2 hr0
      unfold huberPsi npSign
      split_ifs with h1 h2 h3
      · rw [div_self hr0]
        exact min_le_left _ _
      · rw [le_div_iff_of_neg h2]
        rw [abs_of_neg h2] at hr1
        have := min_le_right (1:ℝ) b
        nlinarith [lt_min one_pos hb]
      · rw [le_div_iff₀ h3]
        rw [abs_of_pos h3] at hr1
        have := min_le_right (1:ℝ) b
        nlinarith [lt_min one_pos hb]
      · exact absurd (le_antisymm (not_lt.1 h3) (not_lt.1 h2)) hr0
    · exact min_le_left _ _

/-- **C176**, `OneStepM`: with admissible rho functions there is a factor `k`, which depends only on the rho function of the location,
such that the location is within `k * max 1 (L / 0.6745)` of the interval; the scale is at most `b * L / (0.6745 * sqrt delta)`.
The 1 is `safe_mad` of a scale below `min_abs_scale`. -/
theorem C176_onestep (loc : Rho ℝ) (ha : loc.admissible) : ∃ k, 0 < k ∧
    ∀ (scale : Rho ℝ), 0 < scale.const → ∀ delta minAbs : ℝ, 0 < delta → 0 < minAbs → minAbs ≤ 1 →
    ∀ (X : List ℝ) (lo L : ℝ), Spec.majorityIn lo L X →
      ∃ l v, oneStepM loc scale delta minAbs (X.map some) = .ok (some l, some v) ∧
        lo - k * max 1 (L / normalQuartile) ≤ l ∧ l ≤ lo + L + k * max 1 (L / normalQuartile) ∧
        0 ≤ v ∧ v ≤ L / normalQuartile * scale.const / Real.sqrt delta := by
  obtain ⟨ω, hω, hωle⟩ := oneStepWeight_ge ha
  have hc : 0 < loc.const := by
    rcases loc with c | b
    · exact lt_of_lt_of_le one_pos (show (1:ℝ) ≤ c from ha)
    · exact ha
  have hq := normalQuartile_pos (K := ℝ)
  set B := max loc.const (1 / 100000) with hB
  have hB0 : 0 < B := (lt_max_of_lt_left hc : 0 < max loc.const (1 / 100000))
  refine ⟨2 * B / ω, by positivity, fun scale hsc delta minAbs hd hm0 hm1 X lo L hX => ?_⟩
  obtain ⟨m, s, hm, hs, hmb, hs0, hsL⟩ := C12_breakdown X lo (lo + L) hX
  have hsL' : s ≤ L := by linarith
  have hX0 : X ≠ [] := by rintro rfl; simp [npMedian] at hm
  obtain ⟨v, hv, hv0, hvle, -⟩ := C08_scale scale hsc delta minAbs hd X s hs
  obtain ⟨l, hl, -⟩ := C08_location loc ha minAbs hm0 hm1 X hX0
  have hrun : oneStepM loc scale delta minAbs (X.map some) = .ok (some l, some v) := by
    unfold oneStepM
    have h1 : (X.map some).any Option.isNone = false := by simp
    have h2 : (X.map some).filterMap id = X := by simp
    rw [h1, h2]
    show Except.ok (oneStepLocation loc minAbs X, oneStepScale scale delta minAbs X) = _
    rw [hl, hv]
  refine ⟨l, v, hrun, ?_⟩
  set t := safeMad minAbs (s / normalQuartile) with ht
  have ht0 : 0 < t := by
    rw [ht]
    unfold safeMad
    split_ifs with h
    · exact one_pos
    · linarith
  have htL : t ≤ max 1 (L / normalQuartile) := by
    rw [ht]
    unfold safeMad
    split_ifs with h
    · exact le_max_left _ _
    · exact (div_le_div_of_nonneg_right hsL' hq.le).trans (le_max_right _ _)
  have hst : s ≤ normalQuartile * t := by
    rw [ht]
    unfold safeMad
    split_ifs with h
    · rw [div_lt_iff₀ hq] at h
      nlinarith
    · rw [mul_div_cancel₀ _ hq.ne']
  have key : |l - m| ≤ 2 * (t * B) / ω := by
    unfold oneStepLocation at hl
    rw [hm, hs] at hl
    refine weightedMean_bounded hl (fun x _ => oneStepWeight_nonneg loc hc _) hω ?_ ?_
    · intro x _
      set r := (x - m) / t with hr
      have e : |x - m| = t * |r| := by
        rw [hr, abs_div, abs_of_pos ht0, mul_div_cancel₀ _ ht0.ne']
      rw [e, mul_left_comm]
      refine mul_le_mul_of_nonneg_left ?_ ht0.le
      unfold oneStepWeight
      split_ifs with h
      · have hr0 : |r| ≠ 0 := by
          intro h0
          rw [h0] at h
          norm_num at h
        have h5 : 0 ≤ loc.psi r / r := by
          have := oneStepWeight_nonneg loc hc r
          unfold oneStepWeight at this
          rwa [if_pos h] at this
        rw [← abs_of_nonneg h5, abs_div, div_mul_cancel₀ _ hr0]
        exact (psi_bounded loc hc r).trans (le_max_left _ _)
      · rw [one_mul]
        exact (not_lt.1 h).trans (le_max_right _ _)
    · obtain ⟨m', hm', hmed⟩ := madRaw_spec hs
      obtain rfl : m = m' := by rw [hm] at hm'; exact Option.some.inj hm'
      have h6 := (npMedian_half hmed).1
      rw [List.length_map, List.countP_map] at h6
      refine h6.trans (Nat.mul_le_mul_left 2 (List.countP_mono_left ?_))
      intro x _ hx
      have hx' : |x - m| ≤ s := by simpa using hx
      simp only [decide_eq_true_eq]
      refine hωle _ ?_
      rw [abs_div, abs_of_pos ht0, div_le_iff₀ ht0]
      exact hx'.trans hst
  have key2 : |l - m| ≤ 2 * B / ω * max 1 (L / normalQuartile) := by
    refine key.trans ?_
    rw [show 2 * (t * B) / ω = 2 * B / ω * t by ring]
    exact mul_le_mul_of_nonneg_left htL (by positivity)
  obtain ⟨b1, b2⟩ := sub_bounds key2 hmb.1 hmb.2
  refine ⟨b1, b2, hv0, hvle.trans ?_⟩
  exact div_le_div_of_nonneg_right (mul_le_mul_of_nonneg_right (div_le_div_of_nonneg_right hsL' hq.le) hsc.le) (Real.sqrt_nonneg _)

theorem mean_between {xs : List ℝ} (hx : 0 < xs.length) {a b : ℝ} (h : ∀ x ∈ xs, a ≤ x ∧ x ≤ b) : a ≤ mean xs ∧ mean xs ≤ b := by
  have hn : (0:ℝ) < xs.length := by exact_mod_cast hx
  unfold mean
  rw [le_div_iff₀ hn, div_le_iff₀ hn]
  clear hx hn
  induction xs with
  | nil => simp
  | cons x xs ih =>
    obtain ⟨h1, h2⟩ := ih fun y hy => h y (by simp [hy])
    obtain ⟨h3, h4⟩ := h x (by simp)
    simp only [List.sum_cons, List.length_cons]
    push_cast
    constructor <;> linarith

theorem var_le_of_range {xs : List ℝ} (hx : 0 < xs.length) {a L : ℝ} (h : ∀ x ∈ xs, a ≤ x ∧ x ≤ a + L) : var xs ≤ L ^ 2 := by
  rw [var_eq_popVar]
  exact popVar_le_of_range _ a L (by simpa using hx) (by simpa using h)

/-- **C176**, `UnivariateMCD`: if at least `h` observations (more than half) lie in an interval of length `L`, the raw variance, the
reported location and the reported variance are bounded by the interval, the cutoff and the consistency factors. -/
theorem C176_mcd (cutoff : ℝ) (corrRaw : ℕ → ℕ → ℝ) (corr : ℝ → ℝ) (hcut : 0 ≤ cutoff) (hraw : ∀ h n, 0 ≤ corrRaw h n)
    (h : ℕ) (X : List ℝ) (h0 : 0 < h) (hn : h ≤ X.length) (h2 : X.length < 2 * h) (lo L : ℝ)
    (hgood : h ≤ X.countP fun x => decide (lo ≤ x ∧ x ≤ lo + L)) :
    ∃ fit, mcdCalculate cutoff corrRaw corr h X = some fit ∧
      fit.rawVariance ≤ max 1 (corrRaw h X.length) * L ^ 2 ∧
      (∀ l, fit.location = some l →
        let r := (Real.sqrt h + Real.sqrt (cutoff * corrRaw h X.length)) * L
        lo - r ≤ l ∧ l ≤ lo + L + r) ∧
      ∀ v, fit.variance = some v → ∃ d, 0 < d ∧ d ≤ 1 ∧ v ≤ max 1 (4 * cutoff * corrRaw h X.length * |corr d|) * L ^ 2 := by
  have hL : 0 ≤ L := by
    obtain ⟨x, -, hx⟩ := List.countP_pos_iff.1 (lt_of_lt_of_le h0 hgood)
    have hx' : lo ≤ x ∧ x ≤ lo + L := by simpa using hx
    linarith [hx'.1, hx'.2]
  have hL2 : 0 ≤ L ^ 2 := sq_nonneg L
  by_cases e : h = X.length
  · have hall : ∀ x ∈ X, lo ≤ x ∧ x ≤ lo + L := by
      have h3 : X.countP (fun x => decide (lo ≤ x ∧ x ≤ lo + L)) = X.length := le_antisymm List.countP_le_length (e ▸ hgood)
      intro x hx
      simpa using List.countP_eq_length.1 h3 x hx
    have hpos : 0 < X.length := by omega
    have hv := var_le_of_range hpos hall
    have hm := mean_between hpos hall
    refine ⟨_, by unfold mcdCalculate; rw [if_pos e], hv.trans (le_mul_of_one_le_left hL2 (le_max_left _ _)), ?_, ?_⟩
    · intro l hl
      obtain rfl := Option.some.inj hl
      have : 0 ≤ (Real.sqrt h + Real.sqrt (cutoff * corrRaw h X.length)) * L :=
        mul_nonneg (add_nonneg (Real.sqrt_nonneg _) (Real.sqrt_nonneg _)) hL
      exact ⟨by linarith [hm.1], by linarith [hm.2]⟩
    · intro v hv'
      obtain rfl := Option.some.inj hv'
      exact ⟨1, one_pos, le_rfl, hv.trans (le_mul_of_one_le_left hL2 (le_max_left _ _))⟩
  · obtain ⟨v, l, hr, hvL, g, hg, hgb, hgl⟩ := C11_no_explosion h X h0 hn h2 lo L hgood
    set c := corrRaw h X.length with hc
    have hc0 : 0 ≤ c := hraw _ _
    have hrv : v * c ≤ c * L ^ 2 := by
      rw [mul_comm]
      exact mul_le_mul_of_nonneg_left hvL hc0
    refine ⟨_, by unfold mcdCalculate; rw [if_neg e, hr], hrv.trans (mul_le_mul_of_nonneg_right (le_max_right _ _) hL2), ?_⟩
    set t := Real.sqrt (cutoff * c) * L with ht
    have hsel : ∀ x ∈ X.filter (rewMask cutoff l (v * c)), l - t ≤ x ∧ x ≤ l + t := by
      intro x hx
      have hx2 := (List.mem_filter.1 hx).2
      unfold rewMask at hx2
      split_ifs at hx2 with h3
      have h4 : (x - l) ^ 2 / (v * c) < cutoff := by simpa using hx2
      have hvc : 0 < v * c := by
        rcases lt_or_gt_of_ne h3 with h5 | h5
        · exfalso
          have hv0 : 0 ≤ v := by
            obtain ⟨v', l', W, e', -, -, w4, -⟩ := rawEstimates_spec h X h0 hn
            rw [hr] at e'
            obtain ⟨rfl, -⟩ := Prod.mk.inj (Option.some.inj e')
            rw [← w4]
            exact popVar_nonneg _
          exact absurd (mul_nonneg hv0 hc0) (not_le.2 h5)
        · exact h5
      have h6 : (x - l) ^ 2 ≤ t ^ 2 := by
        rw [div_lt_iff₀ hvc] at h4
        rw [ht, mul_pow, Real.sq_sqrt (mul_nonneg hcut hc0), mul_assoc]
        exact h4.le.trans (mul_le_mul_of_nonneg_left hrv hcut)
      have h7 := abs_le.1 (abs_le_of_sq_le_sq h6 (mul_nonneg (Real.sqrt_nonneg _) hL))
      exact ⟨by linarith [h7.1], by linarith [h7.2]⟩
    have hl : |g - l| ≤ Real.sqrt h * L := by
      refine abs_le_of_sq_le_sq ?_ (mul_nonneg (Real.sqrt_nonneg _) hL)
      rw [mul_pow, Real.sq_sqrt (Nat.cast_nonneg h)]
      exact hgl
    have hl' := abs_le.1 hl
    show (∀ l', (reweighting cutoff corr (v * c) l X).map Prod.snd = some l' → _) ∧
      ∀ v', (reweighting cutoff corr (v * c) l X).map Prod.fst = some v' → _
    unfold reweighting
    by_cases h8 : (X.filter (rewMask cutoff l (v * c))).length = 0
    · simp [h8]
    · simp only [h8, if_false, Option.map_some, Option.some.injEq]
      have hpos : 0 < (X.filter (rewMask cutoff l (v * c))).length := Nat.pos_of_ne_zero h8
      have hm := mean_between hpos hsel
      have hvar : var (X.filter (rewMask cutoff l (v * c))) ≤ (2 * t) ^ 2 :=
        var_le_of_range hpos (a := l - t) fun x hx => ⟨(hsel x hx).1, by linarith [(hsel x hx).2]⟩
      have hX : (0:ℝ) < X.length := by exact_mod_cast lt_of_lt_of_le h0 hn
      constructor
      · rintro l' rfl
        rw [add_mul, ← ht]
        exact ⟨by linarith [hm.1, hl'.2, hgb.1], by linarith [hm.2, hl'.1, hgb.2]⟩
      · rintro v' rfl
        refine ⟨((X.filter (rewMask cutoff l (v * c))).length : ℝ) / X.length, div_pos (by exact_mod_cast hpos) hX,
          (div_le_one hX).2 (by exact_mod_cast List.length_filter_le _ _), ?_⟩
        refine le_trans ?_ (mul_le_mul_of_nonneg_right (le_max_right _ _) hL2)
        have hvar0 : 0 ≤ var (X.filter (rewMask cutoff l (v * c))) := by
          rw [var_eq_popVar]
          exact popVar_nonneg _
        refine (mul_le_mul_of_nonneg_left (le_abs_self _) hvar0).trans ((mul_le_mul_of_nonneg_right hvar (abs_nonneg _)).trans (le_of_eq ?_))
        rw [ht, mul_pow, mul_pow, Real.sq_sqrt (mul_nonneg hcut hc0)]
        ring

/-- **C176**, `OneStepWrapping` (whose initial estimator is `UnivariateMCD()`): the reported location is within the bound of
`C176_mcd` plus four reported scales. -/
theorem C176_wrapping (cutoff : ℝ) (corrRaw : ℕ → ℕ → ℝ) (corr : ℝ → ℝ) (hcut : 0 ≤ cutoff) (hraw : ∀ h n, 0 ≤ corrRaw h n)
    (X : List ℝ) (lo L : ℝ) (hX : Spec.majorityIn lo L X) :
    (∀ s, (oneStepWrapping cutoff corrRaw corr X).2 = some s →
      ∃ d, 0 < d ∧ d ≤ 1 ∧ s ^ 2 ≤ max 1 (4 * cutoff * corrRaw (X.length / 2 + 1) X.length * |corr d|) * L ^ 2) ∧
    ∀ l, (oneStepWrapping cutoff corrRaw corr X).1 = some l → ∃ s, (oneStepWrapping cutoff corrRaw corr X).2 = some s ∧
      let r := (Real.sqrt ((X.length / 2 + 1 : ℕ) : ℝ) + Real.sqrt (cutoff * corrRaw (X.length / 2 + 1) X.length)) * L + 4 * s
      lo - r ≤ l ∧ l ≤ lo + L + r := by
  unfold Spec.majorityIn at hX
  have hle : X.countP (fun x => decide (lo ≤ x ∧ x ≤ lo + L)) ≤ X.length := List.countP_le_length
  obtain ⟨⟨rv, rl, vo, lo'⟩, h1, -, h3, h4⟩ := C176_mcd cutoff corrRaw corr hcut hraw (X.length / 2 + 1) X (by omega) (by omega) (by omega) lo L (by omega)
  unfold oneStepWrapping
  rw [h1]
  rcases vo with _ | v
  · simp
  rcases lo' with _ | l0
  · simp
  simp only
  constructor
  · intro s hs
    obtain rfl := Option.some.inj hs
    obtain ⟨d, d0, d1, d2⟩ := h4 v rfl
    refine ⟨d, d0, d1, ?_⟩
    rcases le_or_gt 0 v with hv | hv
    · rw [Real.sq_sqrt hv]
      exact d2
    · rw [Real.sqrt_eq_zero_of_nonpos hv.le]
      have : (0:ℝ) ≤ max 1 (4 * cutoff * corrRaw (X.length / 2 + 1) X.length * |corr d|) * L ^ 2 :=
        mul_nonneg (le_max_of_le_left zero_le_one) (sq_nonneg L)
      simpa using this
  · intro l hl
    refine ⟨_, rfl, ?_⟩
    split_ifs at hl with hs
    have hs0 : 0 < Real.sqrt v := lt_of_le_of_ne (Real.sqrt_nonneg _) (Ne.symm hs)
    have := weightedMean_support hl (fun x _ => tanhWeight_nonneg _) (m := l0) (r := 4 * Real.sqrt v) (by
      intro x _ hx
      by_contra hgt
      apply hx
      have h5 : 4 < |(x - l0) / Real.sqrt v| := by
        rw [abs_div, abs_of_pos hs0, lt_div_iff₀ hs0]
        exact not_le.1 hgt
      unfold tanhWeight
      rw [if_neg (by norm_num; linarith), if_pos h5])
    have h6 := abs_le.1 this
    obtain ⟨h7, h8⟩ := h3 l0 rfl
    show _ ∧ _
    exact ⟨by linarith [h6.1], by linarith [h6.2]⟩

/-- Four of six observations in [0, 2], two far away. -/
theorem majority_c176 : Spec.majorityIn 0 2 [0, 1, 2, 1 / 2, 1000000, -70000] := by
  unfold Spec.majorityIn
  norm_num [List.countP_cons]

theorem mad_c176 : madRaw ([0, 1, 2, 1 / 2, 1000000, -70000] : List ℝ) ≠ some 0 := by
  intro h
  obtain ⟨m, -, hm⟩ := madRaw_spec h
  have h1 := (npMedian_half hm).1
  rw [List.length_map, List.countP_map] at h1
  have h2 : ([0, 1, 2, 1 / 2, 1000000, -70000] : List ℝ).countP ((fun x => decide (x ≤ 0)) ∘ fun x => |x - m|) ≤ 1 := by
    have h3 : ([0, 1, 2, 1 / 2, 1000000, -70000] : List ℝ).Nodup := by norm_num
    refine le_trans (List.countP_mono_left ?_) (List.nodup_iff_count_le_one.1 h3 m)
    intro x _ hx
    have : |x - m| ≤ 0 := by simpa using hx
    have := abs_nonpos_iff.1 this
    simp
    linarith
  simp only [List.length_cons, List.length_nil] at h1
  omega

/-- Non-vacuous for `Tau()` (constants 4.5 and 3): a location is reported, and it is bounded. -/
example : ∃ l s, tauCalculate (4.5 : ℝ) 3 none [0, 1, 2, 1 / 2, 1000000, -70000] = .ok (some l, s) ∧ -9 ≤ l ∧ l ≤ 11 ∧ s ≤ 6 := by
  obtain ⟨loc, s, h1, -, h3, h4, h5⟩ := C176_tau 4.5 3 (by norm_num) (by norm_num) _ 0 2 majority_c176
  obtain ⟨l, rfl⟩ := Option.isSome_iff_exists.1 (h5 (by norm_num) mad_c176)
  obtain ⟨h6, h7⟩ := h4 l rfl
  exact ⟨l, s, h1, by linarith, by linarith, by linarith⟩

/-- Non-vacuous for `OneStepM` with the default rho functions. -/
example : ∃ k, 0 < k ∧ ∃ l v, oneStepM (.tukey 3.44) (.huber 2.5) 0.8451994 (1 / 1000000000000) (([0, 1, 2, 1 / 2, 1000000, -70000] : List ℝ).map some) =
    .ok (some l, some v) ∧ -(k * max 1 (2 / normalQuartile)) ≤ l ∧ l ≤ 2 + k * max 1 (2 / normalQuartile) := by
  obtain ⟨k, k0, hk⟩ := C176_onestep (.tukey 3.44) (by show (1:ℝ) ≤ 3.44; norm_num)
  obtain ⟨l, v, h1, h2, h3, -⟩ := hk (.huber 2.5) (by show (0:ℝ) < 2.5; norm_num) 0.8451994 (1 / 1000000000000) (by norm_num) (by norm_num)
    (by norm_num) _ 0 2 majority_c176
  exact ⟨k, k0, l, v, h1, by linarith, by linarith⟩

/-- Non-vacuous for `UnivariateMCD` with `h = 4` of six. -/
example (corrRaw : ℕ → ℕ → ℝ) (corr : ℝ → ℝ) (hraw : ∀ h n, 0 ≤ corrRaw h n) :
    ∃ fit, mcdCalculate 6.63 corrRaw corr 4 [0, 1, 2, 1 / 2, 1000000, -70000] = some fit ∧ fit.rawVariance ≤ max 1 (corrRaw 4 6) * 2 ^ 2 := by
  obtain ⟨fit, h1, h2, -⟩ := C176_mcd 6.63 corrRaw corr (by norm_num) hraw 4 [0, 1, 2, 1 / 2, 1000000, -70000] (by norm_num) (by simp) (by simp) 0 2
    (by norm_num [List.countP_cons])
  exact ⟨fit, h1, h2⟩

end Robpy
