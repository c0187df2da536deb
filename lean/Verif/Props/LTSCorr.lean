import Verif.Props.LTSReweight
import Mathlib.Analysis.SpecialFunctions.Log.Basic
import Mathlib.Analysis.SpecialFunctions.Log.Deriv
import Mathlib.Analysis.Complex.ExponentialBounds
import Mathlib.Topology.Order.IntermediateValue

/-! C54, C101: the correction factors of FastLTS and the reported scale. -/

namespace Robpy

/-- **C54**: both correction factors raise ValueError exactly when `alpha` is outside of `[0.5, 1]`. -/
theorem C54_alpha (p n : ℕ) (alpha : ℝ) :
    (ltsCorr p n alpha = .error .valueError ↔ ¬ (0.5 ≤ alpha ∧ alpha ≤ 1)) ∧
    (ltsCorrRew p n alpha = .error .valueError ↔ ¬ (0.5 ≤ alpha ∧ alpha ≤ 1)) := by
  have key : ∀ f : ℝ × ℝ, corrFrom f p alpha = .error .valueError ↔ ¬ (0.5 ≤ alpha ∧ alpha ≤ 1) := by
    intro f
    unfold corrFrom
    split_ifs with h h0
    · simp only [true_iff]
      rintro ⟨h1, h2⟩
      rcases h with h | h <;> linarith
    all_goals
      push Not at h
      simp [h.1, h.2]
  exact ⟨key _, key _⟩

/-- **C54**: both correction factors are 1 at `alpha = 1`, for all numbers of rows and columns. -/
theorem C54_one (p n : ℕ) : ltsCorr p n 1 = .ok (some 1) ∧ ltsCorrRew p n 1 = .ok (some 1) := by
  have key : ∀ f : ℝ × ℝ, corrFrom f p 1 = .ok (some 1) := by
    intro f
    have hf : fpAlpha f 1 = 1 := by
      unfold fpAlpha
      rw [if_neg (by norm_num)]
      ring
    unfold corrFrom
    rw [hf, if_neg (by norm_num)]
    split_ifs <;> norm_num at *
  exact ⟨key _, key _⟩

theorem fpAlpha_continuous (f : ℝ × ℝ) : Continuous (fpAlpha f) := by
  unfold fpAlpha
  refine Continuous.if_le (by fun_prop) (by fun_prop) continuous_id continuous_const ?_
  intro x hx
  rw [hx]; ring

/-- Between 0.5 and 1 `fp_alpha_n` lies between the smallest and the largest of `fp_500_n`, `fp_875_n` and 1. -/
theorem fpAlpha_mem {f : ℝ × ℝ} {lo hi : ℝ} (h1 : lo ≤ f.1) (h2 : lo ≤ f.2) (h3 : lo ≤ 1) (k1 : f.1 ≤ hi) (k2 : f.2 ≤ hi) (k3 : 1 ≤ hi)
    {alpha : ℝ} (ha : 0.5 ≤ alpha) (ha1 : alpha ≤ 1) : lo ≤ fpAlpha f alpha ∧ fpAlpha f alpha ≤ hi := by
  unfold fpAlpha
  split_ifs with h
  · have e : f.1 + (f.2 - f.1) / 0.375 * (alpha - 0.5) = f.1 * (1 - (alpha - 0.5) / 0.375) + f.2 * ((alpha - 0.5) / 0.375) := by ring
    have t0 : 0 ≤ (alpha - 0.5) / 0.375 := div_nonneg (by linarith) (by norm_num)
    have t1 : (alpha - 0.5) / 0.375 ≤ 1 := by rw [div_le_one (by norm_num)]; linarith
    rw [e]
    constructor <;> nlinarith
  · have e : f.2 + (1 - f.2) / 0.125 * (alpha - 0.875) = f.2 * (1 - (alpha - 0.875) / 0.125) + 1 * ((alpha - 0.875) / 0.125) := by ring
    have t0 : 0 ≤ (alpha - 0.875) / 0.125 := div_nonneg (by linarith) (by norm_num)
    have t1 : (alpha - 0.875) / 0.125 ≤ 1 := by rw [div_le_one (by norm_num)]; linarith
    rw [e]
    constructor <;> nlinarith

/-- **C54** (full statement): for all numbers of columns and more rows, both correction factors are finite and continuous in `alpha` on
`[0.5, 1]` and 1 at 1. -/
def C54_statement : Prop :=
  ∀ p n : ℕ, p + 1 ≤ n → ∃ g g' : ℝ → ℝ, ContinuousOn g (Set.Icc 0.5 1) ∧ ContinuousOn g' (Set.Icc 0.5 1) ∧ g 1 = 1 ∧ g' 1 = 1 ∧
    ∀ alpha ∈ Set.Icc (0.5 : ℝ) 1, ltsCorr p n alpha = .ok (some (g alpha)) ∧ ltsCorrRew p n alpha = .ok (some (g' alpha))

theorem corrFrom_pos {f : ℝ × ℝ} (h1 : 0 < f.1) (h2 : 0 < f.2) (k1 : f.1 ≤ 1) (k2 : f.2 ≤ 1) (p : ℕ) :
    ∃ g : ℝ → ℝ, ContinuousOn g (Set.Icc 0.5 1) ∧ g 1 = 1 ∧
      ∀ alpha ∈ Set.Icc (0.5 : ℝ) 1, corrFrom f p alpha = .ok (some (g alpha)) ∧ 1 ≤ g alpha := by
  have hpos : ∀ alpha ∈ Set.Icc (0.5 : ℝ) 1, 0 < fpAlpha f alpha ∧ fpAlpha f alpha ≤ 1 := by
    intro alpha ha
    have hlo : 0 < min f.1 f.2 := lt_min h1 h2
    have := fpAlpha_mem (lo := min f.1 f.2) (hi := 1) (min_le_left _ _) (min_le_right _ _) ((min_le_left _ _).trans k1) k1 k2 le_rfl ha.1 ha.2
    exact ⟨hlo.trans_le this.1, this.2⟩
  have hone : fpAlpha f 1 = 1 := by
    unfold fpAlpha
    rw [if_neg (by norm_num)]
    ring
  by_cases hp : p = 0
  · refine ⟨fun alpha => 1 / Real.sqrt (fpAlpha f alpha), ?_, by simp [hone], ?_⟩
    · refine ContinuousOn.div continuousOn_const ?_ ?_
      · exact (Real.continuous_sqrt.comp (fpAlpha_continuous f)).continuousOn
      · intro alpha ha
        exact (Real.sqrt_pos.2 (hpos alpha ha).1).ne'
    · intro alpha ha
      obtain ⟨e1, e2⟩ := hpos alpha ha
      unfold corrFrom
      rw [if_neg (by push Not; exact ha), if_pos hp, if_neg (not_le.2 e1)]
      refine ⟨rfl, ?_⟩
      rw [le_div_iff₀ (Real.sqrt_pos.2 e1), one_mul]
      exact Real.sqrt_le_one.2 e2
  · refine ⟨fun alpha => 1 / fpAlpha f alpha, ?_, by simp [hone], ?_⟩
    · exact ContinuousOn.div continuousOn_const (fpAlpha_continuous f).continuousOn fun alpha ha => (hpos alpha ha).1.ne'
    · intro alpha ha
      obtain ⟨e1, e2⟩ := hpos alpha ha
      unfold corrFrom
      rw [if_neg (by push Not; exact ha), if_neg hp, if_neg e1.ne']
      refine ⟨rfl, ?_⟩
      rw [le_div_iff₀ e1, one_mul]
      exact e2

/-- `1 - exp(e) / n^k` lies in `(0, 1)` if `e < k log n`. -/
theorem fpAt_mem {e k : ℝ} {n : ℕ} (hn : 0 < n) (h : e < k * Real.log n) : 0 < fpAt e k n ∧ fpAt e k n ≤ 1 := by
  have hn' : (0 : ℝ) < n := by exact_mod_cast hn
  have hpow : (n : ℝ) ^ k = Real.exp (k * Real.log n) := by rw [Real.rpow_def_of_pos hn', mul_comm]
  unfold fpAt
  rw [hpow, ← Real.exp_sub]
  constructor
  · have : Real.exp (e - k * Real.log n) < 1 := by rw [Real.exp_lt_one_iff]; linarith
    linarith
  · have := Real.exp_pos (e - k * Real.log n)
    linarith

theorem fpAt_neg {e k : ℝ} {n : ℕ} (hn : 0 < n) (h : k * Real.log n < e) : fpAt e k n < 0 := by
  have hn' : (0 : ℝ) < n := by exact_mod_cast hn
  have hpow : (n : ℝ) ^ k = Real.exp (k * Real.log n) := by rw [Real.rpow_def_of_pos hn', mul_comm]
  unfold fpAt
  rw [hpow, ← Real.exp_sub]
  have : 1 < Real.exp (e - k * Real.log n) := by rw [Real.one_lt_exp_iff]; linarith
  linarith

/-- For two or more columns and at least `3 p^2` rows: `fp` lies in `(0, 1)` if the constants decrease from 3 to 5. -/
theorem corrCoef_mem {a3 b3 a5 b5 : ℝ} {p n : ℕ} (hp : 2 ≤ p) (hn : 3 * p ^ 2 ≤ n)
    (h3 : Real.log (-a3 / (p : ℝ) ^ b3) < 0) (h5 : Real.log (-a5 / (p : ℝ) ^ b5) ≤ Real.log (-a3 / (p : ℝ) ^ b3)) :
    0 < fpAt (corrCoef a3 b3 a5 b5 p).1 (corrCoef a3 b3 a5 b5 p).2 n ∧
      fpAt (corrCoef a3 b3 a5 b5 p).1 (corrCoef a3 b3 a5 b5 p).2 n ≤ 1 := by
  have hp0 : (0 : ℝ) < p := by exact_mod_cast (by omega : 0 < p)
  have hn0 : 0 < n := lt_of_lt_of_le (by positivity) hn
  have hlog : Real.log (3 * p ^ 2) ≤ Real.log n := Real.log_le_log (by positivity) (by exact_mod_cast hn)
  have h53 : 0 < Real.log (5 * (p : ℝ) ^ 2) - Real.log (3 * p ^ 2) := by
    have := Real.log_lt_log (x := 3 * (p : ℝ) ^ 2) (y := 5 * p ^ 2) (by positivity) (by nlinarith [sq_pos_of_pos hp0])
    linarith
  refine fpAt_mem hn0 ?_
  unfold corrCoef
  simp only
  have hc1 : 0 ≤ (Real.log (-a3 / (p : ℝ) ^ b3) - Real.log (-a5 / (p : ℝ) ^ b5)) / (Real.log (5 * p ^ 2) - Real.log (3 * p ^ 2)) :=
    div_nonneg (by linarith) h53.le
  nlinarith [mul_nonneg hc1 (sub_nonneg.2 hlog)]

theorem log_three_lb : (1.09 : ℝ) < Real.log 3 := by
  have h : (1.09 : ℝ) * 100 < Real.log 3 * 100 := by
    have e : Real.log 3 * 100 = Real.log (3 ^ 100) := by rw [Real.log_pow]; push_cast; ring
    have e2 : (1.09 : ℝ) * 100 = Real.log (Real.exp 1 ^ 109) := by rw [Real.log_pow, Real.log_exp]; norm_num
    rw [e, e2]
    refine Real.log_lt_log (by positivity) ?_
    calc Real.exp 1 ^ 109 < 2.7182818286 ^ 109 := pow_lt_pow_left₀ Real.exp_one_lt_d9 (Real.exp_pos _).le (by norm_num)
      _ < 3 ^ 100 := by norm_num
  linarith

/-- `-a / p^b < 1` for `0 < -a < 1` and `0 ≤ b`. -/
theorem log_const_neg {a b : ℝ} {p : ℕ} (hp : 1 ≤ p) (ha : 0 < -a) (ha1 : -a < 1) (hb : 0 ≤ b) : Real.log (-a / (p : ℝ) ^ b) < 0 := by
  have hp1 : (1 : ℝ) ≤ p := by exact_mod_cast hp
  have h1 : 1 ≤ (p : ℝ) ^ b := Real.one_le_rpow hp1 hb
  have h0 : 0 < (p : ℝ) ^ b := by linarith
  refine Real.log_neg (div_pos ha h0) ?_
  rw [div_lt_one h0]
  linarith

theorem log_const {a b : ℝ} {p : ℕ} (hp : 1 ≤ p) (ha : 0 < -a) : Real.log (-a / (p : ℝ) ^ b) = Real.log (-a) - b * Real.log p := by
  have hp0 : (0 : ℝ) < p := by exact_mod_cast hp
  rw [Real.log_div ha.ne' (Real.rpow_pos_of_pos hp0 b).ne', Real.log_rpow hp0]

/-- The constants decrease if `(b3 - b5) log p` is at most `log (a3 / a5)`. -/
theorem log_const_le {a3 b3 a5 b5 : ℝ} {p : ℕ} (hp : 1 ≤ p) (ha3 : 0 < -a3) (ha5 : 0 < -a5)
    (h : (b3 - b5) * Real.log p ≤ 1 - -a5 / -a3) :
    Real.log (-a5 / (p : ℝ) ^ b5) ≤ Real.log (-a3 / (p : ℝ) ^ b3) := by
  rw [log_const hp ha3, log_const hp ha5]
  have h1 : Real.log (-a5) - Real.log (-a3) = Real.log (-a5 / -a3) := (Real.log_div ha5.ne' ha3.ne').symm
  have h2 := Real.log_le_sub_one_of_pos (div_pos ha5 ha3)
  linarith

theorem log_p_le {p : ℕ} (hp : 1 ≤ p) (hp6 : p ≤ 10 ^ 6) : 0 ≤ Real.log p ∧ Real.log p ≤ 14 := by
  have hp1 : (1 : ℝ) ≤ p := by exact_mod_cast hp
  refine ⟨Real.log_nonneg hp1, ?_⟩
  have h2 : (p : ℝ) ≤ 10 ^ 6 := by exact_mod_cast hp6
  have h3 : (10 : ℝ) ^ 6 ≤ Real.exp 1 ^ 14 := by
    calc (10 : ℝ) ^ 6 ≤ 2.7182818283 ^ 14 := by norm_num
      _ ≤ Real.exp 1 ^ 14 := pow_le_pow_left₀ (by norm_num) Real.exp_one_gt_d9.le 14
  calc Real.log p ≤ Real.log (Real.exp 1 ^ 14) := Real.log_le_log (by linarith) (h2.trans h3)
    _ = 14 := by rw [Real.log_pow, Real.log_exp]; norm_num

/-- Enough rows for the number of columns: three for one column, `3 p^2` for up to a million columns. -/
def Spec.EnoughRows (p n : ℕ) : Prop := (p = 1 ∧ 3 ≤ n) ∨ (2 ≤ p ∧ p ≤ 10 ^ 6 ∧ 3 * p ^ 2 ≤ n)

theorem fp_mem {p n : ℕ} (h : Spec.EnoughRows p n) :
    ((0 < (fpRaw p n).1 ∧ (fpRaw p n).1 ≤ 1) ∧ (0 < (fpRaw p n).2 ∧ (fpRaw p n).2 ≤ 1)) ∧
    ((0 < (fpRew p n).1 ∧ (fpRew p n).1 ≤ 1) ∧ (0 < (fpRew p n).2 ∧ (fpRew p n).2 ≤ 1)) := by
  rcases h with ⟨rfl, hn⟩ | ⟨hp, hp6, hn⟩
  · have hn0 : 0 < n := by omega
    have hl : (1.09 : ℝ) < Real.log n :=
      log_three_lb.trans_le (Real.log_le_log (by norm_num) (by exact_mod_cast hn))
    unfold fpRaw fpRew
    rw [if_neg (by norm_num), if_pos rfl, if_neg (by norm_num), if_pos rfl]
    exact ⟨⟨fpAt_mem hn0 (by linarith), fpAt_mem hn0 (by linarith)⟩, fpAt_mem hn0 (by linarith), fpAt_mem hn0 (by linarith)⟩
  · have hp1 : 1 ≤ p := by omega
    obtain ⟨l0, l1⟩ := log_p_le hp1 hp6
    unfold fpRaw fpRew
    rw [if_neg (by omega), if_neg (by omega), if_neg (by omega), if_neg (by omega)]
    simp only
    refine ⟨⟨corrCoef_mem hp hn (log_const_neg hp1 (by norm_num) (by norm_num) (by norm_num)) (log_const_le hp1 (by norm_num) (by norm_num) ?_),
      corrCoef_mem hp hn (log_const_neg hp1 (by norm_num) (by norm_num) (by norm_num)) (log_const_le hp1 (by norm_num) (by norm_num) ?_)⟩,
      corrCoef_mem hp hn (log_const_neg hp1 (by norm_num) (by norm_num) (by norm_num)) (log_const_le hp1 (by norm_num) (by norm_num) ?_),
      corrCoef_mem hp hn (log_const_neg hp1 (by norm_num) (by norm_num) (by norm_num)) (log_const_le hp1 (by norm_num) (by norm_num) ?_)⟩
    · refine le_trans (mul_le_mul_of_nonneg_left l1 (by norm_num)) (by norm_num)
    · refine le_trans (mul_le_mul_of_nonneg_left l1 (by norm_num)) (by norm_num)
    · refine le_trans (mul_nonpos_of_nonpos_of_nonneg (by norm_num) l0) (by norm_num)
    · refine le_trans (mul_nonpos_of_nonpos_of_nonneg (by norm_num) l0) (by norm_num)

/-- **C54** (partial): for enough rows both correction factors are finite, at least 1 and continuous in `alpha` on `[0.5, 1]`, and 1 at 1.
Missing: fewer rows, for which the claim is false. -/
theorem C54_continuous_partial (p n : ℕ) (h : Spec.EnoughRows p n) :
    ∃ g g' : ℝ → ℝ, ContinuousOn g (Set.Icc 0.5 1) ∧ ContinuousOn g' (Set.Icc 0.5 1) ∧ g 1 = 1 ∧ g' 1 = 1 ∧
      ∀ alpha ∈ Set.Icc (0.5 : ℝ) 1, ltsCorr p n alpha = .ok (some (g alpha)) ∧ ltsCorrRew p n alpha = .ok (some (g' alpha)) ∧
        1 ≤ g alpha ∧ 1 ≤ g' alpha := by
  obtain ⟨⟨⟨a1, a2⟩, a3, a4⟩, ⟨b1, b2⟩, b3, b4⟩ := fp_mem h
  obtain ⟨g, g1, g2, g3⟩ := corrFrom_pos a1 a3 a2 a4 p
  obtain ⟨g', k1, k2, k3⟩ := corrFrom_pos b1 b3 b2 b4 p
  exact ⟨g, g', g1, k1, g2, k2, fun alpha ha => ⟨(g3 alpha ha).1, (k3 alpha ha).1, (g3 alpha ha).2, (k3 alpha ha).2⟩⟩

/-- For two rows and one column there is an `alpha` for which the correction factor is infinite. -/
theorem C54_violated : ¬ C54_statement := by
  intro hst
  have hl1 := Real.log_two_gt_d9
  have hl2 := Real.log_two_lt_d9
  have h1 : (fpRaw 1 2).1 < 0 := by
    unfold fpRaw
    rw [if_neg (by norm_num), if_pos rfl]
    exact fpAt_neg (by norm_num) (by push_cast; linarith)
  have h2 : 0 < (fpRaw 1 2).2 := by
    unfold fpRaw
    rw [if_neg (by norm_num), if_pos rfl]
    exact (fpAt_mem (by norm_num) (by push_cast; linarith)).1
  obtain ⟨alpha, ha, h0⟩ : ∃ alpha ∈ Set.Icc (0.5 : ℝ) 0.875, fpAlpha (fpRaw 1 2) alpha = 0 := by
    have hivt := intermediate_value_Icc (a := (0.5 : ℝ)) (b := 0.875) (by norm_num) (fpAlpha_continuous (fpRaw 1 2)).continuousOn
    have e1 : fpAlpha (fpRaw 1 2) 0.5 = (fpRaw 1 2).1 := by unfold fpAlpha; rw [if_pos (by norm_num)]; ring
    have e2 : fpAlpha (fpRaw 1 2) 0.875 = (fpRaw 1 2).2 := by unfold fpAlpha; rw [if_pos (by norm_num)]; ring
    rw [e1, e2] at hivt
    obtain ⟨x, hx, hx0⟩ := hivt ⟨h1.le, h2.le⟩
    exact ⟨x, hx, hx0⟩
  obtain ⟨g, g', -, -, -, -, hg⟩ := hst 1 2 le_rfl
  have ha1 : alpha ∈ Set.Icc (0.5 : ℝ) 1 := ⟨ha.1, ha.2.trans (by norm_num)⟩
  have := (hg alpha ha1).1
  unfold ltsCorr corrFrom at this
  rw [if_neg (by push Not; exact ha1), if_neg (by norm_num), if_pos h0] at this
  simp at this

/-! The reported scale -/

/-- The correction factors as used by `fit`, which has checked `alpha` before. -/
noncomputable def corrValue (c : ℕ → ℕ → ℝ → Except PyErr (Option ℝ)) (p n : ℕ) (alpha : ℝ) : Option ℝ :=
  match c p n alpha with
  | .ok r => r
  | .error _ => none

/-- **C101** (full statement): the scale that a successful `fit` reports is a number that is not negative; `q` is a number like the normal
quantile 0.9875. -/
def C101_statement : Prop :=
  ∀ (p : ℕ) (LR : LinReg p) (srt : ArgSort ℝ) (ch : Choice ℕ) (q : ℝ) (cfg : LTSConfig) (st : LTSState p) (D : List ((Fin p → ℝ) × ℝ))
    (fuel : ℕ) (st' : LTSState p), 2.24 ≤ q → q ≤ 2.25 →
    ltsFit LR srt ch q (corrValue ltsCorr) (corrValue ltsCorrRew) cfg st D none fuel = some (.ok (), st') →
    ∃ s, st'.scale_ = some (some s) ∧ 0 ≤ s

/-- **C101** (partial): with enough rows for the number of columns the scale is a number that is not negative, at least the root mean
squared residual of the observations it is computed from, and 0 only if those are fitted exactly.  Missing: fewer rows. -/
theorem C101_scale_partial {p : ℕ} (LR : LinReg p) (srt : ArgSort ℝ) (ch : Choice ℕ) (q : ℝ) (cfg : LTSConfig) (st : LTSState p)
    (D : List ((Fin p → ℝ) × ℝ)) (hrows : Spec.EnoughRows p D.length) (iw : Option (LinModel p)) (fuel : ℕ) (st' : LTSState p)
    (hfit : ltsFit LR srt ch q (corrValue ltsCorr) (corrValue ltsCorrRew) cfg st D iw fuel = some (.ok (), st')) :
    ∃ (s : ℝ) (m : LinModel p) (used : List ((Fin p → ℝ) × ℝ)), st'.scale_ = some (some s) ∧ st'.model = some m ∧ used ≠ [] ∧
      (∀ d ∈ used, d ∈ D) ∧ 0 ≤ s ∧ Real.sqrt (Spec.sumSq used m.intercept m.coef / used.length) ≤ s ∧
      (s = 0 → ∀ r ∈ Spec.residuals used m, r = 0) := by
  obtain ⟨raw, m, h, H, e1, e2, e3, e4, e5, e6, e7⟩ := C100_reported LR srt ch q _ _ cfg st D iw fuel st' hfit
  have halpha : cfg.alpha ∈ Set.Icc (0.5 : ℝ) 1 := by
    by_contra hne
    have := (C52_alpha D.length p cfg.alpha).2 hne
    rw [this] at e3
    simp at e3
  obtain ⟨g, g', -, -, -, -, hg⟩ := C54_continuous_partial p D.length hrows
  obtain ⟨c1, c2, c3, c4⟩ := hg cfg.alpha halpha
  have hv1 : corrValue ltsCorr p D.length cfg.alpha = some (g cfg.alpha) := by unfold corrValue; rw [c1]
  have hv2 : corrValue ltsCorrRew p D.length cfg.alpha = some (g' cfg.alpha) := by unfold corrValue; rw [c2]
  have key : ∀ (f : ℝ) (used : List ((Fin p → ℝ) × ℝ)), 1 ≤ f → used ≠ [] →
      0 ≤ f * Real.sqrt (Spec.sumSq used m.intercept m.coef / used.length) ∧
      Real.sqrt (Spec.sumSq used m.intercept m.coef / used.length) ≤ f * Real.sqrt (Spec.sumSq used m.intercept m.coef / used.length) ∧
      (f * Real.sqrt (Spec.sumSq used m.intercept m.coef / used.length) = 0 → ∀ r ∈ Spec.residuals used m, r = 0) := by
    intro f used hf hu
    have h0 := Real.sqrt_nonneg (Spec.sumSq used m.intercept m.coef / used.length)
    refine ⟨mul_nonneg (by linarith) h0, by nlinarith, fun hz => ?_⟩
    have hlen : (0 : ℝ) < used.length := by exact_mod_cast List.length_pos_iff.2 hu
    have hs0 : Real.sqrt (Spec.sumSq used m.intercept m.coef / used.length) = 0 := by
      rcases mul_eq_zero.1 hz with hz | hz
      · linarith
      · exact hz
    have hnn : 0 ≤ Spec.sumSq used m.intercept m.coef := ssr_nonneg used m
    rw [Real.sqrt_eq_zero (by positivity)] at hs0
    have hs1 : Spec.sumSq used m.intercept m.coef = 0 := by
      rcases div_eq_zero_iff.1 hs0 with h | h
      · exact h
      · exact absurd h hlen.ne'
    intro r hr
    obtain ⟨d, hd, rfl⟩ := List.mem_map.1 hr
    exact sum_sq_eq_zero (fun d : (Fin p → ℝ) × ℝ => d.2 - (m.intercept + ∑ j, d.1 j * m.coef j)) used hs1.le d hd
  by_cases hrew : cfg.reweighting = true
  · obtain ⟨kept, k1, -, k3, -, -, k6⟩ := e7 hrew
    rw [hv2] at k6
    obtain ⟨m1, m2, m3⟩ := key (g' cfg.alpha) kept c4 k3
    exact ⟨_, m, kept, k6, e1, k3, fun d hd => ((k1 d).1 hd).1, m1, m2, m3⟩
  · obtain ⟨k1, k2⟩ := e6 (by simpa using hrew)
    have hlen : (takeAt D H).length = h := by rw [takeAt_length D H e4.lt, e4.length]
    have hne : takeAt D H ≠ [] := by
      intro hn
      rw [hn] at hlen
      have := (ltsH_le e3).1
      have hp1 : 1 ≤ p := by rcases hrows with ⟨rfl, -⟩ | ⟨hp, -⟩ <;> omega
      simp at hlen
      omega
    rw [hv1, ← k1, ← hlen] at k2
    obtain ⟨m1, m2, m3⟩ := key (g cfg.alpha) (takeAt D H) c3 hne
    exact ⟨_, m, takeAt D H, k2, e1, hne, fun d hd => mem_takeAt hd, m1, m2, m3⟩

/-- A dummy-coded factor with two levels, two observations of each. -/
def c101Data : List ((Fin 2 → ℝ) × ℝ) := [(![1, 0], 0), (![1, 0], 1), (![0, 1], 0), (![0, 1], 1)]

/-- The default parameters. -/
noncomputable def ltsDefault : LTSConfig :=
  { alpha := 0.5, nInitialSubsets := 500, nInitialCSteps := 2, nBestModels := 10, reweighting := true, tolerance := 1e-15, randomState := 42 }

theorem corrCoef_neg {a3 b3 a5 b5 : ℝ} (ha3 : 0 < -a3) (ha5 : 0 < -a5) (h1 : -a3 < 1) (hb : b3 ≤ b5) (hb3 : 7 * b3 ≤ 15)
    (h2 : 2 ^ 15 < (-a3) ^ 22 / (-a5) ^ 15) :
    fpAt (corrCoef a3 b3 a5 b5 2).1 (corrCoef a3 b3 a5 b5 2).2 4 < 0 := by
  refine fpAt_neg (by norm_num) ?_
  unfold corrCoef
  simp only
  rw [log_const (b := b3) (p := 2) (by norm_num) ha3, log_const (b := b5) (p := 2) (by norm_num) ha5]
  push_cast
  have hl : 0 < Real.log 2 := Real.log_pos (by norm_num)
  have h12 : Real.log (3 * 2 ^ 2 : ℝ) = Real.log 3 + Real.log 4 := by
    rw [← Real.log_mul (by norm_num) (by norm_num)]; norm_num
  have h20 : Real.log (5 * 2 ^ 2 : ℝ) - Real.log (3 * 2 ^ 2) = Real.log (5 / 3) := by
    rw [← Real.log_div (by norm_num) (by norm_num)]; norm_num
  rw [h20, h12]
  have h53 : 0 < Real.log (5 / 3 : ℝ) := Real.log_pos (by norm_num)
  have hratio : 15 * Real.log (5 / 3 : ℝ) < 7 * Real.log 3 := by
    have a1 : 15 * Real.log (5 / 3 : ℝ) = Real.log ((5 / 3) ^ 15) := by rw [Real.log_pow]; push_cast; ring
    have a2 : 7 * Real.log (3 : ℝ) = Real.log (3 ^ 7) := by rw [Real.log_pow]; push_cast; ring
    rw [a1, a2]
    exact Real.log_lt_log (by norm_num) (by norm_num)
  have hAB : 15 * Real.log 2 < 22 * Real.log (-a3) - 15 * Real.log (-a5) := by
    have a1 : 22 * Real.log (-a3) - 15 * Real.log (-a5) = Real.log ((-a3) ^ 22 / (-a5) ^ 15) := by
      rw [Real.log_div (by positivity) (by positivity), Real.log_pow, Real.log_pow]
      push_cast
      ring
    have a2 : 15 * Real.log (2 : ℝ) = Real.log (2 ^ 15) := by rw [Real.log_pow]; push_cast; ring
    rw [a1, a2]
    exact Real.log_lt_log (by norm_num) h2
  have hAneg : Real.log (-a3) < 0 := Real.log_neg ha3 h1
  generalize Real.log (-a3) = A at *
  generalize Real.log (-a5) = B at *
  have hbl : 0 ≤ (b5 - b3) * Real.log 2 := mul_nonneg (by linarith) hl.le
  have hbl2 : 7 * b3 * Real.log 2 ≤ 15 * Real.log 2 := mul_le_mul_of_nonneg_right hb3 hl.le
  set d := A - b3 * Real.log 2 - (B - b5 * Real.log 2) with hd
  have hd0 : A - B ≤ d := by rw [hd]; linarith
  have hdpos : 0 < d := by linarith
  have hc : d * (15 / 7) < d / Real.log (5 / 3) * Real.log 3 := by
    rw [div_mul_eq_mul_div, mul_div_assoc]
    refine mul_lt_mul_of_pos_left ?_ hdpos
    rw [lt_div_iff₀ h53]
    linarith
  have : d / Real.log (5 / 3) * (Real.log 3 + Real.log 4) = d / Real.log (5 / 3) * Real.log 3 + d / Real.log (5 / 3) * Real.log 4 := by ring
  rw [this]
  linarith

/-- `fp_500_n` of the second correction factor is negative for four rows and two columns. -/
theorem fpRew_neg : (fpRew 2 4).1 < 0 := by
  have h := corrCoef_neg (a3 := -0.773365715932083) (b3 := 2.02013996406346) (a5 := -0.337571678986723) (b5 := 2.02037467454833)
    (by norm_num) (by norm_num) (by norm_num) (by norm_num) (by norm_num) (by norm_num)
  unfold fpRew
  rw [if_neg (by decide), if_neg (by decide)]
  exact h

theorem c101_corr : ∃ f, corrValue ltsCorrRew 2 4 0.5 = some f ∧ f < 0 := by
  have h := fpRew_neg
  have e1 : fpAlpha (fpRew 2 4) 0.5 = (fpRew 2 4).1 := by unfold fpAlpha; rw [if_pos (by norm_num)]; ring
  refine ⟨1 / (fpRew 2 4).1, ?_, div_neg_of_pos_of_neg one_pos h⟩
  unfold corrValue ltsCorrRew corrFrom
  rw [if_neg (by norm_num), if_neg (by decide), e1, if_neg h.ne]

/-- No model fits both observations of a level. -/
theorem c101_pos {L : List ((Fin 2 → ℝ) × ℝ)} {x : Fin 2 → ℝ} (h0 : (x, 0) ∈ L) (h1 : (x, 1) ∈ L) (m : LinModel 2) : 0 < ssr L m := by
  refine lt_of_le_of_ne (ssr_nonneg _ _) (Ne.symm fun h => ?_)
  have := sum_sq_eq_zero (resid m) L h.le
  have e0 := this _ h0
  have e1 := this _ h1
  simp only [resid] at e0 e1
  linarith

theorem c101_level {H : List ℕ} (hH : Spec.Positions 4 3 H) : (0 ∈ H ∧ 1 ∈ H) ∨ (2 ∈ H ∧ 3 ∈ H) := by
  have hdec : ∀ s ∈ (Finset.range 4).powersetCard 3, (0 ∈ s ∧ 1 ∈ s) ∨ (2 ∈ s ∧ 3 ∈ s) := by decide
  have := hdec H.toFinset (Finset.mem_powersetCard.2 ⟨fun i hi => Finset.mem_range.2 (hH.lt i (List.mem_toFinset.1 hi)), by
    rw [List.toFinset_card_of_nodup hH.nodup, hH.length]⟩)
  simpa using this

theorem mem_takeAt_of {α : Type} {xs : List α} {idx : List ℕ} {i : ℕ} {x : α} (hi : i ∈ idx) (hx : xs[i]? = some x) : x ∈ takeAt xs idx := by
  unfold takeAt
  exact List.mem_filterMap.2 ⟨i, hi, hx⟩

/-- With the default parameters the four observations of a two-level factor get a negative scale, whatever the starts, the order of
sorting and the version of least squares. -/
theorem C101_negative (LR : LinReg 2) (srt : ArgSort ℝ) (ch : Choice ℕ) (q : ℝ) (hq : 2.24 ≤ q) (st : LTSState 2) (fuel : ℕ)
    (hfuel : 2 ^ 4 + 1 ≤ fuel) :
    ∃ st' s, ltsFit LR srt ch q (corrValue ltsCorr) (corrValue ltsCorrRew) ltsDefault st c101Data none fuel = some (.ok (), st') ∧
      st'.scale_ = some (some s) ∧ s < 0 := by
  have hout := (C99_search_outcome LR srt ch ltsDefault c101Data none (by norm_num [ltsDefault]) fuel hfuel).2
    ⟨by norm_num [ltsDefault], by norm_num [ltsDefault]⟩
  obtain ⟨best, hb⟩ := ((hout.2 (by simp [ltsDefault])).2 ⟨by norm_num, by simp [c101Data]⟩).2 (by simp [ltsDefault])
  have hne : ∃ r ∈ Spec.residuals c101Data best.model, r ≠ 0 := by
    by_contra hall
    push Not at hall
    have h := c101_pos (L := c101Data) (x := ![1, 0]) (by simp [c101Data]) (by simp [c101Data]) best.model
    have h0 : ssr c101Data best.model = 0 := by
      unfold ssr
      refine List.sum_eq_zero fun r hr => ?_
      obtain ⟨d, hd, rfl⟩ := List.mem_map.1 hr
      have := hall _ (List.mem_map.2 ⟨d, hd, rfl⟩)
      have h2 : resid best.model d = 0 := this
      rw [h2]; norm_num
    exact h.ne' h0
  obtain ⟨st', hfit⟩ := (C53_fit_partial LR srt ch q (by linarith) (by nlinarith) (corrValue ltsCorr) (corrValue ltsCorrRew) ltsDefault rfl st
    c101Data none fuel best hb).1 hne
  obtain ⟨raw, m, h, H, e1, e2, e3, e4, e5, -, e7⟩ := C100_reported LR srt ch q _ _ ltsDefault st c101Data none fuel st' hfit
  obtain ⟨kept, k1, -, k3, k4, -, k6⟩ := e7 rfl
  have hh : h = 3 := by
    unfold ltsH at e3
    rw [if_neg (by norm_num [ltsDefault])] at e3
    have := Except.ok.inj e3
    rw [← this]
    norm_num [ltsDefault, c101Data]
  subst hh
  obtain ⟨f, hf1, hf2⟩ := c101_corr
  have hkeep : ∀ d ∈ takeAt c101Data H, d ∈ kept := by
    intro d hd
    have hsub := takeAt_subperm c101Data H e4.nodup e4.lt
    have hv := ssr_le_var hsub e5 (by simp [c101Data])
    have h1 : (resid raw d) ^ 2 ≤ ssr (takeAt c101Data H) raw := by
      refine List.single_le_sum ?_ _ (List.mem_map.2 ⟨d, hd, rfl⟩)
      intro y hy
      obtain ⟨z, -, rfl⟩ := List.mem_map.1 hy
      positivity
    refine (k1 d).2 ⟨mem_takeAt hd, ?_⟩
    refine abs_le_of_sq_le_sq ?_ (mul_nonneg (by linarith) k4.le)
    have hlen : ((c101Data.length : ℕ) : ℝ) = 4 := by norm_num [c101Data]
    rw [hlen] at hv
    change (resid raw d) ^ 2 ≤ _
    have h2 : 4 * npStd (c101Data.map (resid raw)) ^ 2 ≤ q ^ 2 * npStd (c101Data.map (resid raw)) ^ 2 :=
      mul_le_mul_of_nonneg_right (by nlinarith) (sq_nonneg _)
    rw [mul_pow]
    exact (h1.trans hv).trans h2
  have hpos : 0 < ssr kept m := by
    rcases c101_level e4 with ⟨a, b⟩ | ⟨a, b⟩
    · exact c101_pos (x := ![1, 0]) (hkeep _ (mem_takeAt_of a rfl)) (hkeep _ (mem_takeAt_of b rfl)) m
    · exact c101_pos (x := ![0, 1]) (hkeep _ (mem_takeAt_of a rfl)) (hkeep _ (mem_takeAt_of b rfl)) m
  have hc : corrValue ltsCorrRew 2 c101Data.length ltsDefault.alpha = some f := hf1
  rw [hc] at k6
  refine ⟨st', _, hfit, k6, mul_neg_of_neg_of_pos hf2 (Real.sqrt_pos.2 (div_pos hpos ?_))⟩
  exact_mod_cast List.length_pos_iff.2 k3

theorem C101_violated : ¬ C101_statement := by
  intro hst
  obtain ⟨st', s, hfit, hs, hneg⟩ := C101_negative (linRegExists 2) (argsortStable ℝ) choiceFirst 2.24 le_rfl ⟨none, none, none⟩ 17 (by norm_num)
  obtain ⟨s', hs', h0⟩ := hst 2 _ _ _ 2.24 ltsDefault _ c101Data 17 st' le_rfl (by norm_num) hfit
  rw [hs] at hs'
  obtain rfl : s = s' := by simpa using hs'
  linarith

/-! Examples -/

example : Spec.EnoughRows 1 3 ∧ Spec.EnoughRows 5 100 := ⟨Or.inl ⟨rfl, le_rfl⟩, Or.inr ⟨by norm_num, by norm_num, by norm_num⟩⟩

/-- The hypotheses of C101: three observations, one column. -/
example : ∃ st', ltsFit (linRegExists 1) (argsortStable ℝ) choiceFirst 2.24 (corrValue ltsCorr) (corrValue ltsCorrRew) (c53Cfg false)
    ⟨none, none, none⟩ ltsData none (2 ^ 3 + 1) = some (.ok (), st') := by
  obtain ⟨best, hb⟩ := ltsData_search false
  unfold ltsFit
  rw [hb]
  exact ⟨_, rfl⟩

end Robpy
