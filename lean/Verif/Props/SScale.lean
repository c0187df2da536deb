import Verif.Model.SReg
import Verif.Props.Rho
import Mathlib.Topology.Order.MonotoneConvergence
import Mathlib.Analysis.SpecificLimits.Basic
import Mathlib.Topology.Algebra.Monoid

/-! C56: the scale iteration of S-regression. -/

namespace Robpy
open Filter Topology

/-- `s` solves the equation `mean (rho (r / s)) = b` of the M-scale. -/
def Spec.MScale (rho : ℝ → ℝ) (b : ℝ) (res : List ℝ) (s : ℝ) : Prop := 0 < s ∧ (res.map fun r => rho (r / s)).sum / res.length = b

/-- The update of the scale written out: `s * sqrt (mean (rho (r / s)) / b)`. -/
noncomputable def Spec.scaleUpdate (rho : ℝ → ℝ) (b : ℝ) (res : List ℝ) (s : ℝ) : ℝ :=
  s * Real.sqrt ((res.map fun r => rho (r / s)).sum / res.length / b)

theorem sScaleStep_tukey (c b : ℝ) (res : List ℝ) (s : ℝ) : sScaleStep (.tukey c) b res s = some (Spec.scaleUpdate (tukeyRho c) b res s) := by
  unfold sScaleStep Spec.scaleUpdate
  split_ifs with h
  · simp [h]
  · rfl

theorem sScaleStep_huber {c b : ℝ} {res : List ℝ} {s : ℝ} (hs : s ≠ 0) :
    sScaleStep (.huber c) b res s = some (Spec.scaleUpdate (huberRho c) b res s) := by
  unfold sScaleStep Spec.scaleUpdate
  rw [if_neg hs]
  rfl

/-- **C56**: the scale computed by `_get_scale` with the bisquare function is an iterate of the update, after at most the given number of
iterations and at least one; fewer only if the last two differ by less than the tolerance.  Without an iteration it raises. -/
theorem C56_iterate (c b tol : ℝ) (res : List ℝ) (k : ℕ) (s : ℝ) :
    (k = 0 → sGetScale (.tukey c) b tol res k s = .error .unboundLocalError) ∧
    (k ≠ 0 → ∃ j, j + 1 ≤ k ∧ sGetScale (.tukey c) b tol res k s = .ok (some ((Spec.scaleUpdate (tukeyRho c) b res)^[j + 1] s)) ∧
      (j + 1 < k → |(Spec.scaleUpdate (tukeyRho c) b res)^[j] s - (Spec.scaleUpdate (tukeyRho c) b res)^[j + 1] s| < tol)) := by
  refine ⟨fun h => by subst h; rfl, ?_⟩
  induction k generalizing s with
  | zero => intro h; exact absurd rfl h
  | succ k ih =>
    intro _
    unfold sGetScale
    rw [sScaleStep_tukey]
    simp only
    split_ifs with h
    · refine ⟨0, by omega, rfl, fun hk => ?_⟩
      rcases h with h | h
      · exact h
      · omega
    · push Not at h
      obtain ⟨j, h1, h2, h3⟩ := ih (Spec.scaleUpdate (tukeyRho c) b res s) h.2
      refine ⟨j + 1, by omega, ?_, fun hk => ?_⟩
      · rw [h2]; rfl
      · exact h3 (by omega)

/-- **C56** (full statement): with the default score function and `b` the equation of the M-scale has a solution whenever more than half
of the residuals are not 0. -/
def C56_statement : Prop :=
  ∀ res : List ℝ, res.length < 2 * res.countP (fun r => decide (r ≠ 0)) → ∃ s, Spec.MScale (sDefault.rho.rho) sDefault.b res s

theorem mean_rho_le {c : ℝ} (hc : 0 < c) (res : List ℝ) (s : ℝ) :
    0 ≤ (res.map fun r => tukeyRho c (r / s)).sum / res.length ∧ (res.map fun r => tukeyRho c (r / s)).sum / res.length ≤ c ^ 2 / 6 := by
  have h0 : 0 ≤ (res.map fun r => tukeyRho c (r / s)).sum := by
    apply List.sum_nonneg
    intro x hx
    obtain ⟨r, -, rfl⟩ := List.mem_map.1 hx
    exact (C13_range c _ hc).1
  have h1 : (res.map fun r => tukeyRho c (r / s)).sum ≤ res.length * (c ^ 2 / 6) := by
    have := List.sum_le_card_nsmul (res.map fun r => tukeyRho c (r / s)) (c ^ 2 / 6) (by
      intro x hx
      obtain ⟨r, -, rfl⟩ := List.mem_map.1 hx
      exact (C13_range c _ hc).2)
    simpa using this
  refine ⟨div_nonneg h0 (by positivity), ?_⟩
  rcases Nat.eq_zero_or_pos res.length with h | h
  · rw [h]; simp; positivity
  · rw [div_le_iff₀ (by exact_mod_cast h)]
    linarith

/-- **C56**: with the default score function and `b` no residuals have an M-scale. -/
theorem C56_no_solution (res : List ℝ) (s : ℝ) : ¬ Spec.MScale (sDefault.rho.rho) sDefault.b res s := by
  rintro ⟨-, h⟩
  have := (mean_rho_le (c := 1.547) (by norm_num) res s).2
  have hb : sDefault.b = 0.5 := rfl
  rw [hb] at h
  have h' : (res.map fun r => tukeyRho 1.547 (r / s)).sum / res.length = (0.5 : ℝ) := h
  norm_num at this h'
  linarith

theorem C56_violated : ¬ C56_statement := by
  intro h
  obtain ⟨s, hs⟩ := h [1] (by simp)
  exact C56_no_solution _ _ hs

theorem scaleUpdate_nonneg (rho : ℝ → ℝ) (b : ℝ) (res : List ℝ) {s : ℝ} (hs : 0 ≤ s) : 0 ≤ Spec.scaleUpdate rho b res s :=
  mul_nonneg hs (Real.sqrt_nonneg _)

/-- **C56**: if `c^2 / 6 < b`, as for the default parameters, every iteration shrinks the scale by the factor `sqrt (c^2 / (6 b))` at
least, and the scale tends to 0 for all residuals. -/
theorem C56_shrinks (c b : ℝ) (hc : 0 < c) (hb : c ^ 2 / 6 < b) (res : List ℝ) (s : ℝ) (hs : 0 ≤ s) :
    Real.sqrt (c ^ 2 / 6 / b) < 1 ∧
    (∀ k, (Spec.scaleUpdate (tukeyRho c) b res)^[k] s ≤ Real.sqrt (c ^ 2 / 6 / b) ^ k * s) ∧
    Tendsto (fun k => (Spec.scaleUpdate (tukeyRho c) b res)^[k] s) atTop (𝓝 0) := by
  have hb0 : 0 < b := lt_of_le_of_lt (by positivity) hb
  have hq : Real.sqrt (c ^ 2 / 6 / b) < 1 := by
    rw [Real.sqrt_lt' one_pos, one_pow, div_lt_one hb0]
    exact hb
  have hnn : ∀ k, 0 ≤ (Spec.scaleUpdate (tukeyRho c) b res)^[k] s := by
    intro k
    induction k with
    | zero => exact hs
    | succ k ih => rw [Function.iterate_succ_apply']; exact scaleUpdate_nonneg _ _ _ ih
  have hle : ∀ k, (Spec.scaleUpdate (tukeyRho c) b res)^[k] s ≤ Real.sqrt (c ^ 2 / 6 / b) ^ k * s := by
    intro k
    induction k with
    | zero => simp
    | succ k ih =>
      rw [Function.iterate_succ_apply', pow_succ]
      set t := (Spec.scaleUpdate (tukeyRho c) b res)^[k] s
      have h1 : Real.sqrt ((res.map fun r => tukeyRho c (r / t)).sum / res.length / b) ≤ Real.sqrt (c ^ 2 / 6 / b) :=
        Real.sqrt_le_sqrt (div_le_div_of_nonneg_right (mean_rho_le hc res t).2 hb0.le)
      calc Spec.scaleUpdate (tukeyRho c) b res t ≤ t * Real.sqrt (c ^ 2 / 6 / b) := mul_le_mul_of_nonneg_left h1 (hnn k)
        _ ≤ Real.sqrt (c ^ 2 / 6 / b) ^ k * s * Real.sqrt (c ^ 2 / 6 / b) := mul_le_mul_of_nonneg_right ih (Real.sqrt_nonneg _)
        _ = _ := by ring
  refine ⟨hq, hle, ?_⟩
  refine squeeze_zero hnn hle ?_
  have := (tendsto_pow_atTop_nhds_zero_of_lt_one (Real.sqrt_nonneg (c ^ 2 / 6 / b)) hq).mul_const s
  simpa using this

/-- The default parameters meet the condition of `C56_shrinks`. -/
example : sDefault.rho = .tukey 1.547 ∧ (1.547 : ℝ) ^ 2 / 6 < sDefault.b := ⟨rfl, by norm_num [sDefault]⟩

/-- **C56** (partial): a positive scale is left alone by the update exactly if it solves the equation. -/
theorem C56_fixed_partial (rho : ℝ → ℝ) (b : ℝ) (hb : 0 < b) (res : List ℝ) (s : ℝ) (hs : 0 < s) :
    Spec.scaleUpdate rho b res s = s ↔ Spec.MScale rho b res s := by
  unfold Spec.scaleUpdate Spec.MScale
  constructor
  · intro h
    refine ⟨hs, ?_⟩
    have h1 : Real.sqrt ((res.map fun r => rho (r / s)).sum / res.length / b) = 1 := by
      have : s * Real.sqrt ((res.map fun r => rho (r / s)).sum / res.length / b) = s * 1 := by rw [h, mul_one]
      exact mul_left_cancel₀ hs.ne' this
    rw [Real.sqrt_eq_one] at h1
    rwa [div_eq_one_iff_eq hb.ne'] at h1
  · rintro ⟨-, h⟩
    rw [h, div_self hb.ne', Real.sqrt_one, mul_one]

/-- `rho(x) / x^2` does not increase with `|x|`. -/
theorem tukey_ratio {c x y : ℝ} (hc : 0 < c) (h : |y| ≤ |x|) : y ^ 2 * tukeyRho c x ≤ x ^ 2 * tukeyRho c y := by
  have hsq : y ^ 2 ≤ x ^ 2 := sq_le_sq.2 h
  have hx0 := sq_nonneg x
  have hy0 := sq_nonneg y
  have hc2 : 0 < c ^ 2 := by positivity
  by_cases hx : |x| ≤ c
  · have hy : |y| ≤ c := h.trans hx
    have hx2 : x ^ 2 ≤ c ^ 2 := sq_le_sq.2 (by rwa [abs_of_pos hc])
    unfold tukeyRho
    rw [if_pos hx, if_pos hy]
    have e : x ^ 2 * (y ^ 2 / 2 - y ^ 4 / (2 * c ^ 2) + y ^ 6 / (6 * c ^ 4)) - y ^ 2 * (x ^ 2 / 2 - x ^ 4 / (2 * c ^ 2) + x ^ 6 / (6 * c ^ 4)) =
        x ^ 2 * y ^ 2 * (x ^ 2 - y ^ 2) * (3 * c ^ 2 - x ^ 2 - y ^ 2) / (6 * c ^ 4) := by
      field_simp
      ring
    have : 0 ≤ x ^ 2 * y ^ 2 * (x ^ 2 - y ^ 2) * (3 * c ^ 2 - x ^ 2 - y ^ 2) / (6 * c ^ 4) := by
      refine div_nonneg (mul_nonneg (mul_nonneg (by positivity) (by linarith)) (by linarith)) (by positivity)
    linarith
  · by_cases hy : |y| ≤ c
    · have hx2 : c ^ 2 ≤ x ^ 2 := sq_le_sq.2 (by rw [abs_of_pos hc]; exact (not_le.1 hx).le)
      have hy2 : y ^ 2 ≤ c ^ 2 := sq_le_sq.2 (by rwa [abs_of_pos hc])
      unfold tukeyRho
      rw [if_neg hx, if_pos hy]
      have h1 : 0 ≤ y ^ 2 / 2 - y ^ 4 / (2 * c ^ 2) + y ^ 6 / (6 * c ^ 4) := by
        have := (C13_range c y hc).1
        unfold tukeyRho at this
        rwa [if_pos hy] at this
      have h2 : c ^ 2 * (y ^ 2 / 2 - y ^ 4 / (2 * c ^ 2) + y ^ 6 / (6 * c ^ 4)) - y ^ 2 * (c ^ 2 / 6) =
          y ^ 2 * (c ^ 2 - y ^ 2) * (2 * c ^ 2 - y ^ 2) / (6 * c ^ 2) := by
        field_simp
        ring
      have h3 : 0 ≤ y ^ 2 * (c ^ 2 - y ^ 2) * (2 * c ^ 2 - y ^ 2) / (6 * c ^ 2) :=
        div_nonneg (mul_nonneg (mul_nonneg hy0 (by linarith)) (by linarith)) (by positivity)
      have h4 := mul_le_mul_of_nonneg_right hx2 h1
      linarith
    · unfold tukeyRho
      rw [if_neg hx, if_neg hy]
      exact mul_le_mul_of_nonneg_right hsq (by positivity)

/-- The update is monotone in the scale. -/
theorem scaleUpdate_mono {c b : ℝ} (hc : 0 < c) (hb : 0 < b) (res : List ℝ) {s t : ℝ} (hs : 0 < s) (hst : s ≤ t) :
    Spec.scaleUpdate (tukeyRho c) b res s ≤ Spec.scaleUpdate (tukeyRho c) b res t := by
  have ht : 0 < t := hs.trans_le hst
  have e : ∀ u : ℝ, 0 < u → Spec.scaleUpdate (tukeyRho c) b res u =
      Real.sqrt ((res.map fun r => u ^ 2 * tukeyRho c (r / u)).sum / res.length / b) := by
    intro u hu
    unfold Spec.scaleUpdate
    rw [List.sum_map_mul_left, mul_div_assoc, mul_div_assoc, Real.sqrt_mul (sq_nonneg u), Real.sqrt_sq hu.le]
  rw [e s hs, e t ht]
  refine Real.sqrt_le_sqrt (div_le_div_of_nonneg_right (div_le_div_of_nonneg_right (List.sum_le_sum ?_) (by positivity)) hb.le)
  intro r _
  by_cases hr : r = 0
  · subst hr
    have h0 : tukeyRho c (0 : ℝ) = 0 := by unfold tukeyRho; rw [if_pos (by simpa using hc.le)]; norm_num
    simp [h0]
  · have habs : |r / t| ≤ |r / s| := by
      rw [abs_div, abs_div, abs_of_pos hs, abs_of_pos ht]
      exact div_le_div_of_nonneg_left (abs_nonneg r) hs hst
    have h1 := tukey_ratio hc habs
    have hr2 : 0 < r ^ 2 := by positivity
    rw [div_pow, div_pow] at h1
    have h2 : r ^ 2 * (s ^ 2 * tukeyRho c (r / s)) ≤ r ^ 2 * (t ^ 2 * tukeyRho c (r / t)) := by
      have e1 : r ^ 2 / t ^ 2 * tukeyRho c (r / s) * (s ^ 2 * t ^ 2) = r ^ 2 * (s ^ 2 * tukeyRho c (r / s)) := by
        field_simp
      have e2 : r ^ 2 / s ^ 2 * tukeyRho c (r / t) * (s ^ 2 * t ^ 2) = r ^ 2 * (t ^ 2 * tukeyRho c (r / t)) := by
        field_simp
      rw [← e1, ← e2]
      exact mul_le_mul_of_nonneg_right h1 (by positivity)
    exact le_of_mul_le_mul_left h2 hr2

/-- A scale above a solution decreases, a scale below increases. -/
theorem scaleUpdate_toward {c b : ℝ} (hc : 0 < c) (hb : 0 < b) (res : List ℝ) {sig s : ℝ} (hsig : Spec.MScale (tukeyRho c) b res sig)
    (hs : 0 < s) :
    (sig ≤ s → sig ≤ Spec.scaleUpdate (tukeyRho c) b res s ∧ Spec.scaleUpdate (tukeyRho c) b res s ≤ s) ∧
    (s ≤ sig → s ≤ Spec.scaleUpdate (tukeyRho c) b res s ∧ Spec.scaleUpdate (tukeyRho c) b res s ≤ sig) := by
  have hfix := (C56_fixed_partial (tukeyRho c) b hb res sig hsig.1).2 hsig
  have hmean : ∀ u v : ℝ, 0 < u → u ≤ v →
      (res.map fun r => tukeyRho c (r / v)).sum / (res.length : ℝ) ≤ (res.map fun r => tukeyRho c (r / u)).sum / res.length := by
    intro u v hu huv
    refine div_le_div_of_nonneg_right (List.sum_le_sum fun r _ => C13_mono c _ _ hc ?_) (by positivity)
    rw [abs_div, abs_div, abs_of_pos hu, abs_of_pos (hu.trans_le huv)]
    exact div_le_div_of_nonneg_left (abs_nonneg r) hu huv
  constructor
  · intro h
    refine ⟨hfix.ge.trans (scaleUpdate_mono hc hb res hsig.1 h), ?_⟩
    have h1 := hmean sig s hsig.1 h
    rw [hsig.2] at h1
    unfold Spec.scaleUpdate
    have h2 : Real.sqrt ((res.map fun r => tukeyRho c (r / s)).sum / res.length / b) ≤ 1 := by
      rw [Real.sqrt_le_one]
      exact (div_le_one hb).2 h1
    calc _ ≤ s * 1 := mul_le_mul_of_nonneg_left h2 hs.le
      _ = s := mul_one s
  · intro h
    refine ⟨?_, (scaleUpdate_mono hc hb res hs h).trans_eq hfix⟩
    have h1 := hmean s sig hs h
    rw [hsig.2] at h1
    unfold Spec.scaleUpdate
    have h2 : 1 ≤ Real.sqrt ((res.map fun r => tukeyRho c (r / s)).sum / res.length / b) := by
      rw [Real.one_le_sqrt]
      exact (one_le_div hb).2 h1
    calc s = s * 1 := (mul_one s).symm
      _ ≤ _ := mul_le_mul_of_nonneg_left h2 hs.le

theorem scaleUpdate_continuousAt {c : ℝ} (hc : 0 < c) (b : ℝ) (res : List ℝ) {s : ℝ} (hs : s ≠ 0) :
    ContinuousAt (Spec.scaleUpdate (tukeyRho c) b res) s := by
  have hrho : Continuous (tukeyRho c) := continuous_iff_continuousAt.2 fun x => (C13_deriv c x hc).continuousAt
  unfold Spec.scaleUpdate
  refine continuousAt_id.mul (Real.continuous_sqrt.continuousAt.comp ?_)
  refine ContinuousAt.div_const (ContinuousAt.div_const ?_ _) _
  induction res with
  | nil => simp only [List.map_nil, List.sum_nil]; exact continuousAt_const
  | cons r res ih =>
    simp only [List.map_cons, List.sum_cons]
    exact (hrho.continuousAt.comp (continuousAt_const.div continuousAt_id hs)).add ih

/-- **C56** (partial): if the equation has a solution `sig`, the iteration converges from every positive starting scale, monotonically, to
a solution between the starting scale and `sig`.  Missing: with the default parameters there is no solution. -/
theorem C56_converges_partial (c b : ℝ) (hc : 0 < c) (hb : 0 < b) (res : List ℝ) (sig : ℝ) (hsig : Spec.MScale (tukeyRho c) b res sig)
    (s : ℝ) (hs : 0 < s) :
    ∃ l, Spec.MScale (tukeyRho c) b res l ∧ min s sig ≤ l ∧ l ≤ max s sig ∧
      Tendsto (fun k => (Spec.scaleUpdate (tukeyRho c) b res)^[k] s) atTop (𝓝 l) ∧
      (Antitone (fun k => (Spec.scaleUpdate (tukeyRho c) b res)^[k] s) ∨ Monotone fun k => (Spec.scaleUpdate (tukeyRho c) b res)^[k] s) := by
  set g := Spec.scaleUpdate (tukeyRho c) b res with hg
  have hlim : ∀ l, 0 < l → Tendsto (fun k => g^[k] s) atTop (𝓝 l) → Spec.MScale (tukeyRho c) b res l := by
    intro l hl ht
    refine (C56_fixed_partial (tukeyRho c) b hb res l hl).1 ?_
    have h1 : Tendsto (fun k => g^[k + 1] s) atTop (𝓝 l) := ht.comp (tendsto_add_atTop_nat 1)
    have h2 : Tendsto (fun k => g (g^[k] s)) atTop (𝓝 (g l)) := (scaleUpdate_continuousAt hc b res hl.ne').tendsto.comp ht
    have h3 : (fun k => g^[k + 1] s) = fun k => g (g^[k] s) := by
      funext k
      exact Function.iterate_succ_apply' g k s
    rw [h3] at h1
    exact tendsto_nhds_unique h2 h1
  rcases le_total sig s with h | h
  · have hinv : ∀ k, sig ≤ g^[k] s := by
      intro k
      induction k with
      | zero => exact h
      | succ k ih =>
        rw [Function.iterate_succ_apply']
        exact ((scaleUpdate_toward hc hb res hsig (hsig.1.trans_le ih)).1 ih).1
    have hanti : Antitone fun k => g^[k] s := antitone_nat_of_succ_le fun k => by
      rw [Function.iterate_succ_apply']
      exact ((scaleUpdate_toward hc hb res hsig (hsig.1.trans_le (hinv k))).1 (hinv k)).2
    have hbdd : BddBelow (Set.range fun k => g^[k] s) := ⟨sig, by rintro _ ⟨k, rfl⟩; exact hinv k⟩
    have ht := tendsto_atTop_ciInf hanti hbdd
    have hle : sig ≤ ⨅ k, g^[k] s := le_ciInf hinv
    refine ⟨_, hlim _ (hsig.1.trans_le hle) ht, (min_le_right _ _).trans hle, (ciInf_le hbdd 0).trans (le_max_left _ _), ht, Or.inl hanti⟩
  · have hinv : ∀ k, 0 < g^[k] s ∧ g^[k] s ≤ sig := by
      intro k
      induction k with
      | zero => exact ⟨hs, h⟩
      | succ k ih =>
        rw [Function.iterate_succ_apply']
        obtain ⟨h1, h2⟩ := (scaleUpdate_toward hc hb res hsig ih.1).2 ih.2
        exact ⟨ih.1.trans_le h1, h2⟩
    have hmono : Monotone fun k => g^[k] s := monotone_nat_of_le_succ fun k => by
      rw [Function.iterate_succ_apply']
      exact ((scaleUpdate_toward hc hb res hsig (hinv k).1).2 (hinv k).2).1
    have hbdd : BddAbove (Set.range fun k => g^[k] s) := ⟨sig, by rintro _ ⟨k, rfl⟩; exact (hinv k).2⟩
    have ht := tendsto_atTop_ciSup hmono hbdd
    have hge : s ≤ ⨆ k, g^[k] s := le_ciSup hbdd 0
    refine ⟨_, hlim _ (hs.trans_le hge) ht, (min_le_left _ _).trans hge, (ciSup_le fun k => (hinv k).2).trans (le_max_right _ _), ht, Or.inr hmono⟩

/-- The hypotheses of the partial theorems: residuals 1 and -1, `c = 2`, `b = 37 / 96`; the scale 1 solves the equation. -/
example : Spec.MScale (tukeyRho 2) (37 / 96) [1, -1] 1 := by
  refine ⟨one_pos, ?_⟩
  norm_num [tukeyRho]

end Robpy
