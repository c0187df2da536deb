import Verif.Props.Boxplot
import Verif.Lemmas.Median

/-! C178: the adjusted boxplot under contamination. -/

namespace Robpy

theorem sorted_within {X : List ℝ} {lo hi : ℝ} {k : ℕ} (h1 : X.length < k + 1 + X.countP (fun x => decide (lo ≤ x ∧ x ≤ hi)))
    (h2 : k + 1 ≤ X.countP (fun x => decide (lo ≤ x ∧ x ≤ hi))) : lo ≤ (npSort X).getD k 0 ∧ (npSort X).getD k 0 ≤ hi := by
  have hle := List.countP_le_length (p := fun x => decide (lo ≤ x ∧ x ≤ hi)) (l := X)
  have hk : k < (npSort X).length := by rw [npSort_length]; omega
  rw [List.getD_eq_getElem _ _ hk]
  exact isKth_between (isKth_sorted_iff.1 (List.getElem?_eq_getElem hk)) lo hi h1 h2

/-- A percentile whose position is in the bulk of the observations. -/
theorem lerp_within {X : List ℝ} {lo hi : ℝ} {den pos : ℕ} (hd : 0 < den)
    (h1 : X.length < pos / den + 1 + X.countP (fun x => decide (lo ≤ x ∧ x ≤ hi)))
    (h2 : pos / den + 1 ≤ X.countP (fun x => decide (lo ≤ x ∧ x ≤ hi)))
    (h3 : pos % den ≠ 0 → pos / den + 2 ≤ X.countP (fun x => decide (lo ≤ x ∧ x ≤ hi))) :
    lo ≤ lerpAt (npSort X) den pos ∧ lerpAt (npSort X) den pos ≤ hi := by
  obtain ⟨a1, a2⟩ := sorted_within h1 h2
  have hd' : (0:ℝ) < den := by exact_mod_cast hd
  unfold lerpAt
  simp only
  by_cases hr : pos % den = 0
  · rw [hr]
    simpa using ⟨a1, a2⟩
  · have hle := List.countP_le_length (p := fun x => decide (lo ≤ x ∧ x ≤ hi)) (l := X)
    have h4 := h3 hr
    have e : min (pos / den + 1) ((npSort X).length - 1) = pos / den + 1 := by rw [npSort_length]; omega
    rw [e]
    obtain ⟨b1, b2⟩ := sorted_within (X := X) (lo := lo) (hi := hi) (k := pos / den + 1) (by omega) (by omega)
    have f0 : (0:ℝ) ≤ ((pos % den : ℕ) : ℝ) / den := by positivity
    have f1 : ((pos % den : ℕ) : ℝ) / den ≤ 1 := by
      rw [div_le_one hd']; exact_mod_cast (Nat.mod_lt _ hd).le
    constructor <;> nlinarith

/-- **C178**: if at most a quarter of the observations (at most `(n - 1) / 4`) lie outside an interval, then, for every value in [-1, 1] of
the medcouple, the box lies in the interval, the whiskers within `1.5 * exp 3` lengths of it, and every observation further away than
that is drawn as an outlier. -/
theorem C178_bounded (mc : ℝ) (hmc : |mc| ≤ 1) (X : List ℝ) (lo hi : ℝ) (hX : X ≠ [])
    (hgood : 4 * X.length + 1 ≤ X.length + 4 * X.countP (fun x => decide (lo ≤ x ∧ x ≤ hi))) :
    ∃ bp, boxplotColumn mc X = some bp ∧ lo ≤ bp.q1 ∧ bp.q1 ≤ bp.q3 ∧ bp.q3 ≤ hi ∧
      lo - 1.5 * Real.exp 3 * (hi - lo) ≤ bp.lowerWhisker ∧ bp.upperWhisker ≤ hi + 1.5 * Real.exp 3 * (hi - lo) ∧
      ∀ x ∈ X, x < lo - 1.5 * Real.exp 3 * (hi - lo) ∨ hi + 1.5 * Real.exp 3 * (hi - lo) < x → x ∈ fliers bp X := by
  obtain ⟨m, q1, q3, mn, mx, hm, h1, h3, hmn, hmx, o1, o2, o3, o4⟩ := quartiles_order X hX
  have hpos : 0 < X.length := List.length_pos_iff.2 hX
  have hle := List.countP_le_length (p := fun x => decide (lo ≤ x ∧ x ≤ hi)) (l := X)
  have hq1 : lo ≤ q1 ∧ q1 ≤ hi := by
    unfold percentile at h1
    rw [if_neg (by omega)] at h1
    rw [← Option.some.inj h1]
    exact lerp_within (by norm_num) (by omega) (by omega) (by omega)
  have hq3 : lo ≤ q3 ∧ q3 ≤ hi := by
    unfold percentile at h3
    rw [if_neg (by omega)] at h3
    rw [← Option.some.inj h3]
    exact lerp_within (by norm_num) (by omega) (by omega) (by omega)
  have hb := abs_le.1 hmc
  have hiq : 0 ≤ q3 - q1 := by linarith
  have hiq2 : q3 - q1 ≤ hi - lo := by linarith [hq1.1, hq3.2]
  have key : ∀ t : ℝ, t ≤ 3 → 1.5 * Real.exp t * (q3 - q1) ≤ 1.5 * Real.exp 3 * (hi - lo) := by
    intro t ht
    have h5 := Real.exp_le_exp.2 ht
    have h6 := Real.exp_pos t
    exact mul_le_mul (by linarith) hiq2 hiq (by linarith)
  have hlow : ((if mc ≥ 0 then -4 else -3) * mc : ℝ) ≤ 3 := by split_ifs <;> linarith [hb.1, hb.2]
  have hupp : ((if mc ≥ 0 then 3 else 4) * mc : ℝ) ≤ 3 := by split_ifs with h <;> linarith [hb.1, hb.2]
  have klow := key _ hlow
  have kupp := key _ hupp
  unfold boxplotColumn
  rw [hm, h1, h3, hmn, hmx]
  refine ⟨_, rfl, hq1.1, by show q1 ≤ q3; linarith, hq3.2, ?_, ?_, ?_⟩
  · exact le_max_of_le_right (by linarith [hq1.1])
  · exact min_le_of_right_le (by linarith [hq3.2])
  · intro x hx hfar
    simp only [fliers, List.mem_filter, decide_eq_true_eq]
    refine ⟨hx, ?_⟩
    rcases hfar with h | h
    · exact Or.inl (lt_max_of_lt_right (by linarith [hq1.1]))
    · exact Or.inr (min_lt_of_right_lt (by linarith [hq3.2]))

/-- The bound on the number of outliers cannot be relaxed: with one outlier more, for every set of good observations, the third quartile
and with it the upper whisker exceed any number. -/
theorem C178_sharp (G : List ℝ) (m : ℕ) (hm : G.length ≤ 3 * m) (hm0 : 0 < m) (K : ℝ) :
    ∃ t : ℝ, ∀ (mc : ℝ) (X : List ℝ), X.Perm (G ++ List.replicate m t) → ∃ bp, boxplotColumn mc X = some bp ∧ K < bp.q3 ∧ K < bp.upperWhisker := by
  set A := (G.map fun x => |x|).sum with hA
  have hA0 : 0 ≤ A := List.sum_nonneg (by
    intro z hz
    obtain ⟨x, -, rfl⟩ := List.mem_map.1 hz
    exact abs_nonneg _)
  have hAG : ∀ x ∈ G, |x| ≤ A := fun x hx => List.single_le_sum (by
    intro z hz
    obtain ⟨y, -, rfl⟩ := List.mem_map.1 hz
    exact abs_nonneg _) _ (List.mem_map.2 ⟨x, hx, rfl⟩)
  set t := 4 * (|K| + A + 1) with ht
  have hK := abs_nonneg K
  have htA : A < t := by rw [ht]; linarith
  refine ⟨t, fun mc X hX => ?_⟩
  have hlen : X.length = G.length + m := by simpa using hX.length_eq
  have hne : X ≠ [] := by rintro rfl; simp at hlen; omega
  obtain ⟨bp, mn, mx, hbp, -, -, -, -, -, h5, -⟩ := C17_order mc X hne
  refine ⟨bp, hbp, ?_⟩
  suffices hq : K < bp.q3 from ⟨hq, lt_of_lt_of_le hq h5⟩
  obtain ⟨_, q1, q3, _, _, g1, g2, g3, g4, g5, -⟩ := quartiles_order X hne
  have hq : bp.q3 = q3 := by
    unfold boxplotColumn at hbp
    rw [g1, g2, g3, g4, g5] at hbp
    rw [← Option.some.inj hbp]
  rw [hq]
  unfold percentile at g3
  rw [if_neg (by omega)] at g3
  rw [← Option.some.inj g3]
  -- the sorted observations from position `G.length` on are `t`
  have hall : ∀ x ∈ X, -A ≤ x ∧ x ≤ t := by
    intro x hx
    rcases List.mem_append.1 (hX.mem_iff.1 hx) with h | h
    · have := abs_le.1 (hAG x h)
      exact ⟨this.1, by linarith [this.2]⟩
    · rw [List.eq_of_mem_replicate h]
      exact ⟨by linarith, le_rfl⟩
  have hcount : m ≤ X.countP (fun x => decide (t ≤ x ∧ x ≤ t)) := by
    rw [hX.countP_eq, List.countP_append]
    have : (List.replicate m t).countP (fun x => decide (t ≤ x ∧ x ≤ t)) = m := by simp [List.countP_replicate]
    omega
  have htop : ∀ k, G.length ≤ k → k < X.length → (npSort X).getD k 0 = t := by
    intro k hk hk2
    have hk' : k < (npSort X).length := by rw [npSort_length]; omega
    rw [List.getD_eq_getElem _ _ hk']
    have hkth := isKth_sorted_iff.1 (List.getElem?_eq_getElem hk')
    refine le_antisymm (hall _ ((npSort_perm X).mem_iff.1 (List.getElem_mem hk'))).2 ?_
    by_contra hlt
    push Not at hlt
    have h6 := hkth.2
    have h7 : X.countP (fun x => decide (x ≤ (npSort X)[k])) + X.countP (fun x => decide (t ≤ x ∧ x ≤ t)) ≤ X.length := by
      rw [List.length_eq_countP_add_countP (fun x => decide (x ≤ (npSort X)[k]))]
      refine Nat.add_le_add_left (List.countP_mono_left fun x _ hx => ?_) _
      simp only [decide_eq_true_eq, not_le] at hx ⊢
      exact lt_of_lt_of_le hlt hx.1
    omega
  have hlow : ∀ k, k < X.length → -A ≤ (npSort X).getD k 0 := by
    intro k hk
    have hk' : k < (npSort X).length := by rw [npSort_length]; omega
    rw [List.getD_eq_getElem _ _ hk']
    exact (hall _ ((npSort_perm X).mem_iff.1 (List.getElem_mem hk'))).1
  unfold lerpAt
  simp only
  have hKt : K ≤ |K| := le_abs_self K
  set pos := (X.length - 1) * 3 with hpos
  by_cases hr : pos % 4 = 0
  · rw [hr, htop (pos / 4) (by omega) (by omega)]
    simp only [Nat.cast_zero, zero_div, zero_mul, add_zero]
    linarith
  · have e : min (pos / 4 + 1) ((npSort X).length - 1) = pos / 4 + 1 := by rw [npSort_length]; omega
    rw [e, htop (pos / 4 + 1) (by omega) (by omega)]
    have h8 := hlow (pos / 4) (by omega)
    have h9 := (hall _ ((npSort_perm X).mem_iff.1 (List.getElem_mem (by rw [npSort_length]; omega : pos / 4 < (npSort X).length)))).2
    rw [← List.getD_eq_getElem _ (0:ℝ)] at h9
    have f1 : (1:ℝ) / 4 ≤ ((pos % 4 : ℕ) : ℝ) / ((4 : ℕ) : ℝ) := by
      have : (1:ℝ) ≤ ((pos % 4 : ℕ) : ℝ) := by exact_mod_cast Nat.one_le_iff_ne_zero.2 hr
      push_cast
      linarith
    nlinarith

/-- Two of nine observations may be anything. -/
example (a b : ℝ) : 4 * ([0, 1, 2, 3, 4, 5, 6] ++ [a, b] : List ℝ).length + 1 ≤
    ([0, 1, 2, 3, 4, 5, 6] ++ [a, b] : List ℝ).length + 4 * ([0, 1, 2, 3, 4, 5, 6] ++ [a, b] : List ℝ).countP (fun x => decide (0 ≤ x ∧ x ≤ 6)) := by
  rw [List.countP_append]
  have : ([0, 1, 2, 3, 4, 5, 6] : List ℝ).countP (fun x => decide (0 ≤ x ∧ x ≤ 6)) = 7 := by
    norm_num [List.countP_cons]
  rw [this]
  simp
  omega

/-- Three of nine are too many. -/
example : ∃ t : ℝ, ∀ X : List ℝ, X.Perm ([0, 1, 2, 3, 4, 5] ++ List.replicate 3 t) → ∃ bp, boxplotColumn 0 X = some bp ∧ 1000 < bp.upperWhisker := by
  obtain ⟨t, h⟩ := C178_sharp [0, 1, 2, 3, 4, 5] 3 (by norm_num) (by norm_num) 1000
  exact ⟨t, fun X hX => by obtain ⟨bp, h1, -, h3⟩ := h 0 X hX; exact ⟨bp, h1, h3⟩⟩

end Robpy
