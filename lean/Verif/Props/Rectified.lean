import Verif.Lemmas.Power
import Mathlib.Data.List.GetD
import Mathlib.Analysis.SpecialFunctions.Log.Deriv
import Mathlib.Analysis.Complex.ExponentialBounds

/-! # Property C22: rectified power transforms -/

namespace Robpy

/-! ## Box-Cox -/

theorem rectBoxcox_plain (lam cp x : ℝ) (h : if 1 < lam then cp ≤ x else x ≤ cp) :
    rectBoxcox lam cp x = boxcox lam x := by
  unfold rectBoxcox boxcox
  by_cases h1 : lam = 1
  · subst h1; simp
  · rw [if_neg h1]
    by_cases h2 : 1 < lam
    · simp only [if_pos h2] at h ⊢
      rw [if_neg (not_lt.2 h)]
    · simp only [if_neg h2] at h ⊢
      rw [if_neg (not_lt.2 h)]

theorem rectBoxcox_tangent (lam cp x : ℝ) (hcp : 0 < cp) (hl : lam ≠ 1)
    (h : if 1 < lam then x < cp else cp < x) :
    rectBoxcox lam cp x = boxcox lam cp + (x - cp) * cp ^ (lam - 1) := by
  unfold rectBoxcox boxcox
  rw [if_neg hl, if_pos h]
  split_ifs with h0
  · subst h0
    rw [zero_sub, Real.rpow_neg_one]
    rfl
  · rfl

/-- **C22** for Box-Cox: for every lambda and every positive change point the rectified transform
equals the plain transform on the kept side of the change point, is the tangent line of the plain
transform at the change point on the other side, and is strictly increasing on the positive reals. -/
theorem C22_boxcox (lam cp : ℝ) (hcp : 0 < cp) :
    (∀ x, (if 1 < lam then cp ≤ x else x ≤ cp) → rectBoxcox lam cp x = boxcox lam x) ∧
    (∃ d, HasDerivAt (boxcox lam) d cp ∧
      ∀ x, (if 1 < lam then x < cp else cp < x) → rectBoxcox lam cp x = boxcox lam cp + d * (x - cp)) ∧
    (∀ x y, 0 < x → x < y → rectBoxcox lam cp x < rectBoxcox lam cp y) := by
  have hd : 0 < cp ^ (lam - 1) := Real.rpow_pos_of_pos hcp _
  refine ⟨fun x h => rectBoxcox_plain lam cp x h, ⟨_, boxcox_hasDerivAt lam hcp, ?_⟩, ?_⟩
  · intro x h
    by_cases hl : lam = 1
    · subst hl
      simp [rectBoxcox, boxcox]
    · rw [rectBoxcox_tangent lam cp x hcp hl h]; ring
  · intro x y hx hxy
    by_cases hl : lam = 1
    · simp only [rectBoxcox, if_pos hl]; linarith
    by_cases h1 : 1 < lam
    · rcases lt_or_ge x cp with hxc | hxc
      · rw [rectBoxcox_tangent lam cp x hcp hl (by simpa [h1] using hxc)]
        rcases lt_or_ge y cp with hyc | hyc
        · rw [rectBoxcox_tangent lam cp y hcp hl (by simpa [h1] using hyc)]
          nlinarith
        · rw [rectBoxcox_plain lam cp y (by simpa [h1] using hyc)]
          have := (boxcox_le_iff lam hcp (by linarith)).2 hyc
          nlinarith
      · rw [rectBoxcox_plain lam cp x (by simpa [h1] using hxc),
          rectBoxcox_plain lam cp y (by simpa [h1] using hxc.trans hxy.le)]
        exact boxcox_strictMono lam hx hxy
    · rcases lt_or_ge cp y with hyc | hyc
      · rw [rectBoxcox_tangent lam cp y hcp hl (by simpa [h1] using hyc)]
        rcases lt_or_ge cp x with hxc | hxc
        · rw [rectBoxcox_tangent lam cp x hcp hl (by simpa [h1] using hxc)]
          nlinarith
        · rw [rectBoxcox_plain lam cp x (by simpa [h1] using hxc)]
          have := (boxcox_le_iff lam hx hcp).2 hxc
          nlinarith
      · rw [rectBoxcox_plain lam cp y (by simpa [h1] using hyc),
          rectBoxcox_plain lam cp x (by simpa [h1] using hxy.le.trans hyc)]
        exact boxcox_strictMono lam hx hxy

theorem rectClamp_mem (x : List ℝ) (cp : ℝ) (h : x.getD 0 0 ≤ x.getD (x.length - 1) 0) :
    x.getD 0 0 ≤ rectClamp x cp ∧ rectClamp x cp ≤ x.getD (x.length - 1) 0 :=
  ⟨le_min (le_max_right _ _) h, min_le_right _ _⟩

theorem getD_mono {x : List ℝ} (hs : x.Pairwise (· ≤ ·)) {i j : ℕ} (hij : i ≤ j) (hj : j < x.length) :
    x.getD i 0 ≤ x.getD j 0 := by
  rw [List.getD_eq_getElem _ _ (by omega), List.getD_eq_getElem _ _ hj]
  rcases hij.lt_or_eq with h | h
  · exact List.pairwise_iff_getElem.1 hs i j (by omega) hj h
  · subst h; exact le_rfl

/-- **C22** for Box-Cox on data: for every non-empty sorted positive sample, every lambda and every
`factor`, `eps > 0`, the change point exists, lies between the smallest and largest observation
(so it is an admissible change point), and the rectified sample is `C22_boxcox` of it. -/
theorem C22_boxcox_data (x : List ℝ) (lam factor eps : ℝ) (hne : x ≠ []) (hs : x.Pairwise (· ≤ ·))
    (hpos : ∀ v ∈ x, 0 < v) (heps : 0 < eps) :
    ∃ cp, 0 < cp ∧ rectBoxcoxArr lam factor eps x = some (x.map (rectBoxcox lam cp)) ∧
      (lam ≠ 1 → x.getD 0 0 ≤ cp ∧ cp ≤ x.getD (x.length - 1) 0) := by
  by_cases hl : lam = 1
  · exact ⟨1, one_pos, by simp [rectBoxcoxArr, hl], fun h => absurd hl h⟩
  have hn : 0 < x.length := List.length_pos_iff.2 hne
  have hrange : ∀ c0 : ℝ, 0 < (if lam < 0 then min c0 (|1 / lam| - eps)
      else if 0 < lam then max c0 (-1 / lam + eps) else c0) * lam + 1 := by
    intro c0
    rcases lt_trichotomy lam 0 with h | h | h
    · rw [if_pos h]
      have h1 := min_le_right c0 (|1 / lam| - eps)
      have h2 : |1 / lam| = -(1 / lam) := abs_of_neg (one_div_neg.2 h)
      rw [h2] at h1 ⊢
      have h3 : (-(1 / lam) - eps) * lam = -1 - eps * lam := by
        have := h.ne; field_simp
      have h4 : (-(1 / lam) - eps) * lam ≤ min c0 (-(1 / lam) - eps) * lam :=
        mul_le_mul_of_nonpos_right h1 h.le
      nlinarith
    · rw [h]; simp
    · rw [if_neg (by linarith), if_pos h]
      have h1 := le_max_right c0 (-1 / lam + eps)
      have h3 : (-1 / lam + eps) * lam = -1 + eps * lam := by field_simp
      have h4 : (-1 / lam + eps) * lam ≤ max c0 (-1 / lam + eps) * lam :=
        mul_le_mul_of_nonneg_right h1 h.le
      nlinarith
  obtain ⟨c, hc, hinv, -⟩ := boxcox_invBoxcox lam
    (hrange ((if lam < 1 then boxcox lam (rectQ3 x) else boxcox lam (rectQ1 x)) * factor))
  have h01 := getD_mono hs (Nat.zero_le (x.length - 1)) (by omega)
  have h0 : 0 < x.getD 0 0 := by
    rw [List.getD_eq_getElem _ _ hn]; exact hpos _ (List.getElem_mem hn)
  refine ⟨rectClamp x c, lt_of_lt_of_le h0 (rectClamp_mem x c h01).1, ?_, fun _ => rectClamp_mem x c h01⟩
  simp only [rectBoxcoxArr, boxcoxChangepoint, if_neg hl, hinv, Option.map_some]

example : ([1, 2, 5] : List ℝ) ≠ [] ∧ ([1, 2, 5] : List ℝ).Pairwise (· ≤ ·) ∧
    (∀ v ∈ ([1, 2, 5] : List ℝ), 0 < v) ∧ (0:ℝ) < 1e-5 := by
  refine ⟨by simp, by norm_num, by norm_num, by norm_num⟩

/-! ## Yeo-Johnson -/

/-- Admissible change points of the rectified Yeo-Johnson transform. -/
def yjAdmissible (lam cp : ℝ) : Prop := (lam < 1 → 0 ≤ cp) ∧ (1 < lam → cp ≤ 0)

theorem rectYeojohnson_plain (lam cp x : ℝ) (ha : yjAdmissible lam cp)
    (h : if 1 < lam then cp ≤ x else x ≤ cp) (hl : lam ≠ 1) :
    rectYeojohnson lam cp x = yeojohnson lam x := by
  unfold rectYeojohnson yeojohnson
  rw [if_neg hl]
  by_cases h1 : 1 < lam
  · rw [if_pos h1] at h ⊢
    rw [if_neg (not_lt.2 h)]
    have hl0 : lam ≠ 0 := by linarith
    rw [if_neg hl0]
    by_cases hx : 0 ≤ x
    · rw [if_neg (by intro hc; linarith [hc.2])]
      simp [hx]
    · rw [if_pos ⟨h, not_le.1 hx⟩]
      simp [hx]
  · rw [if_neg h1] at h ⊢
    rw [if_neg (not_lt.2 h)]
    have h2 : lam ≠ 2 := by
      intro hc; rw [hc] at h1; norm_num at h1
    by_cases hx : 0 ≤ x
    · rw [if_pos ⟨hx, h⟩]
      simp [hx, h2]
    · rw [if_neg (by intro hc; exact hx hc.1)]
      simp [hx, h2]

theorem rectYeojohnson_tangent (lam cp x : ℝ) (ha : yjAdmissible lam cp)
    (h : if 1 < lam then x < cp else cp < x) (hl : lam ≠ 1) :
    rectYeojohnson lam cp x =
      yeojohnson lam cp + (x - cp) * (if 0 ≤ cp then (1 + cp) ^ (lam - 1) else (1 - cp) ^ (1 - lam)) := by
  unfold rectYeojohnson
  rw [if_neg hl]
  by_cases h1 : 1 < lam
  · rw [if_pos h1] at h ⊢
    have hcp := ha.2 h1
    rw [if_pos h, abs_of_nonpos hcp]
    have e : (if 0 ≤ cp then (1 + cp) ^ (lam - 1) else (1 - cp) ^ (1 - lam)) = (1 - cp) ^ (1 - lam) := by
      split_ifs with h0
      · have : cp = 0 := le_antisymm hcp h0
        subst this; simp
      · rfl
    rw [e]
    split_ifs with h2
    · subst h2
      have e2 : (1 - cp) ^ ((1:ℝ) - 2) = (1 - cp)⁻¹ := by
        rw [← Real.rpow_neg_one]; norm_num
      rw [e2]
      have e3 : yeojohnson 2 cp = -Real.log (1 - cp) := by
        rcases hcp.lt_or_eq with h0 | h0
        · rw [yeojohnson_neg _ h0]; simp [boxcox]
        · subst h0; simp [yeojohnson]
      rw [e3]; ring
    · rw [← sub_eq_add_neg]
  · rw [if_neg h1] at h ⊢
    have hcp := ha.1 (lt_of_le_of_ne (not_lt.1 h1) hl)
    rw [if_pos h, abs_of_nonneg hcp, if_pos hcp]
    split_ifs with h2
    · subst h2
      rw [yeojohnson_nonneg _ hcp]
      have : (1 + cp) ^ ((0:ℝ) - 1) = (1 + cp)⁻¹ := by rw [zero_sub, Real.rpow_neg_one]
      rw [this]
      simp [boxcox]; ring
    · rfl

/-- **C22** for Yeo-Johnson: for every lambda and admissible change point (non-negative for lambda
below 1, non-positive above 1) the rectified transform equals the plain one on the kept side, is its
tangent line beyond, and is strictly increasing on all reals. -/
theorem C22_yeojohnson (lam cp : ℝ) (ha : yjAdmissible lam cp) :
    (∀ x, (if 1 < lam then cp ≤ x else x ≤ cp) → rectYeojohnson lam cp x = yeojohnson lam x) ∧
    (∃ d, HasDerivAt (yeojohnson lam) d cp ∧
      ∀ x, (if 1 < lam then x < cp else cp < x) →
        rectYeojohnson lam cp x = yeojohnson lam cp + d * (x - cp)) ∧
    (∀ x y, x < y → rectYeojohnson lam cp x < rectYeojohnson lam cp y) := by
  by_cases hl : lam = 1
  · subst hl
    have e : ∀ x, yeojohnson 1 x = x := by
      intro x
      unfold yeojohnson
      norm_num
    have e2 : ∀ x, rectYeojohnson 1 cp x = x := by intro x; simp [rectYeojohnson]
    refine ⟨fun x _ => by rw [e, e2], ⟨_, yeojohnson_hasDerivAt 1 cp, fun x _ => ?_⟩,
      fun x y h => by rw [e2, e2]; exact h⟩
    rw [e2, e]
    split_ifs <;> simp
  have hd : 0 < (if 0 ≤ cp then (1 + cp) ^ (lam - 1) else (1 - cp) ^ (1 - lam)) := by
    split_ifs with h0
    · exact Real.rpow_pos_of_pos (by linarith) _
    · exact Real.rpow_pos_of_pos (by linarith) _
  refine ⟨fun x h => rectYeojohnson_plain lam cp x ha h hl, ⟨_, yeojohnson_hasDerivAt lam cp, ?_⟩, ?_⟩
  · intro x h
    rw [rectYeojohnson_tangent lam cp x ha h hl, mul_comm]
  · have mono : ∀ a b, a ≤ b → yeojohnson lam a ≤ yeojohnson lam b := by
      intro a b h
      rcases h.lt_or_eq with h | h
      · exact (yeojohnson_strictMono lam h).le
      · rw [h]
    intro x y hxy
    set d := (if 0 ≤ cp then (1 + cp) ^ (lam - 1) else (1 - cp) ^ (1 - lam)) with hdd
    by_cases h1 : 1 < lam
    · rcases lt_or_ge x cp with hxc | hxc
      · rw [rectYeojohnson_tangent lam cp x ha (by simpa [h1] using hxc) hl]
        rcases lt_or_ge y cp with hyc | hyc
        · rw [rectYeojohnson_tangent lam cp y ha (by simpa [h1] using hyc) hl]
          simp only [← hdd]; nlinarith
        · rw [rectYeojohnson_plain lam cp y ha (by simpa [h1] using hyc) hl]
          have := mono _ _ hyc
          simp only [← hdd]; nlinarith
      · rw [rectYeojohnson_plain lam cp x ha (by simpa [h1] using hxc) hl,
          rectYeojohnson_plain lam cp y ha (by simpa [h1] using hxc.trans hxy.le) hl]
        exact yeojohnson_strictMono lam hxy
    · rcases lt_or_ge cp y with hyc | hyc
      · rw [rectYeojohnson_tangent lam cp y ha (by simpa [h1] using hyc) hl]
        rcases lt_or_ge cp x with hxc | hxc
        · rw [rectYeojohnson_tangent lam cp x ha (by simpa [h1] using hxc) hl]
          simp only [← hdd]; nlinarith
        · rw [rectYeojohnson_plain lam cp x ha (by simpa [h1] using hxc) hl]
          have := mono _ _ hxc
          simp only [← hdd]; nlinarith
      · rw [rectYeojohnson_plain lam cp y ha (by simpa [h1] using hyc) hl,
          rectYeojohnson_plain lam cp x ha (by simpa [h1] using hxy.le.trans hyc) hl]
        exact yeojohnson_strictMono lam hxy

/-- **C22** for Yeo-Johnson on data: if the lower quartile is non-positive and the upper quartile
non-negative (standardised data, see `C22_standardized_quartiles`), the change point the code computes
is admissible, for every lambda with `|lambda| * eps` and `|2 - lambda| * eps` at most 1. -/
theorem C22_yeojohnson_data (x : List ℝ) (lam factor eps : ℝ) (hne : x ≠ []) (hs : x.Pairwise (· ≤ ·))
    (hf : 0 ≤ factor) (heps : 0 < eps) (hb1 : |lam| * eps ≤ 1) (hb2 : |2 - lam| * eps ≤ 1)
    (hQ1 : rectQ1 x ≤ 0) (hQ3 : 0 ≤ rectQ3 x) :
    ∃ cp, yjAdmissible lam cp ∧
      rectYeojohnsonArr lam factor eps x = some (x.map (rectYeojohnson lam cp)) := by
  by_cases hl : lam = 1
  · refine ⟨0, ⟨fun _ => le_rfl, fun _ => le_rfl⟩, by simp [rectYeojohnsonArr, hl]⟩
  have hn : 0 < x.length := List.length_pos_iff.2 hne
  have hQ1x : x.getD 0 0 ≤ 0 := (getD_mono hs (Nat.zero_le _) (by omega)).trans hQ1
  have hQ3x : 0 ≤ x.getD (x.length - 1) 0 :=
    hQ3.trans (getD_mono hs (by omega) (by omega))
  have yj0 : yeojohnson lam 0 = 0 := by rw [yeojohnson_nonneg _ le_rfl]; simp
  have mono : ∀ a b, a ≤ b → yeojohnson lam a ≤ yeojohnson lam b := by
    intro a b h
    rcases h.lt_or_eq with h | h
    · exact (yeojohnson_strictMono lam h).le
    · rw [h]
  set c0 := (if lam < 1 then yeojohnson lam (rectQ3 x) else yeojohnson lam (rectQ1 x)) * factor with hc0
  set c1 := if lam < 0 then min c0 (|1 / lam| - eps)
      else if 2 < lam then max c0 (1 / (2 - lam) + eps) else c0 with hc1
  have hc0sign : (lam < 1 → 0 ≤ c0) ∧ (1 < lam → c0 ≤ 0) := by
    constructor
    · intro h
      rw [hc0, if_pos h]
      have := mono _ _ hQ3; rw [yj0] at this
      exact mul_nonneg this hf
    · intro h
      rw [hc0, if_neg (by linarith)]
      have := mono _ _ hQ1; rw [yj0] at this
      exact mul_nonpos_of_nonpos_of_nonneg this hf
  have hc1sign : (lam < 1 → 0 ≤ c1) ∧ (1 < lam → c1 ≤ 0) := by
    constructor
    · intro h
      rw [hc1]
      split_ifs with h0 h2
      · refine le_min (hc0sign.1 h) ?_
        rw [abs_of_neg (one_div_neg.2 h0), ← one_div_neg_eq_neg_one_div]
        rw [abs_of_neg h0] at hb1
        have : eps ≤ 1 / -lam := by rw [le_div_iff₀ (by linarith)]; linarith
        linarith
      · linarith
      · exact hc0sign.1 h
    · intro h
      rw [hc1]
      split_ifs with h0 h2
      · linarith
      · refine max_le (hc0sign.2 h) ?_
        rw [abs_of_neg (by linarith)] at hb2
        have : eps ≤ 1 / (lam - 2) := by rw [le_div_iff₀ (by linarith)]; linarith
        have e : 1 / (2 - lam) = -(1 / (lam - 2)) := by
          rw [← neg_sub, one_div_neg_eq_neg_one_div]
        rw [e]; linarith
      · exact hc0sign.2 h
  have hrange : yjInRange lam c1 := by
    constructor
    · intro h
      by_cases h0 : lam < 0
      · have h1 : c1 ≤ |1 / lam| - eps := by rw [hc1, if_pos h0]; exact min_le_right _ _
        rw [abs_of_neg (one_div_neg.2 h0)] at h1
        have h3 : (-(1 / lam) - eps) * lam = -1 - eps * lam := by have := h0.ne; field_simp
        have h4 := mul_le_mul_of_nonpos_right h1 h0.le
        nlinarith
      · have := mul_nonneg h (not_lt.1 h0); linarith
    · intro h
      by_cases h2 : 2 < lam
      · have h1 : 1 / (2 - lam) + eps ≤ c1 := by
          rw [hc1, if_neg (by linarith), if_pos h2]; exact le_max_right _ _
        have h3 : (1 / (2 - lam) + eps) * (2 - lam) = 1 + eps * (2 - lam) := by
          have : 2 - lam ≠ 0 := by linarith
          field_simp
        have h4 := mul_le_mul_of_nonpos_right h1 (show 2 - lam ≤ 0 by linarith)
        nlinarith
      · nlinarith [not_lt.1 h2]
  obtain ⟨c, hinv, hval⟩ := yeojohnson_invYeojohnson lam hrange
  refine ⟨rectClamp x c, ⟨fun h => ?_, fun h => ?_⟩, ?_⟩
  · refine le_min (le_max_of_le_left ?_) hQ3x
    by_contra hc
    have := (yeojohnson_sign lam c).2 (not_le.1 hc)
    linarith [hc1sign.1 h]
  · refine min_le_of_left_le (max_le ?_ hQ1x)
    by_contra hc
    have := yeojohnson_strictMono lam (not_le.1 hc)
    rw [yj0] at this
    linarith [hc1sign.2 h]
  · simp only [rectYeojohnsonArr, yeojohnsonChangepoint, if_neg hl, ← hc0, ← hc1, hinv, Option.map_some]

/-- Standardised data (median 0) has a non-positive lower and a non-negative upper quartile, so
`C22_yeojohnson_data` applies. -/
theorem C22_standardized_quartiles (x : List ℝ) (hs : x.Pairwise (· ≤ ·)) (hm : npMedian x = some 0) :
    rectQ1 x ≤ 0 ∧ 0 ≤ rectQ3 x := by
  have hsort : npSort x = x := npSort_eq_self hs
  unfold npMedian at hm
  simp only [hsort] at hm
  by_cases hn : x.length = 0
  · rw [if_pos hn] at hm; simp at hm
  rw [if_neg hn] at hm
  unfold rectQ1 rectQ3
  split_ifs at hm with ho
  · have hlt : x.length / 2 < x.length := by omega
    rw [List.getElem?_eq_getElem hlt] at hm
    have hm' : x.getD (x.length / 2) 0 = 0 := by
      rw [List.getD_eq_getElem _ _ hlt]; exact Option.some.inj hm
    constructor
    · exact (getD_mono hs (show (x.length + 3) / 4 - 1 ≤ x.length / 2 by omega) hlt).trans hm'.le
    · exact hm'.ge.trans (getD_mono hs (show x.length / 2 ≤ x.length - (x.length + 3) / 4 by omega) (by omega))
  · have hlt : x.length / 2 < x.length := by omega
    have hlt' : x.length / 2 - 1 < x.length := by omega
    rw [List.getElem?_eq_getElem hlt, List.getElem?_eq_getElem hlt'] at hm
    simp only [Option.some.injEq] at hm
    have hle := getD_mono hs (show x.length / 2 - 1 ≤ x.length / 2 by omega) hlt
    have e1 := List.getD_eq_getElem x (0:ℝ) hlt
    have e2 := List.getD_eq_getElem x (0:ℝ) hlt'
    rw [← e1, ← e2] at hm
    constructor
    · refine (getD_mono hs (show (x.length + 3) / 4 - 1 ≤ x.length / 2 - 1 by omega) hlt').trans ?_
      linarith
    · refine le_trans ?_ (getD_mono hs (show x.length / 2 ≤ x.length - (x.length + 3) / 4 by omega) (by omega))
      linarith

/-- **C22** for Yeo-Johnson as used by `fit` with `standardize=True`: for sorted data with positive
MAD the rectified transform of the standardised data uses an admissible change point. -/
theorem C22_yeojohnson_standardized (x : List ℝ) (loc mad lam factor eps : ℝ) (hs : x.Pairwise (· ≤ ·))
    (hloc : npMedian x = some loc) (hmad : 0 < mad) (hf : 0 ≤ factor) (heps : 0 < eps)
    (hb1 : |lam| * eps ≤ 1) (hb2 : |2 - lam| * eps ≤ 1) :
    ∃ cp, yjAdmissible lam cp ∧
      rectYeojohnsonArr lam factor eps (x.map fun v => (v - loc) / mad) =
        some ((x.map fun v => (v - loc) / mad).map (rectYeojohnson lam cp)) := by
  have hmap : (x.map fun v => (v - loc) / mad) = x.map fun v => (1 / mad) * v + (-loc / mad) := by
    apply List.map_congr_left; intro v _; field_simp; ring
  have hs' : (x.map fun v => (v - loc) / mad).Pairwise (· ≤ ·) := by
    rw [List.pairwise_map]
    exact hs.imp fun h => div_le_div_of_nonneg_right (by linarith) hmad.le
  have hm : npMedian (x.map fun v => (v - loc) / mad) = some 0 := by
    rw [hmap, npMedian_affine, hloc, Option.map_some]
    congr 1; field_simp; ring
  have hne : (x.map fun v => (v - loc) / mad) ≠ [] := by
    intro h
    rw [h] at hm
    simp [npMedian] at hm
  obtain ⟨h1, h3⟩ := C22_standardized_quartiles _ hs' hm
  exact C22_yeojohnson_data _ lam factor eps hne hs' hf heps hb1 hb2 h1 h3

example : ([-2, -1, 0, 1, 7] : List ℝ).Pairwise (· ≤ ·) ∧ |(3:ℝ)| * 1e-5 ≤ 1 ∧ |2 - (3:ℝ)| * 1e-5 ≤ 1 ∧
    npMedian ([-2, -1, 0, 1, 7] : List ℝ) = some 0 := by
  have h : ([-2, -1, 0, 1, 7] : List ℝ).Pairwise (· ≤ ·) := by norm_num
  refine ⟨h, by norm_num, by norm_num [abs_of_neg], ?_⟩
  unfold npMedian
  rw [show npSort ([-2, -1, 0, 1, 7] : List ℝ) = [-2, -1, 0, 1, 7] from npSort_eq_self h]
  simp

/-! ### Unstandardised negative data -/

/-- Full statement of C22 for the Yeo-Johnson transform of any data set. -/
def C22_statement : Prop :=
  ∀ (lam : ℝ) (x y : List ℝ), x ≠ [] → x.Pairwise (· ≤ ·) →
    rectYeojohnsonArr lam 1.5 1e-5 x = some y → y.Pairwise (· ≤ ·)

/-- **C22 is violated** for data that is not standardised and lies below zero: with lambda 0 the
sorted sample (-1/2, -1/2, -1/2, -1/2, -49/100) is mapped to a sample in which the largest observation
has become the smallest. -/
theorem C22_violated : ¬ C22_statement := by
  intro h
  set x : List ℝ := [-1/2, -1/2, -1/2, -1/2, -49/100] with hx
  have hcp : yeojohnsonChangepoint x 0 1.5 1e-5 = some (-1/2) := by
    have hc : yeojohnson 0 (-1/2) = -5/8 := by
      rw [yeojohnson_neg _ (by norm_num)]; norm_num [boxcox]
    have hQ3 : rectQ3 x = -1/2 := by simp [rectQ3, hx]
    unfold yeojohnsonChangepoint
    rw [if_neg (by norm_num)]
    simp only [if_pos (show (0:ℝ) < 1 by norm_num), hQ3, hc, lt_irrefl, if_false,
      if_neg (show ¬ (2:ℝ) < 0 by norm_num)]
    obtain ⟨c, h1, h2⟩ := yeojohnson_invYeojohnson 0 (y := -5/8 * 1.5) (by
      constructor
      · intro h; norm_num at h
      · intro _; norm_num)
    rw [h1, Option.map_some]
    have hcl : c ≤ -1/2 := by
      by_contra hcc
      have := yeojohnson_strictMono 0 (not_le.1 hcc)
      rw [h2, hc] at this
      norm_num at this
    congr 1
    simp only [rectClamp, hx, List.getD_cons_zero]
    rw [max_eq_right hcl]
    norm_num
  have hy : rectYeojohnsonArr 0 1.5 1e-5 x = some (x.map (rectYeojohnson 0 (-1/2))) := by
    simp only [rectYeojohnsonArr, if_neg (show (0:ℝ) ≠ 1 by norm_num), hcp, Option.map_some]
  have := h 0 x _ (by simp [hx]) (by norm_num [hx]) hy
  have e1 : rectYeojohnson 0 (-1/2) (-1/2) = -5/8 := by norm_num [rectYeojohnson]
  have e2 : rectYeojohnson 0 (-1/2) (-49/100) = Real.log (1/2) + 1/50 := by norm_num [rectYeojohnson]
  rw [hx] at this
  simp only [List.map_cons, List.map_nil, e1, e2] at this
  have h2 : (-5/8 : ℝ) ≤ Real.log (1/2) + 1/50 := by
    simp only [List.pairwise_cons, List.mem_cons, List.mem_nil_iff, or_false, forall_eq_or_imp] at this
    exact this.1.2.2.2 _ rfl
  have h3 : Real.log (1/2) = -Real.log 2 := by rw [one_div, Real.log_inv]
  have h4 := Real.log_two_gt_d9
  rw [h3] at h2
  norm_num at h2 h4
  linarith

/-- Beyond a negative change point the slope used for lambda below 1 is not the slope of the
transform (it is its reciprocal): the extension is not the tangent line. -/
theorem C22_negative_changepoint_slope (lam cp x : ℝ) (hl : lam < 1) (h0 : lam ≠ 0) (hcp : cp < 0)
    (hx : cp < x) :
    ∃ d, HasDerivAt (yeojohnson lam) d cp ∧ 1 < d ∧
      rectYeojohnson lam cp x = yeojohnson lam cp + d⁻¹ * (x - cp) := by
  refine ⟨_, yeojohnson_hasDerivAt lam cp, ?_, ?_⟩
  · rw [if_neg (not_le.2 hcp)]
    exact Real.one_lt_rpow (by linarith) (by linarith)
  · rw [if_neg (not_le.2 hcp)]
    unfold rectYeojohnson
    rw [if_neg hl.ne, if_neg (not_lt.2 hl.le), if_pos hx, if_neg h0, abs_of_neg hcp,
      ← Real.rpow_neg (by linarith)]
    have : -(1 - lam) = lam - 1 := by ring
    rw [this, ← sub_eq_add_neg]; ring

example : ∃ lam cp x : ℝ, lam < 1 ∧ lam ≠ 0 ∧ cp < 0 ∧ cp < x := ⟨1/2, -1, 0, by norm_num, by norm_num, by norm_num, by norm_num⟩

end Robpy
