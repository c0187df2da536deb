import Verif.Lemmas.Power

/-! # Properties C20, C21, C23, C24, C25, C73: RobustPowerTransformer -/

namespace Robpy

/-- A fit whose standardisation can be undone: scales are positive. -/
def PTFit.Good (f : PTFit) : Prop :=
  ∀ lpre spre lpost spost, f.std = some (lpre, spre, lpost, spost) → 0 < spre ∧ 0 < spost

/-- The value is strictly inside the range of the fitted power transform. -/
def PTFit.InRange (f : PTFit) (z : ℝ) : Prop :=
  match f.method with
  | .boxcox => 0 < z * f.lam + 1
  | .yeojohnson => yjInRange f.lam z

/-! ### `_handle_bounds` acts per element -/

/-- Per-element effect of `_handle_bounds`. -/
noncomputable def boundCell (f : PTFit) (z : ℝ) : ℝ :=
  let z1 := match (ptBounds f).1 with
    | none => z
    | some l => if z < l then 0.95 * l else z
  match (ptBounds f).2 with
    | none => z1
    | some u => if u < z1 then 0.95 * u else z1

theorem handleLower_eq (l : ℝ) (X : List ℝ) :
    handleLower (some l) X = X.map fun x => if x < l then 0.95 * l else x := by
  unfold handleLower
  simp only
  split_ifs with h
  · rfl
  · conv_lhs => rw [← List.map_id X]
    apply List.map_congr_left
    intro x hx
    rw [if_neg (fun hc => h ⟨x, hx, hc⟩)]; rfl

theorem handleUpper_eq (u : ℝ) (X : List ℝ) :
    handleUpper (some u) X = X.map fun x => if u < x then 0.95 * u else x := by
  unfold handleUpper
  simp only
  split_ifs with h
  · rfl
  · conv_lhs => rw [← List.map_id X]
    apply List.map_congr_left
    intro x hx
    rw [if_neg (fun hc => h ⟨x, hx, hc⟩)]; rfl

theorem handleBounds_eq (f : PTFit) (X : List ℝ) : handleBounds f X = X.map (boundCell f) := by
  unfold handleBounds boundCell
  rcases h1 : (ptBounds f).1 with _ | l <;> rcases h2 : (ptBounds f).2 with _ | u
  · simp [handleLower, handleUpper]
  · rw [handleUpper_eq]; simp [handleLower]
  · rw [handleLower_eq]; simp [handleUpper]
  · rw [handleLower_eq, handleUpper_eq, List.map_map]; rfl

/-- Strictly inside the range nothing is clamped. -/
theorem boundCell_inRange (f : PTFit) {z : ℝ} (hz : f.InRange z) : boundCell f z = z := by
  obtain ⟨m, lam, std⟩ := f
  unfold boundCell ptBounds
  rcases m with _ | _
  · simp only [PTFit.InRange] at hz
    simp only [true_and, reduceCtorEq, false_and, if_false]
    rcases lt_trichotomy lam 0 with h | h | h
    · rw [if_neg (by linarith), if_pos h]
      simp only
      rw [if_neg]
      rw [abs_of_neg h, not_lt]
      rw [le_div_iff₀ (by linarith)]
      nlinarith
    · rw [if_neg (by linarith), if_neg (by linarith)]
    · rw [if_pos h]
      simp only
      rw [if_neg]
      rw [abs_of_pos h, not_lt, div_le_iff₀ h]
      linarith
  · simp only [PTFit.InRange, yjInRange] at hz
    simp only [true_and, reduceCtorEq, false_and, if_false]
    by_cases h2 : 2 < lam
    · rw [if_pos h2]
      simp only
      rw [if_neg]
      rw [abs_of_pos (by linarith), not_lt, div_le_iff₀ (by linarith)]
      rcases lt_or_ge z 0 with h | h
      · have := hz.2 h; nlinarith
      · nlinarith
    · rw [if_neg h2]
      by_cases h0 : lam < 0
      · rw [if_pos h0]
        simp only
        rw [if_neg]
        rw [abs_of_neg h0, not_lt, le_div_iff₀ (by linarith)]
        rcases lt_or_ge z 0 with h | h
        · nlinarith
        · have := hz.1 h; nlinarith
      · rw [if_neg h0]

/-- The inverse power transform of the fitted family. -/
noncomputable def PTFit.inv (f : PTFit) (z : ℝ) : Option ℝ :=
  match f.method with
  | .boxcox => invBoxcox f.lam z
  | .yeojohnson => invYeojohnson f.lam z

/-- One cell of `inverse_transform`. -/
noncomputable def invCell (f : PTFit) (y : ℝ) : Option ℝ :=
  (f.inv (boundCell f (ptUnpost f y))).map (ptUnpre f)

theorem ptInverse_eq (f : PTFit) (Y : List ℝ) : ptInverse f Y = Y.map (invCell f) := by
  unfold ptInverse invCell PTFit.inv
  rw [handleBounds_eq, List.map_map]
  rcases f.method with _ | _ <;> simp [List.map_map, Function.comp_def]

/-! ## C20 and C21 -/

/-- One cell of `transform` (admissible data). -/
noncomputable def fwdCell (f : PTFit) (x : ℝ) : Option ℝ :=
  match f.method with
  | .boxcox => ptCell { f with std := f.std.map fun s => (0, s.2) } (boxcox f.lam) x
  | .yeojohnson => ptCell f (yeojohnson f.lam) x

/-- The transform of one admissible cell succeeds, and the inverse takes it back. -/
theorem cell_round_trip (f : PTFit) (hf : f.Good) (x : ℝ) (hx : f.method = .boxcox → 0 < x) :
    ∃ y, fwdCell f x = some y ∧
      invCell f y = some x ∧ f.InRange (ptUnpost f y) := by
  obtain ⟨m, lam, std⟩ := f
  rcases std with _ | ⟨lpre, spre, lpost, spost⟩
  · rcases m with _ | _
    · have hx' := hx rfl
      refine ⟨boxcox lam x, rfl, ?_, boxcox_range lam hx'⟩
      unfold invCell
      simp only [PTFit.inv, ptUnpost]
      rw [boundCell_inRange ⟨.boxcox, lam, none⟩ (boxcox_range lam hx')]
      rw [invBoxcox_boxcox lam hx']; rfl
    · refine ⟨yeojohnson lam x, rfl, ?_, yeojohnson_range lam x⟩
      unfold invCell
      simp only [PTFit.inv, ptUnpost]
      rw [boundCell_inRange ⟨.yeojohnson, lam, none⟩ (yeojohnson_range lam x)]
      rw [invYeojohnson_yeojohnson]; rfl
  · obtain ⟨h1, h2⟩ := hf lpre spre lpost spost rfl
    have hun : ∀ g : ℝ, (g - lpost) / spost * spost + lpost = g := by intro g; field_simp; ring
    rcases m with _ | _
    · have hx' : 0 < x / spre := div_pos (hx rfl) h1
      refine ⟨(boxcox lam (x / spre) - lpost) / spost, ?_, ?_, ?_⟩
      · simp only [fwdCell, ptCell, Option.map_some, npDiv, if_neg h1.ne', if_neg h2.ne', Option.bind_some, sub_zero]
      · unfold invCell
        simp only [ptUnpost, hun]
        rw [boundCell_inRange ⟨.boxcox, lam, _⟩ (boxcox_range lam hx')]
        simp only [PTFit.inv]
        rw [invBoxcox_boxcox lam hx', Option.map_some]
        simp only [ptUnpre]
        congr 1; field_simp
      · simp only [ptUnpost, hun]; exact boxcox_range lam hx'
    · refine ⟨(yeojohnson lam ((x - lpre) / spre) - lpost) / spost, ?_, ?_, ?_⟩
      · simp only [fwdCell, ptCell, npDiv, if_neg h1.ne', if_neg h2.ne', Option.bind_some]
      · unfold invCell
        simp only [ptUnpost, hun]
        rw [boundCell_inRange ⟨.yeojohnson, lam, _⟩ (yeojohnson_range lam _)]
        simp only [PTFit.inv]
        rw [invYeojohnson_yeojohnson, Option.map_some]
        simp only [ptUnpre]
        congr 1; field_simp; ring
      · simp only [ptUnpost, hun]; exact yeojohnson_range lam _

theorem exists_list_of_cells {α β : Type} (P : α → β → Prop) (X : List α) (h : ∀ x ∈ X, ∃ y, P x y) :
    ∃ Y : List β, List.Forall₂ P X Y := by
  induction X with
  | nil => exact ⟨[], .nil⟩
  | cons x X ih =>
    obtain ⟨y, hy⟩ := h x (by simp)
    obtain ⟨Y, hY⟩ := ih (fun x hx => h x (by simp [hx]))
    exact ⟨y :: Y, .cons hy hY⟩

/-- **C20**: for every fitted transformer (either family, any lambda, standardised with positive
scales or not) and every admissible data set, `transform` succeeds with finite values and
`inverse_transform` of the result is the original data. -/
theorem C20_round_trip (f : PTFit) (hf : f.Good) (X : List ℝ)
    (hX : f.method = .boxcox → X ≠ [] ∧ ∀ x ∈ X, 0 < x) :
    ∃ Y : List ℝ, ptTransform f X = .ok (Y.map some) ∧ ptInverse f Y = X.map some := by
  obtain ⟨Y, hY⟩ := exists_list_of_cells _ X
    (fun x hx => cell_round_trip f hf x (fun h => (hX h).2 x hx))
  have hfw : X.map (fwdCell f) = Y.map some := by
    clear hX
    induction hY with
    | nil => rfl
    | cons h _ ih => rw [List.map_cons, List.map_cons, ih, h.1]
  refine ⟨Y, ?_, ?_⟩
  · rw [← hfw]
    obtain ⟨m, lam, std⟩ := f
    unfold ptTransform
    rcases m with _ | _
    · simp only
      rw [if_neg]
      · rfl
      · rintro (h | ⟨x, hx, h0⟩)
        · exact (hX rfl).1 h
        · exact absurd ((hX rfl).2 x hx) (not_lt.2 h0)
    · rfl
  · rw [ptInverse_eq]
    clear hX hfw
    induction hY with
    | nil => rfl
    | cons h _ ih => rw [List.map_cons, List.map_cons, ih, h.2.1]

/-- **C20**, the error branch: Box-Cox rejects exactly the data with a non-positive value. -/
theorem C20_error (f : PTFit) (X : List ℝ) (hX : X ≠ []) :
    ptTransform f X = .error .valueError ↔ f.method = .boxcox ∧ ∃ x ∈ X, x ≤ 0 := by
  unfold ptTransform
  rcases f.method with _ | _
  · simp only [true_and]
    split_ifs with h
    · simpa [hX] using h
    · simp only [reduceCtorEq, false_iff]
      exact fun hc => h (Or.inr hc)
  · simp

example : (PTFit.mk .boxcox (1/2) (some (0, 2, 1, 3))).Good := by
  intro a b c d h
  simp only [Option.some.injEq, Prod.mk.injEq] at h
  obtain ⟨_, rfl, _, rfl⟩ := h
  norm_num

/-- **C21**: the plain transforms are strictly increasing for every lambda. -/
theorem C21_formulas (lam x y : ℝ) (hxy : x < y) :
    (0 < x → boxcox lam x < boxcox lam y) ∧ yeojohnson lam x < yeojohnson lam y :=
  ⟨fun hx => boxcox_strictMono lam hx hxy, yeojohnson_strictMono lam hxy⟩

/-- **C21**: `transform` preserves the ranking of the observations. -/
theorem C21_transform_order (f : PTFit) (hf : f.Good) (X : List ℝ) (Y : List (Option ℝ))
    (h : ptTransform f X = .ok Y) (i j : ℕ) (x x' : ℝ) (hi : X[i]? = some x) (hj : X[j]? = some x')
    (hlt : x < x') :
    ∃ y y', Y[i]? = some (some y) ∧ Y[j]? = some (some y') ∧ y < y' := by
  obtain ⟨m, lam, std⟩ := f
  unfold ptTransform at h
  rcases m with _ | _
  · simp only at h
    split_ifs at h with h0
    simp only [Except.ok.injEq] at h
    subst h
    have hpos : ∀ v ∈ X, 0 < v := by
      intro v hv
      by_contra hc
      exact h0 (Or.inr ⟨v, hv, not_lt.1 hc⟩)
    have hx := hpos x (List.mem_of_getElem? hi)
    simp only [List.getElem?_map, hi, hj, Option.map_some]
    rcases std with _ | ⟨lpre, spre, lpost, spost⟩
    · exact ⟨_, _, rfl, rfl, boxcox_strictMono lam hx hlt⟩
    · obtain ⟨h1, h2⟩ := hf lpre spre lpost spost rfl
      refine ⟨(boxcox lam (x / spre) - lpost) / spost, (boxcox lam (x' / spre) - lpost) / spost, ?_, ?_, ?_⟩
      · simp only [ptCell, Option.map_some, npDiv, if_neg h1.ne', if_neg h2.ne', Option.bind_some, sub_zero]
      · simp only [ptCell, Option.map_some, npDiv, if_neg h1.ne', if_neg h2.ne', Option.bind_some, sub_zero]
      · apply div_lt_div_of_pos_right _ h2
        have := boxcox_strictMono lam (div_pos hx h1) (div_lt_div_of_pos_right hlt h1)
        linarith
  · simp only [Except.ok.injEq] at h
    subst h
    simp only [List.getElem?_map, hi, hj, Option.map_some]
    rcases std with _ | ⟨lpre, spre, lpost, spost⟩
    · exact ⟨_, _, rfl, rfl, yeojohnson_strictMono lam hlt⟩
    · obtain ⟨h1, h2⟩ := hf lpre spre lpost spost rfl
      refine ⟨(yeojohnson lam ((x - lpre) / spre) - lpost) / spost,
        (yeojohnson lam ((x' - lpre) / spre) - lpost) / spost, ?_, ?_, ?_⟩
      · simp only [ptCell, npDiv, if_neg h1.ne', if_neg h2.ne', Option.bind_some]
      · simp only [ptCell, npDiv, if_neg h1.ne', if_neg h2.ne', Option.bind_some]
      · apply div_lt_div_of_pos_right _ h2
        have := yeojohnson_strictMono lam (div_lt_div_of_pos_right (sub_lt_sub_right hlt lpre) h1)
        linarith

example : ∃ Y, ptTransform ⟨.boxcox, -1, none⟩ [1, 2] = .ok Y := by
  refine ⟨_, by unfold ptTransform; simp only; rw [if_neg]; simp⟩

/-! ## C23 -/

/-- Full statement of C23: `inverse_transform` is finite for all inputs and never reverses order. -/
def C23_statement : Prop :=
  ∀ (f : PTFit), f.Good → ∀ (Y : List ℝ),
    (∀ o ∈ ptInverse f Y, o ≠ none) ∧
    ∀ (i j : ℕ) (y y' x x' : ℝ), Y[i]? = some y → Y[j]? = some y' → y ≤ y' →
      (ptInverse f Y)[i]? = some (some x) → (ptInverse f Y)[j]? = some (some x') → x ≤ x'

/-- **C23 is violated** (order): Box-Cox with lambda 1 sends -2 to 0.05 but -0.99 to 0.01. -/
theorem C23_violated : ¬ C23_statement := by
  intro h
  have hg : (PTFit.mk .boxcox 1 none).Good := by intro a b c d h; simp at h
  have h1 := (h ⟨.boxcox, 1, none⟩ hg [-2, -0.99]).2 0 1 (-2) (-0.99) 0.05 0.01 rfl rfl (by norm_num)
  rw [ptInverse_eq] at h1
  have e1 : invCell ⟨.boxcox, 1, none⟩ (-2) = some 0.05 := by
    norm_num [invCell, boundCell, ptBounds, PTFit.inv, ptUnpost, ptUnpre, invBoxcox, npPow]
  have e2 : invCell ⟨.boxcox, 1, none⟩ (-0.99) = some 0.01 := by
    norm_num [invCell, boundCell, ptBounds, PTFit.inv, ptUnpost, ptUnpre, invBoxcox, npPow]
  simp only [List.map_cons, e1, e2] at h1
  have := h1 rfl rfl
  norm_num at this

/-- **C23 is violated** (finiteness): Box-Cox with lambda -1 and Yeo-Johnson with lambda -1 give inf
at 1, and Yeo-Johnson with lambda 3 gives -inf at -1. -/
theorem C23_violated_infinite :
    ptInverse ⟨.boxcox, -1, none⟩ [1] = [none] ∧ ptInverse ⟨.yeojohnson, -1, none⟩ [1] = [none] ∧
    ptInverse ⟨.yeojohnson, 3, none⟩ [-1] = [none] := by
  refine ⟨?_, ?_, ?_⟩
  · rw [ptInverse_eq]
    norm_num [invCell, boundCell, ptBounds, PTFit.inv, ptUnpost, ptUnpre, invBoxcox, invYeojohnson, npPow]
  · rw [ptInverse_eq]
    norm_num [invCell, boundCell, ptBounds, PTFit.inv, ptUnpost, ptUnpre, invBoxcox, invYeojohnson, npPow]
  · have e : ptBounds ⟨.yeojohnson, 3, none⟩ = (some (-1), none) := by
      unfold ptBounds
      rw [if_neg (by simp), if_neg (by simp), if_pos ⟨rfl, by norm_num⟩]
      norm_num
    rw [ptInverse_eq]
    simp only [List.map_cons, List.map_nil, invCell, boundCell, e, PTFit.inv, ptUnpost]
    norm_num [invYeojohnson, npPow]

theorem inv_inRange (f : PTFit) {z : ℝ} (hz : f.InRange z) : ∃ x, f.inv z = some x := by
  obtain ⟨m, lam, std⟩ := f
  rcases m with _ | _
  · obtain ⟨x, _, h, _⟩ := boxcox_invBoxcox lam hz; exact ⟨x, h⟩
  · obtain ⟨x, h, _⟩ := yeojohnson_invYeojohnson lam hz; exact ⟨x, h⟩

theorem inv_strictMono (f : PTFit) {z z' x x' : ℝ} (hz : f.InRange z) (hz' : f.InRange z') (hlt : z < z')
    (h : f.inv z = some x) (h' : f.inv z' = some x') : x < x' := by
  obtain ⟨m, lam, std⟩ := f
  rcases m with _ | _
  · obtain ⟨p, e⟩ := invBoxcox_some_pos lam hz h
    obtain ⟨p', e'⟩ := invBoxcox_some_pos lam hz' h'
    by_contra hc
    have := (boxcox_le_iff lam p' p).2 (not_lt.1 hc)
    rw [e, e'] at this
    linarith
  · obtain ⟨w, e1, e2⟩ := yeojohnson_invYeojohnson lam hz
    obtain ⟨w', e1', e2'⟩ := yeojohnson_invYeojohnson lam hz'
    simp only [PTFit.inv] at h h'
    rw [e1] at h; rw [e1'] at h'
    obtain rfl := Option.some.inj h
    obtain rfl := Option.some.inj h'
    by_contra hc
    rcases (not_lt.1 hc).lt_or_eq with hc | hc
    · have := yeojohnson_strictMono lam hc; linarith
    · rw [hc] at e2'; linarith

/-- **C23**, what does hold: on inputs strictly inside the range of the fitted transform the inverse
is finite and strictly increasing.  Missing: order across the clamped part, finiteness at the bound. -/
theorem C23_inside_partial (f : PTFit) (hf : f.Good) (Y : List ℝ) (i j : ℕ) (y y' : ℝ)
    (hi : Y[i]? = some y) (hj : Y[j]? = some y') (hlt : y < y') (h1 : f.InRange (ptUnpost f y))
    (h2 : f.InRange (ptUnpost f y')) :
    ∃ x x', (ptInverse f Y)[i]? = some (some x) ∧ (ptInverse f Y)[j]? = some (some x') ∧ x < x' := by
  obtain ⟨w, hw⟩ := inv_inRange f h1
  obtain ⟨w', hw'⟩ := inv_inRange f h2
  rw [ptInverse_eq]
  refine ⟨ptUnpre f w, ptUnpre f w', ?_, ?_, ?_⟩
  · simp [hi, invCell, boundCell_inRange f h1, hw]
  · simp [hj, invCell, boundCell_inRange f h2, hw']
  · have hz : ptUnpost f y < ptUnpost f y' := by
      obtain ⟨m, lam, std⟩ := f
      rcases std with _ | ⟨a, b, c, d⟩
      · exact hlt
      · have := (hf a b c d rfl).2
        simp only [ptUnpost]; nlinarith
    have := inv_strictMono f h1 h2 hz hw hw'
    obtain ⟨m, lam, std⟩ := f
    rcases std with _ | ⟨a, b, c, d⟩
    · exact this
    · have hb := (hf a b c d rfl).1
      rcases m with _ | _ <;> simp only [ptUnpre] <;> nlinarith

/-- **C23**, what does hold: `inverse_transform` is finite for every input except exactly at the
bound at which the formula has its pole.  Missing: that point. -/
theorem C23_total_partial (f : PTFit) (y : ℝ) (hu : (ptBounds f).2 ≠ some (ptUnpost f y))
    (hl : f.method = .yeojohnson → (ptBounds f).1 ≠ some (ptUnpost f y)) :
    ∃ x, ptInverse f [y] = [some x] := by
  rw [ptInverse_eq]
  suffices h : ∃ w, f.inv (boundCell f (ptUnpost f y)) = some w by
    obtain ⟨w, hw⟩ := h
    exact ⟨ptUnpre f w, by simp [invCell, hw]⟩
  set z := ptUnpost f y
  clear_value z
  obtain ⟨m, lam, std⟩ := f
  unfold boundCell
  unfold ptBounds at hu hl ⊢
  rcases m with _ | _
  · simp only [true_and, reduceCtorEq, false_and, if_false] at hu ⊢
    rcases lt_trichotomy lam 0 with h | h | h
    · rw [if_neg (by linarith), if_pos h] at hu ⊢
      simp only [ne_eq, Option.some.injEq] at hu ⊢
      apply inv_inRange
      simp only [PTFit.InRange]
      rw [abs_of_neg h] at hu ⊢
      split_ifs with h1
      · have : (0.95 : ℝ) * (1 / -lam) * lam + 1 = 0.05 := by
            rw [one_div, inv_neg, mul_assoc, neg_mul, inv_mul_cancel₀ ‹lam < 0›.ne]; norm_num
        rw [this]; norm_num
      · have h2 : z < 1 / -lam := lt_of_le_of_ne (not_lt.1 h1) (Ne.symm hu)
        rw [lt_div_iff₀ (by linarith)] at h2
        linarith
    · subst h; simp [PTFit.inv, invBoxcox]
    · rw [if_pos h]
      simp only
      rw [abs_of_pos h]
      split_ifs with h1
      · apply inv_inRange
        simp only [PTFit.InRange]
        have : (0.95 : ℝ) * (-1 / lam) * lam + 1 = 0.05 := by field_simp; norm_num
        rw [this]; norm_num
      · rw [not_lt, div_le_iff₀ h] at h1
        simp only [PTFit.inv, invBoxcox, if_neg h.ne', npPow]
        split_ifs with h2 h3
        · exact ⟨_, rfl⟩
        · exact ⟨_, rfl⟩
        · exact absurd ⟨by linarith [not_lt.1 h2], by positivity⟩ h3
  · have hl := hl rfl
    simp only [true_and, reduceCtorEq, false_and, if_false] at hu hl ⊢
    apply inv_inRange
    by_cases h2 : 2 < lam
    · rw [if_pos h2] at hl ⊢
      simp only [ne_eq, Option.some.injEq] at hl ⊢
      rw [abs_of_pos (by linarith)] at hl ⊢
      simp only [PTFit.InRange, yjInRange]
      have h3 : 0 < lam - 2 := by linarith
      split_ifs with h1
      · have e : (0.95 : ℝ) * (-1 / (lam - 2)) < 0 := by
          have : -1 / (lam - 2) < 0 := div_neg_of_neg_of_pos (by norm_num) h3
          linarith
        refine ⟨fun hc => absurd e (not_lt.2 hc), fun _ => ?_⟩
        have : -((0.95 : ℝ) * (-1 / (lam - 2))) * (2 - lam) + 1 = 0.05 := by
          have : lam - 2 ≠ 0 := h3.ne'
          field_simp; ring
        rw [this]; norm_num
      · have h4 : -1 / (lam - 2) < z := lt_of_le_of_ne (not_lt.1 h1) hl
        rw [div_lt_iff₀ h3] at h4
        refine ⟨fun hc => ?_, fun _ => ?_⟩ <;> nlinarith
    · rw [if_neg h2] at hu ⊢
      by_cases h0 : lam < 0
      · rw [if_pos h0] at hu ⊢
        simp only [ne_eq, Option.some.injEq] at hu ⊢
        rw [abs_of_neg h0] at hu ⊢
        simp only [PTFit.InRange, yjInRange]
        have h3 : 0 < -lam := by linarith
        split_ifs with h1
        · have e : 0 < (0.95 : ℝ) * (1 / -lam) := by positivity
          refine ⟨fun _ => ?_, fun hc => absurd e (not_lt.2 hc.le)⟩
          have : (0.95 : ℝ) * (1 / -lam) * lam + 1 = 0.05 := by
            rw [one_div, inv_neg, mul_assoc, neg_mul, inv_mul_cancel₀ ‹lam < 0›.ne]; norm_num
          rw [this]; norm_num
        · have h4 : z < 1 / -lam := lt_of_le_of_ne (not_lt.1 h1) (Ne.symm hu)
          rw [lt_div_iff₀ h3] at h4
          refine ⟨fun hc => ?_, fun _ => ?_⟩ <;> nlinarith
      · rw [if_neg h0]
        simp only [PTFit.InRange, yjInRange]
        rw [not_lt] at h0 h2
        refine ⟨fun hc => ?_, fun _ => ?_⟩ <;> nlinarith

example : (ptBounds ⟨.yeojohnson, -1, none⟩).2 ≠ some (ptUnpost ⟨.yeojohnson, -1, none⟩ 5) := by
  norm_num [ptBounds, ptUnpost]

/-! ## C24 -/

/-- Full statement of C24 for one environment: a second fit of an `auto` transformer gives the result
and state of a fresh one. -/
def C24_statement (env : PTEnv) : Prop :=
  ∀ A B, ptFit env (ptFit env ⟨.auto, none⟩ A).2 B = ptFit env ⟨.auto, none⟩ B

/-- **C24 is violated**: after a fit on data with a negative value the object never considers
Box-Cox again; and after a fit that chose Box-Cox, data with a negative value raises ValueError
although a fresh object falls back to Yeo-Johnson. -/
theorem C24_violated (f g : PTFit) (hfg : f ≠ g) :
    ∃ env : PTEnv, (∀ x, env.fitBC x = .ok f) ∧ (∀ x, env.fitYJ x = .ok g) ∧ ¬ C24_statement env ∧
      (ptFit env (ptFit env ⟨.auto, none⟩ [-1]).2 [1, 2] = (.ok (), ⟨.yeojohnson, some g⟩) ∧
        ptFit env ⟨.auto, none⟩ [1, 2] = (.ok (), ⟨.boxcox, some f⟩)) ∧
      ((ptFit env (ptFit env ⟨.auto, none⟩ [1, 2]).2 [-1]).1 = .error .valueError ∧
        (ptFit env ⟨.auto, none⟩ [-1]).1 = .ok ()) := by
  classical
  let env : PTEnv := ⟨fun _ => .ok f, fun _ => .ok g, fun _ k => if k = f then 0 else 1⟩
  have c1 : ∀ x, env.crit x f = 0 := fun x => by simp [env]
  have c2 : ∀ x, env.crit x g = 1 := fun x => by simp [env, Ne.symm hfg]
  have e1 : ptFit env ⟨.auto, none⟩ [1, 2] = (.ok (), ⟨.boxcox, some f⟩) := by
    have : getMethod .auto [1, 2] = .ok .auto := by simp [getMethod]
    unfold ptFit
    simp only [this]
    show (if env.crit [1,2] f < env.crit [1,2] g then _ else _) = _
    rw [c1, c2, if_pos one_pos]
  have e2 : ptFit env ⟨.auto, none⟩ [-1] = (.ok (), ⟨.yeojohnson, some g⟩) := by
    have : getMethod .auto [-1] = .ok .yeojohnson := by simp [getMethod]
    unfold ptFit
    simp only [this]
    rfl
  have e3 : ptFit env ⟨.yeojohnson, some g⟩ [1, 2] = (.ok (), ⟨.yeojohnson, some g⟩) := rfl
  have e4 : (ptFit env ⟨.boxcox, some f⟩ [-1]).1 = .error .valueError := by
    have : getMethod .boxcox [-1] = .error .valueError := by simp [getMethod]
    unfold ptFit
    simp only [this]
  refine ⟨env, fun _ => rfl, fun _ => rfl, ?_, ?_, ?_⟩
  · intro h
    have := h [-1] [1, 2]
    rw [e2, e1] at this
    change ptFit env ⟨.yeojohnson, some g⟩ [1, 2] = _ at this
    rw [e3] at this
    simp at this
  · rw [e2, e1]; exact ⟨e3, rfl⟩
  · rw [e1, e2]; exact ⟨e4, rfl⟩

example : (⟨.boxcox, 0, none⟩ : PTFit) ≠ ⟨.yeojohnson, 0, none⟩ := by simp

theorem ptFit_method_explicit (env : PTEnv) (st : PTState) (hm : st.method ≠ .auto) (x : List ℝ) :
    (ptFit env st x).2.method = st.method := by
  obtain ⟨m, fi⟩ := st
  unfold ptFit
  rcases m with _ | _ | _ | _
  · exact absurd rfl hm
  · unfold getMethod
    simp only
    split_ifs with h
    · rfl
    · simp only
      rcases env.fitBC (npSort x) <;> rfl
  · unfold getMethod
    simp only
    rcases env.fitYJ (npSort x) <;> rfl
  · rfl

/-- **C24**, what does hold: with an explicitly chosen method a successful fit gives the state of a
fresh object, after any history of fits.  Missing: `method='auto'`. -/
theorem C24_explicit_partial (env : PTEnv) (m : PTChoice) (hm : m ≠ .auto) (hist : List (List ℝ))
    (B : List ℝ) :
    (ptFit env (ptRun env ⟨m, none⟩ hist) B).1 = (ptFit env ⟨m, none⟩ B).1 ∧
    ((ptFit env ⟨m, none⟩ B).1 = .ok () →
      (ptFit env (ptRun env ⟨m, none⟩ hist) B).2 = (ptFit env ⟨m, none⟩ B).2) := by
  have hmeth : ∀ (hist : List (List ℝ)) (st : PTState), st.method = m → (ptRun env st hist).method = m := by
    intro hist
    induction hist with
    | nil => intro st h; exact h
    | cons x xs ih =>
      intro st h
      exact ih _ ((ptFit_method_explicit env st (by rw [h]; exact hm) x).trans h)
  have h := hmeth hist ⟨m, none⟩ rfl
  rcases hs : ptRun env ⟨m, none⟩ hist with ⟨m', fi⟩
  rw [hs] at h
  simp only at h
  subst h
  unfold ptFit
  rcases m' with _ | _ | _ | _
  · exact absurd rfl hm
  · unfold getMethod
    simp only
    split_ifs with h
    · simp
    · simp only
      rcases env.fitBC (npSort B) <;> simp
  · unfold getMethod
    simp only
    rcases env.fitYJ (npSort B) <;> simp
  · simp [getMethod]

/-! ## C25 -/

/-- Full statement of C25: whatever the optimiser finds inside the search range, both fits end with a
fitted lambda. -/
def C25_statement : Prop :=
  ∀ (opt : PTOpt) (mad : List ℝ → ℝ) (std : Bool) (range : ℝ × ℝ) (x : List ℝ),
    x ≠ [] → (∀ v ∈ x, 0 < v) → range.1 < range.2 →
    (∀ y r, r.1 ≤ r.2 → ∃ lam mu sd, opt y r = .ok (lam, mu, sd) ∧ r.1 ≤ lam ∧ lam ≤ r.2) →
    (∃ fuel f, fitBoxcox opt std range fuel x = some (.ok f)) ∧
    (∃ fuel f, fitYeojohnson opt mad std range fuel x = some (.ok f))

/-- **C25**, the exact outcome: with an optimiser that returns `lam`, the fit succeeds iff `lam` is
further than 5% of the range from both ends; otherwise it raises TypeError and nothing else.
Missing from the full statement: widening the range in the other case. -/
theorem C25_partial (opt : PTOpt) (mad : List ℝ → ℝ) (std : Bool) (range : ℝ × ℝ) (x : List ℝ)
    (lam mu sd : ℝ) (hopt : ∀ y, opt y range = .ok (lam, mu, sd)) (fuel : ℕ) (hfuel : 0 < fuel) :
    (ptConverged range lam →
      (∃ f, fitBoxcox opt std range fuel x = some (.ok f) ∧ f.lam = lam ∧ f.method = .boxcox) ∧
      (∃ f, fitYeojohnson opt mad std range fuel x = some (.ok f) ∧ f.lam = lam ∧ f.method = .yeojohnson)) ∧
    (¬ ptConverged range lam →
      fitBoxcox opt std range fuel x = some (.error .typeError) ∧
      fitYeojohnson opt mad std range fuel x = some (.error .typeError)) := by
  obtain ⟨n, rfl⟩ : ∃ n, fuel = n + 1 := ⟨fuel - 1, by omega⟩
  constructor
  · intro h
    constructor
    · refine ⟨⟨.boxcox, lam, if std then some (0, (npMedian x).getD 0, mu, sd) else none⟩, ?_, rfl, rfl⟩
      simp only [fitBoxcox, runLoop, fitBoxcoxStep, hopt, if_pos h]
    · refine ⟨⟨.yeojohnson, lam, if std then some ((npMedian x).getD 0, mad x, mu, sd) else none⟩, ?_, rfl, rfl⟩
      simp only [fitYeojohnson, runLoop, fitYeojohnsonStep, hopt, if_pos h]
  · intro h
    constructor
    · simp only [fitBoxcox, runLoop, fitBoxcoxStep, hopt, if_neg h]
    · simp only [fitYeojohnson, runLoop, fitYeojohnsonStep, hopt, if_neg h]

/-- **C25 is violated**: an optimum of 5.9 in the default range (-4, 6) raises TypeError. -/
theorem C25_violated : ¬ C25_statement := by
  intro h
  let opt : PTOpt := fun _ r => .ok ((r.1 + 99 * r.2) / 100, 0, 1)
  obtain ⟨⟨fuel, f, hf⟩, -⟩ := h opt (fun _ => 1) false (-4, 6) [1] (by simp) (by simp) (by norm_num) (by
    intro y r hr
    exact ⟨_, _, _, rfl, by linarith, by linarith⟩)
  rcases Nat.eq_zero_or_pos fuel with h0 | h0
  · subst h0; simp [fitBoxcox, runLoop] at hf
  · have := ((C25_partial opt (fun _ => 1) false (-4, 6) [1] 5.9 0 1 (by
      intro y; simp only [opt]; norm_num) fuel h0).2 (by
        norm_num [ptConverged, abs_of_neg, abs_of_pos])).1
    rw [this] at hf
    simp at hf

/-- The default range with an optimum of 1: the fit succeeds. -/
example : ptConverged (-4, 6) 1 := by
  norm_num [ptConverged, abs_of_neg, abs_of_pos]

/-! ## C73 -/

/-- Full statement of C73: without standardisation, an integer array is transformed like the float
array with the same values. -/
def C73_statement : Prop :=
  ∀ (lam : ℝ) (X : List ℤ), (yeojohnsonInt lam X).map (fun i : ℤ => (i : ℝ)) = X.map fun i => yeojohnson lam i

/-- **C73 is violated**: lambda 2 sends 1 to 1.5 but the integer array holds 1. -/
theorem C73_violated : ¬ C73_statement := by
  intro h
  have h1 := h 2 [1]
  have e : yeojohnson 2 1 = 3 / 2 := by norm_num [yeojohnson]
  have e2 : truncInt (3 / 2) = 1 := by
    unfold truncInt
    rw [if_pos (by norm_num), Int.floor_eq_iff]
    norm_num
  norm_num [yeojohnsonInt, e, e2] at h1

/-- **C73**, what does hold: each cell is off by less than one, and integer-valued results are exact.
Missing: the fractional part is lost. -/
theorem C73_partial (lam : ℝ) (x : ℤ) :
    |(truncInt (yeojohnson lam x) : ℝ) - yeojohnson lam x| < 1 ∧
    (∀ k : ℤ, yeojohnson lam x = k → truncInt (yeojohnson lam x) = k) := by
  set y := yeojohnson lam x
  clear_value y
  unfold truncInt
  constructor
  · split_ifs with h
    · have h1 := Int.floor_le y
      have h2 := Int.lt_floor_add_one y
      rw [abs_lt]; constructor <;> linarith
    · have h1 := Int.le_ceil y
      have h2 := Int.ceil_lt_add_one y
      rw [abs_lt]; constructor <;> linarith
  · intro k hk
    subst hk
    split_ifs <;> simp

end Robpy
