import Verif.Props.DataCleaner
import Verif.Props.PowerTransform
import Verif.Props.TauOneStep
import Mathlib.Data.Finset.Dedup

/-! # Properties C74, C75 and the corrected scale of C07 -/

namespace Spec
open Robpy

variable {K : Type} [Field K] [LinearOrder K]

/-- Every cell is a number, an infinity or missing. -/
def Numeric (cells : List (Cell K)) : Prop := ∀ v ∈ cells, ∀ t, v ≠ .text t

/-- The number of different values in a list of cells, missing values not counted. -/
def distinctValues (cells : List (Cell K)) : ℕ := (cells.toFinset.erase .missing).card

/-- The cells are the numbers 0, 1, 2, ... in this order. -/
def IsRowNumbers (cells : List (Cell K)) : Prop :=
  ∀ (i : ℕ) (v : Cell K), cells[i]? = some v → v = .num (i : K)

/-- The numbers among the cells. -/
def numbers (cells : List (Cell K)) : List K :=
  cells.filterMap fun v => match v with | .num x => some x | _ => none

end Spec

namespace Robpy

section
variable {R C K : Type} [DecidableEq R] [DecidableEq C] [Field K] [LinearOrder K]

omit [DecidableEq R] [DecidableEq C] [Field K] in
theorem mem_nonNumericCols [Field K] (X : Frame R C K) (c : C) :
    c ∈ nonNumericCols X ↔ c ∈ X.cols ∧ ¬ Spec.Numeric (X.column c) := by
  unfold nonNumericCols Spec.Numeric
  rw [List.mem_filter, List.any_eq_true]
  refine and_congr_right fun _ => ?_
  push Not
  refine exists_congr fun v => and_congr_right fun _ => ?_
  rcases v with _ | _ | _ | t <;> simp

omit [Field K] in
theorem nunique_eq [Field K] (cells : List (Cell K)) : nunique cells = Spec.distinctValues cells := by
  unfold nunique Spec.distinctValues
  have h : cells.toFinset.erase .missing = (cells.filter fun v => v ≠ .missing).toFinset := by
    ext v; simp [and_comm]
  rw [h, List.card_toFinset]

theorem mem_rowNumberCols (X : Frame R C K) (c : C) :
    c ∈ rowNumberCols X ↔ c ∈ X.cols ∧ Spec.IsRowNumbers (X.column c) := by
  unfold rowNumberCols Spec.IsRowNumbers
  rw [List.mem_filter, List.all_eq_true]
  refine and_congr_right fun _ => ?_
  simp only [Frame.column, List.getElem?_map, Option.map_eq_some_iff, decide_eq_true_eq]
  constructor
  · rintro h i v ⟨r, hr, rfl⟩
    exact h (r, i) (List.mem_zipIdx_iff_getElem?.2 hr)
  · rintro h ⟨r, i⟩ hm
    exact h i _ ⟨r, List.mem_zipIdx_iff_getElem?.1 hm, rfl⟩

theorem mem_badScaleCols (cfg : CleanerConfig K) (X : Frame R C K) (c : C) (hc : c ∈ X.cols)
    (h1 : Spec.Numeric (X.column c)) (h2 : cfg.minUniqueValues < Spec.distinctValues (X.column c)) :
    c ∈ badScaleCols cfg X ↔ ∃ m, madRaw (Spec.numbers (X.column c)) = some m ∧ m ≤ cfg.minAbsScale := by
  unfold badScaleCols
  have hn : c ∉ nonNumericCols X ++ discreteCols cfg X := by
    rw [List.mem_append, mem_nonNumericCols, discreteCols, List.mem_filter, nunique_eq]
    rintro (⟨-, h⟩ | ⟨-, h⟩)
    · exact h h1
    · exact absurd (of_decide_eq_true h) (not_le.2 h2)
  rw [List.mem_filter, List.mem_filter]
  have e : finiteValues (X.column c) = Spec.numbers (X.column c) := rfl
  rw [e]
  rcases hm : madRaw (Spec.numbers (X.column c)) with _ | m
  · simp
  · simp [hc, hn]

/-- **C74**: a fresh cleaner, fitted and applied to the same frame, keeps exactly those columns that are
numeric, have more than `min_unique_values` different values, a MAD of the finite values that is not
`≤ min_abs_scale`, do not consist of the row numbers and are not reported for missing values. -/
theorem C74_kept_columns (cfg : CleanerConfig K) (na : NaFirst) (X Y : Frame R C K) (st' : CleanerState R C)
    (h : cleanerTransform cfg (cleanerFit cfg (CleanerState.new na) X) X = .ok (st', Y)) :
    ∃ cm, st'.colsMissings = some cm ∧ ∀ c, c ∈ Y.cols ↔ c ∈ X.cols ∧
      Spec.Numeric (X.column c) ∧ cfg.minUniqueValues < Spec.distinctValues (X.column c) ∧
      (∀ m, madRaw (Spec.numbers (X.column c)) = some m → cfg.minAbsScale < m) ∧
      ¬ Spec.IsRowNumbers (X.replaceInf.column c) ∧ c ∉ cm := by
  obtain ⟨f, cm, rm, h1, h2, h3, h4, h5, h6, h7, -⟩ := transform_ok h
  have hf : f = ⟨nonNumericCols X, discreteCols cfg X, badScaleCols cfg X⟩ := by
    have : some (⟨nonNumericCols X, discreteCols cfg X, badScaleCols cfg X⟩ : CleanerFit C) = some f := h1
    exact (Option.some.inj this).symm
  refine ⟨cm, h4, fun c => ?_⟩
  rw [h7, List.mem_filter, hf]
  refine and_congr_right fun hc => ?_
  simp only [List.mem_append, not_or, decide_eq_true_eq]
  rw [mem_nonNumericCols, mem_rowNumberCols, discreteCols, List.mem_filter, nunique_eq]
  have hc' : c ∈ X.replaceInf.cols := hc
  simp only [hc, hc', true_and, not_not, decide_eq_true_eq, not_le]
  constructor
  · rintro ⟨⟨⟨⟨a, b⟩, d⟩, e⟩, g⟩
    rw [mem_badScaleCols cfg X c hc a b] at d
    push Not at d
    exact ⟨a, b, d, e, g⟩
  · rintro ⟨a, b, d, e, g⟩
    refine ⟨⟨⟨⟨a, b⟩, ?_⟩, e⟩, g⟩
    rw [mem_badScaleCols cfg X c hc a b]
    push Not
    exact d

end

/-- The hypotheses of `C74_kept_columns` are met by `frameA`, and the kept columns are not all columns. -/
example : (match cleanerTransform cfgA (cleanerFit cfgA (CleanerState.new .automatic) frameA) frameA with
    | .ok (_, Y) => decide (Y.cols = [0, 4])
    | .error _ => false) = true := by decide +kernel

/-! ## C75 -/

theorem getMethod_ok {m0 m : PTChoice} {x : List ℝ} (hm : getMethod m0 x = .ok m) :
    (m = .boxcox ∨ m = .auto → ¬ (x = [] ∨ ∃ v ∈ x, v ≤ 0)) ∧ m ≠ .other := by
  unfold getMethod at hm
  rcases m0 with _ | _ | _ | _
  · by_cases h1 : x = []
    · simp [h1] at hm
    · by_cases h2 : ∃ v ∈ x, v ≤ 0
      · simp only [if_neg h1, if_pos h2, Except.ok.injEq] at hm
        subst hm
        simp
      · simp only [if_neg h1, if_neg h2, Except.ok.injEq] at hm
        subst hm
        exact ⟨fun _ => not_or.2 ⟨h1, h2⟩, by simp⟩
  · by_cases h1 : x = [] ∨ ∃ v ∈ x, v ≤ 0
    · simp only [if_pos h1] at hm
      simp at hm
    · simp only [if_neg h1, Except.ok.injEq] at hm
      subst hm
      exact ⟨fun _ => h1, by simp⟩
  · simp only [Except.ok.injEq] at hm
    subst hm
    simp
  · simp at hm

/-- **C75**: whenever `fit` succeeds - on a fresh or an already fitted transformer, for every `method` - the
data it was fitted on can be transformed without an exception.  The two fitting routines are only
assumed to label their result with their own family. -/
theorem C75_fit_then_transform (env : PTEnv) (hBC : ∀ x f, env.fitBC x = .ok f → f.method = .boxcox)
    (hYJ : ∀ x f, env.fitYJ x = .ok f → f.method = .yeojohnson) (st st' : PTState) (x : List ℝ)
    (h : ptFit env st x = (.ok (), st')) :
    ∃ f y, st'.fitted = some f ∧ ptTransform f x = .ok y ∧ y.length = x.length := by
  have yj : ∀ f : PTFit, f.method = .yeojohnson → ∃ y, ptTransform f x = .ok y ∧ y.length = x.length := by
    intro f hf
    unfold ptTransform
    rw [hf]
    exact ⟨_, rfl, by simp⟩
  have bc : ∀ f : PTFit, f.method = .boxcox → ¬ (x = [] ∨ ∃ v ∈ x, v ≤ 0) →
      ∃ y, ptTransform f x = .ok y ∧ y.length = x.length := by
    intro f hf hx
    unfold ptTransform
    rw [hf]
    simp only [if_neg hx]
    exact ⟨_, rfl, by simp⟩
  unfold ptFit at h
  rcases hm : getMethod st.method x with e | m
  · rw [hm] at h; simp at h
  rw [hm] at h
  obtain ⟨pos, hoth⟩ := getMethod_ok hm
  rcases m with _ | _ | _ | _
  · simp only at h
    rcases h1 : env.fitBC (npSort x) with e | f
    · rw [h1] at h; simp at h
    rcases h2 : env.fitYJ (npSort x) with e | g
    · rw [h1, h2] at h; simp at h
    rw [h1, h2] at h
    simp only at h
    split_ifs at h
    · obtain ⟨y, hy⟩ := bc f (hBC _ _ h1) (pos (Or.inr rfl))
      exact ⟨f, y, by rw [← (Prod.mk.inj h).2], hy⟩
    · obtain ⟨y, hy⟩ := yj g (hYJ _ _ h2)
      exact ⟨g, y, by rw [← (Prod.mk.inj h).2], hy⟩
  · simp only at h
    rcases h1 : env.fitBC (npSort x) with e | f
    · rw [h1] at h; simp at h
    rw [h1] at h
    obtain ⟨y, hy⟩ := bc f (hBC _ _ h1) (pos (Or.inl rfl))
    exact ⟨f, y, by rw [← (Prod.mk.inj h).2], hy⟩
  · simp only at h
    rcases h1 : env.fitYJ (npSort x) with e | f
    · rw [h1] at h; simp at h
    rw [h1] at h
    obtain ⟨y, hy⟩ := yj f (hYJ _ _ h1)
    exact ⟨f, y, by rw [← (Prod.mk.inj h).2], hy⟩
  · exact absurd rfl hoth

/-- The hypotheses of `C75_fit_then_transform` are met: `auto` on data with a zero. -/
example : ∃ st', ptFit ⟨fun _ => .ok ⟨.boxcox, 1, none⟩, fun _ => .ok ⟨.yeojohnson, 1, none⟩, fun _ _ => 0⟩
    ⟨.auto, none⟩ [0, 1, 2] = (.ok (), st') := by
  refine ⟨⟨.yeojohnson, some ⟨.yeojohnson, 1, none⟩⟩, ?_⟩
  have : getMethod .auto [0, 1, 2] = .ok .yeojohnson := by
    unfold getMethod
    simp
  unfold ptFit
  simp only
  rw [this]

/-! ## C07 with consistency correction -/

/-- **C07**: the consistency correction only divides the scale by a positive constant: same location,
and the scale lies between 0 and `c2 * MAD / sqrt(corr)`. -/
theorem C07_corrected (c1 c2 c : ℝ) (hc2 : 0 < c2) (hc : 0 < c) (X : List ℝ) (s : ℝ)
    (hs : madRaw X = some s) :
    ∃ loc scale, tauCalculate c1 c2 none X = .ok (loc, scale) ∧
      tauCalculate c1 c2 (some c) X = .ok (loc, scale / Real.sqrt c) ∧
      0 ≤ scale / Real.sqrt c ∧ scale / Real.sqrt c ≤ c2 * s / Real.sqrt c := by
  obtain ⟨loc, scale, h, h0, h1⟩ := C07_scale_bound c1 c2 hc2 X s hs
  have hsq : 0 < Real.sqrt c := Real.sqrt_pos.2 hc
  refine ⟨loc, scale, h, ?_, div_nonneg h0 hsq.le, by gcongr⟩
  unfold tauCalculate at h ⊢
  rw [hs] at h ⊢
  simp only [tauCorrect, Except.ok.injEq, Prod.mk.injEq] at h ⊢
  exact ⟨h.1, by rw [h.2]⟩

example : madRaw ([1, 2, 4] : List ℚ) = some 1 := by decide +kernel

end Robpy
