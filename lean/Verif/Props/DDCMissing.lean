import Verif.Props.DDC
import Verif.Lemmas.Select

/-! Properties C110, C111, C114: `DDC.fit` on data with missing cells, `fit` that raises, the check on the number
of distinct values. -/

namespace Robpy

/-- What the theorems below use of numpy's NaN: an operation with a NaN operand gives NaN, comparisons with
NaN are false, `np.nanmean` of NaNs only is NaN, `np.corrcoef` of at most one row is NaN, least squares on
numbers gives a number, and `CellwiseOneStepM().fit` raises ValueError when the sample contains a NaN
(base.py 31-32, onestep_m.py 45-46). -/
structure NanLaws {F : Type} (env : DDCEnv F) : Prop where
  nan : env.isNaN env.nan = true
  zero : env.isNaN env.zero = false
  add : ∀ a b, env.isNaN a = true ∨ env.isNaN b = true → env.isNaN (env.add a b) = true
  sub : ∀ a b, env.isNaN a = true ∨ env.isNaN b = true → env.isNaN (env.sub a b) = true
  mul : ∀ a b, env.isNaN a = true ∨ env.isNaN b = true → env.isNaN (env.mul a b) = true
  div : ∀ a b, env.isNaN a = true ∨ env.isNaN b = true → env.isNaN (env.div a b) = true
  abs : ∀ a, env.isNaN a = true → env.isNaN (env.abs a) = true
  lt : ∀ a b, env.isNaN a = true → env.lt a b = false
  eqb : ∀ a b, env.isNaN a = true → env.eqb a b = false
  chi2cdf : ∀ a, env.isNaN a = true → env.isNaN (env.chi2cdf a) = true
  nanmean : ∀ l, (∀ x ∈ l, env.isNaN x = true) → env.isNaN (env.nanmean l) = true
  corrcoef : ∀ l, l.length ≤ 1 → env.isNaN (env.corrcoef l) = true
  lstsq : ∀ l, (∀ q ∈ l, env.isNaN q.1 = false ∧ env.isNaN q.2 = false) → env.isNaN (env.lstsq l) = false
  osm : ∀ l, (∃ x ∈ l, env.isNaN x = true) → env.osm l = .error .valueError

theorem liftNaN_none (f : ℝ → ℝ → ℝ) (a b : Option ℝ) (h : a.isNone = true ∨ b.isNone = true) :
    (liftNaN f a b).isNone = true := by
  cases a <;> cases b <;> simp_all [liftNaN]

theorem realEnv_nanLaws (round3 cdf : ℝ → ℝ) (est) : NanLaws (realEnv round3 cdf est) where
  nan := rfl
  zero := rfl
  add := fun a b h => liftNaN_none _ a b h
  sub := fun a b h => liftNaN_none _ a b h
  mul := fun a b h => liftNaN_none _ a b h
  div := by
    intro a b h
    simp only [realEnv]
    split
    · rfl
    · exact liftNaN_none _ a b h
  abs := by intro a h; simp only [realEnv, Option.isNone_iff_eq_none] at h ⊢; subst h; rfl
  lt := by intro a b h; simp only [realEnv, Option.isNone_iff_eq_none] at h ⊢; subst h; rfl
  eqb := by intro a b h; simp only [realEnv, Option.isNone_iff_eq_none] at h ⊢; subst h; rfl
  chi2cdf := by intro a h; simp only [realEnv, Option.isNone_iff_eq_none] at h ⊢; subst h; rfl
  nanmean := by
    intro l h
    simp only [realEnv, Option.isNone_iff_eq_none] at h ⊢
    rw [if_pos]
    rw [List.isEmpty_iff, List.filterMap_eq_nil_iff]
    exact h
  corrcoef := by
    intro l h
    simp only [realEnv, Option.isNone_iff_eq_none]
    unfold pearson
    rw [if_pos]
    left
    have hl : (somePairs l).length ≤ 1 := le_trans (List.length_filterMap_le _ _) h
    rcases hs : somePairs l with _ | ⟨a, _ | ⟨b, t⟩⟩
    · simp [centredSum]
    · simp [centredSum, mean]
    · rw [hs] at hl; simp at hl
  lstsq := by intro l _; rfl
  osm := by
    intro l ⟨x, hx, h⟩
    simp only [realEnv] at h ⊢
    unfold cellwiseOSM oneStepM
    rw [if_pos (List.any_eq_true.2 ⟨x, hx, h⟩)]

section
variable {F : Type} {env : DDCEnv F} [DecidableEq F]

/-- **C110** A data set with a row in which every cell is missing (NaN or infinite) cannot be fitted: `fit`
never returns, whatever the other cells, the configuration and the scale estimator. -/
theorem C110_missing_row (L : NanLaws env) (cfg : DDCConfig F) (v : Bool) (st : DDCState F) (X : CellFrame F) (k : ℕ)
    (hk : k < X.n) (hrow : ∀ i < X.p, env.isNaN (X.cell k i) = true ∨ env.isInf (X.cell k i) = true) :
    (ddcFit env cfg v st X).1 ≠ .ok () := by
  intro h
  obtain ⟨-, ls, ss, corr, slopes, d, rs, t, T⟩ := ddcFit_ok (st' := (ddcFit env cfg v st X).2) (Prod.ext h rfl)
  have hz : ∀ i < X.p, env.isNaN (zCells env ls ss X k i) = true := by
    intro i hi
    refine L.div _ _ (.inl (L.sub _ _ (.inl ?_)))
    simp only [replaceInf]
    rcases hrow i hi with h | h
    · split
      · exact L.nan
      · exact h
    · rw [if_pos h]; exact L.nan
  have ht := T.ht
  rw [L.osm] at ht
  · cases ht
  · refine ⟨_, List.mem_map.2 ⟨k, List.mem_range.2 hk, rfl⟩, L.nanmean _ ?_⟩
    intro x hx
    obtain ⟨i, hi, rfl⟩ := List.mem_map.1 hx
    exact L.chi2cdf _ (L.mul _ _ (.inl (L.div _ _ (.inl (L.sub _ _ (.inl (hz i (List.mem_range.1 hi))))))))

omit [DecidableEq F] in
theorem foldl_add_nan (L : NanLaws env) (l : List F) (a : F)
    (h : env.isNaN a = true ∨ ∃ x ∈ l, env.isNaN x = true) : env.isNaN (l.foldl env.add a) = true := by
  induction l generalizing a with
  | nil => simpa using h
  | cons x l ih =>
    rw [List.foldl_cons]
    apply ih
    rcases h with h | ⟨y, hy, hn⟩
    · exact .inl (L.add _ _ (.inl h))
    · rcases List.mem_cons.1 hy with rfl | hy
      · exact .inl (L.add _ _ (.inr hn))
      · exact .inr ⟨y, hy, hn⟩

omit [DecidableEq F] in
/-- A NaN correlation with a variable whose slope was computed makes the predictions NaN in every row. -/
theorem predictCell_nan (L : NanLaws env) {p : ℕ} {corr slopes : ℕ → ℕ → F} {row : ℕ → F} {i j : ℕ} (hj : j < p)
    (hc : env.isNaN (corr j i) = true) (hs : env.isNaN (slopes j i) = false) :
    env.isNaN (predictCell env p corr slopes row i) = true := by
  have hw : env.isNaN (predWeight env corr row i j) = true :=
    L.mul _ _ (.inl (L.mul _ _ (.inl (L.mul _ _ (.inl (L.abs _ hc))))))
  have hsum : env.isNaN (predWeightSum env p corr row i) = true :=
    foldl_add_nan L _ _ (.inr ⟨_, List.mem_map.2 ⟨j, List.mem_range.2 hj, rfl⟩, hw⟩)
  unfold predictCell
  simp only [L.eqb _ _ hsum, Bool.false_eq_true, if_false]
  have gen : ∀ (l : List ℕ) (a : F), (env.isNaN a = true ∨ j ∈ l) →
      env.isNaN (l.foldl (fun acc j =>
      if env.isNaN (slopes j i) then acc
      else env.add acc (env.mul (env.mul (env.div (predWeight env corr row i j) (predWeightSum env p corr row i))
        (slopes j i)) (if env.isNaN (row j) then env.zero else row j))) a) = true := by
    intro l
    induction l with
    | nil => intro a h; simpa using h
    | cons x l ih =>
      intro a h
      rw [List.foldl_cons]
      apply ih
      rcases h with h | h
      · left; split
        · exact h
        · exact L.add _ _ (.inl h)
      · rcases List.mem_cons.1 h with rfl | h
        · left
          simp only [hs, Bool.false_eq_true, if_false]
          exact L.add _ _ (.inr (L.mul _ _ (.inl (L.mul _ _ (.inl (L.div _ _ (.inr hsum)))))))
        · exact .inr h
  exact gen _ _ (.inr (List.mem_range.2 hj))

omit [DecidableEq F] in
theorem mem_commonRows {n : ℕ} {U : ℕ → ℕ → F} {i j : ℕ} {q : F × F} :
    q ∈ commonRows env n U i j ↔ ∃ k < n, q = (U k i, U k j) ∧ env.isNaN (U k i) = false ∧ env.isNaN (U k j) = false := by
  unfold commonRows
  simp only [List.mem_filter, List.mem_map, List.mem_range, DDCEnv.ok, Bool.and_eq_true, Bool.not_eq_true']
  constructor
  · rintro ⟨⟨k, hk, rfl⟩, h1, h2⟩; exact ⟨k, hk, rfl, h1, h2⟩
  · rintro ⟨k, hk, rfl, h1, h2⟩; exact ⟨⟨k, hk, rfl⟩, h1, h2⟩

omit [DecidableEq F] in
theorem commonRows_length_symm (n : ℕ) (U : ℕ → ℕ → F) (i j : ℕ) :
    (commonRows env n U i j).length = (commonRows env n U j i).length := by
  unfold commonRows
  rw [← List.countP_eq_length_filter, ← List.countP_eq_length_filter, List.countP_map, List.countP_map]
  apply List.countP_congr
  intro k _
  simp [and_comm]

omit [DecidableEq F] in
theorem robustSlope_not_nan (L : NanLaws env) {cutoff s : F} {xy : List (F × F)}
    (hxy : ∀ q ∈ xy, env.isNaN q.1 = false ∧ env.isNaN q.2 = false) (h : robustSlope env cutoff xy = .ok s) :
    env.isNaN s = false := by
  unfold robustSlope at h
  split at h
  · obtain rfl := Except.ok.inj h; exact L.zero
  · simp only at h
    rcases ho : env.osm (xy.map fun q : F × F => env.sub q.2 (env.mul (env.median
      ((xy.filter fun q => !env.eqb q.1 env.zero).map fun q => env.div q.2 q.1)) q.1)) with e | q
    · rw [ho] at h; cases h
    · rw [ho] at h
      obtain rfl := Except.ok.inj h
      exact L.lstsq _ fun q hq => hxy q (List.mem_filter.1 hq).1

omit [DecidableEq F] in
theorem robustSlope_nan (L : NanLaws env) {cutoff : F} {xy : List (F × F)} {q : F × F} (hq : q ∈ xy)
    (hn : env.isNaN q.1 = true) : robustSlope env cutoff xy = .error .valueError := by
  unfold robustSlope
  rw [if_neg]
  · simp only
    rw [L.osm _ ⟨_, List.mem_map.2 ⟨q, hq, rfl⟩, L.sub _ _ (.inr (L.mul _ _ (.inr hn)))⟩]
    rfl
  · rw [List.all_eq_true]
    intro hall
    have := hall _ hq
    rw [L.eqb _ _ hn] at this
    cases this

/-- **C110** A data set in which two variables have exactly one row with both cells usable - neither
missing nor further than the cutoff from the centre of their column - cannot be fitted either: the
correlation of that pair is NaN, the predictions of the whole column become NaN, and `fit` never
returns.  (`ls`, `ss`: the locations and scales of the columns.) -/
theorem C110_single_common_row (L : NanLaws env) (cfg : DDCConfig F) (v : Bool) (st : DDCState F) (X : CellFrame F)
    (ls ss : List F) (hs : fitScaler env (replaceInf env X) (List.range X.p) [] [] = (.ok (), ls, ss))
    (i j : ℕ) (hi : i < X.p) (hj : j < X.p) (hij : i ≠ j)
    (h1 : (commonRows env X.n (fun k i => univariateFlag env cfg.cutoff (zCells env ls ss X k i)) i j).length = 1) :
    (ddcFit env cfg v st X).1 ≠ .ok () := by
  intro h
  obtain ⟨-, ls', ss', corr, slopes, d, rs, t, T⟩ := ddcFit_ok (st' := (ddcFit env cfg v st X).2) (Prod.ext h rfl)
  obtain ⟨rfl, rfl⟩ : ls = ls' ∧ ss = ss' := by
    have := T.scaler; rw [hs] at this; simpa using this
  set U := fun k i => univariateFlag env cfg.cutoff (zCells env ls ss X k i) with hU
  -- the correlation
  have hcorr : env.isNaN (corr j i) = true := by
    have h0 := T.hcorr
    rw [← hU] at h0
    unfold robustCorrelation at h0
    split at h0
    · cases h0
    have h2 := tabulate2_ok h0 j hj i hi
    rw [if_neg (Ne.symm hij)] at h2
    have hlen : (commonRows env X.n U (min j i) (max j i)).length = 1 := by
      rcases le_total j i with hle | hle
      · rw [min_eq_left hle, max_eq_right hle, commonRows_length_symm]; exact h1
      · rw [min_eq_right hle, max_eq_left hle]; exact h1
    unfold pairCorr at h2
    have hne : (commonRows env X.n U (min j i) (max j i)).isEmpty = false := by
      cases hc : commonRows env X.n U (min j i) (max j i) with
      | nil => rw [hc] at hlen; simp at hlen
      | cons a l => rfl
    simp only [hne, Bool.false_eq_true, if_false] at h2
    rcases hsp : env.osm ((commonRows env X.n U (min j i) (max j i)).map fun q => env.add q.1 q.2) with e | sp
    · rw [hsp] at h2; cases h2
    rw [hsp] at h2
    rcases hsm : env.osm ((commonRows env X.n U (min j i) (max j i)).map fun q => env.sub q.1 q.2) with e | sm
    · rw [hsm] at h2; cases h2
    rw [hsm] at h2
    rw [← Except.ok.inj h2]
    exact L.corrcoef _ (le_trans (List.length_filter_le _ _) hlen.le)
  -- the slope
  have hslope : env.isNaN (slopes j i) = false := by
    have h2 := tabulate2_ok T.hslopes j hj i hi
    rw [if_neg (Ne.symm hij), L.lt _ _ (L.abs _ hcorr)] at h2
    refine robustSlope_not_nan L ?_ h2
    intro q hq
    obtain ⟨k, -, rfl, h3, h4⟩ := mem_commonRows.1 hq
    exact ⟨h3, h4⟩
  -- deshrinkage
  have hd := tabulate_ok T.hd i hi
  obtain ⟨q, hq⟩ : ∃ q, q ∈ commonRows env X.n U i j := by
    cases hc : commonRows env X.n U i j with
    | nil => rw [hc] at h1; simp at h1
    | cons a l => exact ⟨a, List.mem_cons_self⟩
  obtain ⟨k, hk, -, hki, -⟩ := mem_commonRows.1 hq
  have hz : env.ok (zCells env ls ss X k i) = true := by
    simp only [hU, univariateFlag] at hki
    split at hki
    · rw [L.nan] at hki; cases hki
    · simp [DDCEnv.ok, hki]
  have hmem : (predictedValues env X.p corr slopes U k i, zCells env ls ss X k i) ∈
      ((List.range X.n).filter fun k => env.ok (zCells env ls ss X k i)).map fun k =>
        (predictedValues env X.p corr slopes U k i, zCells env ls ss X k i) :=
    List.mem_map.2 ⟨k, List.mem_filter.2 ⟨List.mem_range.2 hk, hz⟩, rfl⟩
  have hnan : env.isNaN (predictedValues env X.p corr slopes U k i) = true := predictCell_nan L hj hcorr hslope
  rw [robustSlope_nan L hmem hnan] at hd
  cases hd

end
end Robpy
