import Verif.Props.DDCReal

/-! Properties C67, C115, C116: what the predictions of `DDC` are made of. -/

namespace Robpy

namespace Spec

/-- A cell in units of its column: NaN if the cell is missing, its column has scale 0 or the value is
further than the cutoff from the centre. -/
noncomputable def usable (cut : ℝ) (x l s : Option ℝ) : Option ℝ :=
  match x, l, s with
  | some x, some l, some s => if s = 0 ∨ cut < |(x - l) / s| then none else some ((x - l) / s)
  | _, _, _ => none

/-- The average of the slope predictions `b j * u j`, weighted with the absolute correlations, over the other
variables that are usable in this row and whose absolute correlation is at least `m` (0 if there is none). -/
noncomputable def weightedAverage (p : ℕ) (m : ℝ) (c b : ℕ → ℝ) (u : ℕ → Option ℝ) (i : ℕ) : ℝ := by
  classical exact
  (∑ j ∈ (Finset.range p).filter (fun j => j ≠ i ∧ m ≤ |c j| ∧ u j ≠ none), |c j| * (b j * (u j).getD 0)) /
    ∑ j ∈ (Finset.range p).filter (fun j => j ≠ i ∧ m ≤ |c j| ∧ u j ≠ none), |c j|

end Spec

section
variable {round3 cdf : ℝ → ℝ} {est : List (Option ℝ) → Except PyErr (Option ℝ × Option ℝ)}

theorem zCells_real (ls ss : List (Option ℝ)) (X : CellFrame (Option ℝ)) (k i : ℕ) :
    zCells (realEnv round3 cdf est) ls ss X k i =
      (realEnv round3 cdf est).div (liftNaN (· - ·) (X.cell k i) (ls.getD i none)) (ss.getD i none) := rfl

theorem usable_eq (cut : ℝ) (ls ss : List (Option ℝ)) (X : CellFrame (Option ℝ)) (k i : ℕ) :
    univariateFlag (realEnv round3 cdf est) (some cut) (zCells (realEnv round3 cdf est) ls ss X k i) =
      Spec.usable cut (X.cell k i) (ls.getD i none) (ss.getD i none) := by
  classical
  rw [zCells_real]
  unfold univariateFlag Spec.usable
  rcases X.cell k i with _ | x
  · simp [realEnv, liftNaN, liftRel]
  rcases ls.getD i none with _ | l
  · simp [realEnv, liftNaN, liftRel]
  rcases ss.getD i none with _ | s
  · simp [realEnv, liftNaN, liftRel]
  by_cases hs : s = 0
  · simp [realEnv, liftNaN, liftRel, hs]
  · simp [realEnv, liftNaN, liftRel, hs]

/-- The full statement of **C67**: after a `fit` with `min_correlation = m`, the prediction of every cell is
the weighted average of the slope predictions of exactly the variables whose absolute correlation is at
least `m` (correlations, slopes and predictions as reported by the object; NaN correlations are excluded
from the claim). -/
def C67_statement : Prop :=
  ∀ (round3 cdf : ℝ → ℝ) (est : List (Option ℝ) → Except PyErr (Option ℝ × Option ℝ)) (cut m : ℝ)
    (st₀ st : DDCState (Option ℝ)) (X : CellFrame (Option ℝ)),
    ddcFit (realEnv round3 cdf est) ⟨some cut, some m⟩ false st₀ X = (.ok (), st) →
    ∀ ls ss corr slopes raw, st.location = some ls → st.scale = some ss → st.corr = some corr →
      st.slopes = some slopes → st.rawPred = some raw →
    ∀ k < X.n, ∀ i < X.p, ∀ c : ℕ → ℝ, (∀ j < X.p, corr j i = some (c j)) →
      raw k i = some (Spec.weightedAverage X.p m c (fun j => (slopes j i).getD 0)
        (fun j => Spec.usable cut (X.cell k j) (ls.getD j none) (ss.getD j none)) i)

/-- **C67**, what the code computes for any `min_correlation = m`: the slope predictions of the variables with
absolute correlation at least `max m 0.5`, weighted with the absolute correlations, but divided by the sum of
the absolute correlations of all variables with absolute correlation at least 0.5. -/
theorem C67_computed {cut m : ℝ} {v : Bool} {st₀ st : DDCState (Option ℝ)} {X : CellFrame (Option ℝ)}
    (h : ddcFit (realEnv round3 cdf est) ⟨some cut, some m⟩ v st₀ X = (.ok (), st))
    {ls ss : List (Option ℝ)} {corr slopes raw : ℕ → ℕ → Option ℝ} (hls : st.location = some ls)
    (hss : st.scale = some ss) (hcorr : st.corr = some corr) (hslopes : st.slopes = some slopes)
    (hraw : st.rawPred = some raw) (k i : ℕ) (hi : i < X.p) (c : ℕ → ℝ)
    (hc : ∀ j < X.p, corr j i = some (c j)) (u : ℕ → Option ℝ)
    (hu : u = fun j => Spec.usable cut (X.cell k j) (ls.getD j none) (ss.getD j none)) :
    raw k i = some ((∑ j ∈ (Finset.range X.p).filter (fun j => j ≠ i ∧ max m (1 / 2) ≤ |c j| ∧ u j ≠ none),
        |c j| * ((slopes j i).getD 0 * (u j).getD 0)) /
      ∑ j ∈ (Finset.range X.p).filter (fun j => j ≠ i ∧ 1 / 2 ≤ |c j| ∧ u j ≠ none), |c j|) := by
  classical
  obtain ⟨-, ls', ss', corr', slopes', d, rs, t, T⟩ := ddcFit_ok h
  obtain ⟨pred, std, -, -, hst⟩ := T.hst
  rw [hst] at hls hss hcorr hslopes hraw
  obtain rfl := Option.some.inj hls
  obtain rfl := Option.some.inj hss
  obtain rfl := Option.some.inj hcorr
  obtain rfl := Option.some.inj hslopes
  obtain rfl := Option.some.inj hraw
  have hrow : (fun i => univariateFlag (realEnv round3 cdf est) (some cut)
      (zCells (realEnv round3 cdf est) ls' ss' X k i)) = u := by
    rw [hu]; funext j; exact usable_eq cut ls' ss' X k j
  show predictCell (realEnv round3 cdf est) X.p corr' slopes' (fun i => univariateFlag (realEnv round3 cdf est)
    (some cut) (zCells (realEnv round3 cdf est) ls' ss' X k i)) i = _
  rw [hrow, predictCell_real hc]
  congr 1
  have hS : ∑ j ∈ Finset.range X.p, weightReal c u i j
      = ∑ j ∈ (Finset.range X.p).filter (fun j => j ≠ i ∧ 1 / 2 ≤ |c j| ∧ u j ≠ none), |c j| := by
    rw [Finset.sum_filter]
    refine Finset.sum_congr rfl fun j _ => ?_
    unfold weightReal
    split_ifs with h1 h2 h2 <;> first | rfl | (exfalso; tauto)
  rw [hS]
  generalize ∑ j ∈ (Finset.range X.p).filter (fun j => j ≠ i ∧ 1 / 2 ≤ |c j| ∧ u j ≠ none), |c j| = D
  rw [Finset.sum_div, Finset.sum_filter]
  refine Finset.sum_congr rfl fun j hj => ?_
  have hjp := Finset.mem_range.1 hj
  have hsl := tabulate2_ok T.hslopes j hjp i hi
  rw [hc j hjp] at hsl
  have hlt : (realEnv round3 cdf est).lt ((realEnv round3 cdf est).abs (some (c j))) (some m) = decide (|c j| < m) := by
    show liftRel (· < ·) (some |c j|) (some m) = _
    unfold liftRel
    simp only [decide_eq_decide]
  simp only [hlt] at hsl
  by_cases hji : j = i
  · rw [if_neg (by tauto)]
    simp [weightReal, hji]
  rw [if_neg hji] at hsl
  by_cases h2 : 1 / 2 ≤ |c j|
  · by_cases hm : |c j| < m
    · rw [if_pos (by simpa using hm)] at hsl
      rw [← Except.ok.inj hsl, if_neg]
      · simp [realEnv]
      · rintro ⟨-, h3, -⟩
        exact absurd (le_trans (le_max_left _ _) h3) (not_le.2 hm)
    · by_cases hun : u j = none
      · rw [if_neg (by tauto)]
        simp [hun]
      · rw [if_pos ⟨hji, max_le (not_lt.1 hm) h2, hun⟩]
        unfold weightReal
        rw [if_pos ⟨h2, hji, hun⟩]
        ring
  · rw [if_neg]
    · simp only [weightReal]
      rw [if_neg (by tauto)]
      simp
    · rintro ⟨-, h3, -⟩
      exact h2 (le_trans (le_max_right _ _) h3)

/-- **C67** (partial) With the default `min_correlation = 0.5` the prediction of every cell is the weighted
average of the slope predictions of exactly the variables with absolute correlation at least 0.5.  Missing
from the full statement: other values of `min_correlation`, where it fails (`C67_violated`). -/
theorem C67_default_partial {cut : ℝ} {v : Bool} {st₀ st : DDCState (Option ℝ)} {X : CellFrame (Option ℝ)}
    (h : ddcFit (realEnv round3 cdf est) ⟨some cut, some (1 / 2)⟩ v st₀ X = (.ok (), st))
    {ls ss : List (Option ℝ)} {corr slopes raw : ℕ → ℕ → Option ℝ} (hls : st.location = some ls)
    (hss : st.scale = some ss) (hcorr : st.corr = some corr) (hslopes : st.slopes = some slopes)
    (hraw : st.rawPred = some raw) (k i : ℕ) (hi : i < X.p) (c : ℕ → ℝ)
    (hc : ∀ j < X.p, corr j i = some (c j)) :
    raw k i = some (Spec.weightedAverage X.p (1 / 2) c (fun j => (slopes j i).getD 0)
        (fun j => Spec.usable cut (X.cell k j) (ls.getD j none) (ss.getD j none)) i) := by
  rw [C67_computed h hls hss hcorr hslopes hraw k i hi c hc _ rfl]
  rw [max_self]
  rfl

/-! ### C116: a prediction does not use the cell itself -/

theorem weightReal_congr {c : ℕ → ℝ} {row row' : ℕ → Option ℝ} {i : ℕ} (h : ∀ j, j ≠ i → row j = row' j) (j : ℕ) :
    weightReal c row i j = weightReal c row' i j := by
  unfold weightReal
  by_cases hj : j = i
  · simp [hj]
  · rw [h j hj]

/-- **C116** The prediction of a cell does not depend on the cell itself: after a `fit` with numeric
correlations, the replacement value that `impute` uses at a cell is the same for any two rows that agree in
the other cells. -/
theorem C116_own_cell_not_used {cfg : DDCConfig (Option ℝ)} {v : Bool} {st₀ st : DDCState (Option ℝ)}
    {Xt : CellFrame (Option ℝ)} (h : ddcFit (realEnv round3 cdf est) cfg v st₀ Xt = (.ok (), st))
    {corr : ℕ → ℕ → Option ℝ} (hcorr : st.corr = some corr) (hnum : ∀ i < Xt.p, ∀ j < Xt.p, corr i j ≠ none)
    (X X' : CellFrame (Option ℝ)) (hp : X.p = Xt.p) (hp' : X'.p = Xt.p) (hn : X.numeric = true)
    (hn' : X'.numeric = true) (k i : ℕ) (hi : i < Xt.p) (hrow : ∀ j, j ≠ i → X.cell k j = X'.cell k j)
    (hx : X.cell k i = none) (hx' : X'.cell k i = none ∨
      ∃ flags res, (ddcPredict (realEnv round3 cdf est) cfg st X' false).1 = .ok (.cells flags res) ∧ flags k i = true) :
    ∃ R R', ddcImpute (realEnv round3 cdf est) cfg st X true = (.ok R, st) ∧
      ddcImpute (realEnv round3 cdf est) cfg st X' true = (.ok R', st) ∧ R k i = R' k i := by
  set E := realEnv round3 cdf est with hE
  obtain ⟨-, ls, ss, corr', slopes, d, rs, t, T⟩ := ddcFit_ok h
  obtain ⟨pred, std, -, -, hst⟩ := T.hst
  have hcorr' := hcorr
  rw [hst] at hcorr'
  obtain rfl := Option.some.inj hcorr'
  refine ⟨_, _, T.impute hp hn true, T.impute hp' hn' true, ?_⟩
  have hpred : rowPred E cfg Xt.p ls ss corr' slopes d (X.cell k) i = rowPred E cfg Xt.p ls ss corr' slopes d (X'.cell k) i := by
    unfold rowPred
    congr 1
    have hc : ∀ j < Xt.p, corr' j i = some ((corr' j i).getD 0) := by
      intro j hj
      rcases hj' : corr' j i with _ | a
      · exact absurd hj' (hnum j hj i hi)
      · rfl
    have hr : ∀ j, j ≠ i → univariateFlag E cfg.cutoff (rowZ E ls ss (X.cell k) j)
        = univariateFlag E cfg.cutoff (rowZ E ls ss (X'.cell k) j) := by
      intro j hj; unfold rowZ; rw [hrow j hj]
    rw [predictCell_real hc, predictCell_real hc]
    congr 1
    have hw := fun j => weightReal_congr (c := fun j => (corr' j i).getD 0)
      (row := fun j => univariateFlag E cfg.cutoff (rowZ E ls ss (X.cell k) j))
      (row' := fun j => univariateFlag E cfg.cutoff (rowZ E ls ss (X'.cell k) j)) hr j
    simp only [hw]
    refine Finset.sum_congr rfl fun j _ => ?_
    by_cases hj : j = i
    · subst hj
      have : weightReal (fun j_1 => (corr' j_1 j).getD 0)
        (fun j => univariateFlag E cfg.cutoff (rowZ E ls ss (X'.cell k) j)) j j = 0 := by
        unfold weightReal; simp
      rw [this]; simp
    · simp only [hr j hj]
  simp only [hpred]
  rw [if_pos, if_pos]
  · rcases hx' with hx' | ⟨flags, res, hf, hfl⟩
    · simp [replaceInf, hx', hE, realEnv]
    · rw [T.cells hp' hn'] at hf
      simp only [Except.ok.injEq, DDCPrediction.cells.injEq] at hf
      rw [← hf.1] at hfl
      simp only at hfl
      rw [hfl]; rfl
  · simp [replaceInf, hx, hE, realEnv]

end

/-! ### C115: the correlations -/

section
variable {F : Type} {env : DDCEnv F} [DecidableEq F]

/-- **C115** `robust_correlation_` is symmetric with ones on the diagonal, for every data set and in every
arithmetic. -/
theorem C115_symmetric {cfg : DDCConfig F} {v : Bool} {st₀ st : DDCState F} {X : CellFrame F}
    (h : ddcFit env cfg v st₀ X = (.ok (), st)) {corr : ℕ → ℕ → F} (hcorr : st.corr = some corr) :
    (∀ i < X.p, corr i i = env.one) ∧ ∀ i < X.p, ∀ j < X.p, corr i j = corr j i := by
  obtain ⟨-, ls, ss, corr', slopes, d, rs, t, T⟩ := ddcFit_ok h
  obtain ⟨pred, std, -, -, hst⟩ := T.hst
  rw [hst] at hcorr
  obtain rfl := Option.some.inj hcorr
  have h0 := T.hcorr
  unfold robustCorrelation at h0
  split at h0
  · cases h0
  constructor
  · intro i hi
    have := tabulate2_ok h0 i hi i hi
    rw [if_pos rfl] at this
    exact (Except.ok.inj this).symm
  · intro i hi j hj
    by_cases hij : i = j
    · rw [hij]
    have h1 := tabulate2_ok h0 i hi j hj
    have h2 := tabulate2_ok h0 j hj i hi
    rw [if_neg hij] at h1
    rw [if_neg (Ne.symm hij), min_comm, max_comm] at h2
    exact Except.ok.inj (h1.symm.trans h2)

end

section
variable {round3 cdf : ℝ → ℝ} {est : List (Option ℝ) → Except PyErr (Option ℝ × Option ℝ)}

theorem centredSum_nonneg (f : ℝ × ℝ → ℝ) (l : List (ℝ × ℝ)) : 0 ≤ centredSum f f l := by
  unfold centredSum
  apply List.sum_nonneg
  intro x hx
  obtain ⟨q, -, rfl⟩ := List.mem_map.1 hx
  exact mul_self_nonneg _

theorem list_cauchy_schwarz (l : List (ℝ × ℝ)) (f g : ℝ × ℝ → ℝ) :
    (l.map fun q => f q * g q).sum ^ 2 ≤ (l.map fun q => f q * f q).sum * (l.map fun q => g q * g q).sum := by
  induction l with
  | nil => simp
  | cons q l ih =>
    simp only [List.map_cons, List.sum_cons]
    set A := (l.map fun q => f q * f q).sum
    set B := (l.map fun q => g q * g q).sum
    set C := (l.map fun q => f q * g q).sum
    have hA : 0 ≤ A := List.sum_nonneg (by
      intro x hx; obtain ⟨q, -, rfl⟩ := List.mem_map.1 hx; exact mul_self_nonneg _)
    have hB : 0 ≤ B := List.sum_nonneg (by
      intro x hx; obtain ⟨q, -, rfl⟩ := List.mem_map.1 hx; exact mul_self_nonneg _)
    have hk : 2 * (f q * g q) * C ≤ f q ^ 2 * B + g q ^ 2 * A := by
      have h1 : C ≤ Real.sqrt A * Real.sqrt B := by
        rw [← Real.sqrt_mul hA]
        exact Real.le_sqrt_of_sq_le ih
      have h1' : -(Real.sqrt A * Real.sqrt B) ≤ C := by
        rw [← Real.sqrt_mul hA]
        have := Real.abs_le_sqrt ih
        exact (abs_le.1 this).1
      have hs1 : Real.sqrt A ^ 2 = A := Real.sq_sqrt hA
      have hs2 : Real.sqrt B ^ 2 = B := Real.sq_sqrt hB
      rw [← hs1, ← hs2]
      rcases le_total 0 (f q * g q) with h0 | h0
      · nlinarith [sq_nonneg (f q * Real.sqrt B - g q * Real.sqrt A)]
      · nlinarith [sq_nonneg (f q * Real.sqrt B + g q * Real.sqrt A)]
    nlinarith

theorem pearson_le_one {l : List (ℝ × ℝ)} {r : ℝ} (h : pearson l = some r) : |r| ≤ 1 := by
  unfold pearson at h
  simp only at h
  split at h
  · cases h
  rename_i hne
  push Not at hne
  obtain rfl := Option.some.inj h
  have hx := centredSum_nonneg Prod.fst l
  have hy := centredSum_nonneg Prod.snd l
  have hx' : 0 < centredSum Prod.fst Prod.fst l := lt_of_le_of_ne hx (Ne.symm hne.1)
  have hy' : 0 < centredSum Prod.snd Prod.snd l := lt_of_le_of_ne hy (Ne.symm hne.2)
  rw [abs_div, abs_of_pos (mul_pos (Real.sqrt_pos.2 hx') (Real.sqrt_pos.2 hy')), div_le_one
    (mul_pos (Real.sqrt_pos.2 hx') (Real.sqrt_pos.2 hy')), ← Real.sqrt_mul hx]
  apply Real.abs_le_sqrt
  exact list_cauchy_schwarz l (fun q => q.1 - mean (l.map Prod.fst)) (fun q => q.2 - mean (l.map Prod.snd))

/-- **C115** In exact arithmetic every reported correlation is NaN or between -1 and 1. -/
theorem C115_bounds {cfg : DDCConfig (Option ℝ)} {v : Bool} {st₀ st : DDCState (Option ℝ)} {X : CellFrame (Option ℝ)}
    (h : ddcFit (realEnv round3 cdf est) cfg v st₀ X = (.ok (), st)) {corr : ℕ → ℕ → Option ℝ}
    (hcorr : st.corr = some corr) (i j : ℕ) (hi : i < X.p) (hj : j < X.p) (r : ℝ) (hr : corr i j = some r) :
    |r| ≤ 1 := by
  obtain ⟨-, ls, ss, corr', slopes, d, rs, t, T⟩ := ddcFit_ok h
  obtain ⟨pred, std, -, -, hst⟩ := T.hst
  rw [hst] at hcorr
  obtain rfl := Option.some.inj hcorr
  have h0 := T.hcorr
  unfold robustCorrelation at h0
  split at h0
  · cases h0
  have h1 := tabulate2_ok h0 i hi j hj
  rw [hr] at h1
  by_cases hij : i = j
  · rw [if_pos hij] at h1
    have : (realEnv round3 cdf est).one = some r := Except.ok.inj h1
    have : r = 1 := (Option.some.inj this).symm
    rw [this]; simp
  rw [if_neg hij] at h1
  unfold pairCorr at h1
  split at h1
  · have : (realEnv round3 cdf est).zero = some r := Except.ok.inj h1
    have : r = 0 := (Option.some.inj this).symm
    rw [this]; simp
  · rcases h2 : (realEnv round3 cdf est).osm ((commonRows (realEnv round3 cdf est) X.n
      (fun k i => univariateFlag (realEnv round3 cdf est) cfg.cutoff (zCells (realEnv round3 cdf est) ls ss X k i))
      (min i j) (max i j)).map fun q => (realEnv round3 cdf est).add q.1 q.2) with e | sp
    · rw [h2] at h1; cases h1
    rw [h2] at h1
    rcases h3 : (realEnv round3 cdf est).osm ((commonRows (realEnv round3 cdf est) X.n
      (fun k i => univariateFlag (realEnv round3 cdf est) cfg.cutoff (zCells (realEnv round3 cdf est) ls ss X k i))
      (min i j) (max i j)).map fun q => (realEnv round3 cdf est).sub q.1 q.2) with e | sm
    · rw [h3] at h1; cases h1
    rw [h3] at h1
    exact pearson_le_one (Except.ok.inj h1)

end
end Robpy
