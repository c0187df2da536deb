import Verif.Props.DDCWitness
import Verif.Props.DDCMissing

/-! Properties C110 (full statement), C111, C112 (violated), C114 of `DDC`: `fit` that cannot complete, `fit` that
raises on a fitted object, the check on the number of distinct values; and the examples that the
hypotheses of the theorems about fitted objects are met. -/

namespace Robpy

/-! ### C111: a `fit` that raises on a fitted object -/

section
variable {F : Type} {env : DDCEnv F} [DecidableEq F]

/-- The full statement of **C111**: when `fit` raises on an object fitted before, `predict` behaves as before. -/
def C111_statement (env : DDCEnv F) : Prop :=
  ∀ (cfg : DDCConfig F) (v v' : Bool) (st₀ st : DDCState F) (Xt X' Y : CellFrame F) (r : Bool),
    ddcFit env cfg v st₀ Xt = (.ok (), st) → (ddcFit env cfg v' st X').1 ≠ .ok () →
    (ddcPredict env cfg (ddcFit env cfg v' st X').2 Y r).1 = (ddcPredict env cfg st Y r).1

/-- **C111** (partial) When `fit` raises in its data check (non-numeric data, too few distinct values), the object
is unchanged.  Missing from the full statement: exceptions after the check, where it fails (`C111_violated`);
`C111_mixed` says what the object contains then. -/
theorem C111_check_partial (cfg : DDCConfig F) (v : Bool) (st : DDCState F) (X : CellFrame F)
    (h : ddcCheck env X ≠ .ok ()) : (ddcFit env cfg v st X).2 = st ∧ (ddcFit env cfg v st X).1 = .error .valueError := by
  have hc : ddcCheck env X = .error .valueError := by
    unfold ddcCheck at h ⊢
    split_ifs at h ⊢ <;> first | rfl | exact absurd rfl h
  unfold ddcFit
  rw [hc]
  exact ⟨rfl, rfl⟩

/-- **C111** When `fit` raises after its data check, the locations and scales of the object are already those of
the new data, while the row flags, the scale of the row statistic, the predictions in the units of the
data and the mark that the object is fitted are still those of the last completed `fit`. -/
theorem C111_mixed {cfg : DDCConfig F} {v : Bool} {st : DDCState F} {X : CellFrame F}
    (hc : ddcCheck env X = .ok ()) (h : (ddcFit env cfg v st X).1 ≠ .ok ()) :
    (ddcFit env cfg v st X).2.location = some (fitScaler env (replaceInf env X) (List.range X.p) [] []).2.1 ∧
    (ddcFit env cfg v st X).2.scale = some (fitScaler env (replaceInf env X) (List.range X.p) [] []).2.2 ∧
    (ddcFit env cfg v st X).2.tScale = st.tScale ∧ (ddcFit env cfg v st X).2.rowOut = st.rowOut ∧
    (ddcFit env cfg v st X).2.isFitted = st.isFitted ∧ (ddcFit env cfg v st X).2.rescaled = st.rescaled := by
  have hp : (replaceInf env X).p = X.p := rfl
  unfold ddcFit at h ⊢
  simp only [hc, hp] at h ⊢
  rcases hs : fitScaler env (replaceInf env X) (List.range X.p) [] [] with ⟨r, ls, ss⟩
  rw [hs] at h
  rcases r with e | ⟨⟩
  · exact ⟨rfl, rfl, rfl, rfl, rfl, rfl⟩
  simp only at h ⊢
  split
  · exact ⟨rfl, rfl, rfl, rfl, rfl, rfl⟩
  rename_i Z hz
  rw [hz] at h
  simp only at h
  unfold fitFrom at h ⊢
  simp only at h ⊢
  split
  · exact ⟨rfl, rfl, rfl, rfl, rfl, rfl⟩
  rename_i corr hcorr
  simp only [hcorr] at h
  split
  · exact ⟨rfl, rfl, rfl, rfl, rfl, rfl⟩
  rename_i slopes hsl
  simp only [hsl] at h
  split
  · exact ⟨rfl, rfl, rfl, rfl, rfl, rfl⟩
  rename_i d hd
  simp only [hd] at h
  unfold cellwiseOutliers at h ⊢
  simp only [if_true] at h ⊢
  rcases hrs : (tabulate env X.p fun i => (env.osm ((colList (replaceInf env X).n
    (fun k i => env.sub (Z k i) (env.mul (predictedValues env X.p corr slopes
      (fun k i => univariateFlag env cfg.cutoff (Z k i)) k i) (d i))) i).filter env.ok)).map
      Prod.snd) with e | rs
  · simp only [hp, hrs, and_self]
  · simp only [hp, hrs] at h ⊢
    unfold rowwiseOutliers at h ⊢
    simp only [if_true] at h ⊢
    split
    · rename_i hh
      split at hh
      · simp only [Prod.mk.injEq] at hh
        rw [← hh.2]
        exact ⟨rfl, rfl, rfl, rfl, rfl, rfl⟩
      · simp at hh
    · rename_i hh
      rw [hh] at h
      exact absurd rfl h

end

/-! ### Witnesses -/

/-- One column with the values -2, -1, 1, 2. -/
def frameV : CellFrame (Option ℝ) where
  n := 4
  p := 1
  numeric := true
  cell k _ := some (colA k)

theorem frameV_check (round3 cdf est) : ddcCheck (realEnv round3 cdf est) frameV = .ok () := by
  unfold ddcCheck
  rw [if_neg (by simp [frameV]), if_neg]
  rw [List.any_eq_true]
  rintro ⟨i, hi, h⟩
  have h4 : distinctCells (realEnv round3 cdf est) frameV i = 4 :=
    distinctCells_four (a := -2) (b := -1) (c := 1) (d := 2) rfl (by norm_num)
  rw [h4] at h
  simp at h

/-- The object of `frameW_fit`: fitted in exact arithmetic, so the hypotheses of `C65_predict_agrees_with_fit`,
`C66_impute`, `C109_rows_independent`, `C67_computed`, `C115_symmetric`, `C115_bounds` and
`C116_own_cell_not_used` are met. -/
example (round3 cdf : ℝ → ℝ) :
    ∃ st, ddcFit (realEnv round3 cdf estUnit) ⟨some 1000, some (9 / 10)⟩ false {} frameW = (.ok (), st) := by
  obtain ⟨st', -, -, -, -, -, h, -⟩ := frameW_fit (round3 := round3) (cdf := cdf) {}
  exact ⟨st', h⟩

/-- **C112** is violated: `fit(verbose=True)` raises on the data of `frameW`, which `fit()` accepts. -/
theorem C112_violated : ¬ C112_statement (realEnv id id estUnit) := by
  intro h
  obtain ⟨st', -, -, -, -, -, hf, -⟩ := frameW_fit (round3 := id) (cdf := id) {}
  have h1 := h ⟨some 1000, some (9 / 10)⟩ {} frameW
  rw [hf] at h1
  exact (C112_fewer_than_ten _ _ frameW (by decide) (by decide)).1 (by rw [h1])

/-- **C111** is violated: fit an object on the three columns of `frameW`, call `fit(verbose=True)` on a single
column, which raises ZeroDivisionError; from then on `predict` on the three columns raises ValueError. -/
theorem C111_violated : ¬ C111_statement (realEnv id id estUnit) := by
  intro h
  obtain ⟨st, corr, slopes, d, rs, t, hf, T, -⟩ := frameW_fit (round3 := id) (cdf := id) {}
  have hfail := C112_fewer_than_ten (env := realEnv id id estUnit) ⟨some 1000, some (9 / 10)⟩ st frameV
    (by decide) (by decide)
  have h1 := h ⟨some 1000, some (9 / 10)⟩ false true {} st frameW frameV frameW true hf hfail.1
  rw [T.rows rfl rfl] at h1
  obtain ⟨h2, h3, -, -, h4, -⟩ := C111_mixed (st := st) (frameV_check id id estUnit) hfail.1
  have hls : (fitScaler (realEnv id id estUnit) (replaceInf (realEnv id id estUnit) frameV) (List.range frameV.p) [] []).2
      = ([some 0], [some 1]) := rfl
  rw [hls] at h2 h3
  generalize (ddcFit (realEnv id id estUnit) ⟨some 1000, some (9 / 10)⟩ true st frameV).2 = st2 at h1 h2 h3 h4
  have hfit : st2.isFitted = some true := by
    obtain ⟨pred, std, -, -, hst⟩ := T.hst
    rw [h4, hst]
  have hstd : standardize (realEnv id id estUnit) st2 (replaceInf (realEnv id id estUnit) frameW) = .error .valueError := by
    unfold standardize
    rw [h2, h3]
    simp only
    rw [if_neg (by simp [replaceInf, frameW])]
  have hpr : ddcPredictions (realEnv id id estUnit) ⟨some 1000, some (9 / 10)⟩ st2
      (replaceInf (realEnv id id estUnit) frameW) = .error .valueError := by
    unfold ddcPredictions
    rw [hstd]
    rfl
  unfold ddcPredict at h1
  rcases hg : ddcGuards st2 frameW with e | ⟨⟩
  · rw [hg] at h1; cases h1
  · rw [hg] at h1
    simp only [hpr] at h1
    cases h1

/-! ### C110 -/

section
variable {round3 cdf : ℝ → ℝ} {est : List (Option ℝ) → Except PyErr (Option ℝ × Option ℝ)}

/-- The values of a column that are not missing. -/
def observed (X : CellFrame (Option ℝ)) (i : ℕ) : List (Option ℝ) := (colList X.n X.cell i).filter Option.isSome

/-- The full statement of **C110**: in exact arithmetic, `fit` returns on every data set that passes its check when
the scale estimator gives every column a location and a non-zero scale. -/
def C110_statement : Prop :=
  ∀ (round3 cdf : ℝ → ℝ) (est : List (Option ℝ) → Except PyErr (Option ℝ × Option ℝ)) (cfg : DDCConfig (Option ℝ))
    (st : DDCState (Option ℝ)) (X : CellFrame (Option ℝ)),
    ddcCheck (realEnv round3 cdf est) X = .ok () →
    (∀ i < X.p, ∃ l s : ℝ, est (observed X i) = .ok (some l, some s) ∧ s ≠ 0) →
    (ddcFit (realEnv round3 cdf est) cfg false st X).1 = .ok ()

theorem fitScaler_all_ok {F : Type} {env : DDCEnv F} {X : CellFrame F} (is : List ℕ) (ls ss : List F)
    (h : ∀ i ∈ is, ∃ q, env.est ((colList X.n X.cell i).filter env.ok) = .ok q) :
    ∃ ls' ss', fitScaler env X is ls ss = (.ok (), ls', ss') := by
  induction is generalizing ls ss with
  | nil => exact ⟨ls, ss, rfl⟩
  | cons i is ih =>
    obtain ⟨⟨l, s⟩, hq⟩ := h i List.mem_cons_self
    simp only [fitScaler, hq]
    exact ih _ _ fun j hj => h j (List.mem_cons_of_mem _ hj)

/-- The entries of the lists filled by `_fit_scaler`. -/
theorem fitScaler_getD {F : Type} {env : DDCEnv F} {X : CellFrame F} {p : ℕ} {ls ss : List F}
    (h : fitScaler env X (List.range p) [] [] = (.ok (), ls, ss)) (i : ℕ) (hi : i < p) :
    env.est ((colList X.n X.cell i).filter env.ok) = .ok (ls.getD i env.nan, ss.getD i env.nan) := by
  obtain ⟨a, b, h1, h2, h3, h4, h5⟩ := fitScaler_ok _ _ _ _ _ h
  simp only [List.nil_append] at h1 h2
  subst h1 h2
  rw [List.length_range] at h4 h5
  have h6 := h3.get (i := i) (by simpa using hi) (by simp; omega)
  simp only [List.get_eq_getElem, List.getElem_range, List.getElem_zip] at h6
  rw [h6]
  simp [List.getElem?_eq_getElem (show i < ls.length by omega), List.getElem?_eq_getElem (show i < ss.length by omega)]

/-- **C110** (partial) In exact arithmetic `fit` returns on every data set that passes its check, when the scale
estimator gives every column a location and a non-zero scale, the correlations it computes are numbers,
and every row has an observed cell in a column whose residuals have a scale different from zero.  Missing from
the full statement: the data sets that do not meet the last two conditions; some of them cannot be
fitted (`C110_missing_row`, `C110_single_common_row`, `C110_violated`). -/
theorem C110_completes_partial (cfg : DDCConfig (Option ℝ)) (st : DDCState (Option ℝ)) (X : CellFrame (Option ℝ))
    (hc : ddcCheck (realEnv round3 cdf est) X = .ok ())
    (hest : ∀ i < X.p, ∃ l s : ℝ, est (observed X i) = .ok (some l, some s) ∧ s ≠ 0) :
    ∃ corr, (ddcFit (realEnv round3 cdf est) cfg false st X).2.corr = some corr ∧
      ((∀ i < X.p, ∀ j < X.p, corr i j ≠ none) →
        ∃ rs, (ddcFit (realEnv round3 cdf est) cfg false st X).2.resScales = some rs ∧
          ((∀ k < X.n, ∃ i < X.p, X.cell k i ≠ none ∧ rs i ≠ none ∧ rs i ≠ some 0) →
            (ddcFit (realEnv round3 cdf est) cfg false st X).1 = .ok ())) := by
  have hobs : ∀ i, (colList (replaceInf (realEnv round3 cdf est) X).n
      (replaceInf (realEnv round3 cdf est) X).cell i).filter (realEnv round3 cdf est).ok = observed X i := by
    intro i
    show (colList X.n X.cell i).filter (realEnv round3 cdf est).ok = _
    unfold observed
    apply List.filter_congr
    intro x _
    cases x <;> rfl
  obtain ⟨ls, ss, hs⟩ := fitScaler_all_ok (env := realEnv round3 cdf est)
    (X := replaceInf (realEnv round3 cdf est) X) (List.range X.p) [] [] (by
      intro i hi
      obtain ⟨l, s, h1, -⟩ := hest i (List.mem_range.1 hi)
      exact ⟨_, by rw [hobs]; exact h1⟩)
  obtain ⟨corr, -, h2, h3⟩ := fit_steps cfg st hc hs
  refine ⟨corr, h2, fun hn => ?_⟩
  obtain ⟨slopes, d, rs, -, -, h4, -, -, -, h5⟩ := h3 hn
  refine ⟨rs, h4, fun hrow => ?_⟩
  obtain ⟨st', t, h6, -⟩ := h5 (by
    intro k hk
    obtain ⟨i, hi, hcell, hr1, hr2⟩ := hrow k hk
    refine ⟨i, hi, ?_, hr1, hr2⟩
    obtain ⟨l, s, h7, h8⟩ := hest i hi
    have h9 := fitScaler_getD hs i hi
    rw [hobs] at h9
    have h10 : est (observed X i) = .ok (ls.getD i none, ss.getD i none) := h9
    rw [h7] at h10
    obtain ⟨h11, h12⟩ := Prod.mk.inj (Except.ok.inj h10)
    rw [zCells_real, ← h11, ← h12]
    exact div_ne_none (liftNaN_ne_none hcell (by simp)) (by simp) (by simpa using h8))
  rw [h6]

end

/-- The hypotheses of `C110_completes_partial` are met by `frameW`. -/
example : ∀ i < frameW.p, ∃ l s : ℝ, estUnit (observed frameW i) = .ok (some l, some s) ∧ s ≠ 0 :=
  fun _ _ => ⟨0, 1, rfl, one_ne_zero⟩

/-- The column of `frameV` with a fifth row, in which the cell is missing. -/
def frameM : CellFrame (Option ℝ) where
  n := 5
  p := 1
  numeric := true
  cell k _ := if k = 4 then none else some (colA k)

theorem frameM_check (round3 cdf est) : ddcCheck (realEnv round3 cdf est) frameM = .ok () := by
  unfold ddcCheck
  rw [if_neg (by simp [frameM]), if_neg]
  rw [List.any_eq_true]
  rintro ⟨i, hi, h⟩
  have h4 : distinctCells (realEnv round3 cdf est) frameM i = 4 := by
    unfold distinctCells
    have e : (colList frameM.n frameM.cell i).filter (realEnv round3 cdf est).ok = [(-2:ℝ), -1, 1, 2].map some := rfl
    have hn : [(-2:ℝ), -1, 1, 2].Nodup := by norm_num
    rw [e, List.Nodup.dedup (hn.map (Option.some_injective _))]
    rfl
  rw [h4] at h
  simp at h

/-- **C110** is violated: the column -2, -1, 1, 2, missing cannot be fitted. -/
theorem C110_violated : ¬ C110_statement := by
  intro h
  refine C110_missing_row (realEnv_nanLaws id id estUnit) ⟨some 1000, some (1 / 2)⟩ false {} frameM 4 (by decide) ?_
    (h id id estUnit _ {} frameM (frameM_check _ _ _) fun _ _ => ⟨0, 1, rfl, one_ne_zero⟩)
  intro i _
  left
  rfl

/-! ### C114 -/

/-- The number of distinct numbers in a column. -/
noncomputable def Spec.distinctCount (X : CellFrame (Option ℝ)) (i : ℕ) : ℕ := by
  classical exact (((Finset.range X.n).image fun k => X.cell k i).erase none).card

/-- The full statement of **C114**, as the message of the exception says: numeric data are rejected exactly when
a column has fewer than three distinct values. -/
def C114_statement : Prop :=
  ∀ (round3 cdf : ℝ → ℝ) (est : List (Option ℝ) → Except PyErr (Option ℝ × Option ℝ)) (X : CellFrame (Option ℝ)),
    X.numeric = true →
    (ddcCheck (realEnv round3 cdf est) X = .error .valueError ↔ ∃ i < X.p, Spec.distinctCount X i < 3)

theorem distinctCells_eq (round3 cdf est) (X : CellFrame (Option ℝ)) (i : ℕ) :
    distinctCells (realEnv round3 cdf est) X i = Spec.distinctCount X i := by
  classical
  unfold distinctCells Spec.distinctCount colList
  have e : ((List.range X.n).map fun k => X.cell k i).filter (realEnv round3 cdf est).ok
      = ((List.range X.n).map fun k => X.cell k i).filter fun x => decide (x ≠ none) := by
    apply List.filter_congr
    intro x _
    cases x <;> rfl
  rw [e]
  rw [show ((Finset.range X.n).image fun k => X.cell k i).erase none
    = (((List.range X.n).map fun k => X.cell k i).filter fun x => decide (x ≠ none)).toFinset by
      ext x
      simp only [Finset.mem_erase, Finset.mem_image, Finset.mem_range, List.mem_toFinset, List.mem_filter,
        List.mem_map, List.mem_range, decide_eq_true_eq]
      tauto]
  rw [List.card_toFinset]

/-- **C114** (partial) Numeric data are rejected exactly when a column has fewer than *four* distinct values; in
that case `fit` raises ValueError and the object is unchanged.  Missing from the full statement: columns with
exactly three distinct values, which are rejected although the message says "less than 3"
(`C114_violated`). -/
theorem C114_distinct_partial {round3 cdf : ℝ → ℝ} {est : List (Option ℝ) → Except PyErr (Option ℝ × Option ℝ)}
    (X : CellFrame (Option ℝ)) (hn : X.numeric = true) :
    (ddcCheck (realEnv round3 cdf est) X = .error .valueError ↔ ∃ i < X.p, Spec.distinctCount X i < 4) ∧
    ((∃ i < X.p, Spec.distinctCount X i < 4) → ∀ cfg v st,
      ddcFit (realEnv round3 cdf est) cfg v st X = (.error .valueError, st)) := by
  have key : ddcCheck (realEnv round3 cdf est) X = .error .valueError ↔ ∃ i < X.p, Spec.distinctCount X i < 4 := by
    unfold ddcCheck
    rw [if_neg (by simp [hn])]
    constructor
    · intro h
      split_ifs at h with h1
      obtain ⟨i, hi, h2⟩ := List.any_eq_true.1 h1
      rw [distinctCells_eq] at h2
      exact ⟨i, List.mem_range.1 hi, Nat.lt_succ_of_le (by simpa using h2)⟩
    · rintro ⟨i, hi, h2⟩
      rw [if_pos]
      rw [List.any_eq_true]
      refine ⟨i, List.mem_range.2 hi, ?_⟩
      rw [distinctCells_eq]
      simpa using Nat.le_of_lt_succ h2
  refine ⟨key, fun h cfg v st => ?_⟩
  have h1 := C111_check_partial (env := realEnv round3 cdf est) cfg v st X (by rw [key.2 h]; simp)
  exact Prod.ext h1.2 h1.1

/-- A column with exactly three distinct values. -/
def frameT : CellFrame (Option ℝ) where
  n := 4
  p := 1
  numeric := true
  cell k _ := some (if k = 0 then 0 else if k = 1 then 1 else 2)

theorem frameT_count : Spec.distinctCount frameT 0 = 3 := by
  rw [← distinctCells_eq id id estUnit]
  unfold distinctCells
  have e : (colList frameT.n frameT.cell 0).filter (realEnv id id estUnit).ok = [(0:ℝ), 1, 2, 2].map some := by
    unfold colList frameT
    simp [List.range_succ, realEnv, DDCEnv.ok]
  have e2 : [(0:ℝ), 1, 2, 2].map some = [some 0, some 1, some 2, some 2] := rfl
  rw [e, e2]
  rw [List.dedup_cons_of_notMem (by simp), List.dedup_cons_of_notMem (by simp), List.dedup_cons_of_mem (by simp),
    List.dedup_cons_of_notMem (by simp)]
  simp

/-- **C114** is violated: the column 0, 1, 2, 2 has three distinct values and is rejected. -/
theorem C114_violated : ¬ C114_statement := by
  intro h
  have h1 := (C114_distinct_partial (round3 := id) (cdf := id) (est := estUnit) frameT rfl).1.2
    ⟨0, by decide, by rw [frameT_count]; norm_num⟩
  obtain ⟨i, hi, h2⟩ := (h id id estUnit frameT rfl).1 h1
  have : i = 0 := by have : i < 1 := hi; omega
  subst this
  rw [frameT_count] at h2
  omega

end Robpy
