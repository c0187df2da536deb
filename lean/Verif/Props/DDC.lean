import Verif.Model.DDC
import Verif.Lemmas.MCD

/-! Properties C65, C66, C68 of `DDC`, for every arithmetic. -/

namespace Robpy

section
variable {F : Type} {env : DDCEnv F}

theorem tabulate_ok {p : ℕ} {f : ℕ → Except PyErr F} {g : ℕ → F} (h : tabulate env p f = .ok g) :
    ∀ i < p, f i = .ok (g i) := by
  unfold tabulate at h
  rcases hm : mapExcept f (List.range p) with e | l
  · rw [hm] at h; cases h
  · rw [hm] at h
    obtain rfl : (fun i => l.getD i env.nan) = g := Except.ok.inj h
    have h2 := mapExcept_ok hm
    intro i hi
    have hl : l.length = p := by simpa using h2.length_eq.symm
    have := List.Forall₂.get h2 (i := i) (by simpa using hi) (by omega)
    simpa [List.getElem?_eq_getElem (show i < l.length by omega)] using this

theorem tabulate2_ok {p : ℕ} {f : ℕ → ℕ → Except PyErr F} {g : ℕ → ℕ → F} (h : tabulate2 env p f = .ok g) :
    ∀ i < p, ∀ j < p, f i j = .ok (g i j) := by
  unfold tabulate2 at h
  rcases hm : mapExcept (fun i => tabulate env p (f i)) (List.range p) with e | l
  · rw [hm] at h; cases h
  · rw [hm] at h
    obtain rfl : (fun i => l.getD i fun _ => env.nan) = g := Except.ok.inj h
    have h2 := mapExcept_ok hm
    intro i hi
    have hl : l.length = p := by simpa using h2.length_eq.symm
    have := List.Forall₂.get h2 (i := i) (by simpa using hi) (by omega)
    apply tabulate_ok (env := env)
    simpa [List.getElem?_eq_getElem (show i < l.length by omega)] using this

/-- The lists filled by a completed `_fit_scaler`. -/
theorem fitScaler_ok {X : CellFrame F} (is : List ℕ) (ls ss ls' ss' : List F)
    (h : fitScaler env X is ls ss = (.ok (), ls', ss')) :
    ∃ a b : List F, ls' = ls ++ a ∧ ss' = ss ++ b ∧
      List.Forall₂ (fun i q => env.est ((colList X.n X.cell i).filter env.ok) = .ok q) is (a.zip b) ∧
      a.length = is.length ∧ b.length = is.length := by
  induction is generalizing ls ss with
  | nil => simp only [fitScaler] at h; obtain ⟨-, h1, h2⟩ := h; exact ⟨[], [], by simp, by simp, .nil, rfl, rfl⟩
  | cons i is ih =>
    simp only [fitScaler] at h
    rcases he : env.est ((colList X.n X.cell i).filter env.ok) with e | ⟨l, s⟩
    · rw [he] at h; simp at h
    · rw [he] at h
      obtain ⟨a, b, h1, h2, h3, h4, h5⟩ := ih _ _ h
      exact ⟨l :: a, s :: b, by simp [h1], by simp [h2], .cons he h3, by simp [h4], by simp [h5]⟩

/-- `Z` after step 1 of `fit`/`predict` for given `location_`, `scale_`. -/
def zCells (env : DDCEnv F) (ls ss : List F) (X : CellFrame F) : ℕ → ℕ → F := fun k i =>
  env.div (env.sub ((replaceInf env X).cell k i) (ls.getD i env.nan)) (ss.getD i env.nan)

/-- Everything a completed `fit` computed and stored. -/
structure FitTrace (env : DDCEnv F) (cfg : DDCConfig F) (v : Bool) (X : CellFrame F) (st : DDCState F)
    (ls ss : List F) (corr slopes : ℕ → ℕ → F) (d rs : ℕ → F) (t : F × F) : Prop where
  scaler : fitScaler env (replaceInf env X) (List.range X.p) [] [] = (.ok (), ls, ss)
  len : ls.length = X.p ∧ ss.length = X.p
  hcorr : robustCorrelation env cfg.cutoff X.n X.p
    (fun k i => univariateFlag env cfg.cutoff (zCells env ls ss X k i)) v = .ok corr
  hslopes : getSlopes env cfg X.n X.p
    (fun k i => univariateFlag env cfg.cutoff (zCells env ls ss X k i)) corr = .ok slopes
  hd : deshrinkage env cfg.cutoff X.n X.p (zCells env ls ss X) (predictedValues env X.p corr slopes
    (fun k i => univariateFlag env cfg.cutoff (zCells env ls ss X k i))) = .ok d
  hrs : (tabulate env X.p fun i => (env.osm ((colList X.n (fun k i => env.sub (zCells env ls ss X k i)
    (env.mul (predictedValues env X.p corr slopes
      (fun k i => univariateFlag env cfg.cutoff (zCells env ls ss X k i)) k i) (d i))) i).filter env.ok)).map
        Prod.snd) = .ok rs
  ht : env.osm ((List.range X.n).map fun k => env.nanmean ((List.range X.p).map fun i =>
      env.chi2cdf (env.mul (env.div (env.sub (zCells env ls ss X k i)
        (env.mul (predictedValues env X.p corr slopes
          (fun k i => univariateFlag env cfg.cutoff (zCells env ls ss X k i)) k i) (d i))) (rs i))
        (env.div (env.sub (zCells env ls ss X k i) (env.mul (predictedValues env X.p corr slopes
          (fun k i => univariateFlag env cfg.cutoff (zCells env ls ss X k i)) k i) (d i))) (rs i))))) = .ok t
  hst : ∃ pred std,
    pred = (fun k i => env.mul (predictedValues env X.p corr slopes
      (fun k i => univariateFlag env cfg.cutoff (zCells env ls ss X k i)) k i) (d i)) ∧
    std = (fun k i => env.div (env.sub (zCells env ls ss X k i) (pred k i)) (rs i)) ∧
    st =
    { location := some ls, scale := some ss, corr := some corr, slopes := some slopes
      rawPred := some (predictedValues env X.p corr slopes
        (fun k i => univariateFlag env cfg.cutoff (zCells env ls ss X k i)))
      deshrink := some d, pred := some pred, resScales := some rs
      cellwise := some (X.p, fun k i => env.lt cfg.cutoff (env.abs (std k i)))
      stdRes := some std, tScale := some t
      rowOut := some fun k => env.lt cfg.cutoff (env.div (env.sub (env.nanmean ((List.range X.p).map fun i =>
        env.chi2cdf (env.mul (std k i) (std k i)))) t.1) t.2)
      isFitted := some true, rescaled := some (rescale env ls ss pred) }

variable [DecidableEq F]

theorem ddcFit_ok {cfg : DDCConfig F} {v : Bool} {st st' : DDCState F} {X : CellFrame F}
    (h : ddcFit env cfg v st X = (.ok (), st')) :
    ddcCheck env X = .ok () ∧ ∃ ls ss corr slopes d rs t, FitTrace env cfg v X st' ls ss corr slopes d rs t := by
  unfold ddcFit at h
  split at h
  · simp at h
  · rename_i hc
    refine ⟨hc, ?_⟩
    simp only at h
    split at h
    · simp at h
    · rename_i ls ss hs
      obtain ⟨a, b, h1, h2, -, h4, h5⟩ := fitScaler_ok _ _ _ _ _ hs
      have hp : (replaceInf env X).p = X.p := rfl
      have hn : (replaceInf env X).n = X.n := rfl
      rw [hp] at hs h
      have hl : ls.length = X.p ∧ ss.length = X.p := by
        rw [h1, h2]; simp [h4, h5, hp]
      have hz : standardize env { st with location := some ls, scale := some ss } (replaceInf env X)
          = .ok (zCells env ls ss X) := by
        unfold standardize
        simp only [hp]
        rw [if_pos hl]; rfl
      simp only [hz] at h
      unfold fitFrom at h
      simp only [hn] at h
      split at h
      · simp at h
      rename_i corr hcorr
      split at h
      · simp at h
      rename_i slopes hslopes
      split at h
      · simp at h
      rename_i d hd
      split at h
      · simp at h
      rename_i flags std st2 hcell
      unfold cellwiseOutliers at hcell
      simp only [if_true] at hcell
      split at hcell
      · simp at hcell
      rename_i rs hrs
      simp only [Prod.mk.injEq, Except.ok.injEq] at hcell
      obtain ⟨⟨hf, hstd⟩, hst2⟩ := hcell
      subst hf hstd hst2
      split at h
      · simp at h
      rename_i rows st3 hrow
      unfold rowwiseOutliers at hrow
      simp only [if_true] at hrow
      split at hrow
      · simp at hrow
      rename_i t ht
      simp only [Prod.mk.injEq, Except.ok.injEq] at hrow
      obtain ⟨hr, hst3⟩ := hrow
      subst hr hst3
      simp only [Prod.mk.injEq, true_and] at h
      exact ⟨ls, ss, corr, slopes, d, rs, t, hs, hl, hcorr, hslopes, hd, hrs, ht, _, _, rfl, rfl, h.symm⟩

omit [DecidableEq F] in
theorem replaceInf_replaceInf (X : CellFrame F) : replaceInf env (replaceInf env X) = replaceInf env X := by
  unfold replaceInf
  simp only [CellFrame.mk.injEq, true_and]
  funext k i
  by_cases h : env.isInf (X.cell k i) = true <;> simp [h]

omit [DecidableEq F] in
theorem predict_replaceInf (cfg : DDCConfig F) (st : DDCState F) (X : CellFrame F) (r : Bool) :
    ddcPredict env cfg st (replaceInf env X) r = ddcPredict env cfg st X r := by
  unfold ddcPredict
  rw [replaceInf_replaceInf]
  rfl

/-- What `predict` computes for one row of numbers with the fitted values. -/
def rowZ (env : DDCEnv F) (ls ss : List F) (row : ℕ → F) : ℕ → F := fun i =>
  env.div (env.sub (if env.isInf (row i) then env.nan else row i) (ls.getD i env.nan)) (ss.getD i env.nan)

/-- The (deshrunk) predictions for one row. -/
def rowPred (env : DDCEnv F) (cfg : DDCConfig F) (p : ℕ) (ls ss : List F) (corr slopes : ℕ → ℕ → F) (d : ℕ → F)
    (row : ℕ → F) : ℕ → F := fun i =>
  env.mul (predictCell env p corr slopes (fun i => univariateFlag env cfg.cutoff (rowZ env ls ss row i)) i) (d i)

/-- The standardised residuals of one row. -/
def rowStd (env : DDCEnv F) (cfg : DDCConfig F) (p : ℕ) (ls ss : List F) (corr slopes : ℕ → ℕ → F) (d rs : ℕ → F)
    (row : ℕ → F) : ℕ → F := fun i =>
  env.div (env.sub (rowZ env ls ss row i) (rowPred env cfg p ls ss corr slopes d row i)) (rs i)

/-- The row verdict of one row. -/
def rowFlag (env : DDCEnv F) (cfg : DDCConfig F) (p : ℕ) (ls ss : List F) (corr slopes : ℕ → ℕ → F) (d rs : ℕ → F)
    (t : F × F) (row : ℕ → F) : Bool :=
  env.lt cfg.cutoff (env.div (env.sub (env.nanmean ((List.range p).map fun i =>
    env.chi2cdf (env.mul (rowStd env cfg p ls ss corr slopes d rs row i)
      (rowStd env cfg p ls ss corr slopes d rs row i)))) t.1) t.2)

section
omit [DecidableEq F]
variable {cfg : DDCConfig F} {v : Bool} {st : DDCState F} {Xt : CellFrame F} {ls ss : List F}
  {corr slopes : ℕ → ℕ → F} {d rs : ℕ → F} {t : F × F}

theorem FitTrace.guards (T : FitTrace env cfg v Xt st ls ss corr slopes d rs t) {X : CellFrame F} (hp : X.p = Xt.p) :
    ddcGuards st X = .ok () := by
  obtain ⟨pred, std, -, -, hst⟩ := T.hst
  rw [hst]; simp [ddcGuards, hp]

theorem FitTrace.predictions (T : FitTrace env cfg v Xt st ls ss corr slopes d rs t) {X : CellFrame F}
    (hp : X.p = Xt.p) :
    ddcPredictions env cfg st (replaceInf env X) = .ok (fun k => rowZ env ls ss (X.cell k),
      fun k => rowPred env cfg Xt.p ls ss corr slopes d (X.cell k)) := by
  obtain ⟨pred, std, -, -, hst⟩ := T.hst
  have hp' : (replaceInf env X).p = Xt.p := hp
  rw [hst]
  simp only [ddcPredictions, standardize, hp', T.len, and_self, if_true]
  rfl

theorem FitTrace.cells (T : FitTrace env cfg v Xt st ls ss corr slopes d rs t) {X : CellFrame F} (hp : X.p = Xt.p)
    (hn : X.numeric = true) :
    ddcPredict env cfg st X false = (.ok (.cells
      (fun k i => env.lt cfg.cutoff (env.abs (rowStd env cfg Xt.p ls ss corr slopes d rs (X.cell k) i)))
      (fun k => rowStd env cfg Xt.p ls ss corr slopes d rs (X.cell k))), st) := by
  unfold ddcPredict
  rw [T.guards hp]
  simp only [hn, T.predictions hp]
  obtain ⟨pred, std, -, -, hst⟩ := T.hst
  simp only [hst, cellwiseOutliers]
  rfl

theorem FitTrace.rows (T : FitTrace env cfg v Xt st ls ss corr slopes d rs t) {X : CellFrame F} (hp : X.p = Xt.p)
    (hn : X.numeric = true) :
    ddcPredict env cfg st X true = (.ok (.rows
      (fun k => rowFlag env cfg Xt.p ls ss corr slopes d rs t (X.cell k))), st) := by
  unfold ddcPredict
  rw [T.guards hp]
  simp only [hn, T.predictions hp]
  have hp' : (replaceInf env X).p = Xt.p := hp
  obtain ⟨pred, std, -, -, hst⟩ := T.hst
  simp only [hst, cellwiseOutliers, rowwiseOutliers, hp']
  rfl

theorem FitTrace.impute (T : FitTrace env cfg v Xt st ls ss corr slopes d rs t) {X : CellFrame F} (hp : X.p = Xt.p)
    (hn : X.numeric = true) (b : Bool) :
    ddcImpute env cfg st X b = (.ok (fun k i =>
      if (b && env.lt cfg.cutoff (env.abs (rowStd env cfg Xt.p ls ss corr slopes d rs (X.cell k) i))) ||
          env.isNaN ((replaceInf env X).cell k i)
      then env.round3 (env.add (env.mul (rowPred env cfg Xt.p ls ss corr slopes d (X.cell k) i)
        (ss.getD i env.nan)) (ls.getD i env.nan))
      else (replaceInf env X).cell k i), st) := by
  unfold ddcImpute
  rw [T.guards hp]
  have hc := T.cells hp hn
  simp only [hn, T.predictions hp, predict_replaceInf, hc]
  obtain ⟨pred, std, -, -, hst⟩ := T.hst
  have h1 : st.location = some ls := by rw [hst]
  have h2 : st.scale = some ss := by rw [hst]
  simp only [h1, h2]
  cases b <;> rfl

end

/-- **C65** `DDC.predict` agrees with `DDC.fit`: for every arithmetic, every configuration, every scale
estimator and every data set, after a `fit` that returns, `predict` on the training data returns exactly the
cell flags and residuals (`cellwise_outliers_`, `standardized_residuals_`) and the row flags
(`row_outliers_`) that `fit` stored, and leaves every attribute as it is. -/
theorem C65_predict_agrees_with_fit {cfg : DDCConfig F} {v : Bool} {st₀ st : DDCState F} {X : CellFrame F}
    (h : ddcFit env cfg v st₀ X = (.ok (), st)) :
    ∃ flags res rows, st.cellwise = some (X.p, flags) ∧ st.stdRes = some res ∧ st.rowOut = some rows ∧
      ddcPredict env cfg st X false = (.ok (.cells flags res), st) ∧
      ddcPredict env cfg st X true = (.ok (.rows rows), st) := by
  obtain ⟨hc, ls, ss, corr, slopes, d, rs, t, T⟩ := ddcFit_ok h
  have hn : X.numeric = true := by
    unfold ddcCheck at hc
    by_contra hn
    have hn' : X.numeric = false := by simpa using hn
    simp [hn'] at hc
  obtain ⟨pred, std, hpred, hstd, hst⟩ := T.hst
  refine ⟨_, _, _, by rw [hst], by rw [hst], by rw [hst], ?_, ?_⟩
  · rw [T.cells rfl hn, hstd, hpred]; rfl
  · rw [T.rows rfl hn, hstd, hpred]; rfl

omit [DecidableEq F] in
theorem cellwiseOutliers_state (c : F) (st : DDCState F) (n p : ℕ) (Z pred : ℕ → ℕ → F) :
    (cellwiseOutliers env c st n p Z pred false).2 = st := by
  unfold cellwiseOutliers
  simp only [Bool.false_eq_true, if_false]
  split <;> rfl

omit [DecidableEq F] in
theorem rowwiseOutliers_state (c : F) (st : DDCState F) (n p : ℕ) (std : ℕ → ℕ → F) :
    (rowwiseOutliers env c st n p std false).2 = st := by
  unfold rowwiseOutliers
  simp only [Bool.false_eq_true, if_false]
  split <;> rfl

omit [DecidableEq F] in
/-- **C65** `predict` never changes the object, fitted or not, whether it returns or raises. -/
theorem C65_predict_no_effect (cfg : DDCConfig F) (st : DDCState F) (X : CellFrame F) (r : Bool) :
    (ddcPredict env cfg st X r).2 = st := by
  unfold ddcPredict
  split
  · rfl
  split
  · rfl
  simp only
  split
  · rfl
  rename_i Z pred _
  have h1 := cellwiseOutliers_state (env := env) cfg.cutoff st (replaceInf env X).n (replaceInf env X).p Z pred
  split
  · rename_i h; rw [h] at h1; exact h1
  rename_i flags std st2 h
  rw [h] at h1
  simp only at h1
  subst h1
  split
  · have h2 := rowwiseOutliers_state (env := env) cfg.cutoff st2 (replaceInf env X).n (replaceInf env X).p std
    split
    · rename_i h; rw [h] at h2; exact h2
    · rename_i h; rw [h] at h2; exact h2
  · rfl

omit [DecidableEq F] in
/-- `impute` never changes the object either. -/
theorem impute_no_effect (cfg : DDCConfig F) (st : DDCState F) (X : CellFrame F) (b : Bool) :
    (ddcImpute env cfg st X b).2 = st := by
  have h1 := C65_predict_no_effect (env := env) cfg st (replaceInf env X) false
  unfold ddcImpute
  split
  · rfl
  split
  · rfl
  simp only
  split
  · rfl
  split
  · split
    · split
      · rename_i h; rw [h] at h1; exact h1
      · rename_i h; rw [h] at h1; exact h1
      · rename_i h; rw [h] at h1; exact h1
    · rfl
  · rfl

/-- **C66** `DDC.impute` changes only flagged or missing cells.  After a `fit` that returns, there is a
prediction `P` for the cells of a row such that, for the training data, `P` is `rescaled_predictions_`, and
for every numeric frame `X` with the right number of columns `impute` returns; the result has, at every
cell, the rounded prediction if the cell is missing (NaN or infinite) or - with `impute_outliers=True` -
flagged by `predict`, and otherwise the cell of `X` itself. -/
theorem C66_impute {cfg : DDCConfig F} {v : Bool} {st₀ st : DDCState F} {Xt : CellFrame F}
    (hnan : env.isNaN env.nan = true) (h : ddcFit env cfg v st₀ Xt = (.ok (), st)) :
    ∃ P : (ℕ → F) → ℕ → F, st.rescaled = some (fun k => P (Xt.cell k)) ∧
      ∀ X : CellFrame F, X.p = Xt.p → X.numeric = true → ∀ b : Bool, ∃ flags res R,
        ddcPredict env cfg st X false = (.ok (.cells flags res), st) ∧
        ddcImpute env cfg st X b = (.ok R, st) ∧
        ∀ k i,
          ((env.isNaN (X.cell k i) = true ∨ env.isInf (X.cell k i) = true ∨ (b = true ∧ flags k i = true)) →
            R k i = env.round3 (P (X.cell k) i)) ∧
          (env.isNaN (X.cell k i) = false → env.isInf (X.cell k i) = false → (b = false ∨ flags k i = false) →
            R k i = X.cell k i) := by
  obtain ⟨hc, ls, ss, corr, slopes, d, rs, t, T⟩ := ddcFit_ok h
  refine ⟨fun row i => env.add (env.mul (rowPred env cfg Xt.p ls ss corr slopes d row i)
    (ss.getD i env.nan)) (ls.getD i env.nan), ?_, ?_⟩
  · obtain ⟨pred, std, hpred, hstd, hst⟩ := T.hst
    rw [hst, hpred]; rfl
  · intro X hp hn b
    refine ⟨_, _, _, T.cells hp hn, T.impute hp hn b, fun k i => ⟨?_, ?_⟩⟩
    · intro hh
      rw [if_pos]
      simp only [replaceInf, Bool.or_eq_true, Bool.and_eq_true]
      rcases hh with hh | hh | hh
      · right; split <;> assumption
      · right; rw [if_pos hh]; exact hnan
      · left; exact hh
    · intro h1 h2 h3
      rw [if_neg]
      · simp [replaceInf, h2]
      · simp only [replaceInf, h2, Bool.or_eq_true, Bool.and_eq_true, not_or, not_and]
        refine ⟨fun hb => ?_, by simp [h1]⟩
        rcases h3 with h3 | h3
        · rw [h3] at hb; cases hb
        · rw [h3]; simp

/-- **C109** The verdict of `predict` on a row depends on that row only: after a `fit` that returns there are
functions of one row giving its cell flags and residuals and its row flag, and `predict` on any numeric frame
with the right number of columns applies them row by row - whatever the other rows of the frame are. -/
theorem C109_rows_independent {cfg : DDCConfig F} {v : Bool} {st₀ st : DDCState F} {Xt : CellFrame F}
    (h : ddcFit env cfg v st₀ Xt = (.ok (), st)) :
    ∃ (C : (ℕ → F) → ℕ → Bool) (S : (ℕ → F) → ℕ → F) (R : (ℕ → F) → Bool),
      ∀ X : CellFrame F, X.p = Xt.p → X.numeric = true →
        ddcPredict env cfg st X false
          = (.ok (.cells (fun k => C (X.cell k)) (fun k => S (X.cell k))), st) ∧
        ddcPredict env cfg st X true = (.ok (.rows (fun k => R (X.cell k))), st) := by
  obtain ⟨hc, ls, ss, corr, slopes, d, rs, t, T⟩ := ddcFit_ok h
  exact ⟨fun row i => env.lt cfg.cutoff (env.abs (rowStd env cfg Xt.p ls ss corr slopes d rs row i)), _,
    rowFlag env cfg Xt.p ls ss corr slopes d rs t, fun X hp hn => ⟨T.cells hp hn, T.rows hp hn⟩⟩

/-! ### C68: use before `fit` -/

/-- The full statement of **C68**: on every object on which no `fit` has returned, `predict` and `impute`
raise the documented ValueError. -/
def C68_statement (env : DDCEnv F) : Prop :=
  ∀ (cfg : DDCConfig F) (calls : List (DDCCall F)),
    (∀ pre c post, calls = pre ++ c :: post → (∃ v X, c = .fit v X) →
      (ddcCall env cfg (ddcHistory env cfg {} pre) c).1 = false) →
    ∀ (X : CellFrame F) (b : Bool),
      (ddcPredict env cfg (ddcHistory env cfg {} calls) X b).1 = .error .valueError ∧
      (ddcImpute env cfg (ddcHistory env cfg {} calls) X b).1 = .error .valueError

theorem fit_error_isFitted {cfg : DDCConfig F} {v : Bool} {st : DDCState F} {X : CellFrame F}
    (h : (ddcFit env cfg v st X).1.toBool = false) : (ddcFit env cfg v st X).2.isFitted = st.isFitted := by
  unfold ddcFit at h ⊢
  split
  · rfl
  · rename_i hc
    simp only [hc] at h ⊢
    split
    · rfl
    rename_i ls ss hs
    simp only [hs] at h
    split
    · rfl
    rename_i Z hz
    simp only [hz] at h
    unfold fitFrom at h ⊢
    simp only at h ⊢
    split
    · rfl
    rename_i corr hcorr
    simp only [hcorr] at h
    split
    · rfl
    rename_i slopes hsl
    simp only [hsl] at h
    split
    · rfl
    rename_i d hd
    simp only [hd] at h
    unfold cellwiseOutliers at h ⊢
    simp only [if_true] at h ⊢
    rcases hrs : (tabulate env (replaceInf env X).p fun i => (env.osm ((colList (replaceInf env X).n
      (fun k i => env.sub (Z k i) (env.mul (predictedValues env (replaceInf env X).p corr slopes
        (fun k i => univariateFlag env cfg.cutoff (Z k i)) k i) (d i))) i).filter env.ok)).map
        Prod.snd) with e | rs
    · simp only [hrs]
    · simp only [hrs] at h ⊢
      unfold rowwiseOutliers at h ⊢
      simp only [if_true] at h ⊢
      split
      · rename_i hh
        split at hh
        · simp only [Prod.mk.injEq] at hh; rw [← hh.2]
        · simp at hh
      · rename_i hh
        rw [hh] at h
        simp [Except.toBool] at h

/-- No call of `predict` or `impute`, and no `fit` that raises, creates `is_fitted_`. -/
theorem history_unfitted (cfg : DDCConfig F) (calls : List (DDCCall F)) (st : DDCState F)
    (h0 : st.isFitted = none)
    (h : ∀ pre c post, calls = pre ++ c :: post → (∃ v X, c = .fit v X) →
      (ddcCall env cfg (ddcHistory env cfg st pre) c).1 = false) :
    (ddcHistory env cfg st calls).isFitted = none := by
  induction calls generalizing st with
  | nil => exact h0
  | cons c cs ih =>
    simp only [ddcHistory]
    refine ih _ ?_ ?_
    · cases c with
      | fit v X =>
        have := h [] (.fit v X) cs rfl ⟨v, X, rfl⟩
        simp only [ddcHistory, ddcCall] at this ⊢
        rw [fit_error_isFitted this, h0]
      | predict r X => simp only [ddcCall]; rw [C65_predict_no_effect, h0]
      | impute b X => simp only [ddcCall]; rw [impute_no_effect, h0]
    · intro pre c' post hcs hfit
      have := h (c :: pre) c' post (by rw [hcs]; rfl) hfit
      simpa only [ddcHistory] using this

/-- **C68** (partial) On every object on which no `fit` has returned, `predict` and `impute` raise - but
AttributeError, not the documented ValueError (missing from the full statement: the class of the exception;
see `C68_violated`). -/
theorem C68_raises_partial (cfg : DDCConfig F) (calls : List (DDCCall F))
    (h : ∀ pre c post, calls = pre ++ c :: post → (∃ v X, c = .fit v X) →
      (ddcCall env cfg (ddcHistory env cfg {} pre) c).1 = false) (X : CellFrame F) (b : Bool) :
    (ddcPredict env cfg (ddcHistory env cfg {} calls) X b).1 = .error .attributeError ∧
    (ddcImpute env cfg (ddcHistory env cfg {} calls) X b).1 = .error .attributeError := by
  have hf := history_unfitted (env := env) cfg calls {} rfl h
  constructor
  · unfold ddcPredict ddcGuards; rw [hf]
  · unfold ddcImpute ddcGuards; rw [hf]

/-- **C68** is violated, in every arithmetic: `predict` on a new object raises AttributeError. -/
theorem C68_violated (env : DDCEnv F) : ¬ C68_statement env := by
  intro h
  have h1 := (h ⟨env.zero, env.zero⟩ [] (by intro pre c post he; simp at he) ⟨0, 0, true, fun _ _ => env.zero⟩ true).1
  have h2 := (C68_raises_partial (env := env) ⟨env.zero, env.zero⟩ [] (by intro pre c post he; simp at he)
    ⟨0, 0, true, fun _ _ => env.zero⟩ true).1
  rw [h2] at h1
  cases h1

/-! ### C112: `verbose` -/

/-- The full statement of **C112**: `verbose=True` changes nothing but the output on the screen. -/
def C112_statement (env : DDCEnv F) : Prop :=
  ∀ (cfg : DDCConfig F) (st : DDCState F) (X : CellFrame F), ddcFit env cfg true st X = ddcFit env cfg false st X

/-- **C112** (partial) With at least ten columns `fit(verbose=True)` has the same outcome and leaves the same
object as `fit(verbose=False)`.  Missing from the full statement: fewer than ten columns, where it fails
(`C112_fewer_than_ten`, `C112_violated`). -/
theorem C112_verbose_partial (cfg : DDCConfig F) (st : DDCState F) (X : CellFrame F) (hp : 10 ≤ X.p) :
    ddcFit env cfg true st X = ddcFit env cfg false st X := by
  have h : ¬ ((replaceInf env X).p / 10 = 0) := by
    show ¬ (X.p / 10 = 0)
    omega
  unfold ddcFit fitFrom robustCorrelation
  simp [h]

/-- **C112** With one to nine columns `fit(verbose=True)` never returns: when everything up to the
correlation step succeeds, it raises ZeroDivisionError. -/
theorem C112_fewer_than_ten (cfg : DDCConfig F) (st : DDCState F) (X : CellFrame F) (h0 : 0 < X.p) (hp : X.p < 10) :
    (ddcFit env cfg true st X).1 ≠ .ok () ∧
    (ddcCheck env X = .ok () → (fitScaler env (replaceInf env X) (List.range X.p) [] []).1 = .ok () →
      (ddcFit env cfg true st X).1 = .error .zeroDivisionError) := by
  have hz : X.p / 10 = 0 := by omega
  have hr : ∀ U, robustCorrelation env cfg.cutoff X.n X.p U true = .error .zeroDivisionError := by
    intro U; unfold robustCorrelation; rw [if_pos ⟨rfl, h0, hz⟩]
  constructor
  · intro h
    obtain ⟨-, ls, ss, corr, slopes, d, rs, t, T⟩ := ddcFit_ok (st' := (ddcFit env cfg true st X).2) (Prod.ext h rfl)
    have := T.hcorr
    rw [hr] at this
    cases this
  · intro hc hs
    rcases he : fitScaler env (replaceInf env X) (List.range X.p) [] [] with ⟨r, ls, ss⟩
    rw [he] at hs
    simp only at hs
    subst hs
    obtain ⟨a, b, h1, h2, -, h4, h5⟩ := fitScaler_ok _ _ _ _ _ he
    have hl : ls.length = X.p ∧ ss.length = X.p := by rw [h1, h2]; simp [h4, h5]
    have hp' : (replaceInf env X).p = X.p := rfl
    have hn' : (replaceInf env X).n = X.n := rfl
    unfold ddcFit
    simp only [hc, hp', he, standardize, hl, and_self, if_true]
    unfold fitFrom
    simp only [hn', hr]

end
end Robpy
