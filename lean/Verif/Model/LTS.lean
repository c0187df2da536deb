import Verif.Model.Utils
import Mathlib.Analysis.SpecialFunctions.Pow.Real

/-! Model of `robpy/regression/lts.py` (FastLTS).  An observation is a pair of a row of features and a target. -/

namespace Robpy

/-- A fitted `LinearRegression` with its intercept and coefficients, robpy/regression/lts.py 187-188, 219. -/
@[ext] structure LinModel (p : ℕ) where
  intercept : ℝ
  coef : Fin p → ℝ

section
variable {p : ℕ}

/-- `LinearRegression.predict` for one row, used in lts.py 156, 241, 301. -/
def LinModel.predict (m : LinModel p) (x : Fin p → ℝ) : ℝ := m.intercept + ∑ j, x j * m.coef j

/-- `y - model.predict(X)` for one observation, lts.py 139, 242, 301. -/
def resid (m : LinModel p) (d : (Fin p → ℝ) × ℝ) : ℝ := d.2 - m.predict d.1

/-- Sum of squared residuals, as in lts.py 243. -/
def ssr (D : List ((Fin p → ℝ) × ℝ)) (m : LinModel p) : ℝ := (D.map fun d => resid m d ^ 2).sum

/-- Contract of `LinearRegression().fit` (lts.py 141, 219, 315) on a sample that is not empty: least squares with an intercept,
and the shortest coefficient vector if there are several (scipy's `lstsq` on centred data). -/
structure LinReg (p : ℕ) where
  fit : List ((Fin p → ℝ) × ℝ) → LinModel p
  isMin : ∀ D, D ≠ [] → ∀ m, ssr D (fit D) ≤ ssr D m
  minNorm : ∀ D, D ≠ [] → ∀ m, ssr D m = ssr D (fit D) → ∑ j, (fit D).coef j ^ 2 ≤ ∑ j, m.coef j ^ 2

/-- `LinearRegression().fit(X, y)`, lts.py 141, 219, 315: no rows or no columns raise ValueError. -/
def lrFit (LR : LinReg p) (D : List ((Fin p → ℝ) × ℝ)) : Except PyErr (LinModel p) :=
  open Classical in if D = [] ∨ p = 0 then .error .valueError else .ok (LR.fit D)

/-- `_get_loss_value`, lts.py 223-243. -/
noncomputable def ltsLoss (D : List ((Fin p → ℝ) × ℝ)) (H : List ℕ) (m : LinModel p) : ℝ := ssr (takeAt D H) m / H.length

/-- `_get_h_subset`, lts.py 287-302. -/
def ltsSubset (srt : ArgSort ℝ) (D : List ((Fin p → ℝ) × ℝ)) (h : ℕ) (m : LinModel p) : List ℕ :=
  (srt.toFun (D.map fun d => |resid m d|)).take h

/-- `_apply_C_step`, lts.py 305-316. -/
def ltsCStep (LR : LinReg p) (srt : ArgSort ℝ) (D : List ((Fin p → ℝ) × ℝ)) (h : ℕ) (m : LinModel p) :
    Except PyErr (List ℕ × LinModel p) :=
  (lrFit LR (takeAt D (ltsSubset srt D h m))).map fun m' => (ltsSubset srt D h m, m')

/-- `n_initial_c_steps` C-steps, lts.py 190-191; subset and model. -/
def ltsCSteps (LR : LinReg p) (srt : ArgSort ℝ) (D : List ((Fin p → ℝ) × ℝ)) (h : ℕ) :
    ℕ → List ℕ × LinModel p → Except PyErr (List ℕ × LinModel p)
  | 0, s => .ok s
  | k + 1, s => (ltsCStep LR srt D h s.2).bind (ltsCSteps LR srt D h k)

/-- A model with its loss and its subset, as in the three lists of lts.py 173-175. -/
structure LTSCand (p : ℕ) where
  model : LinModel p
  loss : ℝ
  subset : List ℕ

/-- The parameters of `FastLTSRegression`, lts.py 16-25.  `random_state` and the counts are not negative. -/
structure LTSConfig where
  alpha : ℝ
  nInitialSubsets : ℕ
  nInitialCSteps : ℕ
  nBestModels : ℕ
  reweighting : Bool
  tolerance : ℝ
  randomState : ℕ

/-- One pass of the loop in `_apply_initial_C_steps`, lts.py 176-195 and 199-220: pass `i` uses the seed `random_state + i`.
Drawing more rows than there are raises ValueError.  `iw` are the initial weights, of the right length. -/
noncomputable def ltsInitial (LR : LinReg p) (srt : ArgSort ℝ) (ch : Choice ℕ) (cfg : LTSConfig)
    (D : List ((Fin p → ℝ) × ℝ)) (h : ℕ) (iw : Option (LinModel p)) (i : ℕ) : Except PyErr (LTSCand p) :=
  if D.length < p + 1 then .error .valueError
  else
    (lrFit LR (takeAt D (ch.pick (cfg.randomState + i) D.length (p + 1)))).bind fun m0 =>
      (ltsCSteps LR srt D h cfg.nInitialCSteps (ltsSubset srt D h (iw.getD m0), iw.getD m0)).map fun s =>
        { model := s.2, loss := ltsLoss D s.1 s.2, subset := s.1 }

/-- One pass of `while True` in `_apply_C_steps_untill_convergence`, lts.py 271-284; the state is the current model and the previous
loss.  The number of iterations is not modelled. -/
noncomputable def ltsStep (LR : LinReg p) (srt : ArgSort ℝ) (D : List ((Fin p → ℝ) × ℝ)) (h : ℕ) (tol : ℝ)
    (s : LinModel p × ℝ) : Except PyErr ((LinModel p × ℝ) ⊕ LTSCand p) :=
  (ltsCStep LR srt D h s.1).map fun r =>
    if s.2 - ltsLoss D r.1 r.2 ≤ tol then .inr { model := r.2, loss := ltsLoss D r.1 r.2, subset := r.1 }
    else .inl (r.2, ltsLoss D r.1 r.2)

/-- `_apply_C_steps_untill_convergence`, lts.py 246-284. -/
noncomputable def ltsConverge (LR : LinReg p) (srt : ArgSort ℝ) (D : List ((Fin p → ℝ) × ℝ)) (h : ℕ) (tol : ℝ) (fuel : ℕ)
    (m : LinModel p) (loss : ℝ) : Run (LTSCand p) := runLoop (ltsStep LR srt D h tol) fuel (m, loss)

/-- The loop over the best models, lts.py 119-132. -/
noncomputable def ltsImprove (LR : LinReg p) (srt : ArgSort ℝ) (D : List ((Fin p → ℝ) × ℝ)) (h : ℕ) (tol : ℝ) (fuel : ℕ) :
    List (LTSCand p) → LTSCand p → Run (LTSCand p)
  | [], best => some (.ok best)
  | c :: l, best => (ltsConverge LR srt D h tol fuel c.model c.loss).andThen fun cur =>
      ltsImprove LR srt D h tol fuel l (if cur.loss < best.loss then cur else best)

/-- `h`, lts.py 94-103; the warning is not modelled. -/
noncomputable def ltsH (alpha : ℝ) (n p : ℕ) : Except PyErr ℕ :=
  if alpha < 0.5 ∨ 1 < alpha then .error .valueError else .ok (max ⌊n * alpha⌋₊ ((n + p + 1) / 2))

/-- The search in `fit`, lts.py 94-132: the best candidate before reweighting.  `best_model_idxs[0]` raises IndexError if there is
no candidate. -/
noncomputable def ltsSearch (LR : LinReg p) (srt : ArgSort ℝ) (ch : Choice ℕ) (cfg : LTSConfig) (D : List ((Fin p → ℝ) × ℝ))
    (iw : Option (LinModel p)) (fuel : ℕ) : Run (LTSCand p) :=
  Run.andThen (some (ltsH cfg.alpha D.length p)) fun h =>
    Run.andThen (some (mapExcept (ltsInitial LR srt ch cfg D h iw) (List.range cfg.nInitialSubsets))) fun cands =>
      match takeAt cands ((srt.toFun (cands.map LTSCand.loss)).take cfg.nBestModels) with
      | [] => some (.error .indexError)
      | c :: l => ltsImprove LR srt D h cfg.tolerance fuel (c :: l) c

/-- `np.std`, lts.py 140. -/
noncomputable def npStd (l : List ℝ) : ℝ := Real.sqrt ((l.map fun x => (x - l.sum / l.length) ^ 2).sum / l.length)

/-- `np.abs(residuals / np.std(residuals)) <= norm.ppf(0.9875)` for one residual, lts.py 140; division by a zero standard deviation
gives inf or NaN and the comparison is false.  `q` is the quantile. -/
noncomputable def ltsKeep (q s r : ℝ) : Bool := decide (s ≠ 0) && decide (|r / s| ≤ q)

/-- `X[mask], y[mask]` as positions, lts.py 140-142. -/
noncomputable def ltsMask (q : ℝ) (D : List ((Fin p → ℝ) × ℝ)) (m : LinModel p) : List ℕ :=
  (List.range D.length).filter fun i => (D[i]?).any fun d => ltsKeep q (npStd (D.map (resid m))) (resid m d)

/-- The attributes of a `FastLTSRegression` object set by `fit`, lts.py 133-146; the outer `none` means that the attribute does not
exist, `scale_ = some none` is inf or NaN. -/
structure LTSState (p : ℕ) where
  model : Option (LinModel p)
  bestH : Option (List ℕ)
  scale_ : Option (Option ℝ)

/-- `FastLTSRegression.fit`, lts.py 62-148, with the state afterwards.  `corr`, `corrRew` are the correction factors
(`get_correction_factor`, `get_correction_factor_reweighting`) for the numbers of columns and rows and `alpha`. -/
noncomputable def ltsFit (LR : LinReg p) (srt : ArgSort ℝ) (ch : Choice ℕ) (q : ℝ) (corr corrRew : ℕ → ℕ → ℝ → Option ℝ)
    (cfg : LTSConfig) (st : LTSState p) (D : List ((Fin p → ℝ) × ℝ)) (iw : Option (LinModel p)) (fuel : ℕ) :
    Option (Except PyErr Unit × LTSState p) :=
  match ltsSearch LR srt ch cfg D iw fuel with
  | none => none
  | some (.error e) => some (.error e, st)
  | some (.ok best) =>
    let st1 : LTSState p :=
      { model := some best.model, bestH := some best.subset
        scale_ := some ((corr p D.length cfg.alpha).map fun f => f * Real.sqrt best.loss) }
    if cfg.reweighting then
      match lrFit LR (takeAt D (ltsMask q D best.model)) with
      | .error e => some (.error e, st1)
      | .ok m =>
        some (.ok (), { st1 with
          model := some m
          scale_ := some ((corrRew p D.length cfg.alpha).map fun f =>
            f * Real.sqrt (ltsLoss D (ltsMask q D best.model) m)) })
    else some (.ok (), st1)

/-- `FastLTSRegression.predict`, lts.py 150-156. -/
def ltsPredict (st : LTSState p) (X : List (Fin p → ℝ)) : Except PyErr (List ℝ) :=
  match st.model with
  | none => .error .notFittedError
  | some m => .ok (X.map m.predict)

end

section Correction

/-- `1 - np.exp(e) / n**k`, lts.py 333-334, 342-343, 364-365 and 388-389, 397-398, 419-420. -/
noncomputable def fpAt (e k : ℝ) (n : ℕ) : ℝ := 1 - Real.exp e / (n : ℝ) ^ k

/-- `coeffic_500`, `coeffic_875` for two or more columns, lts.py 345-362 and 400-417: the solution of the two linear equations
`c0 - c1 * log(q_i p^2) = log(-a_i / p^b_i)` with `q = 3, 5`, here written out. -/
noncomputable def corrCoef (a3 b3 a5 b5 : ℝ) (p : ℕ) : ℝ × ℝ :=
  let y3 := Real.log (-a3 / (p : ℝ) ^ b3)
  let y5 := Real.log (-a5 / (p : ℝ) ^ b5)
  let c1 := (y3 - y5) / (Real.log (5 * p ^ 2) - Real.log (3 * p ^ 2))
  (y3 + c1 * Real.log (3 * p ^ 2), c1)

/-- `fp_500_n`, `fp_875_n` of `get_correction_factor`, lts.py 332-334, 341-365. -/
noncomputable def fpRaw (p n : ℕ) : ℝ × ℝ :=
  if p = 0 then (fpAt 0.262024211897096 0.604756680630497 n, fpAt (-0.351584646688712) 1.01646567502486 n)
  else if p = 1 then (fpAt 0.630869217886906 0.650789250442946 n, fpAt 0.565065391014791 1.03044199012509 n)
  else
    let c500 := corrCoef (-0.746945886714663) 0.56264937192689 (-0.535478048924724) 0.543323462033445 p
    let c875 := corrCoef (-0.458580153984614) 1.12236071104403 (-0.267178168108996) 1.1022478781154 p
    (fpAt c500.1 c500.2 n, fpAt c875.1 c875.2 n)

/-- `fp_500_n`, `fp_875_n` of `get_correction_factor_reweighting`, lts.py 387-389, 396-420. -/
noncomputable def fpRew (p n : ℕ) : ℝ × ℝ :=
  if p = 0 then (fpAt 1.11098143415027 1.5182890270453 n, fpAt (-0.66046776772861) 0.88939595831888 n)
  else if p = 1 then (fpAt 1.58609654199605 1.46340162526468 n, fpAt 0.391653958727332 1.03167487483316 n)
  else
    let c500 := corrCoef (-0.773365715932083) 2.02013996406346 (-0.337571678986723) 2.02037467454833 p
    let c875 := corrCoef (-0.474174840843602) 1.39681715704956 (-0.276640353112907) 1.42543242287677 p
    (fpAt c500.1 c500.2 n, fpAt c875.1 c875.2 n)

/-- `fp_alpha_n`, lts.py 335-338, 367-370 and 390-393, 422-425. -/
noncomputable def fpAlpha (f : ℝ × ℝ) (alpha : ℝ) : ℝ :=
  if alpha ≤ 0.875 then f.1 + (f.2 - f.1) / 0.375 * (alpha - 0.5) else f.2 + (1 - f.2) / 0.125 * (alpha - 0.875)

/-- The rest of both functions, lts.py 330-331, 339, 371 and 385-386, 394, 426.  `none` is inf or NaN: division by zero, or the
square root of a negative number. -/
noncomputable def corrFrom (f : ℝ × ℝ) (p : ℕ) (alpha : ℝ) : Except PyErr (Option ℝ) :=
  if alpha < 0.5 ∨ 1 < alpha then .error .valueError
  else if p = 0 then .ok (if fpAlpha f alpha ≤ 0 then none else some (1 / Real.sqrt (fpAlpha f alpha)))
  else .ok (if fpAlpha f alpha = 0 then none else some (1 / fpAlpha f alpha))

/-- `get_correction_factor`, lts.py 319-371. -/
noncomputable def ltsCorr (p n : ℕ) (alpha : ℝ) : Except PyErr (Option ℝ) := corrFrom (fpRaw p n) p alpha

/-- `get_correction_factor_reweighting`, lts.py 374-426. -/
noncomputable def ltsCorrRew (p n : ℕ) (alpha : ℝ) : Except PyErr (Option ℝ) := corrFrom (fpRew p n) p alpha

end Correction
end Robpy
