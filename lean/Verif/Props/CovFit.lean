import Verif.Props.Covariance
import Mathlib.Data.Rat.Floor

/-! # Properties C43, C81-C83: the state of a covariance estimator after `fit` -/

namespace Robpy
open Matrix

section
variable {K : Type} [Field K] [LinearOrder K] {m : Type} [Fintype m] [DecidableEq m]

/-- The rows of a data set without NaN. -/
def finiteCells (X : List (m → K)) : List (m → Option K) := X.map fun x j => some (x j)

omit [Fintype m] [DecidableEq m] [LinearOrder K] in
theorem finiteCells_getD (X : List (m → K)) :
    ((finiteCells X).map fun r j => (r j).getD 0) = X := by
  unfold finiteCells
  rw [List.map_map]
  exact List.map_id X

omit [Field K] [LinearOrder K] [Fintype m] [DecidableEq m] in
theorem finiteCells_valid (X : List (m → K)) : ¬ ∃ r ∈ finiteCells X, ∃ j, r j = none := by
  rintro ⟨r, hr, j, hj⟩
  obtain ⟨x, -, rfl⟩ := List.mem_map.1 hr
  simp at hj

/-- `fit` on data without NaN. -/
theorem covFit_finite (ac : Bool) (cc : CalcCov K m) (st : CovState K m) (X : List (m → K)) (hX : X ≠ []) :
    covFit ac cc st (finiteCells X) = covFitValid ac cc st X := by
  unfold covFit
  rw [if_neg, finiteCells_getD]
  rintro (h | h)
  · exact hX (List.map_eq_nil_iff.1 h)
  · exact finiteCells_valid X h

/-! ## C81 -/

/-- **C81**, full statement: `fit` succeeds on finite data whenever the estimator computes a matrix for it. -/
def C81_statement (K : Type) [Field K] [LinearOrder K] : Prop :=
  ∀ (p : ℕ) (ac : Bool) (cc : CalcCov K (Fin p)) (st : CovState K (Fin p)) (X : List (Fin p → K))
    (cov : Matrix (Fin p) (Fin p) K), X ≠ [] →
    (∀ st1, (cc X st1).1 = .ok (some cov)) → cov.det ≠ 0 → (covFit ac cc st (finiteCells X)).1 = .ok ()

/-- **C81**: exactly when `fit` succeeds on non-empty finite data: more than one column, and both the estimate and
the classical covariance matrix are regular. -/
theorem C81_iff_partial (ac : Bool) (cc : CalcCov K m) (st : CovState K m) (X : List (m → K)) (hX : X ≠ []) :
    (covFit ac cc st (finiteCells X)).1 = .ok () ↔
      Fintype.card m ≠ 1 ∧ (npCov X).det ≠ 0 ∧
      ∃ cov, (cc X { st with location_ := some (if ac then fun _ => 0 else meanRow X) }).1 = .ok (some cov) ∧
        cov.det ≠ 0 := by
  rw [covFit_finite ac cc st X hX]
  unfold covFitValid
  simp only
  rcases hc : cc X { st with location_ := some (if ac then fun _ => 0 else meanRow X) } with ⟨(e | _ | cov), st2⟩
  · simp
  · simp
  · simp only
    by_cases hd : cov.det = 0
    · rw [sqMahalanobis_singular hd]
      simp [hd]
    · rw [sqMahalanobis_eq hd]
      simp only
      by_cases h1 : Fintype.card m = 1
      · simp [h1]
      · rw [if_neg h1]
        by_cases h2 : (npCov X).det = 0
        · rw [sqMahalanobis_singular h2]
          simp [h2]
        · rw [sqMahalanobis_eq h2]
          simp [h1, h2, hd]

/-- **C81**: no estimator can be fitted on a single column. -/
theorem C81_single_column (ac : Bool) (cc : CalcCov K m) (st : CovState K m) (X : List (m → K)) (hX : X ≠ [])
    (h1 : Fintype.card m = 1) : (covFit ac cc st (finiteCells X)).1 ≠ .ok () := by
  rw [Ne, C81_iff_partial ac cc st X hX]
  exact fun h => h.1 h1

/-! ## C88, C89 -/

/-- **C88**, **C89**: after a successful fit `covariance_` is the matrix computed by the estimator; the robust distances
are the Mahalanobis distances (squared here) of the rows with respect to `location_` and `covariance_`; the
non-robust distances use the classical covariance matrix, but also `location_`. -/
theorem C88_distances (ac : Bool) (cc : CalcCov K m) (st st' : CovState K m) (X : List (m → K)) (hX : X ≠ [])
    (loc : m → K) (h : covFit ac cc st (finiteCells X) = (.ok (), st')) (hl : st'.location_ = some loc) :
    ∃ cov, (cc X { st with location_ := some (if ac then fun _ => 0 else meanRow X) }).1 = .ok (some cov) ∧
      cov.det ≠ 0 ∧ (npCov X).det ≠ 0 ∧ st'.covariance_ = some cov ∧
      st'.robustDist = some (X.map fun x => (x - loc) ⬝ᵥ (cov⁻¹ *ᵥ (x - loc))) ∧
      st'.classicDist = some (X.map fun x => (x - loc) ⬝ᵥ ((npCov X)⁻¹ *ᵥ (x - loc))) := by
  rw [covFit_finite ac cc st X hX] at h
  unfold covFitValid at h
  simp only at h
  rcases hc : cc X { st with location_ := some (if ac then fun _ => 0 else meanRow X) } with ⟨(e | _ | cov), st2⟩
  · rw [hc] at h; simp at h
  · rw [hc] at h; simp at h
  rw [hc] at h
  simp only at h
  by_cases hd : cov.det = 0
  · rw [sqMahalanobis_singular hd] at h; simp at h
  by_cases h1 : Fintype.card m = 1
  · rw [sqMahalanobis_eq hd] at h; simp [h1] at h
  by_cases h2 : (npCov X).det = 0
  · rw [sqMahalanobis_eq hd, sqMahalanobis_singular h2] at h; simp [h1] at h
  rw [sqMahalanobis_eq hd, sqMahalanobis_eq h2] at h
  simp only [if_neg h1] at h
  obtain ⟨-, rfl⟩ := Prod.mk.inj h
  simp only at hl
  refine ⟨cov, rfl, hd, h2, rfl, ?_, ?_⟩ <;> simp only [hl, Option.getD_some, quadForm_eq]

/-- **C89**, the part that holds: the non-robust distances use the classical covariance matrix and `location_`; so
they are the classical Mahalanobis distances for every estimator that reports the mean. -/
theorem C89_classical_partial (ac : Bool) (cc : CalcCov K m) (st st' : CovState K m) (X : List (m → K)) (hX : X ≠ [])
    (loc : m → K) (h : covFit ac cc st (finiteCells X) = (.ok (), st')) (hl : st'.location_ = some loc) :
    ∃ S : Matrix m m K, IsUnit S.det ∧
      (∀ i j, S i j = (X.map fun x => (x i - (X.map fun y => y i).sum / X.length) *
        (x j - (X.map fun y => y j).sum / X.length)).sum / ((X.length : K) - 1)) ∧
      st'.classicDist = some (X.map fun x => (x - loc) ⬝ᵥ (S⁻¹ *ᵥ (x - loc))) := by
  obtain ⟨cov, -, -, h3, -, -, h6⟩ := C88_distances ac cc st st' X hX loc h hl
  exact ⟨npCov X, isUnit_iff_ne_zero.2 h3, fun i j => by simp [npCov, meanRow, mean], h6⟩

/-! ## C43 -/

/-- **C43**: data rejected by the validation leaves the object unchanged. -/
theorem C43_invalid_partial (ac : Bool) (cc : CalcCov K m) (st : CovState K m) (cells : List (m → Option K))
    (h : cells = [] ∨ ∃ r ∈ cells, ∃ j, r j = none) :
    covFit ac cc st cells = (.error .valueError, st) := by
  unfold covFit
  rw [if_pos h]

/-- **C43**: if the computation of the matrix fails, `covariance_` and both lists of distances are those of the
previous fit (for every estimator which does not assign them itself). -/
theorem C43_covariance_partial (ac : Bool) (cc : CalcCov K m) (st : CovState K m) (X : List (m → K)) (hX : X ≠ [])
    (hcc : ∀ st1, (cc X st1).2.covariance_ = st1.covariance_ ∧ (cc X st1).2.robustDist = st1.robustDist ∧
      (cc X st1).2.classicDist = st1.classicDist)
    (h : ∀ st1 cov, (cc X st1).1 ≠ .ok (some cov)) :
    (covFit ac cc st (finiteCells X)).1 ≠ .ok () ∧
    (covFit ac cc st (finiteCells X)).2.covariance_ = st.covariance_ ∧
    (covFit ac cc st (finiteCells X)).2.robustDist = st.robustDist ∧
    (covFit ac cc st (finiteCells X)).2.classicDist = st.classicDist := by
  rw [covFit_finite ac cc st X hX]
  unfold covFitValid
  simp only
  have h1 := hcc { st with location_ := some (if ac then fun _ => 0 else meanRow X) }
  have h2 := h { st with location_ := some (if ac then fun _ => 0 else meanRow X) }
  rcases hc : cc X { st with location_ := some (if ac then fun _ => 0 else meanRow X) } with ⟨(e | _ | cov), st2⟩
  · rw [hc] at h1; simpa using h1
  · rw [hc] at h1; simpa using h1
  · rw [hc] at h2; exact absurd rfl (h2 cov)

/-- **C43**: a fit that succeeds does not depend on what happened before, for every estimator whose result and
location depend on the data and the location set by `fit` only. -/
theorem C43_refit_partial (ac : Bool) (cc : CalcCov K m)
    (hcc : ∀ X (st st' : CovState K m), st.location_ = st'.location_ →
      (cc X st).1 = (cc X st').1 ∧ (cc X st).2.location_ = (cc X st').2.location_)
    (st st' : CovState K m) (X : List (m → K)) (hX : X ≠ []) :
    (covFit ac cc st (finiteCells X)).1 = (covFit ac cc st' (finiteCells X)).1 ∧
    ((covFit ac cc st (finiteCells X)).1 = .ok () →
      (covFit ac cc st (finiteCells X)).2.location_ = (covFit ac cc st' (finiteCells X)).2.location_ ∧
      (covFit ac cc st (finiteCells X)).2.covariance_ = (covFit ac cc st' (finiteCells X)).2.covariance_ ∧
      (covFit ac cc st (finiteCells X)).2.robustDist = (covFit ac cc st' (finiteCells X)).2.robustDist ∧
      (covFit ac cc st (finiteCells X)).2.classicDist = (covFit ac cc st' (finiteCells X)).2.classicDist) := by
  rw [covFit_finite ac cc st X hX, covFit_finite ac cc st' X hX]
  unfold covFitValid
  simp only
  have h := hcc X { st with location_ := some (if ac then fun _ => 0 else meanRow X) }
    { st' with location_ := some (if ac then fun _ => 0 else meanRow X) } rfl
  rcases hc : cc X { st with location_ := some (if ac then fun _ => 0 else meanRow X) } with ⟨r, st2⟩
  rcases hc' : cc X { st' with location_ := some (if ac then fun _ => 0 else meanRow X) } with ⟨r', st2'⟩
  rw [hc, hc'] at h
  obtain ⟨h1, h2⟩ := h
  simp only at h1 h2
  subst h1
  rcases r with e | _ | cov
  · simp
  · simp
  · simp only [← h2]
    rcases sqMahalanobis X (st2.location_.getD fun _ => 0) cov with e | d
    · simp
    · simp only
      by_cases hp : Fintype.card m = 1
      · simp [hp]
      · simp only [if_neg hp]
        rcases sqMahalanobis X (st2.location_.getD fun _ => 0) (npCov X) with e | d'
        · simp
        · simp [h2]

/-- The FastMCD method does not assign the attributes named in `C43_covariance_partial`. -/
theorem fastMCDCalc_keeps [FloorSemiring K] {G : Type} (srt : ArgSort K) (rng : Rng G) (cfg : MCDConfig K)
    (fuel : ℕ) (g : G) (X : List (m → K)) (st : CovState K m) :
    (fastMCDCalc srt rng cfg fuel g X st).2.covariance_ = st.covariance_ ∧
    (fastMCDCalc srt rng cfg fuel g X st).2.robustDist = st.robustDist ∧
    (fastMCDCalc srt rng cfg fuel g X st).2.classicDist = st.classicDist := by
  unfold fastMCDCalc
  rcases fastMCD srt rng cfg X fuel g with _ | (e | fit) <;> simp

end

/-- **C43**, full statement, for FastMCD: a failing second fit leaves location and covariance of the first. -/
def C43_statement (K : Type) [Field K] [LinearOrder K] [IsStrictOrderedRing K] [FloorSemiring K] : Prop :=
  ∀ (p : ℕ) (G : Type) (srt : ArgSort K) (rng : Rng G) (cfg : MCDConfig K) (fuel : ℕ) (g : G) (ac : Bool)
    (X1 X2 : List (Fin p → Option K)) (st1 st2 : CovState K (Fin p)) (e : PyErr),
    covFit ac (fastMCDCalc srt rng cfg fuel g) CovState.new X1 = (.ok (), st1) →
    covFit ac (fastMCDCalc srt rng cfg fuel g) st1 X2 = (.error e, st2) →
    st2.location_ = st1.location_ ∧ st2.covariance_ = st1.covariance_

/-- Twelve equal rows: every subset is singular. -/
def c43Bad : List (Fin 2 → Option ℚ) := finiteCells (List.replicate 12 ![100, 100])

/-- The first fit succeeds, the second raises, and the location is then that of the second data set. -/
def c43Check : Bool :=
  let cc := fastMCDCalc (argsortStable ℚ) rngFirst c36Cfg 2 ()
  let r1 := covFit false cc CovState.new (finiteCells c36Data)
  let r2 := covFit false cc r1.2 c43Bad
  match r1.1, r2.1 with
  | .ok (), .error _ => decide (r2.2.location_ ≠ r1.2.location_)
  | _, _ => false

theorem c43_check : c43Check = true := by decide +kernel

/-- `C81_iff_partial` and `C43_refit_partial` apply to a fit that succeeds. -/
example : (covFit false (fastMCDCalc (argsortStable ℚ) rngFirst c36Cfg 2 ()) CovState.new (finiteCells c36Data)).1 =
    .ok () := by
  have hc := c43_check
  unfold c43Check at hc
  simp only at hc
  split at hc
  · assumption
  · simp at hc

/-- FastMCD meets the hypothesis of `C43_refit_partial`. -/
theorem fastMCDCalc_pure {K : Type} [Field K] [LinearOrder K] {m : Type} [Fintype m] [DecidableEq m]
    [FloorSemiring K] {G : Type} (srt : ArgSort K) (rng : Rng G) (cfg : MCDConfig K) (fuel : ℕ) (g : G)
    (X : List (m → K)) (st st' : CovState K m) (h : st.location_ = st'.location_) :
    (fastMCDCalc srt rng cfg fuel g X st).1 = (fastMCDCalc srt rng cfg fuel g X st').1 ∧
    (fastMCDCalc srt rng cfg fuel g X st).2.location_ = (fastMCDCalc srt rng cfg fuel g X st').2.location_ := by
  unfold fastMCDCalc
  rcases fastMCD srt rng cfg X fuel g with _ | (e | fit) <;> simp [h]

/-- Twelve equal rows meet the hypotheses of `C43_covariance_partial`. -/
example (st : CovState ℚ (Fin 2)) :
    (covFit false (fastMCDCalc (argsortStable ℚ) rngFirst c36Cfg 2 ()) st c43Bad).2.covariance_ = st.covariance_ := by
  have hb : (match fastMCD (argsortStable ℚ) rngFirst c36Cfg (List.replicate 12 ![(100:ℚ), 100]) 2 () with
      | some (.ok _) => false | _ => true) = true := by decide +kernel
  refine (C43_covariance_partial false _ st _ (by simp) (fun st1 => fastMCDCalc_keeps _ _ _ _ _ _ st1) ?_).2.1
  intro st1 cov
  unfold fastMCDCalc
  rcases hf : fastMCD (argsortStable ℚ) rngFirst c36Cfg (List.replicate 12 ![(100:ℚ), 100]) 2 () with _ | (e | fit)
  · simp
  · simp
  · rw [hf] at hb; simp at hb

/-- A NaN cell meets the hypothesis of `C43_invalid_partial`. -/
example (cc : CalcCov ℚ (Fin 2)) (st : CovState ℚ (Fin 2)) :
    covFit false cc st [![some 1, none]] = (.error .valueError, st) :=
  C43_invalid_partial _ _ _ _ (Or.inr ⟨_, List.mem_singleton.2 rfl, 1, rfl⟩)

/-- **C43** is violated by the code: `location_` is overwritten before the computation that fails. -/
theorem C43_violated : ¬ C43_statement ℚ := by
  intro h
  have hc := c43_check
  unfold c43Check at hc
  simp only at hc
  split at hc
  · rename_i u e h1 h2
    have := (h 2 Unit (argsortStable ℚ) rngFirst c36Cfg 2 () false (finiteCells c36Data) c43Bad _ _ e
      (Prod.ext h1 rfl) (Prod.ext h2 rfl)).1
    exact (of_decide_eq_true hc) this
  · simp at hc

/-- **C81** is violated by the code: a single column. -/
theorem C81_violated : ¬ C81_statement ℚ := by
  intro h
  have := h 1 false (fun _ st => (.ok (some 1), st)) CovState.new [![0], ![1]] 1 (by simp) (fun _ => rfl) (by simp)
  exact C81_single_column _ _ _ _ (by simp) (by simp) this

/-- **C89**, full statement, for FastMCD: the non-robust distances are those from the mean of the data. -/
def C89_statement (K : Type) [Field K] [LinearOrder K] [IsStrictOrderedRing K] [FloorSemiring K] : Prop :=
  ∀ (p : ℕ) (G : Type) (srt : ArgSort K) (rng : Rng G) (cfg : MCDConfig K) (fuel : ℕ) (g : G) (ac : Bool)
    (X : List (Fin p → K)) (st : CovState K (Fin p)),
    covFit ac (fastMCDCalc srt rng cfg fuel g) CovState.new (finiteCells X) = (.ok (), st) →
    ∃ d, sqMahalanobis X (meanRow X) (npCov X) = .ok d ∧ st.classicDist = some d

def c89Check : Bool :=
  let r := covFit false (fastMCDCalc (argsortStable ℚ) rngFirst c36Cfg 2 ()) CovState.new (finiteCells c36Data)
  match r.1, sqMahalanobis c36Data (meanRow c36Data) (npCov c36Data) with
  | .ok (), .ok d => decide (r.2.classicDist ≠ some d)
  | _, _ => false

theorem c89_check : c89Check = true := by decide +kernel

/-- **C89** is violated by the code: the distances called non-robust are measured from the robust location. -/
theorem C89_violated : ¬ C89_statement ℚ := by
  intro h
  have hc := c89_check
  unfold c89Check at hc
  simp only at hc
  split at hc
  · rename_i d h1 h2
    obtain ⟨d', e1, e2⟩ := h 2 Unit (argsortStable ℚ) rngFirst c36Cfg 2 () false c36Data _ (Prod.ext h1 rfl)
    rw [h2] at e1
    exact of_decide_eq_true hc (by rw [e2, Except.ok.inj e1])
  · simp at hc

/-- `C88_distances` and `C89_classical_partial` apply to a fit of FastMCD. -/
example : ∃ st' loc, covFit false (fastMCDCalc (argsortStable ℚ) rngFirst c36Cfg 2 ()) CovState.new
    (finiteCells c36Data) = (.ok (), st') ∧ st'.location_ = some loc := by
  have hb : (match covFit false (fastMCDCalc (argsortStable ℚ) rngFirst c36Cfg 2 ()) CovState.new
      (finiteCells c36Data) with | (.ok (), s) => s.location_.isSome | _ => false) = true := by decide +kernel
  split at hb
  · rename_i s hs
    obtain ⟨l, hl⟩ := Option.isSome_iff_exists.1 hb
    exact ⟨s, l, hs, hl⟩
  · simp at hb

/-! ## C83 -/

/-- **C83**, full statement: with `assume_centered=True` the location after a fit is 0. -/
def C83_statement (K : Type) [Field K] [LinearOrder K] [IsStrictOrderedRing K] [FloorSemiring K] : Prop :=
  ∀ (p : ℕ) (G : Type) (srt : ArgSort K) (rng : Rng G) (cfg : MCDConfig K) (fuel : ℕ) (g : G)
    (X : List (Fin p → Option K)) (st : CovState K (Fin p)),
    covFit true (fastMCDCalc srt rng cfg fuel g) CovState.new X = (.ok (), st) → st.location_ = some fun _ => 0

def c83Check : Bool :=
  let r := covFit true (fastMCDCalc (argsortStable ℚ) rngFirst c36Cfg 2 ()) CovState.new (finiteCells c36Data)
  match r.1 with
  | .ok () => decide (r.2.location_ ≠ some fun _ => 0)
  | _ => false

theorem c83_check : c83Check = true := by decide +kernel

/-- **C83** is violated by the code for FastMCD: the location of the data is reported. -/
theorem C83_violated : ¬ C83_statement ℚ := by
  intro h
  have hc := c83_check
  unfold c83Check at hc
  simp only at hc
  split at hc
  · rename_i h1
    exact of_decide_eq_true hc (h 2 Unit (argsortStable ℚ) rngFirst c36Cfg 2 () (finiteCells c36Data) _ (Prod.ext h1 rfl))
  · simp at hc

section
variable {p : ℕ}

theorem wrappingCalc_location (b c q1 q2 : ℝ) (le se : List ℝ → ℝ) (X : List (Fin p → ℝ)) (st : CovState ℝ (Fin p)) :
    (wrappingCalc b c q1 q2 le se X st).2.location_ = st.location_ := by
  unfold wrappingCalc
  simp only
  split_ifs <;> rfl

theorem kendallCalc_location (scale : List ℝ → Except PyErr ℝ) (X : List (Fin p → ℝ)) (st : CovState ℝ (Fin p)) :
    (kendallCalc scale X st).2.location_ = st.location_ := by
  unfold kendallCalc
  rcases mapExcept scale ((List.finRange p).map (column X)) with e | s
  · rfl
  · simp only
    split_ifs <;> rfl

/-- For an estimator that does not assign `location_`, the location after `fit` is the one set by `fit`. -/
theorem covFit_location (ac : Bool) (cc : CalcCov ℝ (Fin p)) (hcc : ∀ X st, (cc X st).2.location_ = st.location_)
    (st : CovState ℝ (Fin p)) (X : List (Fin p → ℝ)) (hX : X ≠ []) :
    (covFit ac cc st (finiteCells X)).2.location_ = some (if ac then fun _ => 0 else meanRow X) := by
  rw [covFit_finite ac cc st X hX]
  unfold covFitValid
  simp only
  have h := hcc X { st with location_ := some (if ac then fun _ => 0 else meanRow X) }
  rcases hc : cc X { st with location_ := some (if ac then fun _ => 0 else meanRow X) } with ⟨(e | _ | cov), st2⟩
  · rw [hc] at h; exact h
  · rw [hc] at h; exact h
  · rw [hc] at h
    simp only at h ⊢
    rcases sqMahalanobis X (st2.location_.getD fun _ => 0) cov with e | d
    · exact h
    · simp only
      by_cases h1 : Fintype.card (Fin p) = 1
      · rw [if_pos h1]; exact h
      · rw [if_neg h1]
        rcases sqMahalanobis X (st2.location_.getD fun _ => 0) (npCov X) with e | d'
        · exact h
        · exact h

/-- **C83**, the part that holds: WrappingCovariance respects `assume_centered=True`. -/
theorem C83_wrapping_partial (b c q1 q2 : ℝ) (le se : List ℝ → ℝ) (st : CovState ℝ (Fin p))
    (X : List (Fin p → ℝ)) (hX : X ≠ []) :
    (covFit true (wrappingCalc b c q1 q2 le se) st (finiteCells X)).2.location_ = some fun _ => 0 := by
  rw [covFit_location true _ (wrappingCalc_location b c q1 q2 le se) st X hX]
  rfl

example : (covFit true (wrappingCalc 1 2 1 1 (fun _ => 0) fun _ => 1) CovState.new
    (finiteCells [![1, 2], ![3, 5], ![4, 4]])).2.location_ = some (fun _ : Fin 2 => (0:ℝ)) :=
  C83_wrapping_partial _ _ _ _ _ _ _ _ (by simp)

/-! ## C82 -/

/-- **C82**, what the code does: the location reported by KendallTau and WrappingCovariance is the plain mean. -/
theorem C82_mean (scale : List ℝ → Except PyErr ℝ) (b c q1 q2 : ℝ) (le se : List ℝ → ℝ) (st : CovState ℝ (Fin p))
    (X : List (Fin p → ℝ)) (hX : X ≠ []) :
    (∃ mu, (covFit false (kendallCalc scale) st (finiteCells X)).2.location_ = some mu ∧
      ∀ j, mu j = (X.map fun x => x j).sum / X.length) ∧
    ∃ mu, (covFit false (wrappingCalc b c q1 q2 le se) st (finiteCells X)).2.location_ = some mu ∧
      ∀ j, mu j = (X.map fun x => x j).sum / X.length := by
  refine ⟨⟨_, covFit_location false _ (kendallCalc_location scale) st X hX, fun j => ?_⟩,
    ⟨_, covFit_location false _ (wrappingCalc_location b c q1 q2 le se) st X hX, fun j => ?_⟩⟩ <;>
  simp [meanRow, mean]

/-- **C82**, full statement, for KendallTau: replacing the last row of a data set cannot move the location of a
successful fit arbitrarily far. -/
def C82_statement : Prop :=
  ∀ (p : ℕ) (scale : List ℝ → Except PyErr ℝ) (X : List (Fin p → ℝ)), 3 ≤ X.length →
    ∃ B : ℝ, ∀ (x : Fin p → ℝ) (mu : Fin p → ℝ) (st : CovState ℝ (Fin p)),
      covFit false (kendallCalc scale) CovState.new (finiteCells (X ++ [x])) = (.ok (), st) →
      st.location_ = some mu → ∀ j, |mu j| ≤ B

/-- Four points; the first coordinate of the last one is free. -/
def c82Data (t : ℝ) : List (Fin 2 → ℝ) := [![0, 0], ![1, 2], ![2, 1]] ++ [![t, 3]]

theorem c82_tau (t : ℝ) (ht : 2 < t) : Spec.tauB (c82Data t) 0 1 = 2 / 3 := by
  have h1 : Real.sign t = 1 := Real.sign_of_pos (by linarith)
  have h2 : Real.sign (t - 1) = 1 := Real.sign_of_pos (by linarith)
  have h3 : Real.sign (t - 2) = 1 := Real.sign_of_pos (by linarith)
  have h4 : Real.sign (-t) = -1 := Real.sign_of_neg (by linarith)
  have h5 : Real.sign (1 - t) = -1 := Real.sign_of_neg (by linarith)
  have h6 : Real.sign (2 - t) = -1 := Real.sign_of_neg (by linarith)
  have p1 : Real.sign 1 = 1 := Real.sign_one
  have p2 : Real.sign 2 = 1 := Real.sign_of_pos (by norm_num)
  have p3 : Real.sign 3 = 1 := Real.sign_of_pos (by norm_num)
  have n1 : Real.sign (-1) = -1 := Real.sign_of_neg (by norm_num)
  have n2 : Real.sign (-2) = -1 := Real.sign_of_neg (by norm_num)
  have n3 : Real.sign (-3) = -1 := Real.sign_of_neg (by norm_num)
  have e : ∀ i j : Fin 2, Spec.signSum (c82Data t) i j = if i = j then 12 else 8 := by
    intro i j
    fin_cases i <;> fin_cases j <;>
      norm_num [Spec.signSum, c82Data, h1, h2, h3, h4, h5, h6, p1, p2, p3, n1, n2, n3]
  unfold Spec.tauB
  rw [e, e, e, if_neg (by decide), if_pos rfl, if_pos rfl, Real.sqrt_mul_self (by norm_num)]
  norm_num

theorem c82_cov (t : ℝ) : (npCov (c82Data t)).det = (3 / 2 * t ^ 2 - 6 * t + 27 / 2) / 9 := by
  rw [Matrix.det_fin_two]
  simp [npCov, meanRow, mean, c82Data]
  ring

/-- **C82** is violated by the code: one row moves the location of KendallTau arbitrarily far. -/
theorem C82_violated : ¬ C82_statement := by
  intro h
  obtain ⟨B, hB⟩ := h 2 (fun _ => .ok 1) [![0, 0], ![1, 2], ![2, 1]] (by simp)
  set t := 4 * |B| + 10 with ht
  have ht2 : 2 < t := by have := abs_nonneg B; linarith
  obtain ⟨cov, st', hk⟩ := C41_returns (fun _ => .ok 1) (c82Data t)
    { (CovState.new : CovState ℝ (Fin 2)) with location_ := some (meanRow (c82Data t)) } (fun _ => ⟨1, rfl⟩)
    (fun i => ⟨![0, 0], by simp [c82Data], ![1, 2], by simp [c82Data], by fin_cases i <;> norm_num⟩)
  obtain ⟨-, -, s, R, hs, -, -, hR1, -, hR, -, hc⟩ := C41_kendall _ _ _ _ _ hk
  have hs1 : ∀ i, s i = 1 := fun i => (Except.ok.inj (hs i)).symm
  have hdet : cov.det ≠ 0 := by
    rw [Matrix.det_fin_two]
    have hsym : Spec.tauB (c82Data t) 1 0 = 2 / 3 := by
      rw [tauB_eq, corr_symm, ← tauB_eq, c82_tau t ht2]
    simp only [hc, hs1, hR1, hR 0 1 (by decide), hR 1 0 (by decide), c82_tau t ht2, hsym]
    norm_num
  have hX : c82Data t ≠ [] := by simp [c82Data]
  have hok : (covFit false (kendallCalc fun _ => .ok 1) CovState.new (finiteCells (c82Data t))).1 = .ok () := by
    rw [C81_iff_partial _ _ _ _ hX]
    refine ⟨by simp, ?_, cov, by simpa using congrArg Prod.fst hk, hdet⟩
    rw [c82_cov]
    have : 0 < 3 / 2 * t ^ 2 - 6 * t + 27 / 2 := by nlinarith [sq_nonneg (t - 2)]
    positivity
  have hloc := covFit_location false _ (kendallCalc_location fun _ => .ok 1) CovState.new (c82Data t) hX
  have := hB ![t, 3] (meanRow (c82Data t)) _ (Prod.ext hok rfl) hloc 0
  have hm : meanRow (c82Data t) 0 = (3 + t) / 4 := by
    simp [meanRow, mean, c82Data]; ring
  rw [hm] at this
  have h1 := le_abs_self ((3 + t) / 4)
  have h2 := le_abs_self B
  linarith

end
end Robpy
