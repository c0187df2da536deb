import Verif.Props.CellPredict
import Verif.Props.CellMCDWitness
import Verif.Lemmas.Median

/-! # C119 to C122: what a successful fit of CellMCD guarantees; units; repeated fits -/

namespace Robpy
open Matrix

section
variable {n p : ℕ}

/-! ## States of a run that ended normally, without any assumption on the data -/

theorem bind_ok {α β : Type} {x : Except PyErr α} {f : α → Except PyErr β} {b : β} (h : x.bind f = .ok b) :
    ∃ a, x = .ok a ∧ f a = .ok b := by
  cases x with
  | error e => cases h
  | ok a => exact ⟨a, rfl, h⟩

theorem map_ok {α β : Type} {x : Except PyErr α} {f : α → β} {b : β} (h : x.map f = .ok b) :
    ∃ a, x = .ok a ∧ f a = b := by
  cases x with
  | error e => cases h
  | ok a => exact ⟨a, rfl, Except.ok.inj h⟩

theorem obsVals_present {x : Fin p → Option ℝ} {P : Fin p → Bool} (h : obsVals x P ≠ none) :
    ∀ j, P j = true → x j ≠ none := by
  intro j hj hx
  exact h (obsVals_none hj hx)

theorem emStep_noMissing {X : Cells n p} {W : CellFlags n p} {mu : Fin p → ℝ}
    {S Sinv : Matrix (Fin p) (Fin p) ℝ} {r} (h : emStep X W mu S Sinv = .ok r) : Spec.NoMissing X W := by
  unfold emStep at h
  obtain ⟨g, hg, -⟩ := map_ok h
  intro i j hij
  have hi := collect_inv hg i
  refine obsVals_present (x := X i) (P := W i) ?_ j hij
  intro hnone
  unfold imputeRow at hi
  rw [hnone] at hi
  cases hi

/-- What a C-step that did not raise has computed. -/
theorem cellIter_parts {env : CellEnv p} {minEig : ℝ} (ha : 0 < minEig) {X : Cells n p} {q : Fin p → ℝ} {h : ℕ}
    {s s' : CellState n p} {conv : ℝ} (hi : cellIter env minEig X q h s = .ok (s', conv)) :
    Spec.NoMissing X s'.W ∧ s'.cov.PosDef ∧ s'.covInv = s'.cov⁻¹ ∧
      (s'.cov - minEig • (1 : Matrix (Fin p) (Fin p) ℝ)).PosSemidef := by
  unfold cellIter at hi
  obtain ⟨W, -, h2⟩ := bind_ok hi
  obtain ⟨r, h3, h4⟩ := bind_ok h2
  obtain ⟨ci, h5, h6⟩ := bind_ok h4
  obtain ⟨o, -, h8⟩ := map_ok h6
  have hs : s' = _ := (congrArg Prod.fst h8).symm
  have hb := C33_bound env.eigh env.order r.2 minEig
  have hpd : (truncatedCovariance env.eigh env.order r.2 minEig).PosDef := by
    have h2 : (minEig • (1 : Matrix (Fin p) (Fin p) ℝ)).PosDef := Matrix.PosDef.one.smul ha
    have := h2.add_posSemidef hb.2
    rwa [add_sub_cancel] at this
  rw [npInv_eq _ hpd.det_pos.ne'] at h5
  rw [hs]
  exact ⟨emStep_noMissing h3, hpd, (Except.ok.inj h5).symm, hb.2⟩

theorem cellLoop_parts {env : CellEnv p} {minEig crit : ℝ} (ha : 0 < minEig) {X : Cells n p} {q : Fin p → ℝ}
    {h : ℕ} : ∀ (m : ℕ) {s s' : CellState n p}, Spec.NoMissing X s.W → s.cov.PosDef → s.covInv = s.cov⁻¹ →
      cellLoop env minEig crit X q h m s = .ok s' →
      Spec.NoMissing X s'.W ∧ s'.cov.PosDef ∧ s'.covInv = s'.cov⁻¹
  | 0, s, s', h1, h2, h3, hl => by
    have := Except.ok.inj hl
    subst this
    exact ⟨h1, h2, h3⟩
  | m + 1, s, s', h1, h2, h3, hl => by
    rw [cellLoop] at hl
    obtain ⟨⟨t, conv⟩, e1, e2⟩ := bind_ok hl
    obtain ⟨a, b, c, -⟩ := cellIter_parts ha e1
    simp only at e2
    split_ifs at e2
    · rw [← Except.ok.inj e2]
      exact ⟨a, h2, h3⟩
    · exact cellLoop_parts ha m a b c e2
    · rw [← Except.ok.inj e2]
      exact ⟨a, b, c⟩

theorem cSteps_parts {env : CellEnv p} {cfg : CellConfig} (ha : 0 < cfg.minEig) {alpha : ℝ} {X : Cells n p}
    {loc0 : Fin p → ℝ} {cov0 : Matrix (Fin p) (Fin p) ℝ} (hS : cov0.PosDef) {s : CellState n p}
    (h : cStepsUntilConvergence env cfg alpha X loc0 cov0 cov0⁻¹ = .ok s) :
    Spec.NoMissing X s.W ∧ s.cov.PosDef ∧ s.covInv = s.cov⁻¹ := by
  unfold cStepsUntilConvergence at h
  by_cases h1 : cfg.maxSteps < -1
  · rw [if_pos h1] at h; cases h
  rw [if_neg h1] at h
  obtain ⟨o, -, h2⟩ := bind_ok h
  split_ifs at h2
  exact cellLoop_parts ha _ (initialW_noMissing X) hS rfl h2

/-! ## What the fit takes from the initial estimator -/

/-- `InitialDDCW` returns a positive definite covariance and its inverse when `min_eigenvalue` is
positive (proved for the model of it in `Verif/Props/DDCWCov.lean`). -/
def DDCWContract (ext : CellExt p) : Prop :=
  ∀ {n : ℕ} (alpha a : ℝ) (X : Cells n p) r, 0 < a → ext.ddcw alpha a X = .ok r → r.2.1.PosDef ∧ r.2.2 = r.2.1⁻¹

/-- The parts of a fit that ended normally. -/
theorem cellFitFrom_parts {env : CellEnv p} {ext : CellExt p} {cfg : CellConfig} {alpha : ℝ} {X : Cells n p}
    {r : CellResult n p} (h : cellFitFrom env ext cfg alpha X = .ok r) :
    ∃ ls init s pr, (∀ j, ext.est (List.ofFn fun i => X i j) = .ok (ls j)) ∧
      ext.ddcw alpha cfg.minEig (scaleCells ls X) = .ok init ∧
      cStepsUntilConvergence env cfg alpha (clearBeyond3 (scaleCells ls X)) init.1 init.2.1 init.2.2 = .ok s ∧
      makePredictions (clearBeyond3 (scaleCells ls X)) s.cov s.covInv s.location s.W = .ok pr ∧
      r = cellBack X ls s pr := by
  unfold cellFitFrom at h
  split_ifs at h
  obtain ⟨ls, h1, h2⟩ := bind_ok h
  obtain ⟨-, -, h3⟩ := bind_ok h2
  obtain ⟨init, h4, h5⟩ := bind_ok h3
  obtain ⟨s, h6, h7⟩ := bind_ok h5
  obtain ⟨pr, h8, h9⟩ := map_ok h7
  exact ⟨ls, init, s, pr, collect_inv h1, h4, h6, h8, h9.symm⟩

theorem clear_present {ls : Fin p → ℝ × ℝ} {X : Cells n p} {i : Fin n} {j : Fin p}
    (h : clearBeyond3 (scaleCells ls X) i j ≠ none) : X i j ≠ none := by
  intro hx
  exact h (by simp [clearBeyond3, scaleCells, hx])

/-- A row whose clean cells are present is predicted without NaN, with positive variances. -/
theorem predictRow_total (mu : Fin p → ℝ) {S : Matrix (Fin p) (Fin p) ℝ} (hS : S.PosDef) {w : Fin p → Bool}
    {x : Fin p → Option ℝ} (hx : ∀ j, w j = true → x j ≠ none) :
    ∃ r, predictRow mu S S⁻¹ w x = .ok r ∧ ∀ j, (∃ a, (r j).1 = some a) ∧ 0 < (r j).2 := by
  by_cases hw : ∃ j, w j = true
  · obtain ⟨r, h1, h2⟩ := C46_conditional_partial mu hS hx hw
    refine ⟨r, h1, fun j => ?_⟩
    obtain ⟨a, ha, hc⟩ := h2 j
    refine ⟨⟨a, ha⟩, ?_⟩
    rw [(isConditional_unique hS hc (regress_isConditional hS mu (fun k => (x k).getD 0) _ j)).2]
    exact (negTwoLogLik_insert hS mu 0 (Function.update w j false) (by simp)).1
  · rcases Nat.eq_zero_or_pos p with h | h
    · subst h
      unfold predictRow
      rw [if_pos (fun j => j.elim0)]
      exact ⟨_, rfl, fun j => j.elim0⟩
    · have : w = fun _ => false := by
        funext j
        by_contra hj
        exact hw ⟨j, by simpa using hj⟩
      subst this
      obtain ⟨r, h1, h2⟩ := C46_all_missing_partial h mu S S⁻¹ x
      refine ⟨r, h1, fun j => ⟨⟨_, (h2 j).1⟩, ?_⟩⟩
      rw [(h2 j).2]
      exact hS.inv.diag_pos

/-! ## C119, C120 -/

/-- **C119**: after every successful fit the imputed data keep the clean cells, have the prediction at the
flagged and missing cells, and contain no missing value. -/
theorem C119_imputed {env : CellEnv p} {ext : CellExt p} (hd : DDCWContract ext) {cfg : CellConfig}
    (ha : 0 < cfg.minEig) {alpha : ℝ} {X : Cells n p} {r : CellResult n p}
    (h : cellFitFrom env ext cfg alpha X = .ok r) (i : Fin n) (j : Fin p) :
    (r.W i j = true → r.imputed i j = X i j) ∧ (r.W i j = false → r.imputed i j = r.predictions i j) ∧
      (X i j = none → r.W i j = false) ∧ r.imputed i j ≠ none := by
  obtain ⟨ls, init, s, pr, -, h2, h3, h4, rfl⟩ := cellFitFrom_parts h
  obtain ⟨hS, hinv⟩ := hd _ _ _ _ ha h2
  rw [hinv] at h3
  obtain ⟨hW, hpd, hci⟩ := cSteps_parts ha hS h3
  rw [hci] at h4
  have hrow := collect_inv h4 i
  obtain ⟨r', e, hr'⟩ := predictRow_total s.location hpd (w := s.W i) (x := clearBeyond3 (scaleCells ls X) i)
    fun j hj => hW i j hj
  rw [e] at hrow
  have := Except.ok.inj hrow
  subst this
  obtain ⟨⟨a, haj⟩, -⟩ := hr' j
  refine ⟨fun hw => ?_, fun hw => ?_, fun hx => ?_, ?_⟩
  · simp only [cellBack] at hw ⊢
    rw [if_pos hw]
  · simp only [cellBack] at hw ⊢
    rw [if_neg (by simp [hw])]
  · by_contra hw
    have hw' : s.W i j = true := by simpa [cellBack] using hw
    exact clear_present (hW i j hw') hx
  · simp only [cellBack]
    split_ifs with hw
    · exact clear_present (hW i j hw)
    · rw [haj]; simp

/-- **C120**: after every successful fit with positive column scales the covariance is positive definite, and
every conditional standard deviation (by which the residuals are divided) is positive. -/
theorem C120_positive {env : CellEnv p} {ext : CellExt p} (hd : DDCWContract ext)
    (he : ∀ l m s, ext.est l = .ok (m, s) → 0 < s) {cfg : CellConfig}
    (ha : 0 < cfg.minEig) {alpha : ℝ} {X : Cells n p} {r : CellResult n p}
    (h : cellFitFrom env ext cfg alpha X = .ok r) :
    r.covariance.PosDef ∧ ∀ i j, 0 < r.stds i j := by
  obtain ⟨ls, init, s, pr, h1, h2, h3, h4, rfl⟩ := cellFitFrom_parts h
  obtain ⟨hS, hinv⟩ := hd _ _ _ _ ha h2
  rw [hinv] at h3
  obtain ⟨hW, hpd, hci⟩ := cSteps_parts ha hS h3
  rw [hci] at h4
  have hpos : ∀ j, 0 < (ls j).2 := fun j => he _ (ls j).1 (ls j).2 (h1 j)
  constructor
  · have hD : IsUnit (Matrix.diagonal fun j => (ls j).2) := by
      rw [Matrix.isUnit_iff_isUnit_det, Matrix.det_diagonal]
      exact (Finset.prod_pos fun j _ => hpos j).ne'.isUnit
    have hconj := (Matrix.IsUnit.posDef_star_right_conjugate_iff hD).2 hpd
    have hstar : star (Matrix.diagonal fun j => (ls j).2) = Matrix.diagonal fun j => (ls j).2 := by
      rw [Matrix.star_eq_conjTranspose, Matrix.diagonal_conjTranspose]
      rfl
    rw [hstar] at hconj
    exact hconj
  · intro i j
    have hrow := collect_inv h4 i
    obtain ⟨r', e, hr'⟩ := predictRow_total s.location hpd (w := s.W i) (x := clearBeyond3 (scaleCells ls X) i)
      fun j hj => hW i j hj
    rw [e] at hrow
    have := Except.ok.inj hrow
    subst this
    exact mul_pos (Real.sqrt_pos.2 (hr' j).2) (hpos j)

/-- Conditions under which the fit ends normally. -/
theorem cellFitFrom_ok {env : CellEnv p} {ext : CellExt p} (hd : DDCWContract ext) {cfg : CellConfig}
    (ha : 0 < cfg.minEig) (hm : 1 ≤ cfg.maxSteps) (hc : cfg.crit < 1) (hcut : cfg.cutoff ≤ 3) (hn : 1 < n)
    {alpha : ℝ} {X : Cells n p}
    (hmad : ∀ j s, madRaw ((List.ofFn fun i => X i j).filterMap id) = some s → 1e-8 ≤ s) {ls : Fin p → ℝ × ℝ}
    (hls : ∀ j, ext.est (List.ofFn fun i => X i j) = .ok (ls j))
    (hck : cellCheck cfg.cutoff alpha (scaleCells ls X) = .ok ()) {init}
    (hi : ext.ddcw alpha cfg.minEig (scaleCells ls X) = .ok init) :
    ∃ r, cellFitFrom env ext cfg alpha X = .ok r ∧
      Spec.AtLeast (cellH alpha n) r.W := by
  obtain ⟨hS, hinv⟩ := hd _ _ _ _ ha hi
  have hh := cellCheck_enough hcut (by omega) hck
  obtain ⟨s, e, -⟩ := cSteps_run env ha hm hc hn hh init.1 hS
  have hWs := C44_result_partial env hcut init.1 ha hn hm hc hS hck e
  obtain ⟨hW, hpd, hci⟩ := cSteps_parts ha hS e
  choose pr hpr using fun i => predictRow_total s.location hpd (w := s.W i)
    (x := clearBeyond3 (scaleCells ls X) i) fun j hj => hW i j hj
  refine ⟨cellBack X ls s pr, ?_, hWs.2⟩
  unfold cellFitFrom
  rw [if_neg (by rintro ⟨j, t, h1, h2⟩; exact absurd (hmad j t h1) (not_le.2 h2)), collect_ok hls]
  simp only [Except.bind]
  rw [hck]
  simp only
  rw [hi]
  simp only
  rw [hinv, e]
  simp only
  unfold makePredictions
  rw [hci, collect_ok fun i => (hpr i).1]
  rfl

/-! ## C121: change of units -/

/-- The data after a change of units in every column. -/
def changeUnits (c d : Fin p → ℝ) (X : Cells n p) : Cells n p := fun i j => (X i j).map fun x => c j * x + d j

/-- The result after a change of units: the same flags, the other values in the new units. -/
noncomputable def CellResult.changeUnits (c d : Fin p → ℝ) (r : CellResult n p) : CellResult n p :=
  { W := r.W
    location := fun j => c j * r.location j + d j
    covariance := fun j k => c j * r.covariance j k * c k
    predictions := fun i j => (r.predictions i j).map fun v => c j * v + d j
    stds := fun i j => c j * r.stds i j
    imputed := fun i j => (r.imputed i j).map fun v => c j * v + d j }

/-- The column estimator follows a change of units. -/
def UnitEquivariant (est : List (Option ℝ) → Except PyErr (ℝ × ℝ)) : Prop :=
  ∀ (l : List (Option ℝ)) (a b : ℝ), 0 < a →
    est (l.map fun x => x.map fun v => a * v + b) = (est l).map fun ms => (a * ms.1 + b, a * ms.2)

/-- **C121**, the claim: a change of units changes the results in the same way. -/
def C121_statement : Prop :=
  ∀ (n p : ℕ) (env : CellEnv p) (ext : CellExt p) (cfg : CellConfig) (alpha : ℝ) (X : Cells n p)
    (c d : Fin p → ℝ), UnitEquivariant ext.est → DDCWContract ext → (∀ j, 0 < c j) →
    cellFitFrom env ext cfg alpha (changeUnits c d X) =
      (cellFitFrom env ext cfg alpha X).map (CellResult.changeUnits c d)

theorem collect_congr_map {α : Type} {m : ℕ} {f g : Fin m → Except PyErr α} {u : Fin m → α → α}
    (h : ∀ i, g i = (f i).map (u i)) : collect g = (collect f).map fun r i => u i (r i) := by
  induction m with
  | zero =>
    unfold collect
    simp only [Except.map]
    congr 1
    funext i
    exact i.elim0
  | succ m ih =>
    unfold collect
    rw [h 0, ih (f := fun i => f i.succ) (g := fun i => g i.succ) (u := fun i => u i.succ) fun i => h i.succ]
    cases f 0 with
    | error e => rfl
    | ok a =>
      simp only [Except.map, Except.bind]
      cases collect fun i => f i.succ with
      | error e => rfl
      | ok r =>
        simp only
        congr 1
        funext i
        refine Fin.cases ?_ (fun i => ?_) i
        · simp
        · simp

theorem scaleCells_units {c d : Fin p → ℝ} (hc : ∀ j, 0 < c j) (ls : Fin p → ℝ × ℝ) (X : Cells n p) :
    scaleCells (fun j => (c j * (ls j).1 + d j, c j * (ls j).2)) (changeUnits c d X) = scaleCells ls X := by
  funext i j
  unfold scaleCells changeUnits
  cases X i j with
  | none => rfl
  | some x =>
    simp only [Option.map_some, Option.bind_some]
    have h0 : c j * (ls j).2 = 0 ↔ (ls j).2 = 0 := by simp [(hc j).ne']
    simp only [h0]
    split_ifs with h
    · rfl
    · congr 1
      have := (hc j).ne'
      field_simp
      ring

theorem CellResult.eq_of {a b : CellResult n p} (h1 : a.W = b.W) (h2 : a.location = b.location)
    (h3 : a.covariance = b.covariance) (h4 : a.predictions = b.predictions) (h5 : a.stds = b.stds)
    (h6 : a.imputed = b.imputed) : a = b := by
  cases a; cases b
  simp only at h1 h2 h3 h4 h5 h6
  subst h1 h2 h3 h4 h5 h6
  rfl

theorem cellBack_units {c d : Fin p → ℝ} (X : Cells n p) (ls : Fin p → ℝ × ℝ) (s : CellState n p)
    (pr : Fin n → Fin p → Option ℝ × ℝ) :
    cellBack (Robpy.changeUnits c d X) (fun j => (c j * (ls j).1 + d j, c j * (ls j).2)) s pr =
      (cellBack X ls s pr).changeUnits c d := by
  refine CellResult.eq_of rfl ?_ ?_ ?_ ?_ ?_
  · funext j
    simp only [cellBack, CellResult.changeUnits]
    ring
  · ext j k
    simp only [cellBack, CellResult.changeUnits, Matrix.mul_diagonal, Matrix.diagonal_mul]
    ring
  · funext i j
    simp only [cellBack, CellResult.changeUnits, Option.map_map]
    congr 1
    funext v
    simp only [Function.comp_apply]
    ring
  · funext i j
    simp only [cellBack, CellResult.changeUnits]
    ring
  · funext i j
    simp only [cellBack, CellResult.changeUnits]
    split_ifs with hw
    · rfl
    · rw [Option.map_map]
      congr 1
      funext v
      simp only [Function.comp_apply]
      ring

/-- **C121** when in both units no column has a median absolute deviation below 1e-8.  Missing for the full
claim: the bound 1e-8 is absolute, so a change of units can make the fit raise (`C121_violated`). -/
theorem C121_units_partial (env : CellEnv p) {ext : CellExt p} (he : UnitEquivariant ext.est) (cfg : CellConfig)
    (alpha : ℝ) (X : Cells n p) {c d : Fin p → ℝ} (hc : ∀ j, 0 < c j)
    (hmad : ∀ j s, madRaw ((List.ofFn fun i => X i j).filterMap id) = some s → 1e-8 ≤ s)
    (hmad' : ∀ j s, madRaw ((List.ofFn fun i => changeUnits c d X i j).filterMap id) = some s → 1e-8 ≤ s) :
    cellFitFrom env ext cfg alpha (changeUnits c d X) =
      (cellFitFrom env ext cfg alpha X).map (CellResult.changeUnits c d) := by
  unfold cellFitFrom
  rw [if_neg (by rintro ⟨j, t, h1, h2⟩; exact absurd (hmad' j t h1) (not_le.2 h2)),
    if_neg (by rintro ⟨j, t, h1, h2⟩; exact absurd (hmad j t h1) (not_le.2 h2))]
  rw [collect_congr_map (f := fun j => ext.est (List.ofFn fun i => X i j))
    (u := fun j ms => (c j * ms.1 + d j, c j * ms.2)) fun j => by
      rw [← he _ _ _ (hc j), List.map_ofFn]
      rfl]
  cases collect fun j => ext.est (List.ofFn fun i => X i j) with
  | error e => rfl
  | ok ls =>
    simp only [Except.map, Except.bind]
    rw [scaleCells_units hc]
    cases cellCheck cfg.cutoff alpha (scaleCells ls X) with
    | error e => rfl
    | ok u =>
      simp only
      cases ext.ddcw alpha cfg.minEig (scaleCells ls X) with
      | error e => rfl
      | ok init =>
        simp only
        cases cStepsUntilConvergence env cfg alpha (clearBeyond3 (scaleCells ls X)) init.1 init.2.1 init.2.2 with
        | error e => rfl
        | ok s =>
          simp only
          cases makePredictions (clearBeyond3 (scaleCells ls X)) s.cov s.covInv s.location s.W with
          | error e => rfl
          | ok pr =>
            simp only
            congr 1
            exact cellBack_units X ls s pr

end

/-! ### Examples: two columns of twenty cells -/

/-- Twenty rows; the first column has eight missing cells, the other cells are -1 or 1. -/
noncomputable def witness122 : Cells 20 2 := fun i j =>
  if j = 0 then if i.1 < 8 then none else if i.1 < 14 then some (-1) else some 1
  else if i.1 < 10 then some (-1) else some 1

theorem median_pm {k : ℕ} (hk : 0 < k) :
    npMedian (List.replicate k (-1 : ℝ) ++ List.replicate k 1) = some 0 := by
  have hs : npSort (List.replicate k (-1 : ℝ) ++ List.replicate k 1) =
      List.replicate k (-1 : ℝ) ++ List.replicate k 1 := by
    refine npSort_eq_self ?_
    rw [List.pairwise_append]
    refine ⟨by simp [List.pairwise_replicate], by simp [List.pairwise_replicate], ?_⟩
    intro a ha b hb
    rw [(List.mem_replicate.1 ha).2, (List.mem_replicate.1 hb).2]
    norm_num
  have hl : (List.replicate k (-1 : ℝ) ++ List.replicate k 1).length = 2 * k := by
    simp; ring
  unfold npMedian
  simp only [hs, hl]
  rw [if_neg (by omega), if_neg (by omega), show 2 * k / 2 = k by omega,
    List.getElem?_append_left (by simp; omega), List.getElem?_append_right (by simp)]
  simp [List.getElem?_replicate, hk]

theorem mad_pm {k : ℕ} (hk : 0 < k) : madRaw (List.replicate k (-1 : ℝ) ++ List.replicate k 1) = some 1 := by
  have hmed := median_pm hk
  unfold madRaw
  rw [hmed]
  simp only [sub_zero, List.map_append, List.map_replicate, abs_neg, abs_one]
  rw [← List.replicate_add]
  unfold npMedian
  rw [npSort_eq_self (by simp [List.pairwise_replicate])]
  simp only [List.length_replicate]
  rw [if_neg (by omega), if_neg (by omega)]
  simp [List.getElem?_replicate]
  rw [if_pos (by omega), if_pos (by omega)]
  norm_num

theorem witness122_col0 : (List.ofFn fun i => witness122 i 0).filterMap id =
    List.replicate 6 (-1 : ℝ) ++ List.replicate 6 1 := by
  unfold witness122
  simp [List.ofFn_succ, List.replicate, Fin.succ]

theorem witness122_col1 : (List.ofFn fun i => witness122 i 1).filterMap id =
    List.replicate 10 (-1 : ℝ) ++ List.replicate 10 1 := by
  unfold witness122
  simp [List.ofFn_succ, List.replicate, Fin.succ]

theorem witness122_mad (j : Fin 2) : madRaw ((List.ofFn fun i => witness122 i j).filterMap id) = some 1 := by
  fin_cases j
  · simp only [Fin.zero_eta]
    rw [witness122_col0, mad_pm (by norm_num)]
  · simp only [Fin.mk_one]
    rw [witness122_col1, mad_pm (by norm_num)]

/-- Median and median absolute deviation of the present cells, and a fixed initial estimate. -/
noncomputable def exampleExt (p : ℕ) : CellExt p :=
  { est := fun l =>
      match npMedian (l.filterMap id), madRaw (l.filterMap id) with
      | some m, some s => if s = 0 then .error .valueError else .ok (m, s)
      | _, _ => .error .valueError
    ddcw := fun _ _ _ => .ok (0, 1, 1) }

theorem exampleExt_contract (p : ℕ) : DDCWContract (exampleExt p) := by
  intro n alpha a X r _ h
  rw [← Except.ok.inj h]
  exact ⟨Matrix.PosDef.one, by simp⟩

theorem exampleExt_pos (p : ℕ) : ∀ l m s, (exampleExt p).est l = .ok (m, s) → 0 < s := by
  intro l m s h
  simp only [exampleExt] at h
  split at h
  · rename_i m' s' h1 h2
    split_ifs at h with h0
    have := Except.ok.inj h
    rw [← (Prod.mk.inj this).2]
    exact lt_of_le_of_ne (madRaw_nonneg h2) (Ne.symm h0)
  · cases h

theorem exampleExt_units (p : ℕ) : UnitEquivariant (exampleExt p).est := by
  intro l a b ha
  have hl : (l.map fun x => x.map fun v => a * v + b).filterMap id = (l.filterMap id).map fun v => a * v + b := by
    induction l with
    | nil => rfl
    | cons x l ih => cases x <;> simp_all
  simp only [exampleExt]
  rw [hl, npMedian_affine, madRaw_affine]
  cases npMedian (l.filterMap id) with
  | none => rfl
  | some m =>
    cases madRaw (l.filterMap id) with
    | none => rfl
    | some s =>
      simp only [Option.map_some, abs_of_pos ha]
      by_cases hs : s = 0
      · simp [hs, Except.map]
      · rw [if_neg hs, if_neg (mul_ne_zero ha.ne' hs)]
        rfl

theorem witness122_est (j : Fin 2) : (exampleExt 2).est (List.ofFn fun i => witness122 i j) = .ok (0, 1) := by
  simp only [exampleExt]
  rw [witness122_mad]
  have : npMedian ((List.ofFn fun i => witness122 i j).filterMap id) = some 0 := by
    fin_cases j
    · simp only [Fin.zero_eta]
      rw [witness122_col0, median_pm (by norm_num)]
    · simp only [Fin.mk_one]
      rw [witness122_col1, median_pm (by norm_num)]
  rw [this]
  norm_num

theorem witness122_scaled : scaleCells (fun _ => (0, 1)) witness122 = witness122 := by
  funext i j
  unfold scaleCells
  cases witness122 i j with
  | none => rfl
  | some x => simp

theorem witness122_cell (i : Fin 20) (j : Fin 2) :
    (witness122 i j = none ↔ j = 0 ∧ i.1 < 8) ∧ ∀ x, witness122 i j = some x → |x| = 1 := by
  unfold witness122
  constructor
  · split_ifs <;> simp_all
  · intro x hx
    split_ifs at hx <;> simp_all
    all_goals (rw [← hx]; norm_num)

theorem witness122_bad (j : Fin 2) : badCells 2.5 witness122 j = if j = 0 then 8 else 0 := by
  unfold badCells
  have : ∀ i, (witness122 i j = none ∨ ∃ x, witness122 i j = some x ∧ 2.5 < |x|) ↔ j = 0 ∧ i.1 < 8 := by
    intro i
    rw [(witness122_cell i j).1]
    refine or_iff_left ?_
    rintro ⟨x, hx, h⟩
    rw [(witness122_cell i j).2 x hx] at h
    norm_num at h
  simp only [this]
  fin_cases j
  · simp; decide
  · simp

theorem witness122_marginal (j : Fin 2) : marginalOutliers 2.5 witness122 j = 0 := by
  unfold marginalOutliers
  rw [Finset.card_eq_zero, Finset.filter_eq_empty_iff]
  rintro i - ⟨x, hx, h⟩
  rw [(witness122_cell i j).2 x hx] at h
  norm_num at h

theorem witness122_check {alpha : ℝ} (h1 : alpha ≤ 0.6) : cellCheck 2.5 alpha witness122 = .ok () := by
  unfold cellCheck
  simp only [witness122_marginal, witness122_bad]
  rw [if_neg (by push Not; intro _; norm_num; linarith), if_neg, if_neg (by norm_num)]
  push Not
  intro j
  split_ifs <;> norm_num <;> norm_num at h1 <;> linarith

/-- The configuration of the examples. -/
noncomputable def exampleCfg : CellConfig := ⟨2.5, 0.0001, 100, 0.0001⟩

theorem witness122_fit {alpha : ℝ} (h1 : alpha ≤ 0.6) :
    ∃ r, cellFitFrom (exampleEnv 2) (exampleExt 2) exampleCfg alpha witness122 = .ok r := by
  obtain ⟨r, hr, -⟩ := cellFitFrom_ok (env := exampleEnv 2) (exampleExt_contract 2) (cfg := exampleCfg)
    (by norm_num [exampleCfg]) (by norm_num [exampleCfg]) (by norm_num [exampleCfg]) (by norm_num [exampleCfg])
    (by norm_num) (X := witness122) (alpha := alpha)
    (fun j s h => by rw [witness122_mad] at h; rw [← Option.some.inj h]; norm_num)
    (fun j => witness122_est j) (by rw [witness122_scaled]; exact witness122_check h1) (init := (0, 1, 1)) rfl
  exact ⟨r, hr⟩

/-- The hypotheses of `C119_imputed` and `C120_positive` are met by a fit of data with missing cells. -/
example : ∃ r, cellFitFrom (exampleEnv 2) (exampleExt 2) exampleCfg 0.55 witness122 = .ok r ∧
    r.covariance.PosDef ∧ r.imputed 0 0 ≠ none := by
  obtain ⟨r, hr⟩ := witness122_fit (alpha := 0.55) (by norm_num)
  exact ⟨r, hr, (C120_positive (exampleExt_contract 2) (exampleExt_pos 2) (by norm_num [exampleCfg]) hr).1,
    (C119_imputed (exampleExt_contract 2) (by norm_num [exampleCfg]) hr 0 0).2.2.2⟩

/-- **C121** fails: in units that are larger by a factor of 1e9 the same data are rejected. -/
theorem C121_violated : ¬ C121_statement := by
  intro H
  obtain ⟨r, hr⟩ := witness122_fit (alpha := 0.55) (by norm_num)
  have h := H 20 2 (exampleEnv 2) (exampleExt 2) exampleCfg 0.55 witness122 (fun _ => 1e-9) 0
    (exampleExt_units 2) (exampleExt_contract 2) (fun _ => by norm_num)
  rw [hr] at h
  have hbad : cellFitFrom (exampleEnv 2) (exampleExt 2) exampleCfg 0.55
      (changeUnits (fun _ => 1e-9) 0 witness122) = .error .valueError := by
    unfold cellFitFrom
    rw [if_pos]
    refine ⟨0, 1e-9, ?_, by norm_num⟩
    have hl : (List.ofFn fun i => changeUnits (fun _ => 1e-9) 0 witness122 i 0).filterMap id =
        ((List.ofFn fun i => witness122 i 0).filterMap id).map fun v => 1e-9 * v + 0 := by
      rw [show (List.ofFn fun i => changeUnits (fun _ => (1e-9 : ℝ)) 0 witness122 i 0) =
        (List.ofFn fun i => witness122 i 0).map fun x => x.map fun v => 1e-9 * v + 0 from by
          rw [List.map_ofFn]; rfl]
      generalize (List.ofFn fun i => witness122 i 0) = l
      induction l with
      | nil => rfl
      | cons x l ih => cases x <;> simp_all
    rw [hl, madRaw_affine, witness122_mad]
    norm_num
  rw [hbad] at h
  cases h

/-- The hypotheses of `C121_units_partial` are met by a change of units of the same data. -/
example : (∀ j s, madRaw ((List.ofFn fun i => witness122 i j).filterMap id) = some s → 1e-8 ≤ s) ∧
    UnitEquivariant (exampleExt 2).est :=
  ⟨fun j s h => by rw [witness122_mad] at h; rw [← Option.some.inj h]; norm_num, exampleExt_units 2⟩

/-! ## C122: repeated fits -/

section
variable {p : ℕ}

/-- The object after earlier fits, successful or not. -/
noncomputable def fitHistory (env : CellEnv p) (ext : CellExt p) (cfg : CellConfig) :
    CellObj p → List (Σ m, Cells m p) → CellObj p
  | obj, [] => obj
  | obj, X :: l => fitHistory env ext cfg (cellFit env ext cfg obj X.2).2 l

/-- The smallest `alpha` for `m` rows. -/
noncomputable def minAlpha (m : ℕ) : ℝ := ((m / 2 : ℕ) + 1.0) / m

/-- **C122**, the claim: the result of a fit does not depend on earlier fits with the same object. -/
def C122_statement : Prop :=
  ∀ (n p : ℕ) (env : CellEnv p) (ext : CellExt p) (cfg : CellConfig) (obj : CellObj p)
    (l : List (Σ m, Cells m p)) (X : Cells n p), DDCWContract ext → UnitEquivariant ext.est →
    (cellFit env ext cfg (fitHistory env ext cfg obj l) X).1 = (cellFit env ext cfg obj X).1

theorem minAlpha_le_one (m : ℕ) : minAlpha m ≤ 1 := by
  unfold minAlpha
  rcases Nat.eq_zero_or_pos m with h | h
  · subst h; norm_num
  · rw [div_le_one (by exact_mod_cast h)]
    have : m / 2 + 1 ≤ m := by omega
    have h2 : ((m / 2 : ℕ) : ℝ) + 1 ≤ m := by exact_mod_cast this
    norm_num
    linarith

theorem cellFit_alpha (env : CellEnv p) (ext : CellExt p) (cfg : CellConfig) (obj : CellObj p) {m : ℕ}
    (X : Cells m p) (h : 0.5 ≤ obj.alpha ∧ obj.alpha ≤ 1) :
    (cellFit env ext cfg obj X).2.alpha = max obj.alpha (minAlpha m) := by
  unfold cellFit cellAlpha
  rw [if_pos h]
  simp only
  split <;> rfl

theorem cellFit_bad (env : CellEnv p) (ext : CellExt p) (cfg : CellConfig) (obj : CellObj p) {m : ℕ}
    (X : Cells m p) (h : ¬ (0.5 ≤ obj.alpha ∧ obj.alpha ≤ 1)) :
    cellFit env ext cfg obj X = (.error .valueError, obj) := by
  unfold cellFit cellAlpha
  rw [if_neg h]

theorem cellFit_fst (env : CellEnv p) (ext : CellExt p) (cfg : CellConfig) {obj : CellObj p} {m : ℕ}
    (X : Cells m p) (h : 0.5 ≤ obj.alpha ∧ obj.alpha ≤ 1) :
    (cellFit env ext cfg obj X).1 = cellFitFrom env ext cfg (max obj.alpha (minAlpha m)) X := by
  unfold cellFit cellAlpha
  rw [if_pos h]
  simp only
  have hm : minAlpha m = ((m / 2 : ℕ) + 1.0) / m := rfl
  rw [← hm]
  split
  · rename_i h1; rw [h1]
  · rename_i h1; rw [h1]

/-- **C122** when no earlier data set needed a larger `alpha` than this one (in particular if all have the same
number of rows).  Missing for the full claim: `fit` overwrites `alpha`, so an earlier fit of fewer rows changes
later fits (`C122_violated`). -/
theorem C122_repeat_partial {n : ℕ} (env : CellEnv p) (ext : CellExt p) (cfg : CellConfig) (X : Cells n p) :
    ∀ (l : List (Σ m, Cells m p)) (obj : CellObj p),
      (∀ Y ∈ l, minAlpha Y.1 ≤ max obj.alpha (minAlpha n)) →
      (cellFit env ext cfg (fitHistory env ext cfg obj l) X).1 = (cellFit env ext cfg obj X).1
  | [], _, _ => rfl
  | Y :: l, obj, h => by
    rw [fitHistory]
    by_cases hb : 0.5 ≤ obj.alpha ∧ obj.alpha ≤ 1
    · have ha := cellFit_alpha env ext cfg obj Y.2 hb
      have hle := h Y List.mem_cons_self
      have hmax : max (max obj.alpha (minAlpha Y.1)) (minAlpha n) = max obj.alpha (minAlpha n) := by
        apply le_antisymm
        · exact max_le (max_le (le_max_left _ _) hle) (le_max_right _ _)
        · exact max_le_max (le_max_left _ _) le_rfl
      rw [C122_repeat_partial env ext cfg X l _ (by
        intro Z hZ
        rw [ha, hmax]
        exact h Z (List.mem_cons_of_mem _ hZ))]
      rw [cellFit_fst env ext cfg X hb, cellFit_fst env ext cfg X (by
        rw [ha]
        exact ⟨hb.1.trans (le_max_left _ _), max_le hb.2 (minAlpha_le_one _)⟩), ha, hmax]
    · rw [cellFit_bad env ext cfg obj Y.2 hb]
      exact C122_repeat_partial env ext cfg X l obj fun Z hZ => h Z (List.mem_cons_of_mem _ hZ)

end

/-- **C122** fails: after a fit of four rows (`alpha` becomes 0.75) the object rejects data with 40% missing
cells that a new object with the same arguments accepts. -/
theorem C122_violated : ¬ C122_statement := by
  intro H
  have h := H 20 2 (exampleEnv 2) (exampleExt 2) exampleCfg ⟨0.5, none⟩ [⟨4, fun _ _ => none⟩] witness122
    (exampleExt_contract 2) (exampleExt_units 2)
  have hb : (0.5 : ℝ) ≤ 0.5 ∧ (0.5 : ℝ) ≤ 1 := by norm_num
  rw [cellFit_fst _ _ _ _ (obj := ⟨0.5, none⟩) hb] at h
  have h20 : max (0.5 : ℝ) (minAlpha 20) = 0.55 := by unfold minAlpha; norm_num
  have h4 : max (0.5 : ℝ) (minAlpha 4) = 0.75 := by unfold minAlpha; norm_num
  simp only at h
  rw [h20] at h
  obtain ⟨r, hr⟩ := witness122_fit (alpha := 0.55) (by norm_num)
  rw [hr, fitHistory, fitHistory] at h
  have ha := cellFit_alpha (exampleEnv 2) (exampleExt 2) exampleCfg ⟨0.5, none⟩ (m := 4) (fun _ _ => none) hb
  simp only at ha
  rw [h4] at ha
  rw [cellFit_fst _ _ _ _ (by rw [ha]; norm_num), ha] at h
  have h5 : max (0.75 : ℝ) (minAlpha 20) = 0.75 := by unfold minAlpha; norm_num
  rw [h5] at h
  have hbad : cellFitFrom (exampleEnv 2) (exampleExt 2) exampleCfg 0.75 witness122 = .error .valueError := by
    unfold cellFitFrom
    rw [if_neg, collect_ok (g := fun _ => ((0 : ℝ), (1 : ℝ))) fun j => witness122_est j]
    · simp only [Except.bind]
      rw [witness122_scaled]
      have : cellCheck exampleCfg.cutoff 0.75 witness122 = .error .valueError := by
        show cellCheck 2.5 0.75 witness122 = _
        unfold cellCheck
        simp only [witness122_marginal, witness122_bad]
        rw [if_neg (by push Not; intro _; norm_num), if_pos ⟨0, by norm_num⟩]
      rw [this]
    · rintro ⟨j, t, ht, h2⟩
      rw [witness122_mad] at ht
      rw [← Option.some.inj ht] at h2
      norm_num at h2
  rw [hbad] at h
  cases h

/-- The hypothesis of `C122_repeat_partial` is met by an earlier fit of as many rows. -/
example : ∀ Y ∈ [(⟨20, witness122⟩ : Σ m, Cells m 2)], minAlpha Y.1 ≤ max 0.5 (minAlpha 20) := by
  simp

end Robpy
