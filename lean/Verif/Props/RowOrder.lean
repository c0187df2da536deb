import Verif.Props.CovEquiv
import Verif.Props.CovFit
import Verif.Props.Qn
import Verif.Props.TauOneStep

/-! C164: the deterministic covariance estimators and the order of the rows. -/

namespace Robpy
open Matrix

namespace Spec

/-- An estimate for samples that does not depend on the order of the observations. -/
def orderFree {α β : Type} (f : List α → β) : Prop := ∀ X Y : List α, X.Perm Y → f X = f Y

/-- Two outcomes of `fit` on data with rows in different order: same exception or none, same location, covariance and correlation,
and after a successful fit every row has the same two distances. -/
def sameFit {K m : Type} (cells cells' : List (m → Option K)) (r r' : Except PyErr Unit × CovState K m) : Prop :=
  r.1 = r'.1 ∧ r.2.location_ = r'.2.location_ ∧ r.2.covariance_ = r'.2.covariance_ ∧ r.2.correlation_ = r'.2.correlation_ ∧
    (r.1 = .ok () → ∃ d d' e e', r.2.robustDist = some d ∧ r'.2.robustDist = some d' ∧ r.2.classicDist = some e ∧
      r'.2.classicDist = some e' ∧ d.length = cells.length ∧ d'.length = cells'.length ∧ e.length = cells.length ∧
      e'.length = cells'.length ∧ (cells.zip (d.zip e)).Perm (cells'.zip (d'.zip e')))

end Spec

section
variable {K : Type} [Field K] [LinearOrder K] {m : Type} [Fintype m] [DecidableEq m]

theorem zip_map_self {α β : Type} (f : α → β) (l : List α) : l.zip (l.map f) = l.map fun a => (a, f a) := by
  induction l with
  | nil => rfl
  | cons a l ih => simp [ih]

/-- `fit` inherits independence of the row order from `calculate_covariance`. -/
theorem covFit_sameFit [IsStrictOrderedRing K] (assumeCentered : Bool) (calcCov : CalcCov K m)
    (hc : ∀ st, Spec.orderFree fun X => calcCov X st) (st : CovState K m) (cells cells' : List (m → Option K)) (h : cells.Perm cells') :
    Spec.sameFit cells cells' (covFit assumeCentered calcCov st cells) (covFit assumeCentered calcCov st cells') := by
  unfold covFit
  have hv : (cells = [] ∨ ∃ r ∈ cells, ∃ j, r j = none) ↔ (cells' = [] ∨ ∃ r ∈ cells', ∃ j, r j = none) := by
    refine or_congr ?_ ?_
    · constructor
      · rintro rfl; exact h.nil_eq.symm
      · rintro rfl; exact h.eq_nil
    · exact exists_congr fun r => and_congr_left fun _ => h.mem_iff
  by_cases hb : cells = [] ∨ ∃ r ∈ cells, ∃ j, r j = none
  · rw [if_pos hb, if_pos (hv.1 hb)]
    exact ⟨rfl, rfl, rfl, rfl, fun h => by cases h⟩
  · rw [if_neg hb, if_neg fun h => hb (hv.2 h)]
    set f : (m → Option K) → m → K := fun r j => (r j).getD 0 with hf
    have hX : (cells.map f).Perm (cells'.map f) := h.map f
    unfold covFitValid
    simp only [meanRow_perm hX, npCov_perm hX]
    have hcalc := hc { st with location_ := some (if assumeCentered then fun _ => 0 else meanRow (cells'.map f)) } _ _ hX
    simp only at hcalc
    rw [hcalc]
    rcases hx : calcCov (cells'.map f) { st with location_ := some (if assumeCentered then fun _ => 0 else meanRow (cells'.map f)) }
      with ⟨e | _ | cov, st2⟩
    · exact ⟨rfl, rfl, rfl, rfl, fun h => by cases h⟩
    · exact ⟨rfl, rfl, rfl, rfl, fun h => by cases h⟩
    · simp only
      by_cases hd : cov.det = 0
      · rw [sqMahalanobis_singular hd, sqMahalanobis_singular hd]
        exact ⟨rfl, rfl, rfl, rfl, fun h => by cases h⟩
      · rw [sqMahalanobis_eq hd, sqMahalanobis_eq hd]
        simp only
        split_ifs with h1
        · exact ⟨rfl, rfl, rfl, rfl, fun h => by cases h⟩
        · by_cases hd2 : (npCov (cells'.map f)).det = 0
          · rw [sqMahalanobis_singular hd2, sqMahalanobis_singular hd2]
            exact ⟨rfl, rfl, rfl, rfl, fun h => by cases h⟩
          · rw [sqMahalanobis_eq hd2, sqMahalanobis_eq hd2]
            refine ⟨rfl, rfl, rfl, rfl, fun _ => ⟨_, _, _, _, rfl, rfl, rfl, rfl, by simp, by simp, by simp, by simp, ?_⟩⟩
            simp only [List.map_map, List.zip_map', zip_map_self]
            exact h.map _

end

section
variable {p : ℕ}

theorem column_perm {K : Type} {X Y : List (Fin p → K)} (h : X.Perm Y) (j : Fin p) : (column X j).Perm (column Y j) := h.map _

theorem conMinusDis_perm {l l' : List (ℝ × ℝ)} (h : l.Perm l') : conMinusDis l = conMinusDis l' := by
  induction h with
  | nil => rfl
  | cons a h ih =>
    unfold conMinusDis
    rw [ih, (h.map _).sum_eq]
  | swap a b l =>
    simp only [conMinusDis, List.map_cons, List.sum_cons]
    have : npSign (b.1 - a.1) * npSign (b.2 - a.2) = npSign (a.1 - b.1) * npSign (a.2 - b.2) := by
      rw [← neg_sub a.1 b.1, ← neg_sub a.2 b.2, npSign_neg, npSign_neg, neg_mul_neg]
    rw [this]; ring
  | trans _ _ ih1 ih2 => exact ih1.trans ih2

theorem untied_perm {l l' : List ℝ} (h : l.Perm l') : untied l = untied l' := by
  induction h with
  | nil => rfl
  | cons a h ih =>
    unfold untied
    rw [ih, h.countP_eq]
  | swap a b l =>
    simp only [untied, List.countP_cons]
    by_cases hab : a = b
    · subst hab; ring
    · have : b ≠ a := Ne.symm hab
      simp only [ne_eq, hab, this, not_false_eq_true, decide_true, if_true]
      push_cast
      ring
  | trans _ _ ih1 ih2 => exact ih1.trans ih2

theorem kendallTau_perm {X Y : List (Fin p → ℝ)} (h : X.Perm Y) (i j : Fin p) :
    kendallTau (column X i) (column X j) = kendallTau (column Y i) (column Y j) := by
  unfold kendallTau
  have hz : ∀ Z : List (Fin p → ℝ), (column Z i).zip (column Z j) = Z.map fun x => (x i, x j) := fun Z => List.zip_map' ..
  rw [untied_perm (column_perm h i), untied_perm (column_perm h j), hz, hz, conMinusDis_perm (h.map _)]

/-- **C164** for `KendallTau`. -/
theorem kendallCalc_orderFree {scale : List ℝ → Except PyErr ℝ} (hs : Spec.orderFree scale) (st : CovState ℝ (Fin p)) :
    Spec.orderFree fun X => kendallCalc scale X st := by
  intro X Y h
  have hsc : mapExcept scale ((List.finRange p).map (column X)) = mapExcept scale ((List.finRange p).map (column Y)) := by
    have : ∀ l : List (Fin p), mapExcept scale (l.map (column X)) = mapExcept scale (l.map (column Y)) := by
      intro l
      induction l with
      | nil => rfl
      | cons j l ih =>
        simp only [List.map_cons, mapExcept]
        rw [ih, hs _ _ (column_perm h j)]
    exact this _
  simp only [kendallCalc, hsc, kendallTau_perm h]

/-- The outcomes of one pass agree: same matrix, data in different order. -/
theorem ogkStep_perm (eigh : ∀ A : Matrix (Fin p) (Fin p) ℝ, A.IsSymm → Eigh A) {est : List ℝ → ℝ} (he : Spec.orderFree est)
    {Z Z' : List (Fin p → ℝ)} (h : Z.Perm Z') :
    (ogkStep eigh est Z = none ∧ ogkStep eigh est Z' = none) ∨
      ∃ Y Y' M, Y.Perm Y' ∧ ogkStep eigh est Z = some (Y, M) ∧ ogkStep eigh est Z' = some (Y', M) := by
  have hs : (fun i => est (column Z i)) = fun i => est (column Z' i) := funext fun i => he _ _ (column_perm h i)
  unfold ogkStep
  simp only [congrFun hs]
  set s : Fin p → ℝ := fun i => est (column Z' i) with hsd
  have hY : (Z.map fun z j => z j / est (column Z' j)).Perm (Z'.map fun z j => z j / est (column Z' j)) := h.map _
  have hsum : ∀ i j, est ((Z.map fun z j => z j / est (column Z' j)).map fun y => y i + y j) =
      est ((Z'.map fun z j => z j / est (column Z' j)).map fun y => y i + y j) := fun i j => he _ _ (hY.map _)
  have hdiff : ∀ i j, est ((Z.map fun z j => z j / est (column Z' j)).map fun y => y i - y j) =
      est ((Z'.map fun z j => z j / est (column Z' j)).map fun y => y i - y j) := fun i j => he _ _ (hY.map _)
  simp only [hsum, hdiff]
  split_ifs with hb
  · exact .inl ⟨rfl, rfl⟩
  · exact .inr ⟨_, _, _, hY.map _, rfl, rfl⟩

theorem ogkLoop_perm (eigh : ∀ A : Matrix (Fin p) (Fin p) ℝ, A.IsSymm → Eigh A) {est : List ℝ → ℝ} (he : Spec.orderFree est) (k : ℕ)
    {Z Z' : List (Fin p → ℝ)} (h : Z.Perm Z') :
    (ogkLoop eigh est k Z = none ∧ ogkLoop eigh est k Z' = none) ∨
      ∃ Y Y' Ms, Y.Perm Y' ∧ ogkLoop eigh est k Z = some (Y, Ms) ∧ ogkLoop eigh est k Z' = some (Y', Ms) := by
  induction k generalizing Z Z' with
  | zero => exact .inr ⟨Z, Z', [], h, rfl, rfl⟩
  | succ k ih =>
    unfold ogkLoop
    rcases ogkStep_perm eigh he h with ⟨h1, h2⟩ | ⟨Y, Y', M, hY, h1, h2⟩
    · rw [h1, h2]; exact .inl ⟨rfl, rfl⟩
    · rw [h1, h2]
      simp only [Option.bind_some]
      rcases ih hY with ⟨h3, h4⟩ | ⟨W, W', Ms, hW, h3, h4⟩
      · rw [h3, h4]; exact .inl ⟨rfl, rfl⟩
      · rw [h3, h4]; exact .inr ⟨W, W', M :: Ms, hW, rfl, rfl⟩

theorem ogkRaw_orderFree (eigh : ∀ A : Matrix (Fin p) (Fin p) ℝ, A.IsSymm → Eigh A) {loc est : List ℝ → ℝ} (hl : Spec.orderFree loc)
    (he : Spec.orderFree est) (k : ℕ) : Spec.orderFree fun X : List (Fin p → ℝ) => ogkRaw eigh loc est k X := by
  intro X Y h
  simp only [ogkRaw]
  rcases ogkLoop_perm eigh he k h with ⟨h1, h2⟩ | ⟨W, W', Ms, hW, h1, h2⟩
  · rw [h1, h2]
  · rw [h1, h2]
    have e1 : (fun i => loc (column W i)) = fun i => loc (column W' i) := funext fun i => hl _ _ (column_perm hW i)
    have e2 : (fun i => est (column W i) ^ 2) = fun i => est (column W' i) ^ 2 := funext fun i => by rw [he _ _ (column_perm hW i)]
    simp only [Option.map_some, e1, e2]

theorem ogkReweight_orderFree (ratio : ℝ) (mu : Fin p → ℝ) (cov : Matrix (Fin p) (Fin p) ℝ) :
    Spec.orderFree fun X => ogkReweight ratio X mu cov := by
  intro X Y h
  simp only [ogkReweight, mahalanobis]
  by_cases hd : cov.det = 0
  · rw [sqMahalanobis_singular hd, sqMahalanobis_singular hd]; rfl
  · rw [sqMahalanobis_eq hd, sqMahalanobis_eq hd]
    simp only [Except.map, List.map_map]
    have hmed := npMedian_perm (h.map (Real.sqrt ∘ fun x => quadForm cov⁻¹ (x - mu)))
    simp only [← Function.comp_assoc]
    rw [hmed, maskRows_map, maskRows_map]
    have hr := h.filter ((fun v => decide (v < ratio * (npMedian (Y.map (Real.sqrt ∘ fun x => quadForm cov⁻¹ (x - mu)))).getD 0)) ∘
      Real.sqrt ∘ fun x => quadForm cov⁻¹ (x - mu))
    rw [Function.comp_assoc, meanRow_perm hr, npCov_perm hr, hr.length_eq]

/-- **C164** for `OGK`. -/
theorem ogkCalc_orderFree (eigh : ∀ A : Matrix (Fin p) (Fin p) ℝ, A.IsSymm → Eigh A) {loc est : List ℝ → ℝ} (hl : Spec.orderFree loc)
    (he : Spec.orderFree est) (k : ℕ) (reweighting : Bool) (ratio : ℝ) (st : CovState ℝ (Fin p)) :
    Spec.orderFree fun X => ogkCalc eigh loc est k reweighting ratio X st := by
  intro X Y h
  simp only [ogkCalc]
  have h1 := ogkRaw_orderFree eigh hl he k X Y h
  simp only at h1
  rw [h1]
  rcases ogkRaw eigh loc est k Y with _ | ⟨mu, cov⟩
  · rfl
  · have h2 := ogkReweight_orderFree ratio mu cov X Y h
    simp only at h2
    simp only [h2]

/-- The wrapped data row by row. -/
theorem wrappedRows_eq_map (b c q1 q2 : ℝ) (le se : List ℝ → ℝ) (X : List (Fin p → ℝ)) :
    wrappedRows b c q1 q2 le se X = X.map fun x j =>
      wrapPsi b c q1 q2 ((x j - le (column X j)) / noZero (se (column X j))) *
          (se (column X j) / noZero (Real.sqrt (var (zWrapped b c q1 q2 (le (column X j)) (se (column X j)) (column X j))))) +
        le (column X j) - mean (zWrapped b c q1 q2 (le (column X j)) (se (column X j)) (column X j)) *
          (se (column X j) / noZero (Real.sqrt (var (zWrapped b c q1 q2 (le (column X j)) (se (column X j)) (column X j))))) := by
  refine List.ext_getElem? fun i => ?_
  unfold wrappedRows
  rw [List.getElem?_map, List.getElem?_map]
  by_cases hi : i < X.length
  · rw [List.getElem?_range hi, List.getElem?_eq_getElem hi]
    simp only [Option.map_some, Option.some.injEq]
    funext j
    have hl : i < (wrapColumn b c q1 q2 true (le (column X j)) (se (column X j)) (column X j)).length := by
      rw [wrapColumn_length]; simpa [column] using hi
    rw [List.getD_eq_getElem?_getD, List.getElem?_eq_getElem hl]
    simp [wrapColumn, zWrapped, column]
  · rw [List.getElem?_eq_none (by simpa using hi), List.getElem?_eq_none (by omega)]
    rfl

theorem wrappedRows_perm (b c q1 q2 : ℝ) {le se : List ℝ → ℝ} (hl : Spec.orderFree le) (hs : Spec.orderFree se)
    {X Y : List (Fin p → ℝ)} (h : X.Perm Y) : (wrappedRows b c q1 q2 le se X).Perm (wrappedRows b c q1 q2 le se Y) := by
  rw [wrappedRows_eq_map, wrappedRows_eq_map]
  have e1 : ∀ j, le (column X j) = le (column Y j) := fun j => hl _ _ (column_perm h j)
  have e2 : ∀ j, se (column X j) = se (column Y j) := fun j => hs _ _ (column_perm h j)
  have e3 : ∀ j l s, (zWrapped b c q1 q2 l s (column X j)).Perm (zWrapped b c q1 q2 l s (column Y j)) :=
    fun j l s => (column_perm h j).map _
  simp only [e1, e2, fun j l s => var_perm (e3 j l s), fun j l s => mean_perm (e3 j l s)]
  exact h.map _

/-- **C164** for `WrappingCovariance`. -/
theorem wrappingCalc_orderFree (b c q1 q2 : ℝ) {le se : List ℝ → ℝ} (hl : Spec.orderFree le) (hs : Spec.orderFree se)
    (st : CovState ℝ (Fin p)) : Spec.orderFree fun X => wrappingCalc b c q1 q2 le se X st := by
  intro X Y h
  simp only [wrappingCalc, npCov_perm (wrappedRows_perm b c q1 q2 hl hs h), h.length_eq]

/-- **C164**: `KendallTau` with `Qn` (any corrections), `OGK` and `WrappingCovariance` with any order-free location and scale
estimators (e.g. median and MAD) do not depend on the order of the rows. -/
theorem C164_row_order (assumeCentered : Bool) (st : CovState ℝ (Fin p)) (cells cells' : List (Fin p → Option ℝ))
    (h : cells.Perm cells') :
    (∀ scale, Spec.orderFree scale → Spec.sameFit cells cells' (covFit assumeCentered (kendallCalc scale) st cells)
      (covFit assumeCentered (kendallCalc scale) st cells')) ∧
    (∀ eigh loc est k reweighting ratio, Spec.orderFree loc → Spec.orderFree est →
      Spec.sameFit cells cells' (covFit assumeCentered (ogkCalc eigh loc est k reweighting ratio) st cells)
        (covFit assumeCentered (ogkCalc eigh loc est k reweighting ratio) st cells')) ∧
    ∀ b c q1 q2 le se, Spec.orderFree le → Spec.orderFree se →
      Spec.sameFit cells cells' (covFit assumeCentered (wrappingCalc b c q1 q2 le se) st cells)
        (covFit assumeCentered (wrappingCalc b c q1 q2 le se) st cells') :=
  ⟨fun scale hs => covFit_sameFit _ _ (fun st => kendallCalc_orderFree hs st) _ _ _ h,
    fun eigh loc est k rw ratio hl he => covFit_sameFit _ _ (fun st => ogkCalc_orderFree eigh hl he k rw ratio st) _ _ _ h,
    fun b c q1 q2 le se hl hs => covFit_sameFit _ _ (fun st => wrappingCalc_orderFree b c q1 q2 hl hs st) _ _ _ h⟩

/-- The estimators the three classes use by default satisfy the condition: `Qn`, the median, the MAD and the scale and location of
`Tau`. -/
theorem C164_defaults :
    (∀ (fc cc : Bool), Spec.orderFree fun l : List ℝ =>
      match qnScale fc cc (l.length * l.length + 1) l with | some r => r | none => .error .valueError) ∧
    Spec.orderFree (fun l : List ℝ => (npMedian l).getD 0) ∧ Spec.orderFree (fun l : List ℝ => (madRaw l).getD 0) ∧
    ∀ (c1 c2 : ℝ) (corr : Option ℝ), Spec.orderFree fun l : List ℝ => tauCalculate c1 c2 corr l := by
  refine ⟨fun fc cc X Y h => ?_, fun X Y h => by simp only [npMedian_perm h], fun X Y h => by simp only [madRaw_perm h],
    fun c1 c2 corr X Y h => ?_⟩
  · simp only [h.length_eq, C05_perm fc cc X Y h]
  · have hloc : tauLocation c1 X = tauLocation c1 Y := by
      unfold tauLocation weightedMean
      rw [npMedian_perm h, madRaw_perm h]
      rcases npMedian Y with _ | m <;> rcases madRaw Y with _ | s <;> try rfl
      simp only [(h.map fun x => tauWeight c1 ((x - m) / s)).sum_eq, (h.map fun x => tauWeight c1 ((x - m) / s) * x).sum_eq]
    simp only [tauCalculate]
    rw [madRaw_perm h, hloc, h.length_eq]
    rcases madRaw Y with _ | s
    · rfl
    · rcases tauLocation c1 Y with _ | l
      · simp only [(h.map fun _ => c2 ^ 2).sum_eq]
      · simp only
        split_ifs
        · simp only [(h.map fun _ => c2 ^ 2).sum_eq]
        · simp only [(h.map fun x => tauRho c2 ((x - l) / s)).sum_eq]

/-- A fit that succeeds, so that distances are compared: four rows, `OGK` without iterations. -/
example (eigh : ∀ A : Matrix (Fin 2) (Fin 2) ℝ, A.IsSymm → Eigh A) :
    (covFit false (ogkCalc eigh (fun _ => 0) (fun _ => 1) 0 false 1) CovState.new
      [![some 1, some 0], ![some 0, some 1], ![some (-1), some 0], ![some 0, some (-1)]]).1 = .ok () ∧
    Spec.orderFree (fun _ : List ℝ => (0:ℝ)) ∧ Spec.orderFree (fun _ : List ℝ => (1:ℝ)) := by
  refine ⟨?_, fun _ _ _ => rfl, fun _ _ _ => rfl⟩
  have hdet : (Matrix.diagonal fun _ : Fin 2 => (1:ℝ) ^ 2).det ≠ 0 := by simp
  have hrows : ([![some 1, some 0], ![some 0, some 1], ![some (-1), some 0], ![some 0, some (-1)]].map
      fun (r : Fin 2 → Option ℝ) j => (r j).getD 0) = [![1, 0], ![0, 1], ![-1, 0], ![0, -1]] := by
    simp only [List.map_cons, List.map_nil, List.cons.injEq, and_true]
    refine ⟨?_, ?_, ?_, ?_⟩ <;> (funext j; fin_cases j <;> simp)
  have hdet2 : (npCov ([![1, 0], ![0, 1], ![-1, 0], ![0, -1]] : List (Fin 2 → ℝ))).det ≠ 0 := by
    simp [Matrix.det_fin_two, npCov, meanRow, mean]
    norm_num
  unfold covFit
  rw [if_neg (by simp), hrows]
  unfold covFitValid ogkCalc ogkRaw
  simp only [ogkLoop, Option.map_some, List.foldr_nil, Bool.false_eq_true, if_false]
  rw [sqMahalanobis_eq hdet]
  simp only [Fintype.card_fin]
  rw [if_neg (by decide), sqMahalanobis_eq hdet2]

end
end Robpy
