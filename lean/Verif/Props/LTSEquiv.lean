import Verif.Props.LTSReweight

/-! C57: equivariance of FastLTS. -/

namespace Robpy

/-- The data with the targets `a * y + X v + c`. -/
def Spec.regData {p : ℕ} (a : ℝ) (v : Fin p → ℝ) (c : ℝ) (D : List ((Fin p → ℝ) × ℝ)) : List ((Fin p → ℝ) × ℝ) :=
  D.map fun d => (d.1, a * d.2 + ∑ j, d.1 j * v j + c)

/-- The model with coefficients `a * beta + v` and intercept `a * intercept + c`. -/
def Spec.regModel {p : ℕ} (a : ℝ) (v : Fin p → ℝ) (c : ℝ) (m : LinModel p) : LinModel p :=
  ⟨a * m.intercept + c, fun j => a * m.coef j + v j⟩

/-- The expected state after fitting the transformed data. -/
noncomputable def Spec.regState {p : ℕ} (a : ℝ) (v : Fin p → ℝ) (c : ℝ) (st : LTSState p) : LTSState p :=
  { model := st.model.map (Spec.regModel a v c), bestH := st.bestH, scale_ := st.scale_.map (Option.map (|a| * ·)) }

/-- `argsort` only compares: it does not change when all values are multiplied by a positive number. -/
def Spec.ComparesOnly (srt : ArgSort ℝ) : Prop := ∀ t : ℝ, 0 < t → ∀ d : List ℝ, srt.toFun (d.map (t * ·)) = srt.toFun d

/-- Every `p + 1` observations or more determine the coefficients: no other model than zero vanishes at them. -/
def Spec.GeneralPosition {p : ℕ} (D : List ((Fin p → ℝ) × ℝ)) : Prop :=
  ∀ idx : List ℕ, idx.Nodup → (∀ i ∈ idx, i < D.length) → p + 1 ≤ idx.length → ∀ (b0 : ℝ) (b : Fin p → ℝ),
    (∀ d ∈ takeAt D idx, b0 + ∑ j, d.1 j * b j = 0) → b0 = 0 ∧ ∀ j, b j = 0

section
variable {p : ℕ} {a : ℝ} {v : Fin p → ℝ} {c : ℝ}

theorem predict_reg (m : LinModel p) (x : Fin p → ℝ) :
    (Spec.regModel a v c m).predict x = a * m.predict x + ∑ j, x j * v j + c := by
  unfold LinModel.predict Spec.regModel
  simp only [mul_add, Finset.sum_add_distrib]
  have : ∑ j, x j * (a * m.coef j) = a * ∑ j, x j * m.coef j := by
    rw [Finset.mul_sum]
    exact Finset.sum_congr rfl fun j _ => by ring
  rw [this]; ring

theorem resid_reg (m : LinModel p) (d : (Fin p → ℝ) × ℝ) :
    resid (Spec.regModel a v c m) (d.1, a * d.2 + ∑ j, d.1 j * v j + c) = a * resid m d := by
  unfold resid
  rw [predict_reg]; ring

theorem map_resid_reg (m : LinModel p) (D : List ((Fin p → ℝ) × ℝ)) :
    (Spec.regData a v c D).map (resid (Spec.regModel a v c m)) = (D.map (resid m)).map (a * ·) := by
  unfold Spec.regData
  rw [List.map_map, List.map_map]
  exact List.map_congr_left fun d _ => resid_reg m d

theorem ssr_reg (m : LinModel p) (D : List ((Fin p → ℝ) × ℝ)) :
    ssr (Spec.regData a v c D) (Spec.regModel a v c m) = a ^ 2 * ssr D m := by
  unfold ssr
  have h1 : (Spec.regData a v c D).map (fun d => resid (Spec.regModel a v c m) d ^ 2) =
      ((Spec.regData a v c D).map (resid (Spec.regModel a v c m))).map (· ^ 2) := by rw [List.map_map]; rfl
  rw [h1, map_resid_reg, List.map_map, List.map_map, ← List.sum_map_mul_left]
  congr 1
  refine List.map_congr_left fun d _ => ?_
  simp only [Function.comp]
  ring

theorem regModel_surj (ha : a ≠ 0) (m : LinModel p) : ∃ m', Spec.regModel a v c m' = m := by
  refine ⟨⟨(m.intercept - c) / a, fun j => (m.coef j - v j) / a⟩, ?_⟩
  unfold Spec.regModel
  ext
  · simp only; field_simp; ring
  · simp only; field_simp; ring

theorem takeAt_reg (D : List ((Fin p → ℝ) × ℝ)) (idx : List ℕ) :
    takeAt (Spec.regData a v c D) idx = Spec.regData a v c (takeAt D idx) := takeAt_map _ _ _

theorem regData_length (D : List ((Fin p → ℝ) × ℝ)) : (Spec.regData a v c D).length = D.length := List.length_map _

theorem regData_eq_nil {D : List ((Fin p → ℝ) × ℝ)} : Spec.regData a v c D = [] ↔ D = [] := List.map_eq_nil_iff

theorem reg_isMin (ha : a ≠ 0) {D : List ((Fin p → ℝ) × ℝ)} {m : LinModel p} (h : ∀ m', ssr D m ≤ ssr D m') (m' : LinModel p) :
    ssr (Spec.regData a v c D) (Spec.regModel a v c m) ≤ ssr (Spec.regData a v c D) m' := by
  obtain ⟨m'', rfl⟩ := regModel_surj (v := v) (c := c) ha m'
  rw [ssr_reg, ssr_reg]
  exact mul_le_mul_of_nonneg_left (h m'') (sq_nonneg a)

/-- Least squares is equivariant under scaling and shifting the targets. -/
theorem fit_reg_zero (LR : LinReg p) (ha : a ≠ 0) {D : List ((Fin p → ℝ) × ℝ)} (hD : D ≠ []) :
    LR.fit (Spec.regData a 0 c D) = Spec.regModel a 0 c (LR.fit D) := by
  have hD' : Spec.regData a (0 : Fin p → ℝ) c D ≠ [] := fun h => hD (regData_eq_nil.1 h)
  refine leastSquares_unique hD' (LR.isMin _ hD') (reg_isMin ha (LR.isMin D hD)) (LR.minNorm _ hD') ?_
  intro m hm
  obtain ⟨m', rfl⟩ := regModel_surj (v := 0) (c := c) ha m
  rw [ssr_reg, ssr_reg] at hm
  have ha2 : a ^ 2 ≠ 0 := pow_ne_zero _ ha
  have := LR.minNorm D hD m' (mul_left_cancel₀ ha2 hm)
  have key : ∀ m : LinModel p, ∑ j, (Spec.regModel a 0 c m).coef j ^ 2 = a ^ 2 * ∑ j, m.coef j ^ 2 := by
    intro m
    rw [Finset.mul_sum]
    exact Finset.sum_congr rfl fun j _ => by simp [Spec.regModel]; ring
  rw [key, key]
  exact mul_le_mul_of_nonneg_left this (sq_nonneg a)

/-- Least squares is regression equivariant if the observations determine the coefficients. -/
theorem fit_reg (LR : LinReg p) (ha : a ≠ 0) {D : List ((Fin p → ℝ) × ℝ)} (hD : D ≠ [])
    (huniq : ∀ (b0 : ℝ) (b : Fin p → ℝ), (∀ d ∈ D, b0 + ∑ j, d.1 j * b j = 0) → b0 = 0 ∧ ∀ j, b j = 0) :
    LR.fit (Spec.regData a v c D) = Spec.regModel a v c (LR.fit D) := by
  have hD' : Spec.regData a v c D ≠ [] := fun h => hD (regData_eq_nil.1 h)
  have hp := predict_eq_of_min (LR.isMin _ hD') (reg_isMin (v := v) (c := c) ha (LR.isMin D hD))
  set m1 := LR.fit (Spec.regData a v c D)
  set m2 := Spec.regModel a v c (LR.fit D)
  obtain ⟨h0, h1⟩ := huniq (m1.intercept - m2.intercept) (fun j => m1.coef j - m2.coef j) fun d hd => by
    have := hp _ (List.mem_map.2 ⟨d, hd, rfl⟩)
    unfold LinModel.predict at this
    simp only [mul_sub, Finset.sum_sub_distrib]
    simp only at this
    linarith
  ext
  · linarith
  · rename_i j; linarith [h1 j]

/-- The transformed candidate. -/
def regCand (a : ℝ) (v : Fin p → ℝ) (c : ℝ) (x : LTSCand p) : LTSCand p :=
  { model := Spec.regModel a v c x.model, loss := a ^ 2 * x.loss, subset := x.subset }

theorem ltsLoss_reg (D : List ((Fin p → ℝ) × ℝ)) (H : List ℕ) (m : LinModel p) :
    ltsLoss (Spec.regData a v c D) H (Spec.regModel a v c m) = a ^ 2 * ltsLoss D H m := by
  unfold ltsLoss
  rw [takeAt_reg, ssr_reg, mul_div_assoc]

theorem ltsSubset_reg {srt : ArgSort ℝ} (hsrt : Spec.ComparesOnly srt) (ha : a ≠ 0) (D : List ((Fin p → ℝ) × ℝ)) (h : ℕ) (m : LinModel p) :
    ltsSubset srt (Spec.regData a v c D) h (Spec.regModel a v c m) = ltsSubset srt D h m := by
  unfold ltsSubset
  have h1 : (Spec.regData a v c D).map (fun d => |resid (Spec.regModel a v c m) d|) =
      (D.map fun d => |resid m d|).map (|a| * ·) := by
    have : (Spec.regData a v c D).map (fun d => |resid (Spec.regModel a v c m) d|) =
        ((Spec.regData a v c D).map (resid (Spec.regModel a v c m))).map (fun x => |x|) := by rw [List.map_map]; rfl
    rw [this, map_resid_reg, List.map_map, List.map_map, List.map_map]
    exact List.map_congr_left fun d _ => by simp [abs_mul]
  rw [h1, hsrt _ (abs_pos.2 ha)]

/-- Where least squares is known to be equivariant: at least `p + 1` distinct rows, or any rows if `R` holds. -/
def FitReg (LR : LinReg p) (a : ℝ) (v : Fin p → ℝ) (c : ℝ) (D : List ((Fin p → ℝ) × ℝ)) (R : Prop) : Prop :=
  ∀ idx : List ℕ, idx.Nodup → (∀ i ∈ idx, i < D.length) → (p + 1 ≤ idx.length ∨ R) → takeAt D idx ≠ [] →
    LR.fit (Spec.regData a v c (takeAt D idx)) = Spec.regModel a v c (LR.fit (takeAt D idx))

variable {LR : LinReg p} {srt : ArgSort ℝ} {D : List ((Fin p → ℝ) × ℝ)} {R : Prop}

theorem lrFit_reg (hF : FitReg LR a v c D R) {idx : List ℕ} (hn : idx.Nodup) (hl : ∀ i ∈ idx, i < D.length)
    (hr : p + 1 ≤ idx.length ∨ R) :
    lrFit LR (takeAt (Spec.regData a v c D) idx) = (lrFit LR (takeAt D idx)).map (Spec.regModel a v c) := by
  rw [takeAt_reg]
  unfold lrFit
  by_cases h0 : takeAt D idx = [] ∨ p = 0
  · rw [if_pos h0, if_pos (h0.imp_left fun h => regData_eq_nil.2 h)]; rfl
  · rw [if_neg h0, if_neg (fun h => h0 (h.imp_left fun h => regData_eq_nil.1 h))]
    push Not at h0
    rw [hF idx hn hl hr h0.1]; rfl

theorem ltsCStep_reg (hsrt : Spec.ComparesOnly srt) (ha : a ≠ 0) (hF : FitReg LR a v c D R) {h : ℕ} (hh : h ≤ D.length) (hp : p + 1 ≤ h)
    (m : LinModel p) :
    ltsCStep LR srt (Spec.regData a v c D) h (Spec.regModel a v c m) =
      (ltsCStep LR srt D h m).map fun r => (r.1, Spec.regModel a v c r.2) := by
  unfold ltsCStep
  have hP := ltsSubset_positions srt D hh m
  rw [ltsSubset_reg hsrt ha, lrFit_reg hF hP.nodup hP.lt (Or.inl (by rw [hP.length]; exact hp))]
  rcases lrFit LR (takeAt D (ltsSubset srt D h m)) with e | m' <;> rfl

theorem ltsCSteps_reg (hsrt : Spec.ComparesOnly srt) (ha : a ≠ 0) (hF : FitReg LR a v c D R) {h : ℕ} (hh : h ≤ D.length) (hp : p + 1 ≤ h)
    (k : ℕ) (s : List ℕ × LinModel p) :
    ltsCSteps LR srt (Spec.regData a v c D) h k (s.1, Spec.regModel a v c s.2) =
      (ltsCSteps LR srt D h k s).map fun r => (r.1, Spec.regModel a v c r.2) := by
  induction k generalizing s with
  | zero => rfl
  | succ k ih =>
    unfold ltsCSteps
    rw [ltsCStep_reg hsrt ha hF hh hp]
    rcases ltsCStep LR srt D h s.2 with e | r
    · rfl
    · exact ih r

theorem ltsInitial_reg (hsrt : Spec.ComparesOnly srt) (ha : a ≠ 0) (hF : FitReg LR a v c D R) {h : ℕ}
    (hh : p + 1 ≤ D.length → p + 1 ≤ h ∧ h ≤ D.length) (ch : Choice ℕ) (cfg : LTSConfig) (t : ℝ) (iw : Option (LinModel p)) (i : ℕ) :
    ltsInitial LR srt ch { cfg with tolerance := t } (Spec.regData a v c D) h (iw.map (Spec.regModel a v c)) i =
      (ltsInitial LR srt ch cfg D h iw i).map (regCand a v c) := by
  unfold ltsInitial
  rw [regData_length]
  split_ifs with hn
  · rfl
  · have hn' : p + 1 ≤ D.length := by omega
    obtain ⟨hh1, hh2⟩ := hh hn'
    simp only
    rw [lrFit_reg hF (ch.nodup _ _ _ hn') (ch.lt _ _ _ hn') (Or.inl (ch.length _ _ _ hn').ge)]
    rcases lrFit LR (takeAt D (ch.pick (cfg.randomState + i) D.length (p + 1))) with e | m0
    · rfl
    · simp only [Except.map, Except.bind]
      have hiw : (iw.map (Spec.regModel a v c)).getD (Spec.regModel a v c m0) = Spec.regModel a v c (iw.getD m0) := by
        rcases iw with _ | w <;> rfl
      rw [hiw, ltsSubset_reg hsrt ha]
      have := ltsCSteps_reg hsrt ha hF hh2 hh1 cfg.nInitialCSteps (ltsSubset srt D h (iw.getD m0), iw.getD m0)
      simp only at this
      rw [this]
      rcases ltsCSteps LR srt D h cfg.nInitialCSteps (ltsSubset srt D h (iw.getD m0), iw.getD m0) with e | s
      · rfl
      · simp only [Except.map, regCand, ltsLoss_reg]

theorem ltsConverge_reg (hsrt : Spec.ComparesOnly srt) (ha : a ≠ 0) (hF : FitReg LR a v c D R) {h : ℕ} (hh : h ≤ D.length) (hp : p + 1 ≤ h)
    (tol : ℝ) (fuel : ℕ) (m : LinModel p) (l : ℝ) :
    ltsConverge LR srt (Spec.regData a v c D) h (a ^ 2 * tol) fuel (Spec.regModel a v c m) (a ^ 2 * l) =
      (ltsConverge LR srt D h tol fuel m l).map (Except.map (regCand a v c)) := by
  induction fuel generalizing m l with
  | zero => rfl
  | succ fuel ih =>
    rw [ltsConverge_succ, ltsConverge_succ, ltsCStep_reg hsrt ha hF hh hp]
    rcases ltsCStep LR srt D h m with e | r
    · rfl
    · simp only [Except.map, ltsLoss_reg]
      have ha2 : 0 < a ^ 2 := by positivity
      rw [← mul_sub]
      by_cases hle : l - ltsLoss D r.1 r.2 ≤ tol
      · rw [if_pos hle, if_pos ((mul_le_mul_iff_right₀ ha2).2 hle)]; rfl
      · rw [if_neg hle, if_neg (fun h => hle ((mul_le_mul_iff_right₀ ha2).1 h))]
        exact ih _ _

theorem ltsImprove_reg (hsrt : Spec.ComparesOnly srt) (ha : a ≠ 0) (hF : FitReg LR a v c D R) {h : ℕ} (hh : h ≤ D.length) (hp : p + 1 ≤ h)
    (tol : ℝ) (fuel : ℕ) (l : List (LTSCand p)) (best : LTSCand p) :
    ltsImprove LR srt (Spec.regData a v c D) h (a ^ 2 * tol) fuel (l.map (regCand a v c)) (regCand a v c best) =
      (ltsImprove LR srt D h tol fuel l best).map (Except.map (regCand a v c)) := by
  induction l generalizing best with
  | nil => rfl
  | cons x l ih =>
    rw [List.map_cons]
    unfold ltsImprove
    have := ltsConverge_reg (LR := LR) hsrt ha hF hh hp tol fuel x.model x.loss
    have h2 : ltsConverge LR srt (Spec.regData a v c D) h (a ^ 2 * tol) fuel (regCand a v c x).model (regCand a v c x).loss =
      (ltsConverge LR srt D h tol fuel x.model x.loss).map (Except.map (regCand a v c)) := this
    rw [h2]
    rcases ltsConverge LR srt D h tol fuel x.model x.loss with _ | (e | cur)
    · rfl
    · rfl
    · simp only [Option.map_some, Except.map, Run.andThen]
      have ha2 : 0 < a ^ 2 := by positivity
      have hif : (if (regCand a v c cur).loss < (regCand a v c best).loss then regCand a v c cur else regCand a v c best) =
          regCand a v c (if cur.loss < best.loss then cur else best) := by
        by_cases hlt : cur.loss < best.loss
        · rw [if_pos hlt, if_pos (by unfold regCand; exact (mul_lt_mul_iff_right₀ ha2).2 hlt)]
        · rw [if_neg hlt, if_neg (fun h => hlt (by unfold regCand at h; exact (mul_lt_mul_iff_right₀ ha2).1 h))]
      rw [hif]
      exact ih _

/-- The search commutes with the transformation of the targets, if the tolerance is transformed too. -/
theorem ltsSearch_reg (hsrt : Spec.ComparesOnly srt) (ha : a ≠ 0) (hF : FitReg LR a v c D R) (ch : Choice ℕ) (cfg : LTSConfig)
    (iw : Option (LinModel p)) (fuel : ℕ) :
    ltsSearch LR srt ch { cfg with tolerance := a ^ 2 * cfg.tolerance } (Spec.regData a v c D) (iw.map (Spec.regModel a v c)) fuel =
      (ltsSearch LR srt ch cfg D iw fuel).map (Except.map (regCand a v c)) := by
  unfold ltsSearch
  simp only [regData_length]
  rcases hh : ltsH cfg.alpha D.length p with e | h
  · rfl
  · simp only [Run.andThen]
    have hb : p + 1 ≤ D.length → p + 1 ≤ h ∧ h ≤ D.length := fun hn => by
      obtain ⟨h1, h2⟩ := ltsH_le hh
      exact ⟨by omega, h2 hn⟩
    have hcands : mapExcept (ltsInitial LR srt ch { cfg with tolerance := a ^ 2 * cfg.tolerance } (Spec.regData a v c D) h
        (iw.map (Spec.regModel a v c))) (List.range cfg.nInitialSubsets) =
        (mapExcept (ltsInitial LR srt ch cfg D h iw) (List.range cfg.nInitialSubsets)).map (List.map (regCand a v c)) := by
      generalize List.range cfg.nInitialSubsets = l
      induction l with
      | nil => rfl
      | cons i l ih =>
        unfold mapExcept
        rw [ltsInitial_reg hsrt ha hF hb ch cfg, ih]
        rcases ltsInitial LR srt ch cfg D h iw i with e | x
        · rfl
        · simp only [Except.map, Except.bind]
          rcases mapExcept (ltsInitial LR srt ch cfg D h iw) l with e | xs
          · rfl
          · rfl
    rw [hcands]
    rcases hc : mapExcept (ltsInitial LR srt ch cfg D h iw) (List.range cfg.nInitialSubsets) with e | cands
    · rfl
    · simp only [Except.map]
      have hloss : (cands.map (regCand a v c)).map LTSCand.loss = (cands.map LTSCand.loss).map (a ^ 2 * ·) := by
        rw [List.map_map, List.map_map]; rfl
      rw [hloss, hsrt _ (by positivity), takeAt_map]
      rcases ht : takeAt cands ((srt.toFun (cands.map LTSCand.loss)).take cfg.nBestModels) with _ | ⟨x, l⟩
      · rfl
      · simp only [List.map_cons]
        have hx : x ∈ cands := mem_takeAt (by rw [ht]; simp)
        obtain ⟨i, -, hi⟩ := mapExcept_mem hc x hx
        obtain ⟨h1, -, -⟩ := ltsInitial_ok (fun hn => (hb hn).2) hi
        have := ltsImprove_reg (LR := LR) hsrt ha hF (hb h1).2 (hb h1).1 cfg.tolerance fuel (x :: l) x
        rw [List.map_cons] at this
        rw [this]

theorem npStd_mul (ha : a ≠ 0) (l : List ℝ) : npStd (l.map (a * ·)) = |a| * npStd l := by
  unfold npStd
  rw [List.map_map, List.length_map, List.sum_map_mul_left, List.map_id']
  have : (l.map ((fun x => (x - a * l.sum / l.length) ^ 2) ∘ fun x => a * x)) =
      l.map fun x => a ^ 2 * (x - l.sum / l.length) ^ 2 := by
    refine List.map_congr_left fun x _ => ?_
    simp only [Function.comp]
    ring
  rw [this, List.sum_map_mul_left, mul_div_assoc, Real.sqrt_mul (sq_nonneg a), Real.sqrt_sq_eq_abs]

theorem ltsKeep_mul (ha : a ≠ 0) (q s r : ℝ) : ltsKeep q (|a| * s) (a * r) = ltsKeep q s r := by
  unfold ltsKeep
  have h1 : |a| ≠ 0 := abs_ne_zero.2 ha
  have h2 : (|a| * s ≠ 0) ↔ s ≠ 0 := by simp [ha]
  have h3 : |a * r / (|a| * s)| = |r / s| := by
    rw [abs_div, abs_mul, abs_mul, abs_abs, mul_div_mul_left _ _ h1, abs_div]
  rw [h3]
  simp only [h2]

theorem ltsMask_reg (ha : a ≠ 0) (q : ℝ) (D : List ((Fin p → ℝ) × ℝ)) (m : LinModel p) :
    ltsMask q (Spec.regData a v c D) (Spec.regModel a v c m) = ltsMask q D m := by
  unfold ltsMask
  rw [regData_length, map_resid_reg, npStd_mul ha]
  congr 1
  funext i
  unfold Spec.regData
  rw [List.getElem?_map]
  rcases D[i]? with _ | d
  · rfl
  · simp only [Option.map_some, Option.any_some]
    rw [resid_reg, ltsKeep_mul ha]

/-- `fit` commutes with the transformation of the targets, if the tolerance is transformed too and least squares is equivariant on the
samples that occur. -/
theorem ltsFit_reg (hsrt : Spec.ComparesOnly srt) (ha : a ≠ 0) (hF : FitReg LR a v c D R) (ch : Choice ℕ) (q : ℝ)
    (corr corrRew : ℕ → ℕ → ℝ → Option ℝ) (cfg : LTSConfig)
    (hR : R ∨ cfg.reweighting = false ∨ (0 ≤ q ∧ 5 ≤ q ^ 2 ∧ 2 * (p + 1) ≤ D.length)) (st : LTSState p)
    (iw : Option (LinModel p)) (fuel : ℕ) :
    ltsFit LR srt ch q corr corrRew { cfg with tolerance := a ^ 2 * cfg.tolerance } (Spec.regState a v c st) (Spec.regData a v c D)
      (iw.map (Spec.regModel a v c)) fuel =
      (ltsFit LR srt ch q corr corrRew cfg st D iw fuel).map fun r => (r.1, Spec.regState a v c r.2) := by
  unfold ltsFit
  rw [ltsSearch_reg hsrt ha hF]
  have hsqrt : ∀ x, Real.sqrt (a ^ 2 * x) = |a| * Real.sqrt x := fun x => by
    rw [Real.sqrt_mul (sq_nonneg a), Real.sqrt_sq_eq_abs]
  have hscale : ∀ (o : Option ℝ) (x : ℝ), o.map (fun f => f * Real.sqrt (a ^ 2 * x)) =
      Option.map (fun y => |a| * y) (o.map fun f => f * Real.sqrt x) := by
    intro o x
    rw [Option.map_map]
    congr 1
    funext f
    simp only [Function.comp]
    rw [hsqrt]; ring
  rcases hb : ltsSearch LR srt ch cfg D iw fuel with _ | (e | best)
  · rfl
  · rfl
  · simp only [Option.map_some, Except.map, regCand, regData_length, ltsMask_reg ha]
    by_cases hrew : cfg.reweighting = true
    · rw [if_pos hrew, if_pos hrew]
      by_cases hempty : takeAt D (ltsMask q D best.model) = []
      · rw [takeAt_reg, hempty]
        have : ∀ E : List ((Fin p → ℝ) × ℝ), E = [] → lrFit LR E = .error .valueError := by
          intro E hE
          unfold lrFit
          rw [if_pos (Or.inl hE)]
        rw [this [] rfl, this _ (regData_eq_nil.2 rfl)]
        simp only [Spec.regState, Option.map_some]
        rw [hscale]
      · have hnd : (ltsMask q D best.model).Nodup := List.nodup_range.sublist List.filter_sublist
        have hlen : p + 1 ≤ (ltsMask q D best.model).length ∨ R := by
          rcases hR with hR | hR | ⟨hq, hq5, hn⟩
          · exact Or.inr hR
          · rw [hR] at hrew; simp at hrew
          · left
            obtain ⟨h, h1, h2, h3, -⟩ := C98_least_squares LR srt ch cfg D iw fuel best hb
            have hs0 : npStd (D.map (resid best.model)) ≠ 0 := by
              intro h0
              apply hempty
              rw [takeAt_ltsMask, List.filter_eq_nil_iff, h0]
              simp [ltsKeep]
            have hcount := mask_count hq h2 h3 hs0
            have hh := (ltsH_le h1).1
            by_contra hlt
            push Not at hlt
            have e1 : ((ltsMask q D best.model).length : ℝ) ≤ p := by exact_mod_cast Nat.lt_succ_iff.1 hlt
            have e2 : ((D.length : ℝ) + p) ≤ 2 * h := by
              have : D.length + p ≤ 2 * h := by omega
              exact_mod_cast this
            have e3 : (2 : ℝ) * (p + 1) ≤ D.length := by exact_mod_cast hn
            have e4 : (0 : ℝ) ≤ p := by positivity
            have e5 : ((h : ℝ) - p) * q ^ 2 ≤ ((h : ℝ) - (ltsMask q D best.model).length) * q ^ 2 :=
              mul_le_mul_of_nonneg_right (by linarith) (by positivity)
            have e6 : ((h : ℝ) - p) * 5 ≤ ((h : ℝ) - p) * q ^ 2 := mul_le_mul_of_nonneg_left hq5 (by linarith)
            linarith
        rw [lrFit_reg hF hnd (ltsMask_lt q D best.model) hlen]
        rcases lrFit LR (takeAt D (ltsMask q D best.model)) with e | m
        · simp only [Except.map, Spec.regState, Option.map_some]
          rw [hscale]
        · simp only [Except.map, Spec.regState, Option.map_some]
          rw [ltsLoss_reg, hscale]
    · rw [if_neg hrew, if_neg hrew]
      simp only [Option.map_some, Spec.regState]
      rw [hscale]

/-- **C57** (partial): scale and shift equivariance. For every data set, every `a ≠ 0` and every `c`, fitting `a * y + c` with the
tolerance `a^2 * tolerance` (so with the same tolerance if it is 0 or `a = 1` or `a = -1`) and the same draws selects the same
observations, raises the same errors, and reports `a * beta`, `a * intercept + c` and `|a| * scale`. Missing: other tolerances. -/
theorem C57_scale_shift_partial (LR : LinReg p) (srt : ArgSort ℝ) (hsrt : Spec.ComparesOnly srt) (a : ℝ) (ha : a ≠ 0) (c : ℝ)
    (D : List ((Fin p → ℝ) × ℝ)) (ch : Choice ℕ) (q : ℝ) (corr corrRew : ℕ → ℕ → ℝ → Option ℝ) (cfg : LTSConfig) (st : LTSState p)
    (iw : Option (LinModel p)) (fuel : ℕ) :
    ltsFit LR srt ch q corr corrRew { cfg with tolerance := a ^ 2 * cfg.tolerance } (Spec.regState a 0 c st) (Spec.regData a 0 c D)
      (iw.map (Spec.regModel a 0 c)) fuel =
      (ltsFit LR srt ch q corr corrRew cfg st D iw fuel).map fun r => (r.1, Spec.regState a 0 c r.2) :=
  ltsFit_reg (R := True) hsrt ha (fun _ _ _ _ h0 => fit_reg_zero LR ha h0) ch q corr corrRew cfg (Or.inl trivial) st iw fuel

/-- **C57** (partial): regression equivariance. If any `p + 1` observations determine the coefficients and there are at least
`2 (p + 1)` observations (or there is no reweighting), then fitting `a * y + X v + c` with the same draws and the tolerance
`a^2 * tolerance` selects the same observations and reports `a * beta + v`, `a * intercept + c` and `|a| * scale`.  Missing: data for which
some fitted samples do not determine the coefficients, and other tolerances. -/
theorem C57_regression_partial (LR : LinReg p) (srt : ArgSort ℝ) (hsrt : Spec.ComparesOnly srt) (a : ℝ) (ha : a ≠ 0) (v : Fin p → ℝ) (c : ℝ)
    (D : List ((Fin p → ℝ) × ℝ)) (hgen : Spec.GeneralPosition D) (ch : Choice ℕ) (q : ℝ) (corr corrRew : ℕ → ℕ → ℝ → Option ℝ)
    (cfg : LTSConfig) (hrew : cfg.reweighting = false ∨ (0 ≤ q ∧ 5 ≤ q ^ 2 ∧ 2 * (p + 1) ≤ D.length)) (st : LTSState p)
    (iw : Option (LinModel p)) (fuel : ℕ) :
    ltsFit LR srt ch q corr corrRew { cfg with tolerance := a ^ 2 * cfg.tolerance } (Spec.regState a v c st) (Spec.regData a v c D)
      (iw.map (Spec.regModel a v c)) fuel =
      (ltsFit LR srt ch q corr corrRew cfg st D iw fuel).map fun r => (r.1, Spec.regState a v c r.2) := by
  refine ltsFit_reg (R := False) hsrt ha ?_ ch q corr corrRew cfg (Or.inr hrew) st iw fuel
  intro idx hn hl hlen h0
  rcases hlen with hlen | hlen
  · exact fit_reg LR ha h0 (hgen idx hn hl hlen)
  · exact hlen.elim

end
end Robpy
