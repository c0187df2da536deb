import Verif.Model.RegMap
import Verif.Props.MCDAffine
import Verif.Props.CovFit
import Verif.Props.LTSEquiv
import Verif.Props.CellFit
import Verif.Props.TauOneStep

/-! # The diagnostic plot of a robust regression: C137-C141 -/

namespace Robpy
open Matrix

variable {p : ℕ} {G : Type} {srt : ArgSort ℝ} {rng : Rng G} {cfg : MCDConfig ℝ} {fuel : ℕ} {g : G}

theorem regMap_parts {predict : List (Fin p → ℝ) → Except PyErr (List ℝ)} {rs rd : Bool} {vt chi : ℝ} {c : Containers}
    {X : List (Fin p → ℝ)} {y : List ℝ} {r : RegMap}
    (h : regOutlierMap srt rng cfg fuel g predict rs rd vt chi c X y = .ok r) :
    ∃ f, predict X = .ok f ∧ y.length = f.length ∧ c.yIsSeries = false ∧
      r.residuals = List.zipWith (fun a b => a - b) y f ∧ r.standardized = stdResiduals rs r.residuals ∧
      mapDistances srt rng cfg fuel g c.xIsFrame rd X = .ok r.distances ∧ r.verticalThreshold = vt ∧
      r.leverageThreshold = Real.sqrt chi := by
  unfold regOutlierMap at h
  split_ifs at h with h0
  obtain ⟨f, h1, h2⟩ := bind_ok h
  by_cases hl : y.length = f.length
  · rw [if_neg (not_not.2 hl)] at h2
    obtain ⟨d, h3, rfl⟩ := map_ok h2
    exact ⟨f, h1, hl, by simpa using h0, rfl, rfl, h3, rfl, rfl⟩
  · rw [if_pos hl] at h2; cases h2

/-! ## C137: one feature -/

theorem mapDistances_single (b rd : Bool) (X : List (Fin 1 → ℝ)) :
    ∃ e, mapDistances srt rng cfg fuel g b rd X = .error e := by
  unfold mapDistances
  cases rd
  · exact ⟨_, rfl⟩
  · simp only [if_true]
    by_cases hX : X = []
    · subst hX
      exact ⟨.valueError, by simp [covFit]⟩
    · have := C81_single_column (K := ℝ) (m := Fin 1) false (fastMCDCalc srt rng cfg fuel g) CovState.new X hX (by simp)
      unfold finiteCells at this
      generalize covFit false (fastMCDCalc srt rng cfg fuel g) CovState.new (X.map fun x j => some (x j)) = q at this ⊢
      obtain ⟨(e | u), st⟩ := q
      · exact ⟨e, rfl⟩
      · exact absurd rfl this

/-- **C137**, full statement: the diagnostic plot can be made for a model with one feature. -/
def C137_statement : Prop :=
  ∀ (G : Type) (srt : ArgSort ℝ) (rng : Rng G) (cfg : MCDConfig ℝ) (fuel : ℕ) (g : G) (rs rd : Bool) (vt chi : ℝ)
    (X : List (Fin 1 → ℝ)) (y f : List ℝ), 3 ≤ X.length → X.Nodup → y.length = X.length → f.length = X.length →
    ∃ r, regOutlierMap srt rng cfg fuel g (fun _ => .ok f) rs rd vt chi ⟨false, false⟩ X y = .ok r

/-- **C137**: with one feature it always raises. -/
theorem C137_one_feature (predict : List (Fin 1 → ℝ) → Except PyErr (List ℝ)) (rs rd : Bool) (vt chi : ℝ) (c : Containers)
    (X : List (Fin 1 → ℝ)) (y : List ℝ) :
    ∃ e, regOutlierMap srt rng cfg fuel g predict rs rd vt chi c X y = .error e := by
  rcases h : regOutlierMap srt rng cfg fuel g predict rs rd vt chi c X y with e | r
  · exact ⟨e, rfl⟩
  · obtain ⟨f, -, -, -, -, -, hd, -⟩ := regMap_parts h
    obtain ⟨e, he⟩ := mapDistances_single (srt := srt) (rng := rng) (cfg := cfg) (fuel := fuel) (g := g) c.xIsFrame rd X
    rw [he] at hd; cases hd

/-- **C137** is violated by the code. -/
theorem C137_violated : ¬ C137_statement := by
  intro h
  obtain ⟨r, hr⟩ := h Unit (argsortStable ℝ) rngFirst ⟨.none, 500, 2, 10, none, 1e-8, true, true, 1, 5, 1⟩ 10 () true true 2.5 5
    [![0], ![1], ![2]] [0, 1, 2] [0, 1, 2] (by simp) (by simp) rfl rfl
  obtain ⟨e, he⟩ := C137_one_feature (srt := argsortStable ℝ) (rng := rngFirst)
    (cfg := ⟨.none, 500, 2, 10, none, 1e-8, true, true, 1, 5, 1⟩) (fuel := 10) (g := ()) (fun _ => .ok [0, 1, 2]) true true
    2.5 5 ⟨false, false⟩ [![0], ![1], ![2]] [0, 1, 2]
  rw [he] at hr; cases hr

/-- **C137** (partial): with two or more features, the non-robust version returns whenever the covariance matrix of the
features is not singular.  Missing: one feature (violated). -/
theorem C137_more_features_partial (hp : p ≠ 1) (rs : Bool) (vt chi : ℝ) {X : List (Fin p → ℝ)}
    (hX : (npCov X).det ≠ 0) {y f : List ℝ} (hf : y.length = f.length) :
    ∃ r, regOutlierMap srt rng cfg fuel g (fun _ => .ok f) rs false vt chi ⟨false, false⟩ X y = .ok r ∧
      r.distances = X.map fun x => Real.sqrt ((x - meanRow X) ⬝ᵥ ((npCov X)⁻¹ *ᵥ (x - meanRow X))) := by
  have hd : mapDistances srt rng cfg fuel g false false X =
      .ok (X.map fun x => Real.sqrt ((x - meanRow X) ⬝ᵥ ((npCov X)⁻¹ *ᵥ (x - meanRow X)))) := by
    unfold mapDistances
    simp only [Bool.false_eq_true, if_false, if_neg hp]
    unfold mahalanobis sqMahalanobis
    rw [npInv_eq _ hX]
    simp only [Except.bind, Except.map, List.map_map]
    congr 1
    apply List.map_congr_left
    intro x _
    simp only [Function.comp_apply]
    rw [quadForm_eq]
  unfold regOutlierMap
  rw [if_neg (by simp)]
  simp only [Except.bind, hd]
  rw [if_neg (by simpa using hf)]
  exact ⟨_, rfl, rfl⟩

/-- The example data: four rows, two features. -/
def regMapX : List (Fin 2 → ℝ) := [![0, 0], ![1, 0], ![0, 1], ![3, 2]]

theorem regMapX_det : (npCov regMapX).det ≠ 0 := by
  rw [Matrix.det_fin_two]
  norm_num [npCov, meanRow, mean, regMapX]

/-- The hypotheses of `C137_more_features_partial` are met by these features and the residuals 0, 1, -1, 5. -/
example : ∃ r, regOutlierMap (argsortStable ℝ) rngFirst ⟨.none, 500, 2, 10, none, 1e-8, true, true, 1, 5, 1⟩ 10 ()
    (fun _ => .ok [0, 0, 0, 0]) true false 2.5 5 ⟨false, false⟩ regMapX [0, 1, -1, 5] = .ok r :=
  (C137_more_features_partial (y := [0, 1, -1, 5]) (f := [0, 0, 0, 0]) (by norm_num) true 2.5 5 regMapX_det rfl).imp
    fun _ h => h.1

/-! ## C138: numbers -/

/-- **C138**, full statement: every observation gets a standardised residual that is not NaN. -/
def C138_statement : Prop :=
  ∀ (p : ℕ) (G : Type) (srt : ArgSort ℝ) (rng : Rng G) (cfg : MCDConfig ℝ) (fuel : ℕ) (g : G)
    (predict : List (Fin p → ℝ) → Except PyErr (List ℝ)) (rs rd : Bool) (vt chi : ℝ) (c : Containers)
    (X : List (Fin p → ℝ)) (y : List ℝ) (r : RegMap),
    regOutlierMap srt rng cfg fuel g predict rs rd vt chi c X y = .ok r → NpFloat.nan ∉ r.standardized

theorem residScale_isSome {rs : Bool} {res : List ℝ} (h : res ≠ []) : ∃ s, residScale rs res = some s ∧ 0 ≤ s := by
  unfold residScale
  cases rs
  · exact ⟨npStd res, by simp [h], Real.sqrt_nonneg _⟩
  · obtain ⟨s, hs⟩ := madRaw_isSome h
    refine ⟨s / normalQuartile, by simp [hs], div_nonneg (madRaw_nonneg hs) normalQuartile_pos.le⟩

theorem npDivide_nan {x s : ℝ} : npDivide x s = .nan ↔ s = 0 ∧ x = 0 := by
  unfold npDivide
  split_ifs with h1 h2 h3
  · simp [h1]
  · simp [h2.ne']
  · simp [h3.ne]
  · simp only [true_iff]
    exact ⟨not_not.1 h1, le_antisymm (not_lt.1 h2) (not_lt.1 h3)⟩

/-- **C138**: a standardised residual is NaN exactly if some residual is 0 and so is the scale of the residuals. -/
theorem C138_nan_iff {predict : List (Fin p → ℝ) → Except PyErr (List ℝ)} {rs rd : Bool} {vt chi : ℝ} {c : Containers}
    {X : List (Fin p → ℝ)} {y : List ℝ} {r : RegMap}
    (h : regOutlierMap srt rng cfg fuel g predict rs rd vt chi c X y = .ok r) :
    NpFloat.nan ∈ r.standardized ↔ 0 ∈ r.residuals ∧ residScale rs r.residuals = some 0 := by
  obtain ⟨f, -, -, -, -, hs, -⟩ := regMap_parts h
  rw [hs]
  by_cases h0 : r.residuals = []
  · rw [h0]
    unfold stdResiduals
    cases residScale rs ([] : List ℝ) <;> simp
  · obtain ⟨s, e, -⟩ := residScale_isSome (rs := rs) h0
    unfold stdResiduals
    rw [e]
    simp only [List.mem_map, npDivide_nan, Option.some.injEq]
    constructor
    · rintro ⟨x, hx, h1, rfl⟩
      exact ⟨hx, h1⟩
    · rintro ⟨hx, h1⟩
      exact ⟨0, hx, h1, rfl⟩

theorem madRaw_zero_of_majority {l : List ℝ} {v : ℝ} (h : l.length < 2 * l.count v) : madRaw l = some 0 := by
  have hne : l ≠ [] := by rintro rfl; simp at h
  obtain ⟨m, hm⟩ := npMedian_isSome hne
  obtain ⟨s, hs⟩ := madRaw_isSome hne
  have hc : ∀ {β : Type} (P : ℝ → Bool), (∀ x, x = v → P x = true) → l.count v ≤ l.countP P := by
    intro _ P hP
    rw [List.count]
    apply List.countP_mono_left
    intro x _ hx
    exact hP x (by simpa using hx)
  have h1 := npMedian_between hm v v (lt_of_lt_of_le h (by
    have := hc (β := ℝ) (fun x => decide (v ≤ x ∧ x ≤ v)) (by rintro x rfl; simp)
    omega))
  have hmv : m = v := le_antisymm h1.2 h1.1
  obtain ⟨m', hm', h2⟩ := madRaw_spec hs
  rw [hm] at hm'
  obtain rfl := Option.some.inj hm'
  have h3 := npMedian_between h2 0 0 (by
    rw [List.length_map, List.countP_map]
    have := hc (β := ℝ) ((fun x => decide (0 ≤ x ∧ x ≤ 0)) ∘ fun x => |x - m|) (by rintro x rfl; simp [hmv])
    omega)
  rw [hs, le_antisymm h3.2 h3.1]

/-- **C138**: if the model fits more than half of the observations exactly, the well-fitted observations get NaN and the
other ones an infinite value. -/
theorem C138_exact_fit {predict : List (Fin p → ℝ) → Except PyErr (List ℝ)} {rd : Bool} {vt chi : ℝ} {c : Containers}
    {X : List (Fin p → ℝ)} {y : List ℝ} {r : RegMap}
    (h : regOutlierMap srt rng cfg fuel g predict true rd vt chi c X y = .ok r)
    (hex : r.residuals.length < 2 * r.residuals.count 0) :
    r.standardized = r.residuals.map fun x => if x = 0 then .nan else if 0 < x then .posInf else .negInf := by
  classical
  obtain ⟨f, -, -, -, -, hs, -⟩ := regMap_parts h
  rw [hs]
  unfold stdResiduals residScale
  rw [madRaw_zero_of_majority hex]
  simp only [if_true, Option.map_some, zero_div]
  apply List.map_congr_left
  intro x _
  unfold npDivide
  rw [if_neg (by simp)]
  rcases lt_trichotomy 0 x with h | h | h
  · rw [if_pos h, if_neg h.ne', if_pos h]
  · subst h; simp
  · rw [if_neg h.not_gt, if_pos h, if_neg h.ne, if_neg h.not_gt]

/-- **C138** (partial): if no value is shared by half of the residuals, no standardised residual is NaN.  Missing: exact
fits of half of the observations (violated). -/
theorem C138_distinct_partial {predict : List (Fin p → ℝ) → Except PyErr (List ℝ)} {rd : Bool} {vt chi : ℝ} {c : Containers}
    {X : List (Fin p → ℝ)} {y : List ℝ} {r : RegMap}
    (h : regOutlierMap srt rng cfg fuel g predict true rd vt chi c X y = .ok r)
    (hd : ∀ v, 2 * r.residuals.count v < r.residuals.length) : NpFloat.nan ∉ r.standardized := by
  rw [C138_nan_iff h]
  rintro ⟨-, h2⟩
  unfold residScale at h2
  simp only [if_true, Option.map_eq_some_iff] at h2
  obtain ⟨s, hs, h0⟩ := h2
  have hs0 : s = 0 := by
    rcases div_eq_zero_iff.1 h0 with h | h
    · exact h
    · exact absurd h normalQuartile_pos.ne'
  subst hs0
  obtain ⟨m, -, h2⟩ := madRaw_spec hs
  have h3 := (npMedian_half h2).1
  rw [List.length_map, List.countP_map] at h3
  have : r.residuals.countP ((fun x => decide (x ≤ 0)) ∘ fun x => |x - m|) = r.residuals.count m := by
    rw [List.count]
    congr 1
    funext x
    simp only [Function.comp_apply, abs_nonpos_iff, sub_eq_zero]
    by_cases hx : x = m <;> simp [hx]
  have h4 := hd m
  omega

/-- **C138** is violated by the code: all residuals 0. -/
theorem C138_violated : ¬ C138_statement := by
  intro h
  obtain ⟨r, hr, -⟩ := C137_more_features_partial (srt := argsortStable ℝ) (rng := rngFirst)
    (cfg := ⟨.none, 500, 2, 10, none, 1e-8, true, true, 1, 5, 1⟩) (fuel := 10) (g := ()) (p := 2) (by norm_num) true 2.5 5
    regMapX_det (y := [1, 2, 3, 4]) (f := [1, 2, 3, 4]) rfl
  refine h _ _ _ _ _ _ _ _ _ _ _ _ _ _ _ r hr ?_
  obtain ⟨f, hf, -, -, hres, -⟩ := regMap_parts hr
  have hf' := Except.ok.inj hf
  subst hf'
  have hres' : r.residuals = [0, 0, 0, 0] := by rw [hres]; norm_num
  rw [C138_exact_fit hr (by rw [hres']; simp), hres']
  simp

/-! ## C139: invariance -/

theorem mapDistances_affine {A : Matrix (Fin p) (Fin p) ℝ} (hA : A.det ≠ 0) (b : Fin p → ℝ) (htol : 0 < cfg.tol)
    (hsteps : 1 ≤ cfg.nInitialCSteps) (fr rd : Bool) (X : List (Fin p → ℝ)) :
    mapDistances srt rng cfg fuel g fr rd (X.map (Spec.affine A b)) = mapDistances srt rng cfg fuel g fr rd X := by
  by_cases hX : X = []
  · subst hX; rfl
  have hlen : (X.length : ℝ) ≠ 0 := by exact_mod_cast (List.length_pos_iff.2 hX).ne'
  have hcov : npCov (X.map (Spec.affine A b)) = A * npCov X * Aᵀ := npCov_affine A b X hlen
  have hmean : meanRow (X.map (Spec.affine A b)) = A *ᵥ meanRow X + b := meanRow_affine A b X hlen
  have hsq : ∀ (loc : Fin p → ℝ) (S : Matrix (Fin p) (Fin p) ℝ),
      sqMahalanobis (X.map (Spec.affine A b)) (A *ᵥ loc + b) (A * S * Aᵀ) = sqMahalanobis X loc S :=
    fun loc S => sqMahalanobis_affine A S hA b loc X
  have hma : ∀ (loc : Fin p → ℝ) (S : Matrix (Fin p) (Fin p) ℝ),
      mahalanobis (X.map (Spec.affine A b)) (A *ᵥ loc + b) (A * S * Aᵀ) = mahalanobis X loc S :=
    fun loc S => C31_affine_invariant A S hA b loc X
  unfold mapDistances
  cases rd
  · simp only [Bool.false_eq_true, if_false]
    by_cases h1 : p = 1
    · rw [if_pos h1, if_pos h1]
    · rw [if_neg h1, if_neg h1, hcov, hmean, npInv_congr A _ hA, hma]
      rcases npInv (npCov X) with e | B <;> rfl
  · simp only [if_true]
    have e1 := covFit_finite false (fastMCDCalc srt rng cfg fuel g) CovState.new X hX
    have e2 := covFit_finite false (fastMCDCalc srt rng cfg fuel g) CovState.new (X.map (Spec.affine A b)) (by simpa using hX)
    unfold finiteCells at e1 e2
    rw [e1, e2]
    unfold covFitValid fastMCDCalc
    rw [C39_fastMCD A b hA srt rng cfg htol hsteps X hX fuel g]
    rcases fastMCD srt rng cfg X fuel g with _ | e | fit
    · rfl
    · rfl
    · simp only [Option.map_some, Except.map]
      by_cases h1 : p = 1
      · simp [h1]
      · simp only [Fintype.card_fin, if_neg h1, Option.getD_some, hcov, Spec.affFit, hsq]
        rcases sqMahalanobis X fit.location fit.covariance with e | d
        · rfl
        · rcases sqMahalanobis X fit.location (npCov X) with e | d'
          · rfl
          · exact hma _ _

theorem residScale_mul {a : ℝ} (ha : 0 < a) (rs : Bool) (l : List ℝ) :
    residScale rs (l.map (a * ·)) = (residScale rs l).map (a * ·) := by
  unfold residScale
  cases rs
  · simp only [Bool.false_eq_true, if_false, List.map_eq_nil_iff]
    split_ifs
    · rfl
    · rw [npStd_mul ha.ne', abs_of_pos ha]; rfl
  · simp only [if_true]
    have := madRaw_affine a 0 l
    simp only [add_zero] at this
    rw [this, abs_of_pos ha, Option.map_map, Option.map_map]
    congr 1
    funext s
    simp [mul_div_assoc]

theorem stdResiduals_mul {a : ℝ} (ha : 0 < a) (rs : Bool) (l : List ℝ) :
    stdResiduals rs (l.map (a * ·)) = stdResiduals rs l := by
  unfold stdResiduals
  rw [residScale_mul ha]
  rcases residScale rs l with _ | s
  · rw [Option.map_none, List.map_map]; rfl
  · simp only [Option.map_some, List.map_map]
    apply List.map_congr_left
    intro x _
    simp only [Function.comp_apply]
    unfold npDivide
    simp only [mul_pos_iff_of_pos_left ha, ne_eq, mul_eq_zero, ha.ne', false_or, mul_div_mul_left _ _ ha.ne',
      mul_neg_iff, ha, true_and, ha.not_gt, false_and, or_false]

/-- **C139**: if the features undergo a nonsingular affine transformation and the residuals a change of unit (which is
what an equivariant regression makes of a change of unit of the response, or of a linear function of the features added
to it), the plot does not change: same standardised residuals, same distances, same thresholds, and an exception exactly
when there was one. -/
theorem C139_invariant {A : Matrix (Fin p) (Fin p) ℝ} (hA : A.det ≠ 0) (b : Fin p → ℝ) {a : ℝ} (ha : 0 < a)
    (htol : 0 < cfg.tol) (hsteps : 1 ≤ cfg.nInitialCSteps) (rs rd : Bool) (vt chi : ℝ) (c : Containers)
    (X : List (Fin p → ℝ)) (y y' f f' : List ℝ) (hy : y.length = f.length) (hy' : y'.length = f'.length)
    (hres : List.zipWith (fun u v => u - v) y' f' = (List.zipWith (fun u v => u - v) y f).map (a * ·)) :
    regOutlierMap srt rng cfg fuel g (fun _ => .ok f') rs rd vt chi c (X.map (Spec.affine A b)) y' =
      (regOutlierMap srt rng cfg fuel g (fun _ => .ok f) rs rd vt chi c X y).map
        fun r => { r with residuals := r.residuals.map (a * ·) } := by
  unfold regOutlierMap
  split_ifs with h
  · rfl
  simp only [Except.bind]
  rw [if_neg (not_not.2 hy'), if_neg (not_not.2 hy), mapDistances_affine hA b htol hsteps, hres, stdResiduals_mul ha]
  rcases mapDistances srt rng cfg fuel g c.xIsFrame rd X with e | d <;> rfl

/-- The hypotheses of `C139_invariant`: the default settings, and the response `2 y + 3 x₁` with its fit. -/
example : (0 : ℝ) < 1e-8 ∧ List.zipWith (fun u v => u - v) [(0 : ℝ), 5, -2, 19] [0, 3, 0, 9] =
    (List.zipWith (fun u v => u - v) [(0 : ℝ), 1, -1, 5] [0, 0, 0, 0]).map (2 * ·) := by
  norm_num

/-! ## C140: outliers are not masked -/

/-- Specification: the value is beyond the dashed lines at `± t`. -/
def Spec.Beyond (t : ℝ) : NpFloat → Prop
  | .num x => t < |x|
  | .posInf => True
  | .negInf => True
  | .nan => False

/-- **C140**: if more than half of the residuals are at most `ε` in absolute value, every observation with a residual
above `2 ε t / 0.6745` (7.42 times `ε` for the default threshold 2.5) is beyond the threshold `t` of the plot, whatever
the other residuals are. -/
theorem C140_not_masked {predict : List (Fin p → ℝ) → Except PyErr (List ℝ)} {rd : Bool} {vt chi : ℝ} {c : Containers}
    {X : List (Fin p → ℝ)} {y : List ℝ} {r : RegMap}
    (h : regOutlierMap srt rng cfg fuel g predict true rd vt chi c X y = .ok r) (hvt : 0 ≤ vt) {ε : ℝ}
    (hmaj : r.residuals.length < 2 * r.residuals.countP (fun x => decide (|x| ≤ ε))) (k : ℕ) (hk : k < r.residuals.length)
    (hlarge : 2 * ε * vt < |r.residuals[k]| * 0.6744897501960817) :
    ∃ hk' : k < r.standardized.length, Spec.Beyond r.verticalThreshold r.standardized[k] := by
  obtain ⟨f, -, -, -, -, hs, -, hv, -⟩ := regMap_parts h
  have hne0 : r.residuals ≠ [] := by intro e; rw [e] at hk; simp at hk
  obtain ⟨s, hmad⟩ := madRaw_isSome hne0
  obtain ⟨m, hm, h2⟩ := madRaw_spec hmad
  have hcm : r.residuals.countP (fun x => decide (|x| ≤ ε)) = r.residuals.countP (fun x => decide (-ε ≤ x ∧ x ≤ ε)) := by
    congr 1; funext x; simp only [abs_le]
  have hm2 := npMedian_between hm (-ε) ε (by rw [← hcm]; exact hmaj)
  have hs2 : s ≤ 2 * ε := by
    refine (npMedian_between h2 0 (2 * ε) ?_).2
    rw [List.length_map, List.countP_map]
    have : r.residuals.countP (fun x => decide (|x| ≤ ε)) ≤
        r.residuals.countP ((fun x => decide (0 ≤ x ∧ x ≤ 2 * ε)) ∘ fun x => |x - m|) := by
      apply List.countP_mono_left
      intro x _ hx
      simp only [decide_eq_true_eq, Function.comp_apply] at hx ⊢
      rw [abs_le] at hx
      refine ⟨abs_nonneg _, abs_le.2 ⟨?_, ?_⟩⟩ <;> linarith [hm2.1, hm2.2, hx.1, hx.2]
    omega
  have hε : 0 ≤ ε := by
    by_contra hneg
    have : r.residuals.countP (fun x => decide (|x| ≤ ε)) = 0 := by
      rw [List.countP_eq_zero]
      intro x _
      simp only [decide_eq_true_eq, not_le]
      linarith [abs_nonneg x]
    omega
  have hne : r.residuals[k] ≠ 0 := by
    intro h0
    rw [h0] at hlarge
    have := mul_nonneg (mul_nonneg (by norm_num : (0:ℝ) ≤ 2) hε) hvt
    norm_num at hlarge
    linarith
  have hq : (normalQuartile : ℝ) = 0.6744897501960817 := by norm_num [normalQuartile]
  have hqp := normalQuartile_pos (K := ℝ)
  have e : r.standardized = r.residuals.map fun x => npDivide x (s / normalQuartile) := by
    rw [hs]
    unfold stdResiduals residScale
    rw [hmad]
    rfl
  have hs0 := madRaw_nonneg hmad
  have hb : Spec.Beyond vt (npDivide r.residuals[k] (s / normalQuartile)) := by
    generalize r.residuals[k] = x at hlarge hne
    unfold npDivide
    by_cases h1 : s / normalQuartile ≠ 0
    · have hsp : 0 < s := lt_of_le_of_ne hs0 (by rintro rfl; simp at h1)
      rw [if_pos h1]
      show vt < |_ / _|
      rw [abs_div, abs_of_pos (div_pos hsp hqp), lt_div_iff₀ (div_pos hsp hqp), mul_div_assoc', div_lt_iff₀ hqp, hq]
      nlinarith
    · rw [if_neg h1]
      rcases lt_or_gt_of_ne hne with h3 | h3
      · rw [if_neg h3.not_gt, if_pos h3]; trivial
      · rw [if_pos h3]; trivial
  have hk' : k < r.standardized.length := by rw [e, List.length_map]; exact hk
  refine ⟨hk', ?_⟩
  have : r.standardized[k] = npDivide r.residuals[k] (s / normalQuartile) := by
    simp only [e, List.getElem_map]
  rw [this, hv]
  exact hb

/-- A case for `C140_not_masked`: the residuals 0, 1, -1, 8 with `ε = 1`. -/
example : ([0, 1, -1, 8] : List ℝ).length < 2 * ([0, 1, -1, 8] : List ℝ).countP (fun x => decide (|x| ≤ 1)) ∧
    2 * 1 * 2.5 < |(8 : ℝ)| * 0.6744897501960817 := by
  norm_num [List.countP_cons]

/-! ## C141: pandas objects -/

/-- **C141**, full statement: the plot does not depend on whether the data are passed as numpy arrays or as pandas
objects. -/
def C141_statement : Prop :=
  ∀ (p : ℕ) (G : Type) (srt : ArgSort ℝ) (rng : Rng G) (cfg : MCDConfig ℝ) (fuel : ℕ) (g : G)
    (predict : List (Fin p → ℝ) → Except PyErr (List ℝ)) (rs rd : Bool) (vt chi : ℝ) (c : Containers)
    (X : List (Fin p → ℝ)) (y : List ℝ),
    regOutlierMap srt rng cfg fuel g predict rs rd vt chi c X y =
      regOutlierMap srt rng cfg fuel g predict rs rd vt chi ⟨false, false⟩ X y

/-- **C141**: a response that is a Series always raises; features in a DataFrame always raise for the non-robust
distances. -/
theorem C141_pandas (predict : List (Fin p → ℝ) → Except PyErr (List ℝ)) (rs rd : Bool) (vt chi : ℝ) (c : Containers)
    (hc : c.yIsSeries = true ∨ (c.xIsFrame = true ∧ rd = false)) (X : List (Fin p → ℝ)) (y : List ℝ) :
    ∃ e, regOutlierMap srt rng cfg fuel g predict rs rd vt chi c X y = .error e := by
  rcases h : regOutlierMap srt rng cfg fuel g predict rs rd vt chi c X y with e | r
  · exact ⟨e, rfl⟩
  · obtain ⟨f, -, -, h1, -, -, h2, -⟩ := regMap_parts h
    rcases hc with hc | ⟨hc, rfl⟩
    · rw [hc] at h1; cases h1
    · unfold mapDistances at h2
      simp only [Bool.false_eq_true, if_false, hc, if_true] at h2
      split_ifs at h2
      obtain ⟨B, -, h3⟩ := bind_ok h2
      cases h3

/-- **C141** is violated by the code. -/
theorem C141_violated : ¬ C141_statement := by
  intro h
  obtain ⟨r, hr, -⟩ := C137_more_features_partial (srt := argsortStable ℝ) (rng := rngFirst)
    (cfg := ⟨.none, 500, 2, 10, none, 1e-8, true, true, 1, 5, 1⟩) (fuel := 10) (g := ()) (p := 2) (by norm_num) true 2.5 5
    regMapX_det (y := [1, 2, 3, 4]) (f := [1, 2, 3, 4]) rfl
  rw [← h _ _ _ _ _ _ _ _ _ _ _ _ ⟨false, true⟩] at hr
  obtain ⟨f, -, -, h1, -⟩ := regMap_parts hr
  cases h1

/-- **C141** (partial): for data on which the call with arrays returns, the call with pandas objects returns the same
result exactly if the response is an array and, without robust distances, the features are too. -/
theorem C141_iff_partial {predict : List (Fin p → ℝ) → Except PyErr (List ℝ)} {rs rd : Bool} {vt chi : ℝ} (c : Containers)
    {X : List (Fin p → ℝ)} {y : List ℝ} {r : RegMap}
    (h : regOutlierMap srt rng cfg fuel g predict rs rd vt chi ⟨false, false⟩ X y = .ok r) :
    regOutlierMap srt rng cfg fuel g predict rs rd vt chi c X y = .ok r ↔
      c.yIsSeries = false ∧ (rd = true ∨ c.xIsFrame = false) := by
  constructor
  · intro h2
    by_contra hn
    obtain ⟨e, he⟩ := C141_pandas (srt := srt) (rng := rng) (cfg := cfg) (fuel := fuel) (g := g) predict rs rd vt chi c (by
      rcases hy : c.yIsSeries with _ | _
      · rcases hx : c.xIsFrame with _ | _
        · exact absurd ⟨hy, Or.inr hx⟩ hn
        · rcases hr : rd with _ | _
          · exact Or.inr ⟨rfl, rfl⟩
          · exact absurd ⟨hy, Or.inl hr⟩ hn
      · exact Or.inl rfl) X y
    rw [he] at h2; cases h2
  · rintro ⟨h1, h2⟩
    rw [← h]
    obtain ⟨cx, cy⟩ := c
    simp only at h1 h2
    subst h1
    rcases h2 with rfl | rfl <;> rfl

end Robpy
