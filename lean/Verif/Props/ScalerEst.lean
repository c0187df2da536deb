import Verif.Model.ScalerEst
import Verif.Props.Scaling
import Verif.Props.RobustScale
import Verif.Props.TauWrapping
import Verif.Props.TauOneStep
import Verif.Props.Qn

/-! C179, C180: `RobustScaler` with the estimators of the package. -/

namespace Robpy

theorem filterMap_some (X : List ℝ) : (X.map some).filterMap id = X := by
  induction X with
  | nil => rfl
  | cons x X ih => simp

theorem column_ok {e : UniEst} {c : List (Option ℝ)} {ig : Bool} {l s : ℝ} (h : e.column c ig = .ok (l, s)) :
    (none ∈ c → ig = true) ∧ e.calc ((c.filterMap id).map some) = .ok (some l, some s) := by
  unfold UniEst.column ScaleState.fit at h
  simp only at h
  by_cases hn : none ∈ c
  · rw [any_isNone_iff.2 hn] at h
    rcases ig with _ | _
    · simp at h
    · refine ⟨fun _ => rfl, ?_⟩
      have hd : c.filter Option.isSome = (c.filterMap id).map some := filter_isSome_eq_dropNaN c
      simp only [Bool.not_true, Bool.and_false, Bool.false_and, Bool.false_eq_true, if_false, Bool.and_true, if_true, hd] at h
      rcases hq : e.calc ((c.filterMap id).map some) with er | ⟨l', s'⟩
      · rw [hq] at h; simp at h
      · rw [hq] at h
        rcases l' with _ | l' <;> rcases s' with _ | s' <;> simp [ScaleState.location, ScaleState.scale] at h
        rw [h.1, h.2]
  · rw [not_any_isNone_iff.2 hn] at h
    have hd : (c.filterMap id).map some = c := dropNaN_eq_self hn
    rw [hd]
    refine ⟨fun h' => absurd h' hn, ?_⟩
    simp only [Bool.and_false, Bool.false_eq_true, if_false] at h
    rcases hq : e.calc c with er | ⟨l', s'⟩
    · rw [hq] at h; simp at h
    · rw [hq] at h
      rcases l' with _ | l' <;> rcases s' with _ | s' <;> simp [ScaleState.location, ScaleState.scale] at h
      rw [h.1, h.2]

theorem column_of_calc {e : UniEst} {c : List (Option ℝ)} {ig : Bool} {l s : ℝ} (h1 : none ∈ c → ig = true)
    (h2 : e.calc ((c.filterMap id).map some) = .ok (some l, some s)) : e.column c ig = .ok (l, s) := by
  unfold UniEst.column ScaleState.fit
  simp only
  by_cases hn : none ∈ c
  · rw [any_isNone_iff.2 hn, h1 hn]
    have hd : c.filter Option.isSome = (c.filterMap id).map some := filter_isSome_eq_dropNaN c
    simp only [Bool.not_true, Bool.and_false, Bool.false_and, Bool.false_eq_true, if_false, Bool.and_true, if_true, hd]
    rw [h2]
    rfl
  · rw [not_any_isNone_iff.2 hn]
    have hd : (c.filterMap id).map some = c := dropNaN_eq_self hn
    rw [hd] at h2
    simp only [Bool.and_false, Bool.false_eq_true, if_false]
    rw [h2]
    rfl

/-- The condition on a change of units under which `OneStepM` follows it: the MAD does not fall below `min_abs_scale`. -/
def Spec.unitsFit (e : UniEst) (a : ℝ) (X : List ℝ) : Prop :=
  match e with
  | .oneStep _ _ _ minAbs => ∀ d, madRaw X = some d → minAbs ≤ a * d / normalQuartile
  | _ => True

theorem qn_short (fc cc : Bool) (X : List ℝ) (hX : X.length < 2) (fuel : ℕ) (s : ℝ) : qnScale fc cc fuel X ≠ some (.ok s) := by
  have hraw : ∀ q, qnRaw fuel X ≠ some (.ok q) := by
    intro q
    rcases fuel with _ | fuel
    · simp [qnRaw, runLoop]
    · have hstep : ∀ knew, qnStep X.length (npSort X) knew (qnInit X.length) = .ok (.inr (.inr (qnInit X.length))) := by
        intro knew
        unfold qnStep
        rw [if_neg]
        · rfl
        · have : X.length = 0 ∨ X.length = 1 := by omega
          rcases this with h | h <;> simp [h, qnInit]
      have hk : (((X.length / 2 + 1) * (X.length / 2 + 1 - 1) / 2 + X.length * (X.length + 1) / 2 : ℕ) : ℤ) - (qnInit X.length).nL = 0 := by
        have : X.length = 0 ∨ X.length = 1 := by omega
        rcases this with h | h <;> simp [h, qnInit]
      simp only [qnRaw, runLoop, hstep]
      unfold qnFinish
      simp only
      rw [hk]
      intro h
      rcases hw : qnFinalWork X.length (npSort X) (qnInit X.length) with er | w
      · rw [hw] at h; simp [Bind.bind, Except.bind] at h
      · rw [hw] at h; simp [Bind.bind, Except.bind, npPartitionMax] at h
  unfold qnScale
  rcases hr : qnRaw fuel X with _ | (er | q)
  · simp
  · simp
  · exact absurd hr (hraw q)

/-- The estimates of every estimator of the package follow a change of units and origin, as long as the reported scale is not 0 (and, for
`OneStepM`, as long as the MAD does not fall below `min_abs_scale`). -/
theorem calc_affine (e : UniEst) (X : List ℝ) {a : ℝ} (ha : 0 < a) (b l s : ℝ) (hs : s ≠ 0) (hside : Spec.unitsFit e a X)
    (h : e.calc (X.map some) = .ok (some l, some s)) :
    e.calc ((X.map fun x => a * x + b).map some) = .ok (some (a * l + b), some (a * s)) := by
  rcases e with ⟨alpha, cutoff, corrRaw, corr⟩ | ⟨c1, c2, corr⟩ | ⟨fc, cc⟩ | ⟨loc, scale, delta, minAbs⟩ | ⟨cutoff, corrRaw, corr⟩
  · simp only [UniEst.calc, filterMap_some, List.length_map] at h ⊢
    rcases hh : setHSize alpha X.length with er | k
    · rw [hh] at h; simp at h
    rw [hh] at h
    simp only at h ⊢
    have hX : 0 < X.length := by
      rcases X with _ | ⟨x, X⟩
      · exfalso
        rcases hm : mcdCalculate cutoff corrRaw corr k ([] : List ℝ) with _ | f
        · rw [hm] at h; simp at h
        · rw [hm] at h
          unfold mcdCalculate at hm
          split_ifs at hm with h0
          · simp only [Option.some.injEq] at hm
            subst hm
            simp [var, mean] at h
            exact hs h.2.symm
          · rcases hr : rawEstimates k ([] : List ℝ) with _ | ⟨v, l'⟩
            · rw [hr] at hm; simp at hm
            · rw [hr] at hm
              simp [reweighting] at hm
              subst hm
              simp at h
      · simp
    obtain ⟨k0, k1⟩ := C04_range alpha _ k hX hh
    rw [C06_affine ha b cutoff corrRaw corr k X (by omega) k1]
    rcases hm : mcdCalculate cutoff corrRaw corr k X with _ | f
    · rw [hm] at h; simp at h
    · rw [hm] at h
      simp only [Option.map_some, Except.ok.injEq, Prod.mk.injEq] at h ⊢
      obtain ⟨h1, h2⟩ := h
      rw [h1]
      refine ⟨rfl, ?_⟩
      rcases hv : f.variance with _ | v
      · rw [hv] at h2; simp at h2
      · rw [hv] at h2
        simp only [Option.map_some, Option.some.injEq] at h2 ⊢
        rw [Real.sqrt_mul (sq_nonneg a), Real.sqrt_sq ha.le, h2]
  · simp only [UniEst.calc, filterMap_some] at h ⊢
    rw [C07_affine c1 c2 corr ha.ne' b X]
    rcases ht : tauCalculate c1 c2 corr X with er | ⟨l', s'⟩
    · rw [ht] at h; simp [Except.map] at h
    · rw [ht] at h
      simp only [Except.map, Except.ok.injEq, Prod.mk.injEq, Option.some.injEq] at h ⊢
      rw [h.1, h.2, abs_of_pos ha]
      simp
  · simp only [UniEst.calc, filterMap_some, List.length_map] at h ⊢
    by_cases hX : 2 ≤ X.length
    · obtain ⟨v, e1, e2⟩ := C05_affine fc cc X hX a b (X.length * X.length + 1) (by omega)
      rw [e1] at h
      rw [e2, npMedian_affine]
      simp only [Except.ok.injEq, Prod.mk.injEq, Option.some.injEq] at h ⊢
      rw [h.1, h.2, abs_of_pos ha]
      exact ⟨rfl, rfl⟩
    · exfalso
      have := qn_short fc cc X (by omega) (X.length * X.length + 1)
      rcases hq : qnScale fc cc (X.length * X.length + 1) X with _ | (er | v)
      · rw [hq] at h; simp at h
      · rw [hq] at h; simp at h
      · exact this v hq
  · have e0 : ∀ Y : List ℝ, (Y.map some).any Option.isNone = false := by
      intro Y
      rw [not_any_isNone_iff]
      simp
    simp only [UniEst.calc, oneStepM, e0, Bool.false_eq_true, if_false, filterMap_some, Except.ok.injEq, Prod.mk.injEq] at h ⊢
    obtain ⟨h1, h2⟩ := h
    rcases hd : madRaw X with _ | d
    · unfold oneStepLocation at h1
      rw [hd] at h1
      rcases npMedian X with _ | m <;> simp at h1
    have hside' : minAbs ≤ a * d / normalQuartile := hside d hd
    have hbig : minAbs ≤ d / normalQuartile := by
      by_contra hc
      push Not at hc
      unfold oneStepScale at h2
      rw [hd] at h2
      rcases hm : npMedian X with _ | m
      · rw [hm] at h2; simp at h2
      · rw [hm] at h2
        simp only [if_pos hc, Option.some.injEq] at h2
        exact hs h2.symm
    rw [C09_location_partial loc minAbs ha.ne' b X d hd hbig (by rwa [abs_of_pos ha]), h1,
      C09_scale scale delta minAbs ha.ne' b X d hd (by rw [abs_of_pos ha]; constructor <;> intro h' <;> linarith), h2, abs_of_pos ha]
    exact ⟨rfl, rfl⟩
  · simp only [UniEst.calc, filterMap_some, Except.ok.injEq] at h ⊢
    have hX : X ≠ [] := by
      rintro rfl
      have : oneStepWrapping cutoff corrRaw corr [] = (none, none) ∨ ∃ l', oneStepWrapping cutoff corrRaw corr [] = (l', some 0) := by
        unfold oneStepWrapping mcdCalculate
        simp only [List.length_nil]
        rw [if_neg (by norm_num)]
        rcases rawEstimates (0 / 2 + 1) ([] : List ℝ) with _ | ⟨v, l'⟩
        · exact Or.inl rfl
        · left
          simp [reweighting]
      rcases this with h' | ⟨l', h'⟩
      · rw [h'] at h; simp at h
      · rw [h'] at h
        simp only [Prod.mk.injEq, Option.some.injEq] at h
        exact hs h.2.symm
    rw [C71_affine cutoff corrRaw corr ha b X hX, h]
    rfl

theorem calc_scale_nonneg (e : UniEst) (X : List ℝ) (l s : ℝ) (h : e.calc (X.map some) = .ok (some l, some s)) : 0 ≤ s := by
  rcases e with ⟨alpha, cutoff, corrRaw, corr⟩ | ⟨c1, c2, corr⟩ | ⟨fc, cc⟩ | ⟨loc, scale, delta, minAbs⟩ | ⟨cutoff, corrRaw, corr⟩
  · simp only [UniEst.calc, filterMap_some] at h
    rcases hh : setHSize alpha X.length with er | k
    · rw [hh] at h; simp at h
    rw [hh] at h
    simp only at h
    rcases hm : mcdCalculate cutoff corrRaw corr k X with _ | f
    · rw [hm] at h; simp at h
    · rw [hm] at h
      simp only [Except.ok.injEq, Prod.mk.injEq] at h
      rcases hv : f.variance with _ | v
      · rw [hv] at h; simp at h
      · rw [hv] at h
        simp only [Option.map_some, Option.some.injEq] at h
        rw [← h.2]
        exact Real.sqrt_nonneg _
  · simp only [UniEst.calc, filterMap_some, tauCalculate] at h
    rcases hd : madRaw X with _ | d
    · rw [hd] at h; simp [Except.map] at h
    · rw [hd] at h
      simp only [Except.map, Except.ok.injEq, Prod.mk.injEq, Option.some.injEq] at h
      rw [← h.2]
      have := madRaw_nonneg hd
      unfold tauCorrect
      rcases corr with _ | c
      · exact mul_nonneg this (Real.sqrt_nonneg _)
      · exact div_nonneg (mul_nonneg this (Real.sqrt_nonneg _)) (Real.sqrt_nonneg _)
  · simp only [UniEst.calc, filterMap_some] at h
    by_cases hX : 2 ≤ X.length
    · obtain ⟨v, e1, e2⟩ := C05_nonneg fc cc X hX (X.length * X.length + 1) (by omega)
      rw [e1] at h
      simp only [Except.ok.injEq, Prod.mk.injEq, Option.some.injEq] at h
      rw [← h.2]
      exact e2
    · exfalso
      have := qn_short fc cc X (by omega) (X.length * X.length + 1)
      rcases hq : qnScale fc cc (X.length * X.length + 1) X with _ | (er | v)
      · rw [hq] at h; simp at h
      · rw [hq] at h; simp at h
      · exact this v hq
  · have e0 : (X.map some).any Option.isNone = false := by
      rw [not_any_isNone_iff]
      simp
    simp only [UniEst.calc, oneStepM, e0, Bool.false_eq_true, if_false, filterMap_some, Except.ok.injEq, Prod.mk.injEq] at h
    obtain ⟨-, h2⟩ := h
    unfold oneStepScale at h2
    rcases hm : npMedian X with _ | m
    · rw [hm] at h2; simp at h2
    rcases hd : madRaw X with _ | d
    · rw [hm, hd] at h2; simp at h2
    rw [hm, hd] at h2
    simp only at h2
    have h0 := madRaw_nonneg hd
    have hq := normalQuartile_pos (K := ℝ)
    split_ifs at h2 with hc
    · rw [← Option.some.inj h2]
    · rw [← Option.some.inj h2]
      exact mul_nonneg (div_nonneg h0 hq.le) (Real.sqrt_nonneg _)
  · simp only [UniEst.calc, filterMap_some, Except.ok.injEq] at h
    unfold oneStepWrapping at h
    rcases hm : mcdCalculate cutoff corrRaw corr (X.length / 2 + 1) X with _ | ⟨rv, rl, v, l'⟩
    · rw [hm] at h; simp at h
    rcases v with _ | v
    · rw [hm] at h; simp at h
    rcases l' with _ | l'
    · rw [hm] at h; simp at h
    rw [hm] at h
    simp only [Prod.mk.injEq, Option.some.injEq] at h
    rw [← h.2]
    exact Real.sqrt_nonneg _

/-- The settings of the scale estimator: any for all estimators but `OneStepM`, whose `min_abs_scale` must be small compared with the
consistency factor and the bound of psi (the default is 1e-12). -/
def Spec.sensible (e : UniEst) : Prop :=
  match e with
  | .oneStep _ scale delta minAbs => 0 < scale.const ∧ 0 < delta ∧ minAbs * scale.const ≤ Real.sqrt delta
  | _ => True

theorem units_standardised (e : UniEst) (hv : Spec.sensible e) (X : List ℝ) (l s : ℝ) (hs : 0 < s)
    (h : e.calc (X.map some) = .ok (some l, some s)) : Spec.unitsFit e 1 X ∧ Spec.unitsFit e (1 / s) X := by
  rcases e with ⟨alpha, cutoff, corrRaw, corr⟩ | ⟨c1, c2, corr⟩ | ⟨fc, cc⟩ | ⟨loc, scale, delta, minAbs⟩ | ⟨cutoff, corrRaw, corr⟩
  · exact ⟨trivial, trivial⟩
  · exact ⟨trivial, trivial⟩
  · exact ⟨trivial, trivial⟩
  · have e0 : (X.map some).any Option.isNone = false := by
      rw [not_any_isNone_iff]
      simp
    simp only [UniEst.calc, oneStepM, e0, Bool.false_eq_true, if_false, filterMap_some, Except.ok.injEq, Prod.mk.injEq] at h
    obtain ⟨hc, hdel, hmin⟩ := hv
    have hsd := Real.sqrt_pos.2 hdel
    constructor <;> intro d hd <;> obtain ⟨v, h1, -, h3, h4⟩ := C08_scale scale hc delta minAbs hdel X d hd <;>
      rw [h.2] at h1 <;> obtain rfl := Option.some.inj h1
    · by_contra hlt
      push Not at hlt
      rw [one_mul] at hlt
      exact hs.ne' (h4 hlt)
    · rw [div_mul_eq_mul_div, one_mul, div_div, mul_comm, ← div_div, le_div_iff₀ hs]
      rw [le_div_iff₀ hsd] at h3
      have : minAbs * s * (scale.const * Real.sqrt delta) ≤ d / normalQuartile * (scale.const * Real.sqrt delta) := by
        have h5 : 0 ≤ s * Real.sqrt delta := by positivity
        nlinarith
      exact le_of_mul_le_mul_right this (by positivity)
  · exact ⟨trivial, trivial⟩

theorem filterMap_cells (f : ℝ → ℝ) (c : List (Option ℝ)) :
    (c.map (Option.map f)).filterMap id = (c.filterMap id).map f := by
  rw [List.filterMap_map, List.map_filterMap]
  rfl

theorem column_affine (e : UniEst) (c : List (Option ℝ)) (ig : Bool) {a : ℝ} (ha : 0 < a) (b l s : ℝ) (hs : s ≠ 0)
    (hside : Spec.unitsFit e a (c.filterMap id)) (h : e.column c ig = .ok (l, s)) :
    e.column (c.map (Option.map fun x => a * x + b)) ig = .ok (a * l + b, a * s) := by
  obtain ⟨h1, h2⟩ := column_ok h
  apply column_of_calc
  · intro hn
    apply h1
    obtain ⟨x, hx, hx2⟩ := List.mem_map.1 hn
    rcases x with _ | x
    · exact hx
    · simp at hx2
  · rw [filterMap_cells]
    exact calc_affine e _ ha b l s hs hside h2

theorem scaleCell_affine {l s : ℝ} (hs : s ≠ 0) : scaleCell l s = Option.map fun x => 1 / s * x + -l / s := by
  funext x
  rcases x with _ | x
  · rfl
  · simp only [scaleCell, Option.bind_some, if_neg hs, Option.map_some]
    congr 1
    field_simp
    ring

/-- **C179**: scaling is complete after one pass.  For every estimator of the package and each of the four combinations of flags, if the
estimator reports numbers and no scale 0, then `RobustScaler` fitted to its own output finds location 0 and scale 1 in every column (with
both flags on: the output has location exactly 0 and scale exactly 1). -/
theorem C179_standardised (e : UniEst) (hv : Spec.sensible e) (ce sc ig : Bool) (st0 st : ScalerState ℝ) (X : List (List (Option ℝ)))
    (hfit : scalerFit e.column ce sc ig st0 X = (.ok (), st)) (hs : ∀ c ∈ X, ∀ l s, e.column c ig = .ok (l, s) → s ≠ 0) :
    ∃ Y, scalerTransform st X = .ok Y ∧
      scalerFit e.column ce sc ig st Y = (.ok (), ⟨List.replicate X.length 0, List.replicate X.length 1⟩) := by
  have hlen := scalerFitLoop_lengths e.column ce sc ig X
  have hst : (scalerFitLoop e.column ce sc ig X).2 = st := congrArg Prod.snd hfit
  rw [hst] at hlen
  refine ⟨_, by unfold scalerTransform; rw [if_pos hlen.1.symm], ?_⟩
  unfold scalerFit at hfit ⊢
  clear hlen hst
  induction X generalizing st with
  | nil =>
    simp [scalerFitLoop]
  | cons c cs ih =>
    unfold scalerFitLoop at hfit
    rcases hc : e.column c ig with er | ⟨l, s⟩
    · rw [hc] at hfit; simp at hfit
    rw [hc] at hfit
    simp only [Prod.mk.injEq] at hfit
    obtain ⟨h1, h2⟩ := hfit
    subst h2
    have ih' := ih (scalerFitLoop e.column ce sc ig cs).2 (Prod.ext h1 rfl) (fun c hc => hs c (by simp [hc]))
    have hs0 := hs c (by simp) l s hc
    have hpos : 0 < s := lt_of_le_of_ne (calc_scale_nonneg e _ l s (column_ok hc).2) (Ne.symm hs0)
    obtain ⟨u1, u2⟩ := units_standardised e hv _ l s hpos (column_ok hc).2
    simp only [List.zip_cons_cons, List.zipWith_cons_cons, List.length_cons, List.replicate_succ]
    unfold scalerFitLoop
    have hsc : (if sc then s else 1) ≠ 0 := by split_ifs <;> [exact hs0; exact one_ne_zero]
    rw [scaleCell_affine hsc]
    have hu : Spec.unitsFit e (1 / (if sc then s else 1)) (c.filterMap id) := by
      split_ifs
      · exact u2
      · simpa using u1
    have hpos' : 0 < 1 / (if sc then s else 1) := by split_ifs <;> positivity
    rw [column_affine e c ig hpos' _ l s hs0 hu hc]
    simp only [ih']
    rcases ce with _ | _ <;> rcases sc with _ | _ <;> simp
    · exact inv_mul_cancel₀ hs0
    · refine ⟨?_, inv_mul_cancel₀ hs0⟩
      field_simp
      ring

theorem mcd_column_example : (UniEst.mcd .none 5 (fun _ _ => 1) (fun _ => 1)).column [some 0, none, some 4] true = .ok (2, 2) := by
  apply column_of_calc (fun _ => rfl)
  have hv : var ([0, 4] : List ℝ) = 2 ^ 2 := by norm_num [var, mean]
  have hm : mean ([0, 4] : List ℝ) = 2 := by norm_num [mean]
  have hsq : Real.sqrt 4 = 2 := by rw [show (4:ℝ) = 2 ^ 2 by norm_num]; exact Real.sqrt_sq (by norm_num)
  have hf : ([some 0, none, some 4] : List (Option ℝ)).filterMap id = [0, 4] := rfl
  simp only [UniEst.calc, filterMap_some, hf, setHSize, List.length_cons, List.length_nil, mcdCalculate]
  norm_num [hv, hm, hsq]

/-- The hypotheses are met by a column with a missing value and the default estimator (with the correction factors set to 1): location 2,
scale 2. -/
example : let e : UniEst := .mcd .none 5 (fun _ _ => 1) (fun _ => 1)
    Spec.sensible e ∧ scalerFit e.column true true true ⟨[], []⟩ [[some 0, none, some 4]] = (.ok (), ⟨[2], [2]⟩) ∧
      (∀ c ∈ [[some 0, none, some (4:ℝ)]], ∀ l s, e.column c true = .ok (l, s) → s ≠ 0) := by
  refine ⟨trivial, ?_, ?_⟩
  · simp [scalerFit, scalerFitLoop, mcd_column_example]
  · intro c hc l s h
    rw [List.mem_singleton] at hc
    subst hc
    rw [mcd_column_example] at h
    simp only [Except.ok.injEq, Prod.mk.injEq] at h
    rw [← h.2]
    norm_num

/-- `HuberOneStepM` and `CellwiseOneStepM` have sensible settings (robpy/univariate/onestep_m.py 79, 94). -/
example : Spec.sensible (.oneStep (.huber 1.5) (.huber 1.5) 0.7784655 (1 / 1000000000000)) ∧
    Spec.sensible (.oneStep (.tukey 3) (.huber 2.5) 0.845 (1 / 1000000000000)) := by
  constructor
  · refine ⟨by norm_num [Rho.const], by norm_num, Real.le_sqrt_of_sq_le ?_⟩
    norm_num [Rho.const]
  · refine ⟨by norm_num [Rho.const], by norm_num, Real.le_sqrt_of_sq_le ?_⟩
    norm_num [Rho.const]

/-! ## C180 -/

/-- The columns in other units: column `j` becomes `a_j * x + b_j`. -/
noncomputable def Spec.columnsInUnits (ab : List (ℝ × ℝ)) (X : List (List (Option ℝ))) : List (List (Option ℝ)) :=
  List.zipWith (fun u c => c.map (Option.map fun x => u.1 * x + u.2)) ab X

/-- Full statement of C180: the scaled data do not depend on the units and origins of the columns. -/
def C180_statement (e : UniEst) : Prop :=
  ∀ (ig : Bool) (st0 st : ScalerState ℝ) (X : List (List (Option ℝ))) (ab : List (ℝ × ℝ)), ab.length = X.length → (∀ u ∈ ab, 0 < u.1) →
    scalerFit e.column true true ig st0 X = (.ok (), st) → (∀ s ∈ st.scales_, s ≠ 0) →
    ∃ st', scalerFit e.column true true ig st0 (Spec.columnsInUnits ab X) = (.ok (), st') ∧
      scalerTransform st' (Spec.columnsInUnits ab X) = scalerTransform st X

/-- **C180**: it holds for every estimator when each MAD stays above `min_abs_scale` in the new units; that is no condition for
`UnivariateMCD`, `Tau`, `Qn` and `OneStepWrapping`.  Missing with respect to the full statement: `OneStepM` in units that make the MAD
smaller than `min_abs_scale`, where it is false. -/
theorem C180_partial (e : UniEst) (ig : Bool) (st0 st : ScalerState ℝ) (X : List (List (Option ℝ))) (ab : List (ℝ × ℝ))
    (hab : ab.length = X.length) (hpos : ∀ u ∈ ab, 0 < u.1) (hside : ∀ q ∈ ab.zip X, Spec.unitsFit e q.1.1 (q.2.filterMap id))
    (hfit : scalerFit e.column true true ig st0 X = (.ok (), st)) (hs : ∀ s ∈ st.scales_, s ≠ 0) :
    ∃ st', scalerFit e.column true true ig st0 (Spec.columnsInUnits ab X) = (.ok (), st') ∧
      scalerTransform st' (Spec.columnsInUnits ab X) = scalerTransform st X := by
  have key : ∀ (X : List (List (Option ℝ))) (ab : List (ℝ × ℝ)) (st : ScalerState ℝ), ab.length = X.length → (∀ u ∈ ab, 0 < u.1) →
      (∀ q ∈ ab.zip X, Spec.unitsFit e q.1.1 (q.2.filterMap id)) → scalerFitLoop e.column true true ig X = (.ok (), st) →
      (∀ s ∈ st.scales_, s ≠ 0) →
      ∃ st', scalerFitLoop e.column true true ig (Spec.columnsInUnits ab X) = (.ok (), st') ∧
        List.zipWith (fun c ls => c.map (scaleCell ls.1 ls.2)) (Spec.columnsInUnits ab X) (st'.locations_.zip st'.scales_) =
          List.zipWith (fun c ls => c.map (scaleCell ls.1 ls.2)) X (st.locations_.zip st.scales_) := by
    intro X
    induction X with
    | nil =>
      intro ab st hab _ _ hf _
      have : ab = [] := List.length_eq_zero_iff.1 hab
      subst this
      exact ⟨st, hf, rfl⟩
    | cons c cs ih =>
      intro ab st hab hpos hside hf hs
      rcases ab with _ | ⟨u, ab⟩
      · simp at hab
      unfold scalerFitLoop at hf
      rcases hc : e.column c ig with er | ⟨l, s⟩
      · rw [hc] at hf; simp at hf
      rw [hc] at hf
      simp only [Prod.mk.injEq, if_true] at hf
      obtain ⟨h1, h2⟩ := hf
      subst h2
      have hs0 : s ≠ 0 := hs s (by simp)
      have hu : 0 < u.1 := hpos u (by simp)
      obtain ⟨st', f1, f2⟩ := ih ab (scalerFitLoop e.column true true ig cs).2 (by simpa using hab) (fun v hv => hpos v (by simp [hv]))
        (fun q hq => hside q (by simp [hq])) (Prod.ext h1 rfl) (fun v hv => hs v (by simp [hv]))
      have hcol := column_affine e c ig hu u.2 l s hs0 (hside (u, c) (by simp)) hc
      refine ⟨⟨(u.1 * l + u.2) :: st'.locations_, (u.1 * s) :: st'.scales_⟩, ?_, ?_⟩
      · show scalerFitLoop e.column true true ig ((c.map (Option.map fun x => u.1 * x + u.2)) :: Spec.columnsInUnits ab cs) = _
        unfold scalerFitLoop
        rw [hcol]
        simp only [f1, if_true]
      · show List.zipWith _ ((c.map (Option.map fun x => u.1 * x + u.2)) :: Spec.columnsInUnits ab cs) _ = _
        simp only [List.zip_cons_cons, List.zipWith_cons_cons, f2]
        congr 1
        rw [scaleCell_affine (mul_ne_zero hu.ne' hs0), scaleCell_affine hs0, List.map_map]
        apply List.map_congr_left
        intro x _
        rcases x with _ | x
        · rfl
        · simp only [Function.comp, Option.map_some]
          congr 1
          have := hu.ne'
          field_simp
          ring
  obtain ⟨st', f1, f2⟩ := key X ab st hab hpos hside hfit hs
  refine ⟨st', f1, ?_⟩
  have l1 := (scalerFitLoop_lengths e.column true true ig X).1
  have l2 := (scalerFitLoop_lengths e.column true true ig (Spec.columnsInUnits ab X)).1
  unfold scalerFit at hfit
  rw [hfit] at l1
  rw [f1] at l2
  unfold scalerTransform
  rw [if_pos l2.symm, if_pos l1.symm, f2]

/-- **C180** in full for all estimators but `OneStepM`. -/
theorem C180_others_partial (e : UniEst) (he : ∀ loc scale delta minAbs, e ≠ .oneStep loc scale delta minAbs) : C180_statement e := by
  intro ig st0 st X ab hab hpos hfit hs
  refine C180_partial e ig st0 st X ab hab hpos ?_ hfit hs
  intro q _
  rcases e with ⟨alpha, cutoff, corrRaw, corr⟩ | ⟨c1, c2, corr⟩ | ⟨fc, cc⟩ | ⟨loc, scale, delta, minAbs⟩ | ⟨cutoff, corrRaw, corr⟩
  · trivial
  · trivial
  · trivial
  · exact absurd rfl (he loc scale delta minAbs)
  · trivial

theorem median_c180 : npMedian ([-1, 0, 1] : List ℝ) = some 0 ∧ madRaw ([-1, 0, 1] : List ℝ) = some 1 := by
  have h1 : npMedian ([-1, 0, 1] : List ℝ) = some 0 := by
    rw [npMedian_eq_some_iff]
    refine ⟨0, 0, ?_, ?_, by norm_num⟩ <;> norm_num [_root_.Spec.IsKthSmallest, List.countP_cons]
  refine ⟨h1, ?_⟩
  unfold madRaw
  rw [h1]
  simp only [List.map_cons, List.map_nil]
  norm_num
  rw [npMedian_eq_some_iff]
  refine ⟨1, 1, ?_, ?_, by norm_num⟩ <;> norm_num [_root_.Spec.IsKthSmallest, List.countP_cons]

/-- **C180 is violated** by `HuberOneStepM`: three values -1, 0, 1 (say in millimetres) are scaled; the same values in a unit in which they are
1e-13 get scale 0 and every cell of the output is NaN or infinite. -/
theorem C180_violated : ¬ C180_statement (.oneStep (.huber 1.5) (.huber 1.5) 0.7784655 (1 / 1000000000000)) := by
  intro h
  set e : UniEst := .oneStep (.huber 1.5) (.huber 1.5) 0.7784655 (1 / 1000000000000) with he
  obtain ⟨hm, hd⟩ := median_c180
  have hq := normalQuartile_pos (K := ℝ)
  have hq1 := normalQuartile_lt_one (K := ℝ)
  -- in the first unit
  obtain ⟨l, hl, -⟩ := C08_location (K := ℝ) (.huber 1.5) (by norm_num [Rho.admissible]) (1 / 1000000000000) (by norm_num) (by norm_num) [-1, 0, 1] (by simp)
  have hbig : ¬ (1 : ℝ) / normalQuartile < 1 / 1000000000000 := by
    rw [not_lt, le_div_iff₀ hq]
    nlinarith
  have hpsi : 0 < mean (([-1, 0, 1] : List ℝ).map fun x => (Rho.huber (1.5:ℝ)).psi ((x - 0) / (1 / normalQuartile)) ^ 2) := by
    have hp : ∀ x : ℝ, |x| ≤ 1 → (Rho.huber (1.5:ℝ)).psi ((x - 0) / (1 / normalQuartile)) = x * normalQuartile := by
      intro x hx
      show huberPsi 1.5 _ = _
      have e1 : (x - 0) / (1 / normalQuartile) = x * normalQuartile := by field_simp; ring
      rw [e1]
      unfold huberPsi
      rw [if_pos]
      rw [abs_mul, abs_of_pos hq]
      nlinarith [abs_nonneg x]
    simp only [List.map_cons, List.map_nil, mean, hp (-1) (by norm_num), hp 0 (by norm_num), hp 1 (by norm_num), List.sum_cons, List.sum_nil,
      List.length_cons, List.length_nil]
    have : (0:ℝ) < (normalQuartile : ℝ) ^ 2 := pow_pos hq 2
    norm_num
    nlinarith
  obtain ⟨s, hs, hs0⟩ : ∃ s, oneStepScale (.huber 1.5) 0.7784655 (1 / 1000000000000) [-1, 0, 1] = some s ∧ 0 < s := by
    unfold oneStepScale
    rw [hm, hd]
    simp only [if_neg hbig]
    refine ⟨_, rfl, mul_pos (by positivity) (Real.sqrt_pos.2 (mul_pos (by norm_num) hpsi))⟩
  have hcalc : ∀ Y : List ℝ, e.calc (Y.map some) =
      .ok (oneStepLocation (.huber 1.5) (1 / 1000000000000) Y, oneStepScale (.huber 1.5) 0.7784655 (1 / 1000000000000) Y) := by
    intro Y
    have e0 : (Y.map some).any Option.isNone = false := by
      rw [not_any_isNone_iff]
      simp
    simp only [he, UniEst.calc, oneStepM, e0, Bool.false_eq_true, if_false, filterMap_some]
  have hcol : e.column (([-1, 0, 1] : List ℝ).map some) false = .ok (l, s) := by
    apply column_of_calc (by simp)
    rw [filterMap_some, hcalc, hl, hs]
  obtain ⟨st', h1, h2⟩ := h false ⟨[], []⟩ ⟨[l], [s]⟩ [([-1, 0, 1] : List ℝ).map some] [(1 / 10000000000000, 0)] rfl (by
      intro u hu
      rw [List.mem_singleton] at hu
      subst hu
      norm_num) (by unfold scalerFit scalerFitLoop; rw [hcol]; rfl) (by
      intro s' hs'
      simp only [List.mem_singleton] at hs'
      subst hs'
      exact hs0.ne')
  -- in the second unit
  set Y : List ℝ := ([-1, 0, 1] : List ℝ).map fun x => 1 / 10000000000000 * x + 0 with hY
  have hunits : Spec.columnsInUnits [(1 / 10000000000000, 0)] [([-1, 0, 1] : List ℝ).map some] = [Y.map some] := by
    simp [Spec.columnsInUnits, hY]
  have hdY : madRaw Y = some (|1 / 10000000000000| * 1) := by rw [hY, madRaw_affine, hd]; rfl
  have hmY : npMedian Y = some (1 / 10000000000000 * 0 + 0) := by rw [hY, npMedian_affine, hm]; rfl
  have hsY : oneStepScale (.huber 1.5) 0.7784655 (1 / 1000000000000) Y = some 0 := by
    unfold oneStepScale
    rw [hmY, hdY]
    simp only
    rw [if_pos]
    rw [div_lt_iff₀ hq]
    norm_num [normalQuartile]
  rw [hunits] at h1 h2
  obtain ⟨l', s', k1, k2, k3, k4⟩ := C19_own_column e.column true true false ⟨[], []⟩ [Y.map some] st' h1 0 (Y.map some) rfl
  have k5 := (column_ok k1).2
  rw [filterMap_some, hcalc, hsY] at k5
  simp only [Except.ok.injEq, Prod.mk.injEq, Option.some.injEq] at k5
  have hT : scalerTransform (⟨[l], [s]⟩ : ScalerState ℝ) [([-1, 0, 1] : List ℝ).map some] =
      .ok [(([-1, 0, 1] : List ℝ).map some).map (scaleCell l s)] := by simp [scalerTransform]
  rw [hT] at h2
  have k6 := k4 _ _ h2
  simp only [List.getElem?_cons_zero, Option.map_some, Option.some.injEq, ← k5.2, if_true] at k6
  have k7 := congrArg (fun c => c[0]?) k6
  simp [scaleCell, hs0.ne', hY] at k7

end Robpy
