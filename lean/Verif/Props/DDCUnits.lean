import Verif.Props.DDCRefit
import Verif.Props.TauOneStep

/-! Property C113: `DDC` does not depend on the units of the columns. -/

namespace Robpy

section
variable {round3 cdf : ℝ → ℝ} {est : List (Option ℝ) → Except PyErr (Option ℝ × Option ℝ)}

/-- The data in other units: column `i` becomes `a i * x + b i`; missing cells stay missing. -/
def inUnits (a b : ℕ → ℝ) (X : CellFrame (Option ℝ)) : CellFrame (Option ℝ) :=
  { X with cell := fun k i => (X.cell k i).map fun x => a i * x + b i }

/-- The scale estimator follows the change of units on the columns of `X`. -/
def FollowsUnits (est : List (Option ℝ) → Except PyErr (Option ℝ × Option ℝ)) (a b : ℕ → ℝ) (X : CellFrame (Option ℝ)) :
    Prop :=
  ∀ i < X.p, est (observed (inUnits a b X) i)
    = (est (observed X i)).map fun q => (q.1.map fun l => a i * l + b i, q.2.map fun s => a i * s)

theorem inUnits_inUnits {a : ℕ → ℝ} (ha : ∀ i, a i ≠ 0) (b : ℕ → ℝ) (X : CellFrame (Option ℝ)) :
    inUnits (fun i => (a i)⁻¹) (fun i => -((a i)⁻¹ * b i)) (inUnits a b X) = X := by
  unfold inUnits
  cases X
  simp only [Option.map_map, CellFrame.mk.injEq, true_and]
  funext k i
  rename_i cell
  rw [show ((fun x => (a i)⁻¹ * x + -((a i)⁻¹ * b i)) ∘ fun x => a i * x + b i) = id by
    funext x
    have := ha i
    simp only [Function.comp, id]
    field_simp
    ring]
  simp

theorem FollowsUnits.inverse {a b : ℕ → ℝ} {X : CellFrame (Option ℝ)} (ha : ∀ i, a i ≠ 0) (h : FollowsUnits est a b X) :
    FollowsUnits est (fun i => (a i)⁻¹) (fun i => -((a i)⁻¹ * b i)) (inUnits a b X) := by
  intro i hi
  rw [inUnits_inUnits ha, h i hi]
  rcases est (observed X i) with e | ⟨l, s⟩
  · rfl
  · have := ha i
    simp only [Except.map, Option.map_map]
    congr 2
    · cases l with
      | none => rfl
      | some l => simp only [Option.map_some, Function.comp]; congr 1; field_simp; ring
    · cases s with
      | none => rfl
      | some s => simp only [Option.map_some, Function.comp]; congr 1; field_simp

theorem distinctCount_inUnits {a : ℕ → ℝ} (ha : ∀ i, a i ≠ 0) (b : ℕ → ℝ) (X : CellFrame (Option ℝ)) (i : ℕ) :
    Spec.distinctCount (inUnits a b X) i = Spec.distinctCount X i := by
  classical
  unfold Spec.distinctCount
  have hinj : Function.Injective (Option.map fun x => a i * x + b i) :=
    Option.map_injective fun x y h => by
      have h1 : a i * x = a i * y := by simpa using h
      exact mul_left_cancel₀ (ha i) h1
  rw [← Finset.card_image_of_injective (((Finset.range X.n).image fun k => X.cell k i).erase none) hinj]
  congr 1
  ext x
  simp only [Finset.mem_erase, Finset.mem_image, Finset.mem_range, inUnits]
  constructor
  · rintro ⟨hx, k, hk, rfl⟩
    refine ⟨X.cell k i, ⟨?_, k, hk, rfl⟩, rfl⟩
    rintro h0
    rw [h0] at hx
    exact hx rfl
  · rintro ⟨y, ⟨hy, k, hk, rfl⟩, rfl⟩
    refine ⟨?_, k, hk, rfl⟩
    simpa using hy

theorem check_inUnits {a : ℕ → ℝ} (ha : ∀ i, a i ≠ 0) (b : ℕ → ℝ) (X : CellFrame (Option ℝ)) :
    ddcCheck (realEnv round3 cdf est) (inUnits a b X) = ddcCheck (realEnv round3 cdf est) X := by
  unfold ddcCheck
  simp only [distinctCells_eq, distinctCount_inUnits ha]
  rfl

theorem est_column (X : CellFrame (Option ℝ)) (i : ℕ) :
    (colList (replaceInf (realEnv round3 cdf est) X).n (replaceInf (realEnv round3 cdf est) X).cell i).filter
      (realEnv round3 cdf est).ok = observed X i := by
  show (colList X.n X.cell i).filter (realEnv round3 cdf est).ok = _
  unfold observed
  apply List.filter_congr
  intro x _
  cases x <;> rfl

/-- The fitted locations and scales in the new units. -/
theorem scaler_inUnits {a b : ℕ → ℝ} {X : CellFrame (Option ℝ)} (h : FollowsUnits est a b X) {ls ss : List (Option ℝ)}
    (hs : fitScaler (realEnv round3 cdf est) (replaceInf (realEnv round3 cdf est) X) (List.range X.p) [] []
      = (.ok (), ls, ss)) :
    ∃ ls' ss', fitScaler (realEnv round3 cdf est) (replaceInf (realEnv round3 cdf est) (inUnits a b X))
        (List.range (inUnits a b X).p) [] [] = (.ok (), ls', ss') ∧
      (∀ i, ls'.getD i none = (ls.getD i none).map fun l => a i * l + b i) ∧
      (∀ i, ss'.getD i none = (ss.getD i none).map fun s => a i * s) := by
  have hcol : ∀ i < X.p, (realEnv round3 cdf est).est ((colList (replaceInf (realEnv round3 cdf est) (inUnits a b X)).n
      (replaceInf (realEnv round3 cdf est) (inUnits a b X)).cell i).filter (realEnv round3 cdf est).ok)
      = .ok ((ls.getD i none).map fun l => a i * l + b i, (ss.getD i none).map fun s => a i * s) := by
    intro i hi
    rw [est_column]
    have h1 := fitScaler_getD hs i hi
    rw [est_column] at h1
    have h2 : est (observed X i) = .ok (ls.getD i none, ss.getD i none) := h1
    show est _ = _
    rw [h i hi, h2]
    rfl
  obtain ⟨ls', ss', h1⟩ := fitScaler_all_ok (env := realEnv round3 cdf est)
    (X := replaceInf (realEnv round3 cdf est) (inUnits a b X)) (List.range X.p) [] []
    (fun i hi => ⟨_, hcol i (List.mem_range.1 hi)⟩)
  have hlen : ls.length = X.p ∧ ss.length = X.p := by
    obtain ⟨c, d, e1, e2, -, e4, e5⟩ := fitScaler_ok _ _ _ _ _ hs
    rw [e1, e2]; simp [e4, e5]
  have hlen' : ls'.length = X.p ∧ ss'.length = X.p := by
    obtain ⟨c, d, e1, e2, -, e4, e5⟩ := fitScaler_ok _ _ _ _ _ h1
    rw [e1, e2]; simp [e4, e5]
  have hget : ∀ i < X.p, ls'.getD i none = (ls.getD i none).map (fun l => a i * l + b i) ∧
      ss'.getD i none = (ss.getD i none).map fun s => a i * s := by
    intro i hi
    have h2 := fitScaler_getD h1 i hi
    rw [hcol i hi] at h2
    obtain ⟨h3, h4⟩ := Prod.mk.inj (Except.ok.inj h2)
    exact ⟨h3.symm, h4.symm⟩
  have hout : ∀ (l : List (Option ℝ)) (i : ℕ), l.length ≤ i → l.getD i none = none := by
    intro l i hi
    simp [List.getElem?_eq_none hi]
  refine ⟨ls', ss', h1, fun i => ?_, fun i => ?_⟩
  · rcases lt_or_ge i X.p with hi | hi
    · exact (hget i hi).1
    · rw [hout _ _ (by omega), hout _ _ (by omega)]; rfl
  · rcases lt_or_ge i X.p with hi | hi
    · exact (hget i hi).2
    · rw [hout _ _ (by omega), hout _ _ (by omega)]; rfl

/-- A standardised cell does not depend on the units. -/
theorem standardised_inUnits {a b : ℝ} (ha : a ≠ 0) (x l s : Option ℝ) :
    (realEnv round3 cdf est).div (liftNaN (· - ·) (x.map fun x => a * x + b) (l.map fun l => a * l + b))
        (s.map fun s => a * s)
      = (realEnv round3 cdf est).div (liftNaN (· - ·) x l) s := by
  show (if s.map (fun s => a * s) = some 0 then none else _) = (if s = some 0 then none else _)
  rcases x with _ | x
  · simp [liftNaN]
  rcases l with _ | l
  · simp [liftNaN]
  rcases s with _ | s
  · simp [liftNaN]
  by_cases hs : s = 0
  · simp [hs]
  · have h1 : a * s ≠ 0 := mul_ne_zero ha hs
    rw [Option.map_some, if_neg (by simpa using h1), if_neg (by simpa using hs)]
    simp only [Option.map_some, liftNaN]
    congr 1
    rw [div_eq_div_iff h1 hs]
    ring

/-- **C113** The units of the columns do not matter.  Let the columns be given in other units (`a i * x + b i`,
`a i ≠ 0`) and let the scale estimator follow the change of units.  Then `fit` returns on the new data
exactly when it returns on the old; both objects hold the same correlations, slopes, cell flags, standardised
residuals and row flags; the predictions in the units of the data are the old ones in the new units; and
`predict` gives on every data set in the new units what it gives on that data set in the old ones. -/
theorem C113_units {a : ℕ → ℝ} (ha : ∀ i, a i ≠ 0) (b : ℕ → ℝ) (cfg : DDCConfig (Option ℝ)) (v : Bool)
    (st₀ : DDCState (Option ℝ)) (X : CellFrame (Option ℝ)) (hest : FollowsUnits est a b X) :
    ((ddcFit (realEnv round3 cdf est) cfg v st₀ (inUnits a b X)).1 = .ok () ↔
      (ddcFit (realEnv round3 cdf est) cfg v st₀ X).1 = .ok ()) ∧
    ∀ st, ddcFit (realEnv round3 cdf est) cfg v st₀ X = (.ok (), st) →
      ∃ st', ddcFit (realEnv round3 cdf est) cfg v st₀ (inUnits a b X) = (.ok (), st') ∧
        st'.corr = st.corr ∧ st'.slopes = st.slopes ∧ st'.cellwise = st.cellwise ∧ st'.stdRes = st.stdRes ∧
        st'.rowOut = st.rowOut ∧
        (∀ P, st.rescaled = some P → ∃ P', st'.rescaled = some P' ∧
          ∀ k i, P' k i = (P k i).map fun x => a i * x + b i) ∧
        ∀ (Y : CellFrame (Option ℝ)) (r : Bool), Y.p = X.p → Y.numeric = true →
          (ddcPredict (realEnv round3 cdf est) cfg st' (inUnits a b Y) r).1
            = (ddcPredict (realEnv round3 cdf est) cfg st Y r).1 := by
  have main : ∀ (a b : ℕ → ℝ) (X : CellFrame (Option ℝ)) (st : DDCState (Option ℝ)), (∀ i, a i ≠ 0) →
      FollowsUnits est a b X → ddcFit (realEnv round3 cdf est) cfg v st₀ X = (.ok (), st) →
      ∃ st', ddcFit (realEnv round3 cdf est) cfg v st₀ (inUnits a b X) = (.ok (), st') ∧
        st'.corr = st.corr ∧ st'.slopes = st.slopes ∧ st'.cellwise = st.cellwise ∧ st'.stdRes = st.stdRes ∧
        st'.rowOut = st.rowOut ∧
        (∀ P, st.rescaled = some P → ∃ P', st'.rescaled = some P' ∧
          ∀ k i, P' k i = (P k i).map fun x => a i * x + b i) ∧
        ∀ (Y : CellFrame (Option ℝ)) (r : Bool), Y.p = X.p → Y.numeric = true →
          (ddcPredict (realEnv round3 cdf est) cfg st' (inUnits a b Y) r).1
            = (ddcPredict (realEnv round3 cdf est) cfg st Y r).1 := by
    intro a b X st ha hest hfit
    obtain ⟨hc, ls, ss, corr, slopes, d, rs, t, T⟩ := ddcFit_ok hfit
    obtain ⟨ls', ss', hs', hls, hss⟩ := scaler_inUnits hest T.scaler
    have hrowZ : ∀ (row : ℕ → Option ℝ), rowZ (realEnv round3 cdf est) ls' ss' (fun i => (row i).map fun x => a i * x + b i)
        = rowZ (realEnv round3 cdf est) ls ss row := by
      intro row
      funext i
      show (realEnv round3 cdf est).div (liftNaN (· - ·) ((row i).map fun x => a i * x + b i) (ls'.getD i none))
        (ss'.getD i none) = (realEnv round3 cdf est).div (liftNaN (· - ·) (row i) (ls.getD i none)) (ss.getD i none)
      rw [hls, hss]
      exact standardised_inUnits (ha i) _ _ _
    have hz : zCells (realEnv round3 cdf est) ls' ss' (inUnits a b X) = zCells (realEnv round3 cdf est) ls ss X := by
      funext k
      exact hrowZ (X.cell k)
    obtain ⟨st', hfit', T'⟩ := ddcFit_of_steps (env := realEnv round3 cdf est) (cfg := cfg) (v := v)
      (X := inUnits a b X) (ls := ls') (ss := ss') (corr := corr) (slopes := slopes) (d := d) (rs := rs) (t := t) st₀
      (by rw [check_inUnits ha]; exact hc) hs'
      (by rw [hz]; exact T.hcorr) (by rw [hz]; exact T.hslopes) (by rw [hz]; exact T.hd) (by rw [hz]; exact T.hrs)
      (by rw [hz]; exact T.ht)
    refine ⟨st', hfit', ?_⟩
    obtain ⟨pred, std, hpred, hstd, hst⟩ := T.hst
    obtain ⟨pred', std', hpred', hstd', hst'⟩ := T'.hst
    have e1 : pred' = pred := by rw [hpred', hpred, hz]; rfl
    have e2 : std' = std := by rw [hstd', hstd, hz, e1]
    refine ⟨by rw [hst', hst], by rw [hst', hst], by rw [hst', hst, e2]; rfl, by rw [hst', hst, e2],
      by rw [hst', hst, e2]; rfl, ?_, ?_⟩
    · intro P hP
      refine ⟨_, by rw [hst'], ?_⟩
      rw [hst] at hP
      have hP' := Option.some.inj hP
      intro k i
      rw [← hP', e1]
      show liftNaN (· + ·) (liftNaN (· * ·) (pred k i) (ss'.getD i none)) (ls'.getD i none)
        = (liftNaN (· + ·) (liftNaN (· * ·) (pred k i) (ss.getD i none)) (ls.getD i none)).map _
      rw [hls, hss]
      rcases pred k i with _ | x
      · rfl
      rcases ss.getD i none with _ | s
      · rfl
      rcases ls.getD i none with _ | l
      · rfl
      simp only [Option.map_some, liftNaN]
      congr 1
      ring
    · intro Y r hp hn
      have hp' : (inUnits a b Y).p = (inUnits a b X).p := hp
      have hn' : (inUnits a b Y).numeric = true := hn
      have hstdrow : ∀ k, rowStd (realEnv round3 cdf est) cfg (inUnits a b X).p ls' ss' corr slopes d rs
          ((inUnits a b Y).cell k) = rowStd (realEnv round3 cdf est) cfg X.p ls ss corr slopes d rs (Y.cell k) := by
        intro k
        have h1 := hrowZ (Y.cell k)
        unfold rowStd rowPred
        rw [show (inUnits a b Y).cell k = fun i => (Y.cell k i).map fun x => a i * x + b i from rfl]
        rw [h1]
        rfl
      cases r
      · rw [T.cells hp hn, T'.cells hp' hn']
        simp only [hstdrow]
      · rw [T.rows hp hn, T'.rows hp' hn']
        unfold rowFlag
        simp only [hstdrow]
        rfl
  refine ⟨⟨fun h => ?_, fun h => ?_⟩, fun st => main a b X st ha hest⟩
  · obtain ⟨st', h1, -⟩ := main _ _ (inUnits a b X) (ddcFit (realEnv round3 cdf est) cfg v st₀ (inUnits a b X)).2
      (fun i => inv_ne_zero (ha i)) (hest.inverse ha) (Prod.ext h rfl)
    rw [inUnits_inUnits ha] at h1
    rw [h1]
  · obtain ⟨st', h1, -⟩ := main a b X (ddcFit (realEnv round3 cdf est) cfg v st₀ X).2 ha hest (Prod.ext h rfl)
    rw [h1]

theorem observed_inUnits (a b : ℕ → ℝ) (X : CellFrame (Option ℝ)) (i : ℕ) :
    observed (inUnits a b X) i = (observed X i).map (Option.map fun x => a i * x + b i) := by
  unfold observed colList inUnits
  rw [List.filter_map, List.filter_map, List.map_map]
  rw [List.filter_congr (q := Option.isSome ∘ fun k => X.cell k i)]
  · rfl
  · intro k _
    simp

theorem filterMap_map_affine (a b : ℝ) (l : List (Option ℝ)) :
    (l.map (Option.map fun x => a * x + b)).filterMap id = (l.filterMap id).map fun x => a * x + b := by
  induction l with
  | nil => rfl
  | cons x l ih =>
    cases x with
    | none => exact ih
    | some x => exact congrArg (List.cons (a * x + b)) ih

/-- The default scale estimator follows changes of units with positive factors on columns whose MAD, in both units,
is at least the threshold 1e-12 below which it returns scale 0. -/
theorem C113_default_estimator {a : ℕ → ℝ} (ha : ∀ i, 0 < a i) (b : ℕ → ℝ) (X : CellFrame (Option ℝ))
    (h : ∀ i < X.p, ∃ s, madRaw ((observed X i).filterMap id) = some s ∧ 1 / 10 ^ 12 ≤ s / normalQuartile ∧
      1 / 10 ^ 12 ≤ a i * s / normalQuartile) : FollowsUnits cellwiseOSM a b X := by
  intro i hi
  obtain ⟨s, hs, h1, h2⟩ := h i hi
  have h2' : 1 / 10 ^ 12 ≤ |a i| * s / normalQuartile := by rw [abs_of_pos (ha i)]; exact h2
  rw [observed_inUnits]
  unfold cellwiseOSM oneStepM
  have hany : ((observed X i).map (Option.map fun x => a i * x + b i)).any Option.isNone
      = (observed X i).any Option.isNone := by
    rw [List.any_map]
    congr 1
    funext x
    cases x <;> rfl
  rw [hany]
  split
  · rfl
  · simp only [filterMap_map_affine, Except.map]
    rw [C09_location_partial _ _ (ha i).ne' (b i) _ s hs h1 h2',
      C09_scale _ _ _ (ha i).ne' (b i) _ s hs (by
        constructor <;> intro h3 <;> exfalso <;> linarith), abs_of_pos (ha i)]

end

/-- A scale estimator that follows the change of units `2 * x + 3` on `frameW`. -/
noncomputable def estTwo : List (Option ℝ) → Except PyErr (Option ℝ × Option ℝ) := fun l =>
  if l.head? = some (some (-2)) then .ok (some 0, some 1) else .ok (some 3, some 2)

theorem estTwo_frameW (i : ℕ) : estTwo (observed frameW i) = .ok (some 0, some 1) := by
  unfold estTwo
  rw [if_pos]
  show some (frameW.cell 0 i) = _
  simp [frameW, colA, colB]

/-- The hypotheses of `C113_units` are met: `frameW` can be fitted with `estTwo`, which follows the change of
units `2 * x + 3`. -/
example : FollowsUnits estTwo (fun _ => 2) (fun _ => 3) frameW ∧
    ∃ st, ddcFit (realEnv id id estTwo) ⟨some 1000, some (9 / 10)⟩ false {} frameW = (.ok (), st) := by
  constructor
  · intro i _
    rw [estTwo_frameW, observed_inUnits]
    have : estTwo ((observed frameW i).map (Option.map fun x => 2 * x + 3)) = .ok (some 3, some 2) := by
      unfold estTwo
      rw [if_neg]
      show ¬ (some ((frameW.cell 0 i).map _) = _)
      simp only [frameW, colA, colB]
      norm_num
    rw [this]
    simp [Except.map]
  · obtain ⟨st', -, -, -, -, -, h, -⟩ := frameW_fit_est (round3 := id) (cdf := id) (est := estTwo) (by
      have h := fun i => estTwo_frameW i
      have h' : ∀ i, (realEnv id id estTwo).est ((colList (replaceInf (realEnv id id estTwo) frameW).n
        (replaceInf (realEnv id id estTwo) frameW).cell i).filter (realEnv id id estTwo).ok) = .ok (some 0, some 1) := by
        intro i; rw [est_column]; exact h i
      show fitScaler _ _ [0, 1, 2] [] [] = _
      simp only [fitScaler, h']
      rfl) {}
    exact ⟨st', h⟩

/-- The hypothesis of `C113_default_estimator` is met by the column of `frameV`, from metres to millimetres. -/
example : ∃ s, madRaw ((observed frameV 0).filterMap id) = some s ∧ (1:ℝ) / 10 ^ 12 ≤ s / normalQuartile ∧
    1 / 10 ^ 12 ≤ 1000 * s / normalQuartile := by
  have e : (observed frameV 0).filterMap id = [(-2:ℝ), -1, 1, 2] := rfl
  have hm : npMedian [(-2:ℝ), -1, 1, 2] = some 0 :=
    npMedian_eq_some_iff.2 ⟨-1, 1, by norm_num [Spec.IsKthSmallest, List.countP_cons],
      by norm_num [Spec.IsKthSmallest, List.countP_cons], by norm_num⟩
  have hmad : madRaw [(-2:ℝ), -1, 1, 2] = some (3 / 2) := by
    unfold madRaw
    rw [hm]
    simp only [List.map_cons, List.map_nil]
    norm_num
    exact npMedian_eq_some_iff.2 ⟨1, 2, by norm_num [Spec.IsKthSmallest, List.countP_cons],
      by norm_num [Spec.IsKthSmallest, List.countP_cons], by norm_num⟩
  refine ⟨3 / 2, by rw [e]; exact hmad, ?_, ?_⟩ <;> unfold normalQuartile <;> norm_num

end Robpy
