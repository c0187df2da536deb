import Verif.Props.DDCPred
import Verif.Props.DDCWitness

/-! Properties C123, C124: the slopes and deshrinkage factors of `DDC`; data with another number of columns. -/

namespace Robpy

namespace Spec

/-- Two cells, if neither is missing. -/
def both : Option ℝ → Option ℝ → Option (ℝ × ℝ)
  | some a, some b => some (a, b)
  | _, _ => none

/-- The pairs of two columns in the rows where neither is missing. -/
def completePairs (n : ℕ) (u v : ℕ → Option ℝ) : List (ℝ × ℝ) :=
  (List.range n).filterMap fun k => both (u k) (v k)

/-- Sum of squared residuals of a line through the origin. -/
noncomputable def ssrOrigin (b : ℝ) (l : List (ℝ × ℝ)) : ℝ := (l.map fun q => (q.2 - b * q.1) ^ 2).sum

/-- `b` is the slope of a least-squares line through the origin, 0 if every slope fits equally well. -/
def LeastSquaresSlope (l : List (ℝ × ℝ)) (b : ℝ) : Prop :=
  (∀ b', ssrOrigin b l ≤ ssrOrigin b' l) ∧ ((∀ q ∈ l, q.1 = 0) → b = 0)

/-- `b` is the trimmed slope of the pairs `(x, y)`: the median `m` of the ratios `y / x` is a first slope; the
pairs whose residual from it is at most `cut` times the scale of these residuals are kept; `b` is the
least-squares slope of the kept pairs.  It is 0 if all `x` are 0. -/
def TrimmedSlope (scale : List ℝ → Option ℝ) (cut : ℝ) (l : List (ℝ × ℝ)) (b : ℝ) : Prop :=
  ((∀ q ∈ l, q.1 = 0) → b = 0) ∧
  ((∃ q ∈ l, q.1 ≠ 0) → ∃ m kept, npMedian ((l.filter fun q => q.1 ≠ 0).map fun q => q.2 / q.1) = some m ∧
    List.Sublist kept l ∧
    (∀ q ∈ l, q ∈ kept ↔ ∃ s, scale (l.map fun q => q.2 - m * q.1) = some s ∧ |q.2 - m * q.1| ≤ cut * s) ∧
    (∀ q ∈ kept, kept.count q = l.count q) ∧ LeastSquaresSlope kept b)

end Spec

/-- The scale of `CellwiseOneStepM` of numbers, a shorthand. -/
noncomputable def osmScale (l : List ℝ) : Option ℝ :=
  match cellwiseOSM (l.map some) with
  | .ok q => q.2
  | .error _ => none

theorem lstsq1_spec (l : List (ℝ × ℝ)) : Spec.LeastSquaresSlope l (lstsq1 l) := by
  have expand : ∀ b, Spec.ssrOrigin b l = (l.map fun q => q.2 ^ 2).sum - 2 * b * (l.map fun q => q.1 * q.2).sum
      + b ^ 2 * (l.map fun q => q.1 * q.1).sum := by
    intro b
    unfold Spec.ssrOrigin
    induction l with
    | nil => simp
    | cons q l ih =>
      simp only [List.map_cons, List.sum_cons]
      rw [ih]
      ring
  have hnn : 0 ≤ (l.map fun q => q.1 * q.1).sum :=
    List.sum_nonneg (by
      intro x hx
      obtain ⟨q, -, rfl⟩ := List.mem_map.1 hx
      exact mul_self_nonneg _)
  have hzero : (l.map fun q => q.1 * q.1).sum = 0 → ∀ q ∈ l, q.1 = 0 := by
    clear expand hnn
    intro h
    induction l with
    | nil => simp
    | cons q l ih =>
      simp only [List.map_cons, List.sum_cons] at h
      have hl : 0 ≤ (l.map fun q => q.1 * q.1).sum := List.sum_nonneg (by
        intro x hx
        obtain ⟨q, -, rfl⟩ := List.mem_map.1 hx
        exact mul_self_nonneg _)
      have h1 := mul_self_nonneg q.1
      have h2 : q.1 * q.1 = 0 := by linarith
      intro r hr
      rcases List.mem_cons.1 hr with rfl | hr
      · exact mul_self_eq_zero.1 h2
      · exact ih (by linarith) r hr
  constructor
  · intro b'
    rw [expand, expand]
    unfold lstsq1
    set B := (l.map fun q => q.1 * q.2).sum with hB
    set A := (l.map fun q => q.1 * q.1).sum with hA
    split_ifs with h
    · have hB0 : B = 0 := by
        rw [hB]
        apply List.sum_eq_zero
        intro x hx
        obtain ⟨q, hq, rfl⟩ := List.mem_map.1 hx
        rw [hzero h q hq, zero_mul]
      rw [hB0, h]
      simp
    · have hpos : 0 < A := lt_of_le_of_ne hnn (Ne.symm h)
      have : (l.map fun q => q.2 ^ 2).sum - 2 * b' * B + b' ^ 2 * A -
          ((l.map fun q => q.2 ^ 2).sum - 2 * (B / A) * B + (B / A) ^ 2 * A) = A * (b' - B / A) ^ 2 := by
        field_simp
        ring
      nlinarith [mul_nonneg hpos.le (sq_nonneg (b' - B / A))]
  · intro h
    unfold lstsq1
    rw [if_pos]
    apply List.sum_eq_zero
    intro x hx
    obtain ⟨q, hq, rfl⟩ := List.mem_map.1 hx
    rw [h q hq, zero_mul]

section
variable {round3 cdf : ℝ → ℝ} {est : List (Option ℝ) → Except PyErr (Option ℝ × Option ℝ)}

/-- A pair of numbers without NaN. -/
def somePair (q : ℝ × ℝ) : Option ℝ × Option ℝ := (some q.1, some q.2)

theorem somePairs_map (l : List (ℝ × ℝ)) : somePairs (l.map somePair) = l := by
  induction l with
  | nil => rfl
  | cons q l ih =>
    have : somePairs (somePair q :: l.map somePair) = q :: somePairs (l.map somePair) := rfl
    rw [List.map_cons, this, ih]

theorem allSome_map (l : List ℝ) : allSome (l.map some) = some l := by
  induction l with
  | nil => rfl
  | cons a l ih => simp [allSome, ih]

/-- `_robust_slope` on numbers. -/
theorem robustSlope_spec (cut : ℝ) (l : List (ℝ × ℝ)) :
    ∃ b, robustSlope (realEnv round3 cdf est) (some cut) (l.map somePair) = .ok (some b) ∧
      Spec.TrimmedSlope osmScale cut l b := by
  classical
  have e0 : ∀ q : ℝ × ℝ, (realEnv round3 cdf est).eqb (somePair q).1 (realEnv round3 cdf est).zero =
      decide (q.1 = 0) := by
    intro q
    simp [realEnv, liftRel, somePair]
  unfold robustSlope
  by_cases hall : ∀ q ∈ l, q.1 = 0
  · rw [if_pos]
    · exact ⟨0, rfl, fun _ => rfl, fun ⟨q, hq, h⟩ => absurd (hall q hq) h⟩
    · rw [List.all_map, List.all_eq_true]
      intro q hq
      simp only [Function.comp_apply, e0, hall q hq, decide_true]
  · have hall' : ∃ q ∈ l, q.1 ≠ 0 := by push Not at hall; exact hall
    rw [if_neg (by
      rw [List.all_map, List.all_eq_true]
      intro h
      refine hall fun q hq => ?_
      have := h q hq
      rw [Function.comp_apply, e0] at this
      exact of_decide_eq_true this)]
    obtain ⟨m, hm⟩ := npMedian_isSome (xs := (l.filter fun q => q.1 ≠ 0).map fun q => q.2 / q.1) (by
      obtain ⟨q, hq, h⟩ := hall'
      intro h0
      rw [List.map_eq_nil_iff, List.filter_eq_nil_iff] at h0
      exact h0 q hq (by simpa using h))
    have hmed : (realEnv round3 cdf est).median (((l.map somePair).filter fun q =>
        !(realEnv round3 cdf est).eqb q.1 (realEnv round3 cdf est).zero).map fun q =>
          (realEnv round3 cdf est).div q.2 q.1) = some m := by
      rw [List.filter_map, List.map_map]
      have h1 : (fun q => !(realEnv round3 cdf est).eqb q.1 (realEnv round3 cdf est).zero) ∘ somePair =
          fun q : ℝ × ℝ => decide (q.1 ≠ 0) := by
        funext q
        simp only [Function.comp_apply, e0, ne_eq, decide_not]
      rw [h1]
      have h2 : (l.filter fun q => decide (q.1 ≠ 0)).map ((fun q => (realEnv round3 cdf est).div q.2 q.1) ∘ somePair)
          = (((l.filter fun q => q.1 ≠ 0).map fun q => q.2 / q.1)).map some := by
        rw [List.map_map]
        apply List.map_congr_left
        intro q hq
        have hq0 : q.1 ≠ 0 := by simpa using (List.mem_filter.1 hq).2
        simp [realEnv, liftNaN, somePair, hq0]
      rw [h2]
      show (allSome _).bind npMedian = some m
      rw [allSome_map]
      exact hm
    simp only [hmed]
    have hres : ∀ q : ℝ × ℝ, (realEnv round3 cdf est).sub (somePair q).2
        ((realEnv round3 cdf est).mul (some m) (somePair q).1) = some (q.2 - m * q.1) := fun q => rfl
    have hlist : (l.map somePair).map (fun q : Option ℝ × Option ℝ => (realEnv round3 cdf est).sub q.2
        ((realEnv round3 cdf est).mul (some m) q.1)) = (l.map fun q => q.2 - m * q.1).map some := by
      rw [List.map_map, List.map_map]
      exact List.map_congr_left fun q _ => hres q
    rw [hlist]
    obtain ⟨⟨mu, s⟩, hs⟩ := osm_ok (l := (l.map fun q => q.2 - m * q.1).map some) (by
      intro x hx
      obtain ⟨y, -, rfl⟩ := List.mem_map.1 hx
      simp)
    have hos : osmScale (l.map fun q => q.2 - m * q.1) = s := by
      unfold osmScale
      rw [hs]
    have hE : (realEnv round3 cdf est).osm ((l.map fun q => q.2 - m * q.1).map some) = .ok (mu, s) := hs
    rw [hE]
    set kept := l.filter fun q => decide (∃ t, s = some t ∧ |q.2 - m * q.1| ≤ cut * t) with hkept
    have hfil : (l.map somePair).filter (fun q => (realEnv round3 cdf est).le ((realEnv round3 cdf est).abs
        ((realEnv round3 cdf est).sub q.2 ((realEnv round3 cdf est).mul (some m) q.1)))
          ((realEnv round3 cdf est).mul (some cut) s)) = kept.map somePair := by
      rw [List.filter_map, hkept]
      congr 1
      apply List.filter_congr
      intro q _
      rw [Function.comp_apply, hres]
      rcases s with _ | t
      · simp [realEnv, liftRel, liftNaN]
      · simp [realEnv, liftRel, liftNaN]
    refine ⟨lstsq1 kept, ?_, fun h => absurd h hall, fun _ => ⟨m, kept, hm, List.filter_sublist, ?_, ?_,
      lstsq1_spec kept⟩⟩
    · show Except.ok ((realEnv round3 cdf est).lstsq _) = _
      rw [hfil]
      show Except.ok (some (lstsq1 (somePairs _))) = _
      rw [somePairs_map]
    · intro q hq
      rw [hkept, List.mem_filter, hos]
      simp [hq]
    · intro q hq
      rw [hkept, List.mem_filter] at hq
      rw [hkept]
      exact List.count_filter (p := fun q : ℝ × ℝ => decide (∃ t, s = some t ∧ |q.2 - m * q.1| ≤ cut * t)) hq.2

theorem pairs_filter (f g : ℕ → Option ℝ) (l : List ℕ) :
    ((l.map fun k => (f k, g k)).filter fun q => (realEnv round3 cdf est).ok q.1 && (realEnv round3 cdf est).ok q.2) =
      (l.filterMap fun k => Spec.both (f k) (g k)).map somePair := by
  induction l with
  | nil => rfl
  | cons k l ih =>
    rw [List.map_cons]
    rcases hf : f k with _ | a
    · rw [List.filter_cons_of_neg (by simp [DDCEnv.ok, realEnv]),
        List.filterMap_cons_none (by rw [hf]; rfl), ih]
    · rcases hg : g k with _ | b
      · rw [List.filter_cons_of_neg (by simp [DDCEnv.ok, realEnv]),
          List.filterMap_cons_none (by rw [hf, hg]; rfl), ih]
      · rw [List.filter_cons_of_pos (by simp [DDCEnv.ok, realEnv]),
          List.filterMap_cons_some (b := (a, b)) (by rw [hf, hg]; rfl), ih]
        rfl

theorem commonRows_pairs (n : ℕ) (U : ℕ → ℕ → Option ℝ) (i j : ℕ) :
    commonRows (realEnv round3 cdf est) n U i j =
      (Spec.completePairs n (fun k => U k i) (fun k => U k j)).map somePair :=
  pairs_filter _ _ _

/-- **C123** After every successful fit the slope for predicting column `j` from column `i` is NaN on the
diagonal and where the absolute correlation is below `min_correlation`, and otherwise the trimmed slope of
the usable cells of the two columns. -/
theorem C123_slopes {cut m : ℝ} {v : Bool} {st₀ st : DDCState (Option ℝ)} {X : CellFrame (Option ℝ)}
    (h : ddcFit (realEnv round3 cdf est) ⟨some cut, some m⟩ v st₀ X = (.ok (), st))
    {ls ss : List (Option ℝ)} {corr slopes : ℕ → ℕ → Option ℝ} (hls : st.location = some ls)
    (hss : st.scale = some ss) (hcorr : st.corr = some corr) (hslopes : st.slopes = some slopes)
    {i j : ℕ} (hi : i < X.p) (hj : j < X.p) :
    (i = j → slopes i j = none) ∧
    (∀ c, corr i j = some c → |c| < m → slopes i j = none) ∧
    (i ≠ j → (∀ c, corr i j = some c → m ≤ |c|) → ∃ b, slopes i j = some b ∧
      Spec.TrimmedSlope osmScale cut (Spec.completePairs X.n
        (fun k => Spec.usable cut (X.cell k i) (ls.getD i none) (ss.getD i none))
        (fun k => Spec.usable cut (X.cell k j) (ls.getD j none) (ss.getD j none))) b) := by
  obtain ⟨-, ls', ss', corr', slopes', d, rs, t, T⟩ := ddcFit_ok h
  obtain ⟨pred, std, -, -, hst⟩ := T.hst
  rw [hst] at hls hss hcorr hslopes
  obtain rfl := Option.some.inj hls
  obtain rfl := Option.some.inj hss
  obtain rfl := Option.some.inj hcorr
  obtain rfl := Option.some.inj hslopes
  have h0 := tabulate2_ok T.hslopes i hi j hj
  have hlt : ∀ c, corr' i j = some c → ((realEnv round3 cdf est).lt ((realEnv round3 cdf est).abs (corr' i j))
      (some m) = true ↔ |c| < m) := by
    intro c hc
    rw [hc]
    simp [realEnv, liftRel]
  refine ⟨fun hij => ?_, fun c hc hm => ?_, fun hij hc => ?_⟩
  · rw [if_pos hij] at h0
    exact (Except.ok.inj h0).symm
  · by_cases hij : i = j
    · rw [if_pos hij] at h0
      exact (Except.ok.inj h0).symm
    · rw [if_neg hij, if_pos ((hlt c hc).2 hm)] at h0
      exact (Except.ok.inj h0).symm
  · rw [if_neg hij, if_neg (by
      rcases hcc : corr' i j with _ | c
      · simp [realEnv, liftRel]
      · rw [← hcc, hlt c hcc]
        exact not_lt.2 (hc c hcc)), commonRows_pairs] at h0
    obtain ⟨b, hb, hs⟩ := robustSlope_spec (round3 := round3) (cdf := cdf) (est := est) cut
      (Spec.completePairs X.n (fun k => Spec.usable cut (X.cell k i) (ls'.getD i none) (ss'.getD i none))
        (fun k => Spec.usable cut (X.cell k j) (ls'.getD j none) (ss'.getD j none)))
    refine ⟨b, ?_, hs⟩
    simp only [usable_eq] at h0
    rw [hb] at h0
    exact (Except.ok.inj h0).symm

namespace Spec

/-- A cell in units of its column, NaN if it is missing or its column has scale 0. -/
noncomputable def standardised (x l s : Option ℝ) : Option ℝ :=
  match x, l, s with
  | some x, some l, some s => if s = 0 then none else some ((x - l) / s)
  | _, _, _ => none

end Spec

theorem zCells_spec (ls ss : List (Option ℝ)) (X : CellFrame (Option ℝ)) (k i : ℕ) :
    zCells (realEnv round3 cdf est) ls ss X k i = Spec.standardised (X.cell k i) (ls.getD i none) (ss.getD i none) := by
  rw [zCells_real]
  unfold Spec.standardised
  rcases X.cell k i with _ | x
  · simp [realEnv, liftNaN]
  rcases ls.getD i none with _ | l
  · simp [realEnv, liftNaN]
  rcases ss.getD i none with _ | s
  · simp [realEnv, liftNaN]
  by_cases hs : s = 0
  · simp [realEnv, hs]
  · simp [realEnv, liftNaN, hs]

/-- **C123** The deshrinkage factor of a column without NaN among its raw predictions is the trimmed slope of the
standardised cells on the raw predictions, and the reported predictions are the raw ones times this factor. -/
theorem C123_deshrinkage {cut m : ℝ} {v : Bool} {st₀ st : DDCState (Option ℝ)} {X : CellFrame (Option ℝ)}
    (h : ddcFit (realEnv round3 cdf est) ⟨some cut, some m⟩ v st₀ X = (.ok (), st))
    {ls ss : List (Option ℝ)} {raw : ℕ → ℕ → Option ℝ} (hls : st.location = some ls)
    (hss : st.scale = some ss) (hraw : st.rawPred = some raw)
    {i : ℕ} (hi : i < X.p) (hnum : ∀ k < X.n, raw k i ≠ none) :
    ∃ d pred b, st.deshrink = some d ∧ st.pred = some pred ∧ d i = some b ∧
      Spec.TrimmedSlope osmScale cut (Spec.completePairs X.n (fun k => raw k i)
        (fun k => Spec.standardised (X.cell k i) (ls.getD i none) (ss.getD i none))) b ∧
      ∀ k, pred k i = (raw k i).map fun r => r * b := by
  obtain ⟨-, ls', ss', corr', slopes', d, rs, t, T⟩ := ddcFit_ok h
  obtain ⟨pred, std, hp, -, hst⟩ := T.hst
  rw [hst] at hls hss hraw
  obtain rfl := Option.some.inj hls
  obtain rfl := Option.some.inj hss
  have hraw' := Option.some.inj hraw
  have h0 := tabulate_ok T.hd i hi
  rw [hraw'] at h0 hp
  have hpairs : ((List.range X.n).filter fun k => (realEnv round3 cdf est).ok
      (zCells (realEnv round3 cdf est) ls' ss' X k i)).map (fun k => (raw k i,
        zCells (realEnv round3 cdf est) ls' ss' X k i)) = (Spec.completePairs X.n (fun k => raw k i)
        (fun k => Spec.standardised (X.cell k i) (ls'.getD i none) (ss'.getD i none))).map somePair := by
    unfold Spec.completePairs
    rw [← pairs_filter (round3 := round3) (cdf := cdf) (est := est), List.filter_map]
    simp only [zCells_spec]
    congr 1
    apply List.filter_congr
    intro k hk
    obtain ⟨a, ha⟩ := Option.ne_none_iff_exists'.1 (hnum k (List.mem_range.1 hk))
    simp only [Function.comp_apply, ha]
    rfl
  have h1 : robustSlope (realEnv round3 cdf est) (some cut) _ = _ := h0
  rw [hpairs] at h1
  obtain ⟨b, hb, hs⟩ := robustSlope_spec (round3 := round3) (cdf := cdf) (est := est) cut
    (Spec.completePairs X.n (fun k => raw k i)
        (fun k => Spec.standardised (X.cell k i) (ls'.getD i none) (ss'.getD i none)))
  rw [hb] at h1
  have hdi : d i = some b := (Except.ok.inj h1).symm
  refine ⟨d, pred, b, by rw [hst], by rw [hst], hdi, hs, fun k => ?_⟩
  rw [hp]
  simp only [hdi]
  rcases raw k i with _ | r <;> rfl

/-- A fit that meets the hypotheses of `C123_slopes`: the slope for predicting the third column of `frameW` from
the first is 1, and it is the trimmed slope of the four complete pairs. -/
example : ∃ st ls ss corr slopes, ddcFit (realEnv id id estUnit) ⟨some 1000, some (9 / 10)⟩ false {} frameW
      = (.ok (), st) ∧ st.location = some ls ∧ st.scale = some ss ∧ st.corr = some corr ∧ st.slopes = some slopes ∧
    slopes 0 2 = some 1 ∧ slopes 0 1 = none ∧ Spec.TrimmedSlope osmScale 1000 (Spec.completePairs frameW.n
        (fun k => Spec.usable 1000 (frameW.cell k 0) (ls.getD 0 none) (ss.getD 0 none))
        (fun k => Spec.usable 1000 (frameW.cell k 2) (ls.getD 2 none) (ss.getD 2 none))) 1 := by
  obtain ⟨st, corr, slopes, d, rs, t, hfit, T, hval, hs⟩ := frameW_fit (round3 := id) (cdf := id) {}
  obtain ⟨pred, std, -, -, hst⟩ := T.hst
  refine ⟨st, _, _, corr, slopes, hfit, by rw [hst], by rw [hst], by rw [hst], by rw [hst], hs, ?_, ?_⟩
  · refine (C123_slopes hfit (by rw [hst]) (by rw [hst]) (by rw [hst]) (by rw [hst]) (i := 0) (j := 1)
      (by decide) (by decide)).2.1 (3 / 5) ?_ (by norm_num [abs_of_pos])
    rw [hval 0 (by norm_num) 1 (by norm_num)]
    simp
  · obtain ⟨b, hb, htr⟩ := (C123_slopes hfit (by rw [hst]) (by rw [hst]) (by rw [hst]) (by rw [hst]) (i := 0) (j := 2)
      (by decide) (by decide)).2.2 (by decide) (by
        intro c hc
        rw [hval 0 (by norm_num) 2 (by norm_num)] at hc
        rw [← Option.some.inj hc]
        norm_num)
    rw [hs] at hb
    rw [← Option.some.inj hb] at htr
    exact htr

/-- The same fit meets the hypotheses of `C123_deshrinkage`, and those of `C124_columns` with a frame of two
columns (`C124_columns` is below). -/
example : ∃ st raw, ddcFit (realEnv id id estUnit) ⟨some 1000, some (9 / 10)⟩ false {} frameW = (.ok (), st) ∧
    st.rawPred = some raw ∧ ∀ k, ∀ i < 3, raw k i ≠ none := by
  obtain ⟨st, corr, slopes, d, rs, t, hfit, T, hval, hs⟩ := frameW_fit (round3 := id) (cdf := id) {}
  obtain ⟨pred, std, -, -, hst⟩ := T.hst
  obtain ⟨raw, hraw, hr⟩ : ∃ raw, st.rawPred = some raw ∧ ∀ k, ∀ i < 3, raw k i ≠ none := by
    subst hst
    refine ⟨_, rfl, fun k i hi => predictCell_ne_none fun j hj => ?_⟩
    rw [hval j hj i hi]
    simp
  exact ⟨st, raw, hfit, hraw, hr⟩

end

section
variable {F : Type} {env : DDCEnv F} [DecidableEq F]

/-- **C124** After every successful fit, `predict` and `impute` on data with another number of columns raise
ValueError and leave the object as it is. -/
theorem C124_columns {cfg : DDCConfig F} {v : Bool} {st₀ st : DDCState F} {Xt X : CellFrame F}
    (h : ddcFit env cfg v st₀ Xt = (.ok (), st)) (hp : X.p ≠ Xt.p) (b : Bool) :
    ddcPredict env cfg st X b = (.error .valueError, st) ∧ ddcImpute env cfg st X b = (.error .valueError, st) := by
  obtain ⟨-, ls, ss, corr, slopes, d, rs, t, T⟩ := ddcFit_ok h
  obtain ⟨pred, std, -, -, hst⟩ := T.hst
  have hg : ddcGuards st X = .error .valueError := by
    rw [hst]; simp [ddcGuards, hp]
  constructor
  · unfold ddcPredict
    rw [hg]
  · unfold ddcImpute
    rw [hg]

end

end Robpy
