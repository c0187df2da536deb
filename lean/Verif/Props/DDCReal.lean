import Verif.Props.DDCMissing
import Verif.Props.TauOneStep
import Verif.Props.Covariance

/-! `DDC` in exact arithmetic: when `fit` completes (C110), what a prediction is (C67). -/

namespace Robpy

section
variable {F : Type} {env : DDCEnv F} [DecidableEq F]

/-- A `fit` whose steps all succeed returns; the converse of `ddcFit_ok`. -/
theorem ddcFit_of_steps {cfg : DDCConfig F} {v : Bool} (st : DDCState F) {X : CellFrame F} {ls ss : List F}
    {corr slopes : ℕ → ℕ → F} {d rs : ℕ → F} {t : F × F} (hc : ddcCheck env X = .ok ())
    (hs : fitScaler env (replaceInf env X) (List.range X.p) [] [] = (.ok (), ls, ss))
    (hcorr : robustCorrelation env cfg.cutoff X.n X.p
      (fun k i => univariateFlag env cfg.cutoff (zCells env ls ss X k i)) v = .ok corr)
    (hslopes : getSlopes env cfg X.n X.p
      (fun k i => univariateFlag env cfg.cutoff (zCells env ls ss X k i)) corr = .ok slopes)
    (hd : deshrinkage env cfg.cutoff X.n X.p (zCells env ls ss X) (predictedValues env X.p corr slopes
      (fun k i => univariateFlag env cfg.cutoff (zCells env ls ss X k i))) = .ok d)
    (hrs : (tabulate env X.p fun i => (env.osm ((colList X.n (fun k i => env.sub (zCells env ls ss X k i)
      (env.mul (predictedValues env X.p corr slopes
        (fun k i => univariateFlag env cfg.cutoff (zCells env ls ss X k i)) k i) (d i))) i).filter env.ok)).map
          Prod.snd) = .ok rs)
    (ht : env.osm ((List.range X.n).map fun k => env.nanmean ((List.range X.p).map fun i =>
      env.chi2cdf (env.mul (env.div (env.sub (zCells env ls ss X k i)
        (env.mul (predictedValues env X.p corr slopes
          (fun k i => univariateFlag env cfg.cutoff (zCells env ls ss X k i)) k i) (d i))) (rs i))
        (env.div (env.sub (zCells env ls ss X k i) (env.mul (predictedValues env X.p corr slopes
          (fun k i => univariateFlag env cfg.cutoff (zCells env ls ss X k i)) k i) (d i))) (rs i))))) = .ok t) :
    ∃ st', ddcFit env cfg v st X = (.ok (), st') ∧ FitTrace env cfg v X st' ls ss corr slopes d rs t := by
  obtain ⟨a, b, h1, h2, -, h4, h5⟩ := fitScaler_ok _ _ _ _ _ hs
  have hl : ls.length = X.p ∧ ss.length = X.p := by rw [h1, h2]; simp [h4, h5]
  have hp : (replaceInf env X).p = X.p := rfl
  have hn : (replaceInf env X).n = X.n := rfl
  have hz : standardize env { st with location := some ls, scale := some ss } (replaceInf env X)
      = .ok (zCells env ls ss X) := by
    unfold standardize
    simp only [hp]
    rw [if_pos hl]; rfl
  have h : ∃ st', ddcFit env cfg v st X = (.ok (), st') := by
    unfold ddcFit
    simp only [hc, hp, hs, hz]
    unfold fitFrom
    simp only [hn, hcorr, hslopes, hd, cellwiseOutliers, if_true, hrs, rowwiseOutliers, ht]
    exact ⟨_, rfl⟩
  obtain ⟨st', h⟩ := h
  refine ⟨st', h, ?_⟩
  obtain ⟨-, ls', ss', corr', slopes', d', rs', t', T⟩ := ddcFit_ok h
  have e1 := T.scaler
  rw [hs] at e1
  simp only [Prod.mk.injEq, true_and] at e1
  obtain ⟨rfl, rfl⟩ := e1
  obtain rfl := Except.ok.inj (hcorr.symm.trans T.hcorr)
  obtain rfl := Except.ok.inj (hslopes.symm.trans T.hslopes)
  obtain rfl := Except.ok.inj (hd.symm.trans T.hd)
  obtain rfl := Except.ok.inj (hrs.symm.trans T.hrs)
  obtain rfl := Except.ok.inj (ht.symm.trans T.ht)
  exact T

omit [DecidableEq F] in
theorem tabulate_all_ok {p : ℕ} {f : ℕ → Except PyErr F} (h : ∀ i < p, ∃ b, f i = .ok b) :
    ∃ g, tabulate env p f = .ok g := by
  obtain ⟨bs, hb⟩ := mapExcept_all_ok (f := f) (List.range p) (by
    intro a ha; exact h a (List.mem_range.1 ha))
  exact ⟨_, by unfold tabulate; rw [hb]; rfl⟩

omit [DecidableEq F] in
theorem tabulate2_all_ok {p : ℕ} {f : ℕ → ℕ → Except PyErr F} (h : ∀ i < p, ∀ j < p, ∃ b, f i j = .ok b) :
    ∃ g, tabulate2 env p f = .ok g := by
  obtain ⟨bs, hb⟩ := mapExcept_all_ok (f := fun i => tabulate env p (f i)) (List.range p) (by
    intro a ha; exact tabulate_all_ok (h a (List.mem_range.1 ha)))
  exact ⟨_, by unfold tabulate2; rw [hb]; rfl⟩

end

section
variable {round3 cdf : ℝ → ℝ} {est : List (Option ℝ) → Except PyErr (Option ℝ × Option ℝ)}

theorem osm_ok {l : List (Option ℝ)} (h : ∀ x ∈ l, x ≠ none) : ∃ q, cellwiseOSM l = .ok q := by
  unfold cellwiseOSM oneStepM
  rw [if_neg]
  · exact ⟨_, rfl⟩
  · rw [List.any_eq_true]
    rintro ⟨x, hx, hn⟩
    exact h x hx (Option.isNone_iff_eq_none.1 hn)

theorem liftNaN_ne_none {f : ℝ → ℝ → ℝ} {a b : Option ℝ} (ha : a ≠ none) (hb : b ≠ none) :
    liftNaN f a b ≠ none := by
  cases a <;> cases b <;> simp_all [liftNaN]

theorem div_ne_none {a b : Option ℝ} (ha : a ≠ none) (hb : b ≠ none) (h0 : b ≠ some 0) :
    (realEnv round3 cdf est).div a b ≠ none := by
  simp only [realEnv, h0, if_false]
  exact liftNaN_ne_none ha hb

theorem ok_iff {a : Option ℝ} : (realEnv round3 cdf est).ok a = true ↔ a ≠ none := by
  cases a <;> simp [DDCEnv.ok, realEnv]

theorem eqb_zero_iff {a : Option ℝ} :
    (realEnv round3 cdf est).eqb a (realEnv round3 cdf est).zero = true ↔ a = some 0 := by
  cases a <;> simp [realEnv, liftRel]

theorem allSome_of {l : List (Option ℝ)} (h : ∀ x ∈ l, x ≠ none) : ∃ l', allSome l = some l' ∧ l'.length = l.length := by
  induction l with
  | nil => exact ⟨[], rfl, rfl⟩
  | cons a l ih =>
    obtain ⟨l', h1, h2⟩ := ih fun x hx => h x (List.mem_cons_of_mem _ hx)
    cases a with
    | none => exact absurd rfl (h none List.mem_cons_self)
    | some a => exact ⟨a :: l', by simp [allSome, h1], by simp [h2]⟩

theorem robustSlope_real_ok (cutoff : Option ℝ) {xy : List (Option ℝ × Option ℝ)}
    (h : ∀ q ∈ xy, q.1 ≠ none ∧ q.2 ≠ none) :
    ∃ s, robustSlope (realEnv round3 cdf est) cutoff xy = .ok (some s) := by
  unfold robustSlope
  split
  · exact ⟨0, rfl⟩
  · rename_i hall
    simp only
    have hall' : ∃ q ∈ xy, q.1 ≠ some 0 := by
      by_contra hcon
      push Not at hcon
      refine hall (List.all_eq_true.2 fun q hq => eqb_zero_iff.2 (hcon q hq))
    set xs := (xy.filter fun q => !(realEnv round3 cdf est).eqb q.1 (realEnv round3 cdf est).zero).map
      fun q => (realEnv round3 cdf est).div q.2 q.1 with hxs
    have hmed : (realEnv round3 cdf est).median xs ≠ none := by
      obtain ⟨l', h1, h2⟩ := allSome_of (l := xs) (by
        intro x hx
        obtain ⟨q, hq, rfl⟩ := List.mem_map.1 hx
        obtain ⟨hq1, hq2⟩ := List.mem_filter.1 hq
        refine div_ne_none (h q hq1).2 (h q hq1).1 ?_
        intro h0
        rw [eqb_zero_iff.2 h0] at hq2
        simp at hq2)
      obtain ⟨q, hq, hq0⟩ := hall'
      have hmem : (realEnv round3 cdf est).div q.2 q.1 ∈ xs := by
        refine List.mem_map.2 ⟨q, List.mem_filter.2 ⟨hq, ?_⟩, rfl⟩
        rw [Bool.not_eq_true', Bool.eq_false_iff]
        intro hc; exact hq0 (eqb_zero_iff.1 hc)
      have hne : l' ≠ [] := by
        intro hl
        rw [hl] at h2
        have := List.length_eq_zero_iff.1 h2.symm
        rw [this] at hmem
        cases hmem
      obtain ⟨m, hm⟩ := npMedian_isSome hne
      show (allSome xs).bind npMedian ≠ none
      rw [h1, Option.bind_some, hm]
      simp
    obtain ⟨q, hq⟩ := osm_ok (l := xy.map fun q : Option ℝ × Option ℝ => (realEnv round3 cdf est).sub q.2
      ((realEnv round3 cdf est).mul ((realEnv round3 cdf est).median xs) q.1)) (by
      intro x hx
      obtain ⟨q, hq, rfl⟩ := List.mem_map.1 hx
      exact liftNaN_ne_none (h q hq).2 (liftNaN_ne_none hmed (h q hq).1))
    have hq' : (realEnv round3 cdf est).osm (xy.map fun q : Option ℝ × Option ℝ => (realEnv round3 cdf est).sub q.2
      ((realEnv round3 cdf est).mul ((realEnv round3 cdf est).median xs) q.1)) = .ok q := hq
    rw [hq']
    exact ⟨_, rfl⟩

theorem pairCorr_real_ok (cutoff : Option ℝ) {xy : List (Option ℝ × Option ℝ)}
    (h : ∀ q ∈ xy, q.1 ≠ none ∧ q.2 ≠ none) : ∃ c, pairCorr (realEnv round3 cdf est) cutoff xy = .ok c := by
  unfold pairCorr
  split
  · exact ⟨_, rfl⟩
  · obtain ⟨q1, h1⟩ := osm_ok (l := xy.map fun q : Option ℝ × Option ℝ => (realEnv round3 cdf est).add q.1 q.2) (by
      intro x hx
      obtain ⟨q, hq, rfl⟩ := List.mem_map.1 hx
      exact liftNaN_ne_none (h q hq).1 (h q hq).2)
    obtain ⟨q2, h2⟩ := osm_ok (l := xy.map fun q : Option ℝ × Option ℝ => (realEnv round3 cdf est).sub q.1 q.2) (by
      intro x hx
      obtain ⟨q, hq, rfl⟩ := List.mem_map.1 hx
      exact liftNaN_ne_none (h q hq).1 (h q hq).2)
    have h1' : (realEnv round3 cdf est).osm (xy.map fun q : Option ℝ × Option ℝ =>
      (realEnv round3 cdf est).add q.1 q.2) = .ok q1 := h1
    have h2' : (realEnv round3 cdf est).osm (xy.map fun q : Option ℝ × Option ℝ =>
      (realEnv round3 cdf est).sub q.1 q.2) = .ok q2 := h2
    rw [h1', h2']
    exact ⟨_, rfl⟩

theorem commonRows_some {n : ℕ} {U : ℕ → ℕ → Option ℝ} {i j : ℕ} :
    ∀ q ∈ commonRows (realEnv round3 cdf est) n U i j, q.1 ≠ none ∧ q.2 ≠ none := by
  intro q hq
  obtain ⟨k, -, rfl, h1, h2⟩ := mem_commonRows.1 hq
  constructor
  · intro h; simp only at h; rw [h] at h1; cases h1
  · intro h; simp only at h; rw [h] at h2; cases h2

/-! ### The prediction of one cell -/

/-- The weights of `_get_predicted_values` in exact arithmetic. -/
noncomputable def weightReal (c : ℕ → ℝ) (row : ℕ → Option ℝ) (i j : ℕ) : ℝ := by
  classical exact if 1 / 2 ≤ |c j| ∧ j ≠ i ∧ row j ≠ none then |c j| else 0

theorem predWeight_real {corr : ℕ → ℕ → Option ℝ} {c : ℕ → ℝ} {row : ℕ → Option ℝ} {i j : ℕ}
    (hc : corr j i = some (c j)) :
    predWeight (realEnv round3 cdf est) corr row i j = some (weightReal c row i j) := by
  classical
  have e0 : ∀ b : Bool, (realEnv round3 cdf est).ofBool b = some (if b = true then 1 else 0) := by
    intro b; cases b <;> rfl
  have e1 : (realEnv round3 cdf est).le (realEnv round3 cdf est).half ((realEnv round3 cdf est).abs (some (c j)))
      = decide (1 / 2 ≤ |c j|) := by
    show liftRel (· ≤ ·) (some (1 / 2)) (some |c j|) = _
    unfold liftRel
    simp only [decide_eq_decide]
  have e2 : (realEnv round3 cdf est).ok (row j) = decide (row j ≠ none) := by
    rw [Bool.eq_iff_iff, ok_iff, decide_eq_true_iff]
  unfold predWeight weightReal
  rw [hc, e1, e2, e0, e0, e0]
  show some (|c j| * _ * _ * _) = some _
  congr 1
  by_cases h1 : 1 / 2 ≤ |c j| <;> by_cases h2 : j = i <;> by_cases h3 : row j = none <;> simp [h1, h2, h3]

theorem sum_map_range (f : ℕ → ℝ) (p : ℕ) : ((List.range p).map f).sum = ∑ j ∈ Finset.range p, f j := by
  induction p with
  | zero => simp
  | succ p ih => rw [List.range_succ, List.map_append, List.sum_append, ih, Finset.sum_range_succ]; simp

theorem foldl_add_real (l : List ℕ) (f : ℕ → ℝ) (g : ℕ → Option ℝ) (a : ℝ) (h : ∀ j ∈ l, g j = some (f j)) :
    (l.map g).foldl (liftNaN (· + ·)) (some a) = some (a + (l.map f).sum) := by
  induction l generalizing a with
  | nil => simp
  | cons x l ih =>
    rw [List.map_cons, List.foldl_cons, h x List.mem_cons_self]
    have : liftNaN (· + ·) (some a) (some (f x)) = some (a + f x) := rfl
    rw [this, ih _ fun j hj => h j (List.mem_cons_of_mem _ hj)]
    simp [add_assoc]

/-- The prediction computed for a cell: the weights are the absolute correlations of at least 0.5 of the other
variables that are observed, divided by their sum; a variable without slope contributes nothing. -/
theorem predictCell_real {p : ℕ} {corr slopes : ℕ → ℕ → Option ℝ} {c : ℕ → ℝ} {row : ℕ → Option ℝ} {i : ℕ}
    (hc : ∀ j < p, corr j i = some (c j)) :
    predictCell (realEnv round3 cdf est) p corr slopes row i =
      some (∑ j ∈ Finset.range p, weightReal c row i j / (∑ j ∈ Finset.range p, weightReal c row i j) *
        (slopes j i).getD 0 * (row j).getD 0) := by
  set S := ∑ j ∈ Finset.range p, weightReal c row i j with hS
  have hsum : predWeightSum (realEnv round3 cdf est) p corr row i = some S := by
    unfold predWeightSum
    have := foldl_add_real (List.range p) (weightReal c row i) (predWeight (realEnv round3 cdf est) corr row i) 0
      (fun j hj => predWeight_real (hc j (List.mem_range.1 hj)))
    rw [zero_add, sum_map_range] at this
    exact this
  unfold predictCell
  rw [hsum]
  simp only
  have hw : ∀ j < p, (if (realEnv round3 cdf est).eqb (some S) (realEnv round3 cdf est).zero = true
      then (realEnv round3 cdf est).zero
      else (realEnv round3 cdf est).div (predWeight (realEnv round3 cdf est) corr row i j) (some S))
      = some (weightReal c row i j / S) := by
    intro j hj
    rw [predWeight_real (hc j hj)]
    by_cases h0 : S = 0
    · rw [if_pos (eqb_zero_iff.2 (by rw [h0])), h0, div_zero]; rfl
    · rw [if_neg (fun h => h0 (Option.some.inj (eqb_zero_iff.1 h)))]
      show (if some S = some 0 then none else _) = _
      rw [if_neg (fun h => h0 (Option.some.inj h))]
      rfl
  have gen : ∀ (l : List ℕ) (a : ℝ), (∀ j ∈ l, j < p) →
      l.foldl (fun acc j => if (realEnv round3 cdf est).isNaN (slopes j i) = true then acc
        else (realEnv round3 cdf est).add acc ((realEnv round3 cdf est).mul ((realEnv round3 cdf est).mul
          (if (realEnv round3 cdf est).eqb (some S) (realEnv round3 cdf est).zero = true
      then (realEnv round3 cdf est).zero
      else (realEnv round3 cdf est).div (predWeight (realEnv round3 cdf est) corr row i j) (some S)) (slopes j i))
          (if (realEnv round3 cdf est).isNaN (row j) = true then (realEnv round3 cdf est).zero else row j)))
        (some a)
      = some (a + (l.map fun j => weightReal c row i j / S * (slopes j i).getD 0 * (row j).getD 0).sum) := by
    intro l
    induction l with
    | nil => intro a _; simp
    | cons j l ih =>
      intro a hl
      rw [List.foldl_cons, hw j (hl j List.mem_cons_self), List.map_cons, List.sum_cons, ← add_assoc]
      rw [← ih _ fun j hj => hl j (List.mem_cons_of_mem _ hj)]
      congr 1
      rcases slopes j i with _ | b
      · simp [realEnv]
      · rcases row j with _ | u
        · simp [realEnv, liftNaN]
        · simp [realEnv, liftNaN]
  rw [← sum_map_range]
  have := gen (List.range p) 0 (fun j hj => List.mem_range.1 hj)
  rw [zero_add] at this
  exact this

theorem predictCell_ne_none {p : ℕ} {corr slopes : ℕ → ℕ → Option ℝ} {row : ℕ → Option ℝ} {i : ℕ}
    (hc : ∀ j < p, corr j i ≠ none) : predictCell (realEnv round3 cdf est) p corr slopes row i ≠ none := by
  rw [predictCell_real (c := fun j => (corr j i).getD 0) (by
    intro j hj
    rcases h : corr j i with _ | a
    · exact absurd h (hc j hj)
    · rfl)]
  simp

/-! ### C110: when `fit` completes -/

/-- The steps of `fit` in exact arithmetic: none of them raises except the last one, as long as the
correlations are numbers. -/
theorem fit_steps (cfg : DDCConfig (Option ℝ)) (st : DDCState (Option ℝ)) {X : CellFrame (Option ℝ)}
    {ls ss : List (Option ℝ)} (hc : ddcCheck (realEnv round3 cdf est) X = .ok ())
    (hs : fitScaler (realEnv round3 cdf est) (replaceInf (realEnv round3 cdf est) X) (List.range X.p) [] []
      = (.ok (), ls, ss)) :
    ∃ corr, robustCorrelation (realEnv round3 cdf est) cfg.cutoff X.n X.p (fun k i => univariateFlag
        (realEnv round3 cdf est) cfg.cutoff (zCells (realEnv round3 cdf est) ls ss X k i)) false = .ok corr ∧
      (ddcFit (realEnv round3 cdf est) cfg false st X).2.corr = some corr ∧
      ((∀ i < X.p, ∀ j < X.p, corr i j ≠ none) →
        ∃ slopes d rs,
          (ddcFit (realEnv round3 cdf est) cfg false st X).2.slopes = some slopes ∧
          (ddcFit (realEnv round3 cdf est) cfg false st X).2.deshrink = some d ∧
          (ddcFit (realEnv round3 cdf est) cfg false st X).2.resScales = some rs ∧
          getSlopes (realEnv round3 cdf est) cfg X.n X.p (fun k i => univariateFlag
            (realEnv round3 cdf est) cfg.cutoff (zCells (realEnv round3 cdf est) ls ss X k i)) corr = .ok slopes ∧
          deshrinkage (realEnv round3 cdf est) cfg.cutoff X.n X.p (zCells (realEnv round3 cdf est) ls ss X)
            (predictedValues (realEnv round3 cdf est) X.p corr slopes (fun k i => univariateFlag
              (realEnv round3 cdf est) cfg.cutoff (zCells (realEnv round3 cdf est) ls ss X k i))) = .ok d ∧
          (tabulate (realEnv round3 cdf est) X.p fun i => (cellwiseOSM ((colList X.n
            (fun k i => liftNaN (· - ·) (zCells (realEnv round3 cdf est) ls ss X k i)
              (liftNaN (· * ·) (predictedValues (realEnv round3 cdf est) X.p corr slopes
              (fun k i => univariateFlag (realEnv round3 cdf est) cfg.cutoff
                (zCells (realEnv round3 cdf est) ls ss X k i)) k i) (d i))) i).filter
                  (realEnv round3 cdf est).ok)).map Prod.snd) = .ok rs ∧
          ((∀ k < X.n, ∃ i < X.p, zCells (realEnv round3 cdf est) ls ss X k i ≠ none ∧ rs i ≠ none ∧
            rs i ≠ some 0) →
            ∃ st' t, ddcFit (realEnv round3 cdf est) cfg false st X = (.ok (), st') ∧
              FitTrace (realEnv round3 cdf est) cfg false X st' ls ss corr slopes d rs t)) := by
  set E := realEnv round3 cdf est with hE
  set Z := zCells E ls ss X with hZ
  set U := fun k i => univariateFlag E cfg.cutoff (Z k i) with hU
  obtain ⟨a, b, h1, h2, -, h4, h5⟩ := fitScaler_ok _ _ _ _ _ hs
  have hl : ls.length = X.p ∧ ss.length = X.p := by rw [h1, h2]; simp [h4, h5]
  have hp : (replaceInf E X).p = X.p := rfl
  have hn : (replaceInf E X).n = X.n := rfl
  have hz : standardize E { st with location := some ls, scale := some ss } (replaceInf E X) = .ok Z := by
    unfold standardize
    simp only [hp]
    rw [if_pos hl]; rfl
  obtain ⟨corr, hcorr⟩ : ∃ corr, robustCorrelation E cfg.cutoff X.n X.p U false = .ok corr := by
    unfold robustCorrelation
    rw [if_neg (by simp)]
    apply tabulate2_all_ok
    intro i hi j hj
    by_cases hij : i = j
    · exact ⟨_, by rw [if_pos hij]⟩
    · rw [if_neg hij]; exact pairCorr_real_ok _ commonRows_some
  obtain ⟨slopes, hslopes⟩ : ∃ slopes, getSlopes E cfg X.n X.p U corr = .ok slopes := by
    apply tabulate2_all_ok
    intro i hi j hj
    split_ifs
    · exact ⟨_, rfl⟩
    · exact ⟨_, rfl⟩
    · obtain ⟨s, hs⟩ := robustSlope_real_ok (round3 := round3) (cdf := cdf) (est := est) cfg.cutoff
        (commonRows_some (n := X.n) (U := U) (i := i) (j := j))
      exact ⟨_, hs⟩
  refine ⟨corr, hcorr, ?_, fun hnum => ?_⟩
  · unfold ddcFit
    simp only [hc, hp, hs, hz]
    unfold fitFrom
    simp only [hn]
    rw [← hU, hcorr]
    simp only [hslopes]
    rcases hd : deshrinkage E cfg.cutoff X.n X.p Z (predictedValues E X.p corr slopes U) with e | d
    · simp only
    simp only [cellwiseOutliers, if_true]
    rcases hrs : (tabulate E X.p fun i => (E.osm ((colList X.n (fun k i => E.sub (Z k i)
      (E.mul (predictedValues E X.p corr slopes U k i) (d i))) i).filter E.ok)).map Prod.snd) with e | rs
    · simp only [hrs]
    simp only [hrs, rowwiseOutliers, if_true]
    split
    · rename_i hh
      split at hh
      · simp only [Prod.mk.injEq] at hh; rw [← hh.2]
      · simp at hh
    · rename_i hh
      split at hh
      · simp at hh
      · simp only [Prod.mk.injEq] at hh; rw [← hh.2]
  · have hraw : ∀ k, ∀ i < X.p, predictedValues E X.p corr slopes U k i ≠ none := by
      intro k i hi
      exact predictCell_ne_none fun j hj => hnum j hj i hi
    obtain ⟨d, hd⟩ : ∃ d, deshrinkage E cfg.cutoff X.n X.p Z (predictedValues E X.p corr slopes U) = .ok d := by
      apply tabulate_all_ok
      intro i hi
      obtain ⟨s, hs⟩ := robustSlope_real_ok (round3 := round3) (cdf := cdf) (est := est) cfg.cutoff
        (xy := ((List.range X.n).filter fun k => E.ok (Z k i)).map fun k =>
          (predictedValues E X.p corr slopes U k i, Z k i)) (by
          intro q hq
          obtain ⟨k, hk, rfl⟩ := List.mem_map.1 hq
          exact ⟨hraw k i hi, ok_iff.1 (List.mem_filter.1 hk).2⟩)
      exact ⟨_, hs⟩
    obtain ⟨rs, hrs⟩ : ∃ rs, (tabulate E X.p fun i => (E.osm ((colList X.n (fun k i => E.sub (Z k i)
      (E.mul (predictedValues E X.p corr slopes U k i) (d i))) i).filter E.ok)).map Prod.snd) = .ok rs := by
      apply tabulate_all_ok
      intro i hi
      obtain ⟨q, hq⟩ := osm_ok (l := (colList X.n (fun k i => E.sub (Z k i)
        (E.mul (predictedValues E X.p corr slopes U k i) (d i))) i).filter E.ok)
        (fun x hx => ok_iff.1 (List.mem_filter.1 hx).2)
      exact ⟨q.2, by
        show (cellwiseOSM _).map Prod.snd = _
        rw [hq]; rfl⟩
    have hdi : ∀ i < X.p, d i ≠ none := by
      intro i hi
      have h1 := tabulate_ok hd i hi
      obtain ⟨s, hs⟩ := robustSlope_real_ok (round3 := round3) (cdf := cdf) (est := est) cfg.cutoff
        (xy := ((List.range X.n).filter fun k => E.ok (Z k i)).map fun k =>
          (predictedValues E X.p corr slopes U k i, Z k i)) (by
          intro q hq
          obtain ⟨k, hk, rfl⟩ := List.mem_map.1 hq
          exact ⟨hraw k i hi, ok_iff.1 (List.mem_filter.1 hk).2⟩)
      have := h1.symm.trans hs
      rw [Except.ok.inj this]; simp
    have hfields : (ddcFit E cfg false st X).2.slopes = some slopes ∧
        (ddcFit E cfg false st X).2.deshrink = some d ∧ (ddcFit E cfg false st X).2.resScales = some rs := by
      unfold ddcFit
      simp only [hc, hp, hs, hz]
      unfold fitFrom
      simp only [hn]
      rw [← hU, hcorr]
      simp only [hslopes, hd, cellwiseOutliers, if_true, hrs, rowwiseOutliers]
      split
      · rename_i hh
        split at hh
        · simp only [Prod.mk.injEq] at hh; rw [← hh.2]; exact ⟨rfl, rfl, rfl⟩
        · simp at hh
      · rename_i hh
        split at hh
        · simp at hh
        · simp only [Prod.mk.injEq] at hh; rw [← hh.2]; exact ⟨rfl, rfl, rfl⟩
    refine ⟨slopes, d, rs, hfields.1, hfields.2.1, hfields.2.2, hslopes, hd, hrs, fun hrow => ?_⟩
    obtain ⟨t, ht⟩ := osm_ok (l := (List.range X.n).map fun k => E.nanmean ((List.range X.p).map fun i =>
      E.chi2cdf (E.mul (E.div (E.sub (Z k i) (E.mul (predictedValues E X.p corr slopes U k i) (d i))) (rs i))
        (E.div (E.sub (Z k i) (E.mul (predictedValues E X.p corr slopes U k i) (d i))) (rs i))))) (by
      intro x hx
      obtain ⟨k, hk, rfl⟩ := List.mem_map.1 hx
      obtain ⟨i, hi, hz, hr, hr0⟩ := hrow k (List.mem_range.1 hk)
      have hdiv : E.div (E.sub (Z k i) (E.mul (predictedValues E X.p corr slopes U k i) (d i))) (rs i) ≠ none :=
        div_ne_none (liftNaN_ne_none hz (liftNaN_ne_none (hraw k i hi) (hdi i hi))) hr hr0
      have hchi : E.chi2cdf (E.mul (E.div (E.sub (Z k i) (E.mul (predictedValues E X.p corr slopes U k i) (d i))) (rs i))
          (E.div (E.sub (Z k i) (E.mul (predictedValues E X.p corr slopes U k i) (d i))) (rs i))) ≠ none := by
        have := liftNaN_ne_none (f := (· * ·)) hdiv hdiv
        rw [Ne, hE]
        show ¬ (Option.map cdf _ = none)
        rw [Option.map_eq_none_iff]
        exact this
      show (if _ then none else some _) ≠ none
      rw [if_neg]
      · simp
      · rw [List.isEmpty_iff, List.filterMap_eq_nil_iff]
        intro hall
        exact hchi (hall _ (List.mem_map.2 ⟨i, List.mem_range.2 hi, rfl⟩)))
    obtain ⟨st', h1, h2⟩ := ddcFit_of_steps st hc hs hcorr hslopes hd hrs ht
    exact ⟨st', t, h1, h2⟩

end
end Robpy
