import Verif.Props.DDCOrder
import Verif.Props.DDCRefit

/-! C185: DDC and the order of the columns. -/

namespace Robpy

namespace Spec

/-- The frame whose column `i` is column `τ i` of `X`. -/
def reorderCols {F : Type} (τ : ℕ → ℕ) (X : CellFrame F) : CellFrame F := { X with cell := fun k i => X.cell k (τ i) }

/-- One array per column, reordered: entry `i` of the second is entry `τ i` of the first. -/
def colsFollow {α : Type} (p : ℕ) (τ : ℕ → ℕ) (a a' : ℕ → α) : Prop := ∀ i < p, a' i = a (τ i)

/-- A table with one column per variable, reordered. -/
def cellsFollow {α : Type} (p : ℕ) (τ : ℕ → ℕ) (a a' : ℕ → ℕ → α) : Prop := ∀ k, ∀ i < p, a' k i = a k (τ i)

/-- A matrix with a row and a column per variable, reordered. -/
def matrixFollows {α : Type} (p : ℕ) (τ : ℕ → ℕ) (a a' : ℕ → ℕ → α) : Prop := ∀ i < p, ∀ j < p, a' i j = a (τ i) (τ j)

/-- Two attributes that both exist and are related by `r`. -/
def bothSet {α : Type} (r : α → α → Prop) (a a' : Option α) : Prop := ∃ x x', a = some x ∧ a' = some x' ∧ r x x'

end Spec

/-- What the arithmetic must satisfy for the order of the columns not to matter: a sum may be reordered, the mean of a row does not
depend on the order, the scale of the one-step M-estimator is that of the sample with opposite signs, and the correlation and the
Mahalanobis distance are symmetric in the two variables. -/
structure EnvColumnFree {F : Type} (env : DDCEnv F) : Prop where
  addComm : ∀ a b, env.add a b = env.add b a
  addRight : ∀ a b c, env.add (env.add a b) c = env.add (env.add a c) b
  nanmean : Spec.orderFree env.nanmean
  osmNeg : ∀ l : List (F × F), (env.osm (l.map fun q => env.sub q.2 q.1)).map Prod.snd =
    (env.osm (l.map fun q => env.sub q.1 q.2)).map Prod.snd
  corrSwap : ∀ l : List (F × F), env.corrcoef (l.map Prod.swap) = env.corrcoef l
  mahalSwap : ∀ c q, env.mahal c (Prod.swap q) = env.mahal c q

section
variable {F : Type} {env : DDCEnv F} {n p : ℕ} {τ : ℕ → ℕ}

theorem pairCorr_swap (he : EnvColumnFree env) (cutoff : F) (l : List (F × F)) :
    pairCorr env cutoff (l.map Prod.swap) = pairCorr env cutoff l := by
  unfold pairCorr
  have hem : (l.map Prod.swap).isEmpty = l.isEmpty := by cases l <;> rfl
  rw [hem]
  split_ifs
  · rfl
  · rw [List.map_map, List.map_map]
    have h1 : (l.map ((fun q : F × F => env.add q.1 q.2) ∘ Prod.swap)) = l.map fun q => env.add q.1 q.2 := by
      apply List.map_congr_left
      intro q _
      exact he.addComm _ _
    have h2 : (l.map ((fun q : F × F => env.sub q.1 q.2) ∘ Prod.swap)) = l.map fun q => env.sub q.2 q.1 := rfl
    rw [h1, h2]
    congr 1
    funext sp
    have h3 := he.osmNeg l
    have hf : ∀ c, (l.map Prod.swap).filter (fun q => env.lt (env.mahal c q) cutoff) =
        (l.filter fun q => env.lt (env.mahal c q) cutoff).map Prod.swap := by
      intro c
      rw [List.filter_map]
      congr 1
      apply List.filter_congr
      intro q _
      simp only [Function.comp_apply, he.mahalSwap]
    generalize env.osm (l.map fun q => env.sub q.2 q.1) = A at h3 ⊢
    generalize env.osm (l.map fun q => env.sub q.1 q.2) = B at h3 ⊢
    rcases A with e | a <;> rcases B with e' | b
    · simpa [Except.map] using h3
    · simp [Except.map] at h3
    · simp [Except.map] at h3
    · simp only [Except.map, Except.ok.injEq] at h3 ⊢
      rw [h3, hf, he.corrSwap]

theorem commonRows_swap (U : ℕ → ℕ → F) (i j : ℕ) :
    commonRows env n U j i = (commonRows env n U i j).map Prod.swap := by
  unfold commonRows
  rw [List.filter_map, List.filter_map, List.map_map]
  have : ((fun xy : F × F => env.ok xy.1 && env.ok xy.2) ∘ fun k => (U k j, U k i)) =
      ((fun xy : F × F => env.ok xy.1 && env.ok xy.2) ∘ fun k => (U k i, U k j)) := by
    funext k
    exact Bool.and_comm _ _
  rw [this]
  rfl

theorem commonRows_cols {U U' : ℕ → ℕ → F} (hU : Spec.cellsFollow p τ U U') {i j : ℕ} (hi : i < p) (hj : j < p) :
    commonRows env n U' i j = commonRows env n U (τ i) (τ j) := by
  unfold commonRows
  simp only [hU _ i hi, hU _ j hj]

/-- The correlation of two columns does not depend on which of them comes first. -/
theorem pairCorr_minmax (he : EnvColumnFree env) (cutoff : F) (U : ℕ → ℕ → F) (i j : ℕ) :
    pairCorr env cutoff (commonRows env n U (min i j) (max i j)) = pairCorr env cutoff (commonRows env n U i j) := by
  rcases le_total i j with h | h
  · rw [min_eq_left h, max_eq_right h]
  · rw [min_eq_right h, max_eq_left h, commonRows_swap U i j, pairCorr_swap he]

theorem robustCorrelation_cols (he : EnvColumnFree env) (h : Spec.permutes p τ) {cutoff : F} {U U' : ℕ → ℕ → F} {v : Bool}
    {corr : ℕ → ℕ → F} (hU : Spec.cellsFollow p τ U U') (hc : robustCorrelation env cutoff n p U v = .ok corr) :
    ∃ corr', robustCorrelation env cutoff n p U' v = .ok corr' ∧ Spec.matrixFollows p τ corr corr' := by
  unfold robustCorrelation at hc ⊢
  split_ifs at hc ⊢ with hv
  have h1 := tabulate2_ok hc
  have h2 : ∀ i < p, ∀ j < p, (if i = j then Except.ok env.one
      else pairCorr env cutoff (commonRows env n U' (min i j) (max i j))) = .ok (corr (τ i) (τ j)) := by
    intro i hi j hj
    rw [← h1 (τ i) (h.1 i hi) (τ j) (h.1 j hj)]
    by_cases hij : i = j
    · subst hij; simp
    · rw [if_neg hij, if_neg (fun e => hij (h.2 i hi j hj e)), pairCorr_minmax he, pairCorr_minmax he, commonRows_cols hU hi hj]
  obtain ⟨c', hc'⟩ := tabulate2_all_ok (env := env) fun i hi j hj => ⟨_, h2 i hi j hj⟩
  refine ⟨c', hc', fun i hi j hj => ?_⟩
  have := tabulate2_ok hc' i hi j hj
  rw [h2 i hi j hj] at this
  exact (Except.ok.inj this).symm

theorem getSlopes_cols (h : Spec.permutes p τ) {cfg : DDCConfig F} {U U' corr corr' slopes : ℕ → ℕ → F}
    (hU : Spec.cellsFollow p τ U U') (hcorr : Spec.matrixFollows p τ corr corr') (hs : getSlopes env cfg n p U corr = .ok slopes) :
    ∃ slopes', getSlopes env cfg n p U' corr' = .ok slopes' ∧ Spec.matrixFollows p τ slopes slopes' := by
  unfold getSlopes at hs ⊢
  have h1 := tabulate2_ok hs
  have h2 : ∀ i < p, ∀ j < p, (if i = j then Except.ok env.nan
      else if env.lt (env.abs (corr' i j)) cfg.minCorrelation then .ok env.nan
      else robustSlope env cfg.cutoff (commonRows env n U' i j)) = .ok (slopes (τ i) (τ j)) := by
    intro i hi j hj
    rw [← h1 (τ i) (h.1 i hi) (τ j) (h.1 j hj)]
    by_cases hij : i = j
    · subst hij; simp
    · rw [if_neg hij, if_neg (fun e => hij (h.2 i hi j hj e)), commonRows_cols hU hi hj, hcorr i hi j hj]
  obtain ⟨c', hc'⟩ := tabulate2_all_ok (env := env) fun i hi j hj => ⟨_, h2 i hi j hj⟩
  refine ⟨c', hc', fun i hi j hj => ?_⟩
  have := tabulate2_ok hc' i hi j hj
  rw [h2 i hi j hj] at this
  exact (Except.ok.inj this).symm

theorem foldl_congr_mem {α β : Type} (f g : β → α → β) (l : List α) (b : β) (h : ∀ b, ∀ a ∈ l, f b a = g b a) :
    l.foldl f b = l.foldl g b := by
  induction l generalizing b with
  | nil => rfl
  | cons a l ih =>
    simp only [List.foldl_cons]
    rw [h b a List.mem_cons_self]
    exact ih _ fun b a ha => h b a (List.mem_cons_of_mem _ ha)

theorem predictCell_cols (he : EnvColumnFree env) (h : Spec.permutes p τ) {corr corr' slopes slopes' : ℕ → ℕ → F} {row row' : ℕ → F}
    (hcorr : Spec.matrixFollows p τ corr corr') (hsl : Spec.matrixFollows p τ slopes slopes') (hrow : Spec.colsFollow p τ row row')
    {i : ℕ} (hi : i < p) : predictCell env p corr' slopes' row' i = predictCell env p corr slopes row (τ i) := by
  have hw : ∀ j < p, predWeight env corr' row' i j = predWeight env corr row (τ i) (τ j) := by
    intro j hj
    unfold predWeight
    have hne : (decide (j ≠ i)) = decide (τ j ≠ τ i) := by
      rw [decide_eq_decide]
      exact not_congr ⟨fun e => by rw [e], fun e => h.2 j hj i hi e⟩
    rw [hcorr j hj i hi, hrow j hj, hne]
  have hsum : predWeightSum env p corr' row' i = predWeightSum env p corr row (τ i) := by
    unfold predWeightSum
    have h1 : (List.range p).map (predWeight env corr' row' i) = (List.range p).map fun j => predWeight env corr row (τ i) (τ j) :=
      List.map_congr_left fun j hj => hw j (List.mem_range.1 hj)
    rw [h1]
    haveI : RightCommutative env.add := ⟨he.addRight⟩
    exact (map_reorder h (predWeight env corr row (τ i))).foldl_eq _
  unfold predictCell
  rw [hsum]
  set s := predWeightSum env p corr row (τ i)
  set f : F → ℕ → F := fun acc j =>
    if env.isNaN (slopes j (τ i)) then acc
    else env.add acc (env.mul (env.mul (if env.eqb s env.zero then env.zero else env.div (predWeight env corr row (τ i) j) s)
      (slopes j (τ i))) (if env.isNaN (row j) then env.zero else row j)) with hf
  have hstep : (List.range p).foldl (fun acc j =>
      if env.isNaN (slopes' j i) then acc
      else env.add acc (env.mul (env.mul (if env.eqb s env.zero then env.zero else env.div (predWeight env corr' row' i j) s)
        (slopes' j i)) (if env.isNaN (row' j) then env.zero else row' j))) env.zero =
      (List.range p).foldl (fun acc j => f acc (τ j)) env.zero := by
    apply foldl_congr_mem
    intro acc j hj
    have hj := List.mem_range.1 hj
    simp only [hf, hsl j hj i hi, hw j hj, hrow j hj]
  show (List.range p).foldl _ env.zero = (List.range p).foldl f env.zero
  rw [hstep]
  have hmap : (List.range p).foldl (fun acc j => f acc (τ j)) env.zero = ((List.range p).map τ).foldl f env.zero := by
    rw [List.foldl_map]
  rw [hmap]
  haveI : RightCommutative f := ⟨by
    intro acc a b
    simp only [hf]
    split_ifs <;> first | rfl | exact he.addRight _ _ _⟩
  exact (permutes_perm h).foldl_eq _

theorem predictedValues_cols (he : EnvColumnFree env) (h : Spec.permutes p τ) {corr corr' slopes slopes' U U' : ℕ → ℕ → F}
    (hcorr : Spec.matrixFollows p τ corr corr') (hsl : Spec.matrixFollows p τ slopes slopes') (hU : Spec.cellsFollow p τ U U') :
    Spec.cellsFollow p τ (predictedValues env p corr slopes U) (predictedValues env p corr' slopes' U') :=
  fun k _ hi => predictCell_cols he h hcorr hsl (hU k) hi

theorem tabulate_cols (h : Spec.permutes p τ) {f f' : ℕ → Except PyErr F} {g : ℕ → F} (hf : Spec.colsFollow p τ f f')
    (hg : tabulate env p f = .ok g) : ∃ g', tabulate env p f' = .ok g' ∧ Spec.colsFollow p τ g g' := by
  have h1 := tabulate_ok hg
  have h2 : ∀ i < p, f' i = .ok (g (τ i)) := fun i hi => by rw [hf i hi, h1 _ (h.1 i hi)]
  obtain ⟨g', hg'⟩ := tabulate_all_ok (env := env) fun i hi => ⟨_, h2 i hi⟩
  refine ⟨g', hg', fun i hi => ?_⟩
  have := tabulate_ok hg' i hi
  rw [h2 i hi] at this
  exact (Except.ok.inj this).symm

theorem rowMean_cols (he : EnvColumnFree env) (h : Spec.permutes p τ) {std std' : ℕ → F} (hs : Spec.colsFollow p τ std std') :
    env.nanmean ((List.range p).map fun i => env.chi2cdf (env.mul (std' i) (std' i))) =
      env.nanmean ((List.range p).map fun i => env.chi2cdf (env.mul (std i) (std i))) := by
  have h1 : ((List.range p).map fun i => env.chi2cdf (env.mul (std' i) (std' i))) =
      (List.range p).map fun i => env.chi2cdf (env.mul (std (τ i)) (std (τ i))) :=
    List.map_congr_left fun i hi => by rw [hs i (List.mem_range.1 hi)]
  rw [h1]
  exact he.nanmean _ _ (map_reorder h fun i => env.chi2cdf (env.mul (std i) (std i)))

/-- The attributes after a fit on reordered columns: those with columns follow the columns, those of the rows and the scale of the
row values are equal. -/
structure ColumnState (env : DDCEnv F) (p : ℕ) (τ : ℕ → ℕ) (st st' : DDCState F) : Prop where
  location : Spec.bothSet (fun l l' => l.length = p ∧ l'.length = p ∧ Spec.colsFollow p τ (fun i => l.getD i env.nan) (fun i => l'.getD i env.nan))
    st.location st'.location
  scale : Spec.bothSet (fun l l' => l.length = p ∧ l'.length = p ∧ Spec.colsFollow p τ (fun i => l.getD i env.nan) (fun i => l'.getD i env.nan))
    st.scale st'.scale
  corr : Spec.bothSet (Spec.matrixFollows p τ) st.corr st'.corr
  slopes : Spec.bothSet (Spec.matrixFollows p τ) st.slopes st'.slopes
  rawPred : Spec.bothSet (Spec.cellsFollow p τ) st.rawPred st'.rawPred
  deshrink : Spec.bothSet (Spec.colsFollow p τ) st.deshrink st'.deshrink
  pred : Spec.bothSet (Spec.cellsFollow p τ) st.pred st'.pred
  resScales : Spec.bothSet (Spec.colsFollow p τ) st.resScales st'.resScales
  cellwise : Spec.bothSet (fun c c' => c.1 = p ∧ c'.1 = p ∧ Spec.cellsFollow p τ c.2 c'.2) st.cellwise st'.cellwise
  stdRes : Spec.bothSet (Spec.cellsFollow p τ) st.stdRes st'.stdRes
  tScale : Spec.bothSet Eq st.tScale st'.tScale
  rowOut : Spec.bothSet Eq st.rowOut st'.rowOut
  isFitted : st.isFitted = some true ∧ st'.isFitted = some true
  rescaled : Spec.bothSet (Spec.cellsFollow p τ) st.rescaled st'.rescaled

theorem fitScaler_cols (X : CellFrame F) (h : Spec.permutes X.p τ) {ls ss : List F}
    (hs : fitScaler env X (List.range X.p) [] [] = (.ok (), ls, ss)) :
    ∃ ls' ss', fitScaler env (Spec.reorderCols τ X) (List.range X.p) [] [] = (.ok (), ls', ss') ∧
      ls'.length = X.p ∧ ss'.length = X.p ∧
      Spec.colsFollow X.p τ (fun i => ls.getD i env.nan) (fun i => ls'.getD i env.nan) ∧
      Spec.colsFollow X.p τ (fun i => ss.getD i env.nan) (fun i => ss'.getD i env.nan) := by
  have h1 := fun i hi => fitScaler_getD hs i hi
  have hcol : ∀ i, colList (Spec.reorderCols τ X).n (Spec.reorderCols τ X).cell i = colList X.n X.cell (τ i) := fun i => rfl
  obtain ⟨ls', ss', h2⟩ := fitScaler_all_ok (env := env) (X := Spec.reorderCols τ X) (List.range X.p) [] [] (by
    intro i hi
    rw [hcol]
    exact ⟨_, h1 (τ i) (h.1 i (List.mem_range.1 hi))⟩)
  have h3 : ∀ i < X.p, (ls.getD (τ i) env.nan, ss.getD (τ i) env.nan) = (ls'.getD i env.nan, ss'.getD i env.nan) := by
    intro i hi
    have := fitScaler_getD h2 i hi
    rw [hcol, h1 (τ i) (h.1 i hi)] at this
    exact Except.ok.inj this
  obtain ⟨a, b, e1, e2, -, e4, e5⟩ := fitScaler_ok _ _ _ _ _ h2
  refine ⟨ls', ss', h2, by rw [e1]; simpa using e4, by rw [e2]; simpa using e5, ?_, ?_⟩
  · intro i hi; exact (congrArg Prod.fst (h3 i hi)).symm
  · intro i hi; exact (congrArg Prod.snd (h3 i hi)).symm

theorem zCells_cols {X : CellFrame F} {ls ss ls' ss' : List F}
    (hl : Spec.colsFollow p τ (fun i => ls.getD i env.nan) (fun i => ls'.getD i env.nan))
    (hs : Spec.colsFollow p τ (fun i => ss.getD i env.nan) (fun i => ss'.getD i env.nan)) :
    Spec.cellsFollow p τ (zCells env ls ss X) (zCells env ls' ss' (Spec.reorderCols τ X)) := by
  intro k i hi
  have h1 := hl i hi
  have h2 := hs i hi
  simp only at h1 h2
  unfold zCells
  rw [h1, h2]
  rfl

theorem ddcCheck_cols [DecidableEq F] (X : CellFrame F) (h : Spec.permutes X.p τ) :
    ddcCheck env (Spec.reorderCols τ X) = ddcCheck env X := by
  unfold ddcCheck
  have h1 : ∀ i, distinctCells env (Spec.reorderCols τ X) i = distinctCells env X (τ i) := fun i => rfl
  have h2 : ((List.range (Spec.reorderCols τ X).p).any fun i => decide (distinctCells env (Spec.reorderCols τ X) i ≤ 3)) =
      (List.range X.p).any fun i => decide (distinctCells env X i ≤ 3) := by
    have h3 : ((List.range (Spec.reorderCols τ X).p).any fun i => decide (distinctCells env (Spec.reorderCols τ X) i ≤ 3)) =
        ((List.range X.p).map τ).any fun i => decide (distinctCells env X i ≤ 3) := by
      rw [List.any_map]; rfl
    rw [h3, Bool.eq_iff_iff, List.any_eq_true, List.any_eq_true]
    exact exists_congr fun q => by rw [(permutes_perm h).mem_iff]
  rw [h2]
  rfl

/-- **C185**: when `fit` of `DDC` returns on a frame, it returns on the frame with its columns reordered, and every attribute follows
the columns; the rows flagged are the same. -/
theorem C185_fit [DecidableEq F] (he : EnvColumnFree env) (cfg : DDCConfig F) (verbose : Bool) (st₀ st₁ : DDCState F) (X : CellFrame F)
    (τ : ℕ → ℕ) (h : Spec.permutes X.p τ) {st : DDCState F} (hfit : ddcFit env cfg verbose st₀ X = (.ok (), st)) :
    ∃ st', ddcFit env cfg verbose st₁ (Spec.reorderCols τ X) = (.ok (), st') ∧ ColumnState env X.p τ st st' := by
  obtain ⟨hc, ls, ss, corr, slopes, d, rs, t, T⟩ := ddcFit_ok hfit
  obtain ⟨ls', ss', hs', hl1, hl2, hls, hss⟩ := fitScaler_cols (replaceInf env X) h T.scaler
  set Y := Spec.reorderCols τ X with hY
  have hZ : Spec.cellsFollow X.p τ (zCells env ls ss X) (zCells env ls' ss' Y) := zCells_cols hls hss
  have hU : Spec.cellsFollow X.p τ (fun k i => univariateFlag env cfg.cutoff (zCells env ls ss X k i))
      (fun k i => univariateFlag env cfg.cutoff (zCells env ls' ss' Y k i)) := by
    intro k i hi
    simp only [hZ k i hi]
  obtain ⟨corr', hcorr', hcf⟩ := robustCorrelation_cols he h hU T.hcorr
  obtain ⟨slopes', hslopes', hsf⟩ := getSlopes_cols h hU hcf T.hslopes
  have hraw := predictedValues_cols he h hcf hsf hU
  obtain ⟨d', hd', hdf⟩ := tabulate_cols (env := env) h (f' := fun i =>
      robustSlope env cfg.cutoff (((List.range X.n).filter fun k => env.ok (zCells env ls' ss' Y k i)).map fun k =>
        (predictedValues env X.p corr' slopes' (fun k i => univariateFlag env cfg.cutoff (zCells env ls' ss' Y k i)) k i,
          zCells env ls' ss' Y k i))) (by
    intro i hi
    simp only [hZ _ i hi, hraw _ i hi]) T.hd
  have hpred : Spec.cellsFollow X.p τ
      (fun k i => env.mul (predictedValues env X.p corr slopes
        (fun k i => univariateFlag env cfg.cutoff (zCells env ls ss X k i)) k i) (d i))
      (fun k i => env.mul (predictedValues env X.p corr' slopes'
        (fun k i => univariateFlag env cfg.cutoff (zCells env ls' ss' Y k i)) k i) (d' i)) := by
    intro k i hi
    simp only [hraw k i hi, hdf i hi]
  have hres : Spec.cellsFollow X.p τ
      (fun k i => env.sub (zCells env ls ss X k i) (env.mul (predictedValues env X.p corr slopes
        (fun k i => univariateFlag env cfg.cutoff (zCells env ls ss X k i)) k i) (d i)))
      (fun k i => env.sub (zCells env ls' ss' Y k i) (env.mul (predictedValues env X.p corr' slopes'
        (fun k i => univariateFlag env cfg.cutoff (zCells env ls' ss' Y k i)) k i) (d' i))) := by
    intro k i hi
    have := hpred k i hi
    simp only at this
    simp only [hZ k i hi, this]
  obtain ⟨rs', hrs', hrf⟩ := tabulate_cols (env := env) h (f' := fun i =>
      (env.osm ((colList X.n (fun k i => env.sub (zCells env ls' ss' Y k i) (env.mul (predictedValues env X.p corr' slopes'
        (fun k i => univariateFlag env cfg.cutoff (zCells env ls' ss' Y k i)) k i) (d' i))) i).filter env.ok)).map Prod.snd) (by
    intro i hi
    have hcl : colList X.n (fun k i => env.sub (zCells env ls' ss' Y k i) (env.mul (predictedValues env X.p corr' slopes'
        (fun k i => univariateFlag env cfg.cutoff (zCells env ls' ss' Y k i)) k i) (d' i))) i =
        colList X.n (fun k i => env.sub (zCells env ls ss X k i) (env.mul (predictedValues env X.p corr slopes
        (fun k i => univariateFlag env cfg.cutoff (zCells env ls ss X k i)) k i) (d i))) (τ i) :=
      List.map_congr_left fun k _ => hres k i hi
    simp only [hcl]) T.hrs
  have hstd : Spec.cellsFollow X.p τ
      (fun k i => env.div (env.sub (zCells env ls ss X k i) (env.mul (predictedValues env X.p corr slopes
        (fun k i => univariateFlag env cfg.cutoff (zCells env ls ss X k i)) k i) (d i))) (rs i))
      (fun k i => env.div (env.sub (zCells env ls' ss' Y k i) (env.mul (predictedValues env X.p corr' slopes'
        (fun k i => univariateFlag env cfg.cutoff (zCells env ls' ss' Y k i)) k i) (d' i))) (rs' i)) := by
    intro k i hi
    have := hres k i hi
    simp only at this
    simp only [this, hrf i hi]
  have ht' : env.osm ((List.range X.n).map fun k => env.nanmean ((List.range X.p).map fun i =>
      env.chi2cdf (env.mul (env.div (env.sub (zCells env ls' ss' Y k i)
        (env.mul (predictedValues env X.p corr' slopes'
          (fun k i => univariateFlag env cfg.cutoff (zCells env ls' ss' Y k i)) k i) (d' i))) (rs' i))
        (env.div (env.sub (zCells env ls' ss' Y k i) (env.mul (predictedValues env X.p corr' slopes'
          (fun k i => univariateFlag env cfg.cutoff (zCells env ls' ss' Y k i)) k i) (d' i))) (rs' i))))) = .ok t := by
    rw [← T.ht]
    congr 1
    exact List.map_congr_left fun k _ => rowMean_cols he h (hstd k)
  obtain ⟨st', hst', T'⟩ := ddcFit_of_steps (X := Y) (v := verbose) st₁ (by rw [hY, ddcCheck_cols X h, hc]) hs' hcorr' hslopes' hd' hrs' ht'
  refine ⟨st', hst', ?_⟩
  obtain ⟨pred, std, rfl, rfl, rfl⟩ := T.hst
  obtain ⟨pred', std', rfl, rfl, rfl⟩ := T'.hst
  refine ⟨⟨_, _, rfl, rfl, T.len.1, hl1, hls⟩, ⟨_, _, rfl, rfl, T.len.2, hl2, hss⟩, ⟨_, _, rfl, rfl, hcf⟩, ⟨_, _, rfl, rfl, hsf⟩,
    ⟨_, _, rfl, rfl, hraw⟩, ⟨_, _, rfl, rfl, hdf⟩, ⟨_, _, rfl, rfl, hpred⟩, ⟨_, _, rfl, rfl, hrf⟩, ⟨_, _, rfl, rfl, rfl, rfl, ?_⟩,
    ⟨_, _, rfl, rfl, hstd⟩, ⟨_, _, rfl, rfl, rfl⟩, ⟨_, _, rfl, rfl, ?_⟩, ⟨rfl, rfl⟩, ⟨_, _, rfl, rfl, ?_⟩⟩
  · intro k i hi
    exact congrArg (fun z => env.lt cfg.cutoff (env.abs z)) (hstd k i hi)
  · funext k
    exact (congrArg (fun m => env.lt cfg.cutoff (env.div (env.sub m t.1) t.2))
      (rowMean_cols (std := fun i => env.div (env.sub (zCells env ls ss X k i) (env.mul (predictedValues env X.p corr slopes
        (fun k i => univariateFlag env cfg.cutoff (zCells env ls ss X k i)) k i) (d i))) (rs i)) he h (hstd k))).symm
  · intro k i hi
    have h1 := hpred k i hi
    have h2 := hls i hi
    have h3 := hss i hi
    exact congrArg₂ env.add (congrArg₂ env.mul h1 h3) h2

namespace Spec

/-- Two outcomes of `predict`: the same exception, the same rows, or cells and residuals that follow the columns. -/
def predictionFollows {F : Type} (p : ℕ) (τ : ℕ → ℕ) : Except PyErr (DDCPrediction F) → Except PyErr (DDCPrediction F) → Prop
  | .error e, .error e' => e = e'
  | .ok (.rows f), .ok (.rows f') => f = f'
  | .ok (.cells f r), .ok (.cells f' r') => cellsFollow p τ f f' ∧ cellsFollow p τ r r'
  | _, _ => False

/-- Two outcomes of `impute`: the same exception, or frames whose columns are reordered. -/
def frameFollows {F : Type} (p : ℕ) (τ : ℕ → ℕ) : Except PyErr (ℕ → ℕ → F) → Except PyErr (ℕ → ℕ → F) → Prop
  | .error e, .error e' => e = e'
  | .ok c, .ok c' => cellsFollow p τ c c'
  | _, _ => False

end Spec

theorem guards_cols {st st' : DDCState F} (hst : ColumnState env p τ st st') (X : CellFrame F) :
    ddcGuards st (X) = (if X.p = p then .ok () else .error .valueError) ∧
      ddcGuards st' (Spec.reorderCols τ X) = if X.p = p then .ok () else .error .valueError := by
  obtain ⟨c, c', e1, e2, e3, e4, -⟩ := hst.cellwise
  obtain ⟨c1, c2⟩ := c
  obtain ⟨c1', c2'⟩ := c'
  simp only at e3 e4
  subst e3
  subst e4
  unfold ddcGuards
  rw [hst.isFitted.1, hst.isFitted.2, e1, e2]
  exact ⟨rfl, rfl⟩

/-- The standardised data and the predictions on the reordered frame. -/
theorem predictions_cols (he : EnvColumnFree env) (h : Spec.permutes p τ) {st st' : DDCState F} (hst : ColumnState env p τ st st')
    (cfg : DDCConfig F) (X : CellFrame F) (hp : X.p = p) :
    ∃ Z Z' pred pred', ddcPredictions env cfg st X = .ok (Z, pred) ∧
      ddcPredictions env cfg st' (Spec.reorderCols τ X) = .ok (Z', pred') ∧ Spec.cellsFollow p τ Z Z' ∧ Spec.cellsFollow p τ pred pred' := by
  obtain ⟨ls, ls', a1, a2, a3, a4, a5⟩ := hst.location
  obtain ⟨ss, ss', b1, b2, b3, b4, b5⟩ := hst.scale
  obtain ⟨co, co', c1, c2, c3⟩ := hst.corr
  obtain ⟨sl, sl', d1, d2, d3⟩ := hst.slopes
  obtain ⟨de, de', e1, e2, e3⟩ := hst.deshrink
  have hp' : (Spec.reorderCols τ X).p = p := hp
  unfold ddcPredictions standardize
  simp only [a1, a2, b1, b2, c1, c2, d1, d2, e1, e2, hp, hp', a3, a4, b3, b4, and_self, if_true]
  have hZ : Spec.cellsFollow p τ (fun k i => env.div (env.sub (X.cell k i) (ls.getD i env.nan)) (ss.getD i env.nan))
      (fun k i => env.div (env.sub ((Spec.reorderCols τ X).cell k i) (ls'.getD i env.nan)) (ss'.getD i env.nan)) := by
    intro k i hi
    exact congrArg₂ env.div (congrArg₂ env.sub rfl (a5 i hi)) (b5 i hi)
  refine ⟨_, _, _, _, rfl, rfl, hZ, ?_⟩
  intro k i hi
  refine congrArg₂ env.mul ?_ (e3 i hi)
  exact predictedValues_cols he h c3 d3 (fun k i hi => congrArg (univariateFlag env cfg.cutoff) (hZ k i hi)) k i hi

/-- **C185**: `predict` on reordered columns, with the fit on reordered columns, raises the same exception, flags the same rows, or
returns flags and residuals that follow the columns. -/
theorem C185_predict (he : EnvColumnFree env) (h : Spec.permutes p τ) {st st' : DDCState F} (hst : ColumnState env p τ st st')
    (cfg : DDCConfig F) (X : CellFrame F) (rowwise : Bool) :
    Spec.predictionFollows p τ (ddcPredict env cfg st X rowwise).1 (ddcPredict env cfg st' (Spec.reorderCols τ X) rowwise).1 := by
  obtain ⟨g1, g2⟩ := guards_cols hst X
  unfold ddcPredict
  rw [g1, g2]
  by_cases hp : X.p = p
  · simp only [if_pos hp]
    have hnum : (Spec.reorderCols τ X).numeric = X.numeric := rfl
    rw [hnum]
    by_cases hn : (!X.numeric) = true
    · rw [if_pos hn, if_pos hn]; rfl
    · rw [if_neg hn, if_neg hn]
      obtain ⟨Z, Z', pred, pred', h1, h2, h3, h4⟩ := predictions_cols he h hst cfg (replaceInf env X) hp
      have hrep : replaceInf env (Spec.reorderCols τ X) = Spec.reorderCols τ (replaceInf env X) := rfl
      rw [hrep, h1, h2]
      obtain ⟨rs, rs', r1, r2, r3⟩ := hst.resScales
      obtain ⟨t, t', t1, t2, rfl⟩ := hst.tScale
      have hstd : Spec.cellsFollow p τ (fun k i => env.div (env.sub (Z k i) (pred k i)) (rs i))
          (fun k i => env.div (env.sub (Z' k i) (pred' k i)) (rs' i)) := by
        intro k i hi
        exact congrArg₂ env.div (congrArg₂ env.sub (h3 k i hi) (h4 k i hi)) (r3 i hi)
      simp only [cellwiseOutliers, Bool.false_eq_true, if_false, r1, r2]
      cases rowwise
      · simp only [Bool.false_eq_true, if_false]
        exact ⟨fun k i hi => congrArg (fun z => env.lt cfg.cutoff (env.abs z)) (hstd k i hi), hstd⟩
      · have hpp : (replaceInf env X).p = p := hp
        have hpp' : (Spec.reorderCols τ (replaceInf env X)).p = p := hp
        simp only [if_true, rowwiseOutliers, Bool.false_eq_true, if_false, t1, t2, hpp, hpp']
        show _ = _
        funext k
        exact (congrArg (fun m => env.lt cfg.cutoff (env.div (env.sub m t.1) t.2))
          (rowMean_cols (std := fun i => env.div (env.sub (Z k i) (pred k i)) (rs i)) he h (hstd k))).symm
  · simp only [if_neg hp]
    rfl

/-- **C185**: `impute` on reordered columns, with the fit on reordered columns, raises the same exception or returns the imputed frame
with its columns reordered. -/
theorem C185_impute (he : EnvColumnFree env) (h : Spec.permutes p τ) {st st' : DDCState F} (hst : ColumnState env p τ st st')
    (cfg : DDCConfig F) (X : CellFrame F) (imputeOutliers : Bool) :
    Spec.frameFollows p τ (ddcImpute env cfg st X imputeOutliers).1 (ddcImpute env cfg st' (Spec.reorderCols τ X) imputeOutliers).1 := by
  obtain ⟨g1, g2⟩ := guards_cols hst X
  have hP := C185_predict he h hst cfg X false
  rw [← predict_replaceInf cfg st X, ← predict_replaceInf cfg st' (Spec.reorderCols τ X)] at hP
  unfold ddcImpute
  rw [g1, g2]
  by_cases hp : X.p = p
  · simp only [if_pos hp]
    have hnum : (Spec.reorderCols τ X).numeric = X.numeric := rfl
    rw [hnum]
    by_cases hn : (!X.numeric) = true
    · rw [if_pos hn, if_pos hn]; rfl
    · rw [if_neg hn, if_neg hn]
      obtain ⟨Z, Z', pred, pred', h1, h2, h3, h4⟩ := predictions_cols he h hst cfg (replaceInf env X) hp
      have hrep : replaceInf env (Spec.reorderCols τ X) = Spec.reorderCols τ (replaceInf env X) := rfl
      rw [hrep] at hP ⊢
      rw [h1, h2]
      obtain ⟨ls, ls', a1, a2, a3, a4, a5⟩ := hst.location
      obtain ⟨ss, ss', b1, b2, b3, b4, b5⟩ := hst.scale
      have hval : Spec.cellsFollow p τ (fun k i => env.round3 (rescale env ls ss pred k i))
          (fun k i => env.round3 (rescale env ls' ss' pred' k i)) := by
        intro k i hi
        exact congrArg env.round3 (congrArg₂ env.add (congrArg₂ env.mul (h4 k i hi) (b5 i hi)) (a5 i hi))
      simp only [a1, a2, b1, b2]
      cases imputeOutliers
      · simp only [Bool.false_eq_true, if_false]
        intro k i hi
        have := hval k i hi
        simp only at this
        simp only [this]
        rfl
      · simp only [if_true]
        generalize ddcPredict env cfg st (replaceInf env X) false = A at hP ⊢
        generalize ddcPredict env cfg st' (Spec.reorderCols τ (replaceInf env X)) false = B at hP ⊢
        obtain ⟨A, sA⟩ := A
        obtain ⟨B, sB⟩ := B
        rcases A with e | (f | ⟨f, r⟩) <;> rcases B with e' | (f' | ⟨f', r'⟩) <;> simp only [Spec.predictionFollows] at hP ⊢
        · exact hP
        · rfl
        · intro k i hi
          have := hval k i hi
          simp only at this
          simp only [this, hP.1 k i hi]
          rfl
  · simp only [if_neg hp]
    rfl

end

/-! ### Exact arithmetic -/

theorem liftNaN_addComm (a b : Option ℝ) : liftNaN (· + ·) a b = liftNaN (· + ·) b a := by
  cases a <;> cases b <;> simp [liftNaN, add_comm]

theorem filterMap_neg (l : List (Option ℝ)) :
    l.filterMap (id ∘ Option.map Neg.neg) = (l.filterMap id).map fun x : ℝ => (-1) * x + 0 := by
  induction l with
  | nil => rfl
  | cons a l ih =>
    cases a with
    | none => simpa using ih
    | some a =>
      have h1 : (some a :: l).filterMap (id ∘ Option.map Neg.neg) = (-a) :: l.filterMap (id ∘ Option.map Neg.neg) := rfl
      have h2 : (some a :: l).filterMap id = a :: l.filterMap id := rfl
      rw [h1, h2, List.map_cons, ih]
      simp

/-- The scale of a sample with opposite signs. -/
theorem cellwiseOSM_neg (l : List (Option ℝ)) :
    (cellwiseOSM (l.map (Option.map Neg.neg))).map Prod.snd = (cellwiseOSM l).map Prod.snd := by
  unfold cellwiseOSM oneStepM
  have hany : (l.map (Option.map Neg.neg)).any Option.isNone = l.any Option.isNone := by
    rw [List.any_map]
    congr 1
    funext x
    cases x <;> rfl
  rw [hany]
  split_ifs
  · rfl
  · have hf : (l.map (Option.map Neg.neg)).filterMap id = (l.filterMap id).map fun x : ℝ => (-1) * x + 0 := by
      rw [List.filterMap_map]
      exact filterMap_neg l
    simp only [Except.map, hf]
    congr 1
    rcases hs : madRaw (l.filterMap id) with _ | s
    · have : madRaw ((l.filterMap id).map fun x : ℝ => (-1) * x + 0) = none := by rw [madRaw_affine, hs]; rfl
      unfold oneStepScale
      rw [this, hs]
      rcases npMedian ((l.filterMap id).map fun x : ℝ => (-1) * x + 0) with _ | _ <;> rcases npMedian (l.filterMap id) with _ | _ <;> rfl
    · rw [C09_scale _ _ _ (a := (-1 : ℝ)) (by norm_num) 0 _ s hs (by simp)]
      simp

theorem somePairs_swap (l : List (Option ℝ × Option ℝ)) : somePairs (l.map Prod.swap) = (somePairs l).map Prod.swap := by
  induction l with
  | nil => rfl
  | cons q l ih =>
    obtain ⟨a, b⟩ := q
    cases a <;> cases b <;> simp_all [somePairs]

theorem pearson_swap (l : List (ℝ × ℝ)) : pearson (l.map Prod.swap) = pearson l := by
  have h : ∀ f g : ℝ × ℝ → ℝ, centredSum f g (l.map Prod.swap) = centredSum (f ∘ Prod.swap) (g ∘ Prod.swap) l := by
    intro f g
    unfold centredSum
    simp only [List.map_map]
    rfl
  have h2 : centredSum Prod.snd Prod.fst l = centredSum Prod.fst Prod.snd l := by
    unfold centredSum
    congr 1
    exact List.map_congr_left fun q _ => mul_comm _ _
  have e1 : (Prod.fst ∘ Prod.swap : ℝ × ℝ → ℝ) = Prod.snd := rfl
  have e2 : (Prod.snd ∘ Prod.swap : ℝ × ℝ → ℝ) = Prod.fst := rfl
  unfold pearson
  simp only [h, e1, e2, h2, mul_comm (Real.sqrt (centredSum Prod.snd Prod.snd l)), or_comm (a := centredSum Prod.snd Prod.snd l = 0)]

/-- **C185**: the hypothesis holds in exact arithmetic, whatever the scale estimator. -/
theorem C185_real (round3 cdf : ℝ → ℝ) (est : List (Option ℝ) → Except PyErr (Option ℝ × Option ℝ)) :
    EnvColumnFree (realEnv round3 cdf est) where
  addComm := liftNaN_addComm
  addRight a b c := by
    cases a <;> cases b <;> cases c <;> simp [realEnv, liftNaN, add_right_comm]
  nanmean X Y h := by
    have hf : (X.filterMap id).Perm (Y.filterMap id) := h.filterMap id
    have hem : (X.filterMap id).isEmpty = (Y.filterMap id).isEmpty := by
      rw [Bool.eq_iff_iff, List.isEmpty_iff, List.isEmpty_iff]
      exact ⟨fun e => by rw [e] at hf; exact hf.nil_eq.symm, fun e => by rw [e] at hf; exact hf.eq_nil⟩
    simp only [realEnv, hem, mean_perm hf]
  osmNeg l := by
    simp only [realEnv]
    rw [← cellwiseOSM_neg (l.map fun q => liftNaN (· - ·) q.1 q.2), List.map_map]
    congr 2
    apply List.map_congr_left
    rintro ⟨a, b⟩ -
    cases a <;> cases b <;> simp [liftNaN]
  corrSwap l := by
    simp only [realEnv, somePairs_swap, pearson_swap]
  mahalSwap c q := by
    obtain ⟨a, b⟩ := q
    cases a <;> cases b <;> simp [realEnv, liftNaN, add_comm, mul_comm]

/-- A fit that returns, on `frameW` with its three columns rotated. -/
example : Spec.permutes frameW.p (fun i => (i + 1) % 3) ∧ EnvColumnFree (realEnv id id estUnit) ∧
    ∃ st st', ddcFit (realEnv id id estUnit) ⟨some 1000, some (9 / 10)⟩ false {} frameW = (.ok (), st) ∧
      ddcFit (realEnv id id estUnit) ⟨some 1000, some (9 / 10)⟩ false {} (Spec.reorderCols (fun i => (i + 1) % 3) frameW) = (.ok (), st') ∧
      ColumnState (realEnv id id estUnit) frameW.p (fun i => (i + 1) % 3) st st' := by
  have hp : Spec.permutes frameW.p (fun i => (i + 1) % 3) :=
    ⟨fun k hk => by simp only [frameW] at hk ⊢; omega, fun k hk l hl h => by simp only [frameW] at h hk hl; omega⟩
  have he : EnvColumnFree (realEnv id id estUnit) := C185_real id id estUnit
  obtain ⟨st, -, -, -, -, -, h, -⟩ := frameW_fit (round3 := id) (cdf := id) {}
  obtain ⟨st', h1, h2⟩ := C185_fit he _ _ _ {} frameW _ hp h
  exact ⟨hp, he, st, st', h, h1, h2⟩

end Robpy
