import Verif.Model.DDC
import Verif.Props.RowOrder
import Verif.Props.DDCWitness

/-! C165: DDC and the order of the rows. -/

namespace Robpy

namespace Spec

/-- The frame whose row `k` is row `σ k` of `X`. -/
def reorder {F : Type} (σ : ℕ → ℕ) (X : CellFrame F) : CellFrame F := { X with cell := fun k i => X.cell (σ k) i }

/-- `σ` permutes the rows `0, ..., n - 1`. -/
def permutes (n : ℕ) (σ : ℕ → ℕ) : Prop := (∀ k < n, σ k < n) ∧ ∀ k < n, ∀ l < n, σ k = σ l → k = l

end Spec

theorem permutes_perm {n : ℕ} {σ : ℕ → ℕ} (h : Spec.permutes n σ) : ((List.range n).map σ).Perm (List.range n) := by
  have hnd : ((List.range n).map σ).Nodup := by
    rw [List.nodup_map_iff_inj_on List.nodup_range]
    intro k hk l hl he
    exact h.2 k (List.mem_range.1 hk) l (List.mem_range.1 hl) he
  refine (hnd.subperm ?_).perm_of_length_le (by simp)
  intro x hx
  obtain ⟨k, hk, rfl⟩ := List.mem_map.1 hx
  exact List.mem_range.2 (h.1 k (List.mem_range.1 hk))

theorem map_reorder {α : Type} {n : ℕ} {σ : ℕ → ℕ} (h : Spec.permutes n σ) (f : ℕ → α) :
    ((List.range n).map fun k => f (σ k)).Perm ((List.range n).map f) := by
  have := (permutes_perm h).map f
  rwa [List.map_map] at this

/-- The routines of numpy, scipy and robpy that `DDC` applies to samples do not depend on the order of the sample. -/
structure EnvOrderFree {F : Type} (env : DDCEnv F) : Prop where
  median : Spec.orderFree env.median
  corrcoef : Spec.orderFree env.corrcoef
  lstsq : Spec.orderFree env.lstsq
  est : Spec.orderFree env.est
  osm : Spec.orderFree env.osm

section
variable {F : Type} {env : DDCEnv F} {n p : ℕ} {σ : ℕ → ℕ}

theorem robustSlope_orderFree (he : EnvOrderFree env) (cutoff : F) : Spec.orderFree (robustSlope env cutoff) := by
  intro l l' h
  unfold robustSlope
  have hall : (l.all fun q => env.eqb q.1 env.zero) = l'.all fun q => env.eqb q.1 env.zero := by
    rw [Bool.eq_iff_iff, List.all_eq_true, List.all_eq_true]
    exact forall_congr' fun q => by rw [h.mem_iff]
  rw [hall]
  split_ifs
  · rfl
  · simp only
    rw [he.median _ _ ((h.filter fun q => !env.eqb q.1 env.zero).map fun q => env.div q.2 q.1), he.osm _ _ (h.map _)]
    congr 1
    funext s
    exact he.lstsq _ _ (h.filter _)

theorem pairCorr_orderFree (he : EnvOrderFree env) (cutoff : F) : Spec.orderFree (pairCorr env cutoff) := by
  intro l l' h
  unfold pairCorr
  have hem : l.isEmpty = l'.isEmpty := by
    rw [Bool.eq_iff_iff, List.isEmpty_iff, List.isEmpty_iff]
    exact ⟨fun e => by subst e; exact h.nil_eq.symm, fun e => by subst e; exact h.eq_nil⟩
  rw [hem]
  split_ifs
  · rfl
  · rw [he.osm _ _ (h.map fun q => env.add q.1 q.2), he.osm _ _ (h.map fun q => env.sub q.1 q.2)]
    congr 1
    funext sp
    congr 1
    funext sm
    exact he.corrcoef _ _ (h.filter _)

theorem commonRows_perm (h : Spec.permutes n σ) (U : ℕ → ℕ → F) (i j : ℕ) :
    (commonRows env n (fun k => U (σ k)) i j).Perm (commonRows env n U i j) :=
  (map_reorder h fun k => (U k i, U k j)).filter _

theorem robustCorrelation_reorder (he : EnvOrderFree env) (h : Spec.permutes n σ) (cutoff : F) (U : ℕ → ℕ → F) (verbose : Bool) :
    robustCorrelation env cutoff n p (fun k => U (σ k)) verbose = robustCorrelation env cutoff n p U verbose := by
  unfold robustCorrelation
  simp only [fun i j => pairCorr_orderFree he cutoff _ _ (commonRows_perm (env := env) h U i j)]

theorem getSlopes_reorder (he : EnvOrderFree env) (h : Spec.permutes n σ) (cfg : DDCConfig F) (U corr : ℕ → ℕ → F) :
    getSlopes env cfg n p (fun k => U (σ k)) corr = getSlopes env cfg n p U corr := by
  unfold getSlopes
  simp only [fun i j => robustSlope_orderFree he cfg.cutoff _ _ (commonRows_perm (env := env) h U i j)]

theorem deshrinkage_reorder (he : EnvOrderFree env) (h : Spec.permutes n σ) (cutoff : F) (Z raw : ℕ → ℕ → F) :
    deshrinkage env cutoff n p (fun k => Z (σ k)) (fun k => raw (σ k)) = deshrinkage env cutoff n p Z raw := by
  unfold deshrinkage
  congr 1
  funext i
  apply robustSlope_orderFree he
  have h1 := (permutes_perm h).filter fun k => env.ok (Z k i)
  have h2 := h1.map fun k => (raw k i, Z k i)
  rwa [List.filter_map, List.map_map] at h2

theorem colList_reorder (h : Spec.permutes n σ) (c : ℕ → ℕ → F) (i : ℕ) :
    (colList n (fun k => c (σ k)) i).Perm (colList n c i) := map_reorder h fun k => c k i

/-- The attributes after a fit on reordered rows: those without rows are equal, those with rows are reordered. -/
structure ReorderedState (n : ℕ) (σ : ℕ → ℕ) (st st' : DDCState F) : Prop where
  location : st'.location = st.location
  scale : st'.scale = st.scale
  corr : st'.corr = st.corr
  slopes : st'.slopes = st.slopes
  deshrink : st'.deshrink = st.deshrink
  resScales : st'.resScales = st.resScales
  tScale : st'.tScale = st.tScale
  isFitted : st'.isFitted = st.isFitted
  rawPred : st'.rawPred = st.rawPred.map fun c k => c (σ k)
  pred : st'.pred = st.pred.map fun c k => c (σ k)
  cellwise : st'.cellwise = st.cellwise.map fun c => (c.1, fun k => c.2 (σ k))
  stdRes : st'.stdRes = st.stdRes.map fun c k => c (σ k)
  rowOut : st'.rowOut = st.rowOut.map fun c k => c (σ k)
  rescaled : st'.rescaled = st.rescaled.map fun c k => c (σ k)

theorem fitFrom_reorder (he : EnvOrderFree env) (h : Spec.permutes n σ) (cfg : DDCConfig F) (verbose : Bool) (Z : ℕ → ℕ → F)
    (ls ss : List F) (st : DDCState F) (hl : st.location = some ls) (hs : st.scale = some ss) :
    (fitFrom env cfg verbose n p (fun k => Z (σ k)) ls ss st).1 = (fitFrom env cfg verbose n p Z ls ss st).1 ∧
      ((fitFrom env cfg verbose n p Z ls ss st).1 = .ok () →
        ReorderedState n σ (fitFrom env cfg verbose n p Z ls ss st).2 (fitFrom env cfg verbose n p (fun k => Z (σ k)) ls ss st).2) := by
  unfold fitFrom
  simp only
  have hU := robustCorrelation_reorder (p := p) he h cfg.cutoff (fun k i => univariateFlag env cfg.cutoff (Z k i)) verbose
  rw [hU]
  rcases robustCorrelation env cfg.cutoff n p (fun k i => univariateFlag env cfg.cutoff (Z k i)) verbose with e | corr
  · exact ⟨rfl, fun h => by cases h⟩
  simp only
  have hS := getSlopes_reorder (p := p) he h cfg (fun k i => univariateFlag env cfg.cutoff (Z k i)) corr
  rw [hS]
  rcases getSlopes env cfg n p (fun k i => univariateFlag env cfg.cutoff (Z k i)) corr with e | slopes
  · exact ⟨rfl, fun h => by cases h⟩
  simp only
  set raw := predictedValues env p corr slopes fun k i => univariateFlag env cfg.cutoff (Z k i) with hraw
  have hraw' : (predictedValues env p corr slopes fun k i => univariateFlag env cfg.cutoff (Z (σ k) i)) = fun k => raw (σ k) := rfl
  rw [hraw', deshrinkage_reorder he h]
  rcases deshrinkage env cfg.cutoff n p Z raw with e | d
  · exact ⟨rfl, fun h => by cases h⟩
  simp only
  unfold cellwiseOutliers
  simp only [if_true]
  have hres : ∀ i, (env.osm ((colList n (fun k i => env.sub (Z (σ k) i) (env.mul (raw (σ k) i) (d i))) i).filter env.ok)).map Prod.snd =
      (env.osm ((colList n (fun k i => env.sub (Z k i) (env.mul (raw k i) (d i))) i).filter env.ok)).map Prod.snd := fun i => by
    rw [he.osm _ _ ((colList_reorder h (fun k i => env.sub (Z k i) (env.mul (raw k i) (d i))) i).filter env.ok)]
  simp only [hres]
  rcases tabulate env p fun i => (env.osm ((colList n (fun k i => env.sub (Z k i) (env.mul (raw k i) (d i))) i).filter env.ok)).map Prod.snd
    with e | s
  · exact ⟨rfl, fun h => by cases h⟩
  simp only
  unfold rowwiseOutliers
  simp only [if_true]
  set t : ℕ → F := fun k => env.nanmean ((List.range p).map fun i => env.chi2cdf
    (env.mul (env.div (env.sub (Z k i) (env.mul (raw k i) (d i))) (s i)) (env.div (env.sub (Z k i) (env.mul (raw k i) (d i))) (s i)))) with ht
  have htσ : env.osm ((List.range n).map fun k => t (σ k)) = env.osm ((List.range n).map t) := he.osm _ _ (map_reorder h t)
  simp only [ht] at htσ
  rw [htσ]
  rcases env.osm ((List.range n).map t) with e | w
  · exact ⟨rfl, fun h => by cases h⟩
  · exact ⟨rfl, fun _ => ⟨by rw [hl], by rw [hs], rfl, rfl, rfl, rfl, rfl, rfl, rfl, rfl, rfl, rfl, rfl, rfl⟩⟩

theorem fitScaler_reorder (he : EnvOrderFree env) (X : CellFrame F) (h : Spec.permutes X.n σ) (is : List ℕ) (ls ss : List F) :
    fitScaler env (Spec.reorder σ X) is ls ss = fitScaler env X is ls ss := by
  induction is generalizing ls ss with
  | nil => rfl
  | cons i is ih =>
    unfold fitScaler
    have : env.est ((colList (Spec.reorder σ X).n (Spec.reorder σ X).cell i).filter env.ok) =
        env.est ((colList X.n X.cell i).filter env.ok) := he.est _ _ ((colList_reorder h X.cell i).filter env.ok)
    rw [this]
    rcases env.est ((colList X.n X.cell i).filter env.ok) with e | ⟨l, s⟩
    · rfl
    · exact ih _ _

theorem ddcCheck_reorder [DecidableEq F] (X : CellFrame F) (h : Spec.permutes X.n σ) :
    ddcCheck env (Spec.reorder σ X) = ddcCheck env X := by
  unfold ddcCheck
  have : ∀ i, distinctCells env (Spec.reorder σ X) i = distinctCells env X i := by
    intro i
    unfold distinctCells
    exact ((((colList_reorder h X.cell i).filter env.ok)).dedup).length_eq
  simp only [this]
  rfl

/-- **C165**: `fit` of `DDC` on reordered rows raises the same exception or none; after a fit that returns, the attributes are those of
the fit on the original data, reordered where they have rows. -/
theorem C165_fit [DecidableEq F] (he : EnvOrderFree env) (cfg : DDCConfig F) (verbose : Bool) (st₀ : DDCState F) (X : CellFrame F)
    (σ : ℕ → ℕ) (h : Spec.permutes X.n σ) :
    (ddcFit env cfg verbose st₀ (Spec.reorder σ X)).1 = (ddcFit env cfg verbose st₀ X).1 ∧
      ((ddcFit env cfg verbose st₀ X).1 = .ok () →
        ReorderedState X.n σ (ddcFit env cfg verbose st₀ X).2 (ddcFit env cfg verbose st₀ (Spec.reorder σ X)).2) := by
  unfold ddcFit
  rw [ddcCheck_reorder X h]
  rcases ddcCheck env X with e | _
  · exact ⟨rfl, fun h => by cases h⟩
  simp only
  have hrep : replaceInf env (Spec.reorder σ X) = Spec.reorder σ (replaceInf env X) := rfl
  rw [hrep, fitScaler_reorder he (replaceInf env X) h]
  have hp : (Spec.reorder σ (replaceInf env X)).p = (replaceInf env X).p := rfl
  rw [hp]
  rcases fitScaler env (replaceInf env X) (List.range (replaceInf env X).p) [] [] with ⟨e | _, ls, ss⟩
  · exact ⟨rfl, fun h => by cases h⟩
  simp only [standardize, hp]
  split_ifs with hlen
  · exact fitFrom_reorder (n := X.n) (p := X.p) (σ := σ) he h cfg verbose
      (fun k i => env.div (env.sub ((replaceInf env X).cell k i) (ls.getD i env.nan)) (ss.getD i env.nan)) ls ss
      { st₀ with location := some ls, scale := some ss } rfl rfl
  · exact ⟨rfl, fun h => by cases h⟩

end

theorem allSome_eq (l : List (Option ℝ)) : allSome l = if none ∈ l then none else some (l.filterMap id) := by
  induction l with
  | nil => simp [allSome]
  | cons a l ih =>
    rcases a with _ | a
    · simp [allSome]
    · simp only [allSome, ih]
      by_cases h : none ∈ l <;> simp [h]

theorem somePairs_perm {l l' : List (Option ℝ × Option ℝ)} (h : l.Perm l') : (somePairs l).Perm (somePairs l') := h.filterMap _

theorem centredSum_perm (f g : ℝ × ℝ → ℝ) {l l' : List (ℝ × ℝ)} (h : l.Perm l') : centredSum f g l = centredSum f g l' := by
  unfold centredSum
  rw [mean_perm (h.map f), mean_perm (h.map g)]
  exact (h.map _).sum_eq

theorem oneStepM_orderFree (loc scale : Rho ℝ) (delta minAbs : ℝ) : Spec.orderFree (oneStepM loc scale delta minAbs) := by
  intro X Y h
  unfold oneStepM
  have hany : X.any Option.isNone = Y.any Option.isNone := by
    rw [Bool.eq_iff_iff, List.any_eq_true, List.any_eq_true]
    exact exists_congr fun q => by rw [h.mem_iff]
  rw [hany]
  split_ifs
  · rfl
  · have hf : (X.filterMap id).Perm (Y.filterMap id) := h.filterMap id
    simp only [oneStepLocation, oneStepScale, npMedian_perm hf, madRaw_perm hf, weightedMean]
    rcases npMedian (Y.filterMap id) with _ | m <;> rcases madRaw (Y.filterMap id) with _ | s <;> try rfl
    simp only [(hf.map fun x => oneStepWeight loc ((x - m) / safeMad minAbs (s / normalQuartile))).sum_eq,
      (hf.map fun x => oneStepWeight loc ((x - m) / safeMad minAbs (s / normalQuartile)) * x).sum_eq,
      mean_perm (hf.map fun x => scale.psi ((x - m) / (s / normalQuartile)) ^ 2)]

/-- **C165**: the hypothesis holds in exact arithmetic for every order-free scale estimator. -/
theorem C165_real (round3 cdf : ℝ → ℝ) {est : List (Option ℝ) → Except PyErr (Option ℝ × Option ℝ)} (hest : Spec.orderFree est) :
    EnvOrderFree (realEnv round3 cdf est) where
  median X Y h := by
    simp only [realEnv, allSome_eq, h.mem_iff]
    split_ifs
    · rfl
    · simp only [Option.bind_some]; exact npMedian_perm (h.filterMap id)
  corrcoef X Y h := by
    simp only [realEnv, pearson, centredSum_perm _ _ (somePairs_perm h)]
  lstsq X Y h := by
    simp only [realEnv, lstsq1, ((somePairs_perm h).map fun q => q.1 * q.1).sum_eq, ((somePairs_perm h).map fun q => q.1 * q.2).sum_eq]
  est := hest
  osm := oneStepM_orderFree _ _ _ _

/-- The default estimator of `DDC`. -/
theorem C165_default : Spec.orderFree cellwiseOSM := oneStepM_orderFree _ _ _ _

/-- A fit that returns, on the rows of `frameW` in reversed order. -/
example : Spec.permutes frameW.n (fun k => 3 - k) ∧ EnvOrderFree (realEnv id id estUnit) ∧
    ∃ st, ddcFit (realEnv id id estUnit) ⟨some 1000, some (9 / 10)⟩ false {} (Spec.reorder (fun k => 3 - k) frameW) = (.ok (), st) := by
  have hp : Spec.permutes frameW.n (fun k => 3 - k) :=
    ⟨fun k hk => by simp only [frameW] at hk ⊢; omega, fun k hk l hl h => by simp only [frameW] at h hk hl; omega⟩
  have he : EnvOrderFree (realEnv id id estUnit) := C165_real id id fun _ _ _ => rfl
  refine ⟨hp, he, _, Prod.ext ?_ rfl⟩
  rw [(C165_fit he _ _ _ frameW _ hp).1]
  obtain ⟨st', -, -, -, -, -, h, -⟩ := frameW_fit (round3 := id) (cdf := id) {}
  rw [h]

end Robpy
