import Verif.Model.DetMCD
import Verif.Props.MCDAffine
import Verif.Props.Qn
import Verif.Props.TauOneStep
import Mathlib.LinearAlgebra.Matrix.ToLinearEquiv
import Mathlib.LinearAlgebra.Dimension.Constructions

/-! # DetMCD with its six starting sets: units, rows at the medians, few rows, one column -/

namespace Robpy
open Matrix

variable {p : ℕ}

/-! ## The univariate scales -/

/-- The number `qnNum` is the scale of the model of `Qn` with both corrections (C01). -/
theorem qnNum_spec {x : List ℝ} (hx : 2 ≤ x.length) :
    ∃ c v, 0 < c ∧ Spec.IsKthSmallest ((x.length / 2 + 1).choose 2) (Spec.pairDists x) v ∧ qnNum x = c * v := by
  obtain ⟨v, d, hv, hd, hs⟩ := C01_qn_corrected true true x hx (x.length * x.length + 1) (by omega)
  obtain ⟨d', hd', h0, -⟩ := C01_dn_range (K := ℝ) x.length hx
  rw [hd] at hd'
  obtain rfl := Option.some.inj hd'
  refine ⟨2.219144 * d, v, by positivity, hv, ?_⟩
  unfold qnNum
  rw [hs]
  simp only [if_true]
  ring

theorem qnNum_affine {x : List ℝ} (hx : 2 ≤ x.length) (a b : ℝ) :
    qnNum (x.map fun v => a * v + b) = |a| * qnNum x := by
  obtain ⟨s, h1, h2⟩ := C05_affine true true x hx a b (x.length * x.length + 1) (by omega)
  unfold qnNum
  rw [List.length_map, h1, h2]

theorem tauNum_affine (corr : ℝ) {a : ℝ} (ha : a ≠ 0) (b : ℝ) (x : List ℝ) :
    tauNum corr (x.map fun v => a * v + b) = |a| * tauNum corr x := by
  unfold tauNum
  rw [C07_affine 4.5 3 (some corr) ha b x]
  rcases tauCalculate 4.5 3 (some corr) x with e | ⟨l, s⟩
  · simp
  · rfl

theorem detScale_affine (corr : ℝ) {x : List ℝ} (hx : 2 ≤ x.length) (n : ℕ) {a : ℝ} (ha : 0 < a) (b : ℝ) :
    detScale corr n (x.map fun v => a * v + b) = a * detScale corr n x := by
  unfold detScale
  rw [qnNum_affine hx, tauNum_affine corr ha.ne', abs_of_pos ha]
  split_ifs <;> rfl

theorem medNum_affine {x : List ℝ} (hx : x ≠ []) (a b : ℝ) :
    medNum (x.map fun v => a * v + b) = a * medNum x + b := by
  unfold medNum
  rw [npMedian_affine]
  obtain ⟨m, hm⟩ := npMedian_isSome hx
  rw [hm]; rfl

/-! ## C131: units -/

/-- Specification: the data in other units, column `j` multiplied by `c j` and shifted by `d j`. -/
def Spec.inUnits (c d : Fin p → ℝ) (X : List (Fin p → ℝ)) : List (Fin p → ℝ) :=
  X.map fun x j => c j * x j + d j

theorem column_inUnits (c d : Fin p → ℝ) (X : List (Fin p → ℝ)) (j : Fin p) :
    column (Spec.inUnits c d X) j = (column X j).map fun v => c j * v + d j := by
  unfold column Spec.inUnits
  rw [List.map_map, List.map_map]
  rfl

theorem column_length (X : List (Fin p → ℝ)) (j : Fin p) : (column X j).length = X.length := by
  unfold column; rw [List.length_map]

/-- The standardised data do not depend on the units. -/
theorem detZ_inUnits (corr : ℝ) {c : Fin p → ℝ} (hc : ∀ j, 0 < c j) (d : Fin p → ℝ) (X : List (Fin p → ℝ)) :
    detZ corr (Spec.inUnits c d X) = detZ corr X := by
  have hlen : (Spec.inUnits c d X).length = X.length := List.length_map _
  unfold detZ
  rw [hlen]
  by_cases h2 : X.length < 2
  · rw [if_pos (Or.inl h2), if_pos (Or.inl h2)]
  have hs : ∀ j, detScale corr X.length (column (Spec.inUnits c d X) j) =
      c j * detScale corr X.length (column X j) := fun j => by
    rw [column_inUnits, detScale_affine corr (by rw [column_length]; omega) _ (hc j)]
  have hm : ∀ j, medNum (column (Spec.inUnits c d X) j) = c j * medNum (column X j) + d j := fun j => by
    rw [column_inUnits, medNum_affine]
    intro h0
    have := congrArg List.length h0
    rw [column_length] at this
    simp at this
    rw [this] at h2
    simp at h2
  have hiff : (X.length < 2 ∨ ∃ j, detScale corr X.length (column (Spec.inUnits c d X) j) = 0) ↔
      (X.length < 2 ∨ ∃ j, detScale corr X.length (column X j) = 0) := by
    refine or_congr Iff.rfl (exists_congr fun j => ?_)
    rw [hs j]
    constructor
    · intro h; exact (mul_eq_zero.1 h).resolve_left (hc j).ne'
    · intro h; rw [h, mul_zero]
  by_cases h : X.length < 2 ∨ ∃ j, detScale corr X.length (column X j) = 0
  · rw [if_pos (hiff.2 h), if_pos h]
  · rw [if_neg fun h' => h (hiff.1 h'), if_neg h]
    congr 1
    unfold Spec.inUnits at *
    rw [List.map_map]
    refine List.map_congr_left fun x _ => ?_
    funext j
    simp only [Function.comp]
    rw [hs j, hm j]
    rw [show c j * x j + d j - (c j * medNum (column X j) + d j) = c j * (x j - medNum (column X j)) by ring,
      mul_div_mul_left _ _ (hc j).ne']

theorem detInits_inUnits (env : DetEnv p) {c : Fin p → ℝ} (hc : ∀ j, 0 < c j) (d : Fin p → ℝ)
    (X : List (Fin p → ℝ)) : detInits env (Spec.inUnits c d X) = detInits env X := by
  unfold detInits
  rw [detZ_inUnits _ hc]

theorem detZ_ok {corr : ℝ} {X Z : List (Fin p → ℝ)} (h : detZ corr X = .ok Z) :
    2 ≤ X.length ∧ (∀ j, detScale corr X.length (column X j) ≠ 0) ∧
      Z = X.map fun x j => (x j - medNum (column X j)) / detScale corr X.length (column X j) := by
  unfold detZ at h
  split_ifs at h with h0
  push Not at h0
  exact ⟨h0.1, h0.2, (Except.ok.inj h).symm⟩

theorem take_argsort (srt : ArgSort ℝ) (d : List ℝ) (k : ℕ) :
    ((srt.toFun d).take k).Nodup ∧ (∀ i ∈ (srt.toFun d).take k, i < d.length) ∧
      ((srt.toFun d).take k).length = min k d.length := by
  have hp := srt.perm d
  refine ⟨(hp.nodup_iff.2 List.nodup_range).sublist (List.take_sublist _ _), fun i hi => ?_, ?_⟩
  · exact List.mem_range.1 (hp.mem_iff.1 (List.mem_of_mem_take hi))
  · rw [List.length_take, hp.length_eq, List.length_range]

/-- Every starting set consists of `⌈n/2⌉` different rows. -/
theorem detInits_ok {env : DetEnv p} {X : List (Fin p → ℝ)} {inits : List (List ℕ)}
    (h : detInits env X = .ok inits) : 2 ≤ X.length ∧ ∀ idx ∈ inits,
      idx.Nodup ∧ (∀ i ∈ idx, i < X.length) ∧ idx.length = (X.length + 1) / 2 := by
  unfold detInits at h
  rcases hZ : detZ env.tauCorr X with e | Z
  · rw [hZ] at h; simp [Except.bind] at h
  obtain ⟨h2, -, hZe⟩ := detZ_ok hZ
  have hl : Z.length = X.length := by rw [hZe, List.length_map]
  refine ⟨h2, fun idx hidx => ?_⟩
  rw [hZ] at h
  simp only [Except.bind] at h
  rcases hS : detScatters env Z with e | Ss
  · rw [hS] at h; simp at h
  rw [hS] at h
  simp only at h
  rcases hst : mapExcept (detStart env Z) Ss with e | starts
  · rw [hst] at h; simp at h
  rw [hst] at h
  simp only at h
  obtain ⟨s, -, hs⟩ := mapExcept_mem h idx hidx
  unfold detIndices at hs
  rcases hd : sqMahalanobis Z s.1 s.2 with e | d
  · rw [hd] at hs; simp [Except.map] at hs
  rw [hd] at hs
  obtain rfl := (Except.ok.inj hs).symm
  have hdl : d.length = X.length := by rw [(sqMahalanobis_ok hd).2, List.length_map, hl]
  obtain ⟨t1, t2, t3⟩ := take_argsort env.srt d ((Z.length + 1) / 2)
  refine ⟨t1, fun i hi => hdl ▸ t2 i hi, ?_⟩
  rw [t3, hdl, hl]
  omega

/-- **C131**: changing the units of the columns (positive factors, any shifts) changes the result of DetMCD in the
corresponding way, for every setting with positive tolerance, every eigendecomposition, every matrix square root and
every ordering of ties; exceptions are the same. -/
theorem C131_units (env : DetEnv p) (cfg : MCDConfig ℝ) (htol : 0 < cfg.tol) {c : Fin p → ℝ} (hc : ∀ j, 0 < c j)
    (d : Fin p → ℝ) (X : List (Fin p → ℝ)) (hX : X ≠ []) (fuel : ℕ) :
    detFit env cfg (Spec.inUnits c d X) fuel =
      (detFit env cfg X fuel).map (Except.map (Spec.affFit (Matrix.diagonal c) d)) := by
  have haff : Spec.inUnits c d X = X.map (Spec.affine (Matrix.diagonal c) d) := by
    unfold Spec.inUnits Spec.affine
    refine List.map_congr_left fun x _ => ?_
    funext j
    simp [Matrix.mulVec_diagonal]
  have hdet : (Matrix.diagonal c).det ≠ 0 := by
    rw [Matrix.det_diagonal]; exact (Finset.prod_pos fun j _ => hc j).ne'
  have hall : ∀ inits : List (List ℕ), (∀ idx ∈ inits, idx ≠ [] ∧ ∀ i ∈ idx, i < X.length) →
      detMCD env.srt cfg (X.map (Spec.affine (Matrix.diagonal c) d)) fuel inits =
      (detMCD env.srt cfg X fuel inits).map (Except.map (Spec.affFit (Matrix.diagonal c) d)) := fun inits hi =>
    C39_detMCD (Matrix.diagonal c) d hdet env.srt cfg htol X hX fuel inits hi
  unfold detFit
  rw [detInits_inUnits env hc, haff, List.length_map]
  by_cases ha : alphaIsAll cfg.alpha X.length = true
  · rw [if_pos ha, if_pos ha]
    have := hall [] (by simp)
    unfold detMCD at this
    rwa [List.length_map, if_pos ha, if_pos ha] at this
  · rw [if_neg ha, if_neg ha]
    rcases hin : detInits env X with e | inits
    · rfl
    · simp only [Run.andThen]
      refine hall inits fun idx hidx => ?_
      obtain ⟨h2, h⟩ := detInits_ok hin
      obtain ⟨-, h3, h4⟩ := h idx hidx
      exact ⟨by rintro rfl; simp at h4; omega, h3⟩

/-! ## C134: one column -/

/-- **C134**: for a single column DetMCD raises for every data set, unless `alpha` asks for the classical estimate. -/
theorem C134_one_column (env : DetEnv 1) (cfg : MCDConfig ℝ) (X : List (Fin 1 → ℝ))
    (ha : alphaIsAll cfg.alpha X.length = false) (fuel : ℕ) : ∃ e, detFit env cfg X fuel = some (.error e) := by
  unfold detFit
  rw [ha]
  simp only [Bool.false_eq_true, if_false]
  have : ∃ e, detInits env X = .error e := by
    unfold detInits
    rcases detZ env.tauCorr X with e | Z
    · exact ⟨e, rfl⟩
    · refine ⟨.linAlgError, ?_⟩
      simp only [Except.bind]
      unfold detScatters
      rw [if_pos rfl]
  obtain ⟨e, he⟩ := this
  exact ⟨e, by rw [he]; rfl⟩

/-! ## C132: a row at the medians -/

/-- Specification: the row contains in every column a median of that column. -/
def Spec.IsMedianRow (X : List (Fin p → ℝ)) (x : Fin p → ℝ) : Prop :=
  ∀ j, npMedian (X.map fun y => y j) = some (x j)

theorem detScatters_zero_row (env : DetEnv p) {Z : List (Fin p → ℝ)} {z : Fin p → ℝ} (hz : z ∈ Z) (h0 : ∀ j, z j = 0) :
    detScatters env Z = .error .linAlgError := by
  have : spatialSigns Z = none := by
    unfold spatialSigns
    rw [if_pos]
    refine ⟨z, hz, ?_⟩
    unfold rowNorm
    simp [h0]
  unfold detScatters
  rw [this]
  split_ifs
  · rfl
  · split
    · simp_all
    · rfl

/-- **C132**: if some row consists of the medians of the columns, DetMCD raises an exception: its distance from the
centre is 0 and the spatial signs divide by it. -/
theorem C132_median_row (env : DetEnv p) (cfg : MCDConfig ℝ) {X : List (Fin p → ℝ)}
    (ha : alphaIsAll cfg.alpha X.length = false) {x : Fin p → ℝ} (hx : x ∈ X) (hm : Spec.IsMedianRow X x) (fuel : ℕ) :
    ∃ e, detFit env cfg X fuel = some (.error e) := by
  unfold detFit
  rw [ha]
  simp only [Bool.false_eq_true, if_false]
  have : ∃ e, detInits env X = .error e := by
    unfold detInits
    rcases hZ : detZ env.tauCorr X with e | Z
    · exact ⟨e, rfl⟩
    · refine ⟨.linAlgError, ?_⟩
      simp only [Except.bind]
      obtain ⟨-, -, rfl⟩ := detZ_ok hZ
      rw [detScatters_zero_row env (List.mem_map.2 ⟨x, hx, rfl⟩)]
      intro j
      have hmj : medNum (column X j) = x j := by
        unfold medNum column
        rw [hm j]; rfl
      rw [hmj, sub_self, zero_div]
  obtain ⟨e, he⟩ := this
  exact ⟨e, by rw [he]; rfl⟩

/-! ## C133: few rows -/

theorem npCov_mulVec (R : List (Fin p → ℝ)) (v : Fin p → ℝ) :
    npCov R *ᵥ v = ((R.length : ℝ) - 1)⁻¹ •
      (R.map fun x => ((x - meanRow R) ⬝ᵥ v) • (x - meanRow R)).sum := by
  rw [npCov_eq_sum, Matrix.smul_mulVec]
  congr 1
  generalize meanRow R = m
  induction R with
  | nil => simp
  | cons x R ih =>
    rw [List.map_cons, List.sum_cons, Matrix.add_mulVec, ih, List.map_cons, List.sum_cons]
    congr 1
    funext i
    simp only [Matrix.mulVec, Matrix.vecMulVec_apply, dotProduct, Pi.smul_apply, smul_eq_mul]
    rw [Finset.sum_mul]
    exact Finset.sum_congr rfl fun j _ => by ring

/-- The mean of rows on a hyperplane is on it. -/
theorem meanRow_dot {R : List (Fin p → ℝ)} (hR : R ≠ []) {v : Fin p → ℝ} {c : ℝ} (h : ∀ x ∈ R, x ⬝ᵥ v = c) :
    meanRow R ⬝ᵥ v = c := by
  have key : ∀ R : List (Fin p → ℝ), (∀ x ∈ R, x ⬝ᵥ v = c) →
      ∑ j, (R.map fun x => x j).sum * v j = R.length * c := by
    intro R
    induction R with
    | nil => simp
    | cons x R ih =>
      intro h
      have h1 := ih fun y hy => h y (List.mem_cons_of_mem _ hy)
      have h2 := h x List.mem_cons_self
      unfold dotProduct at h2
      simp only [List.map_cons, List.sum_cons, add_mul, Finset.sum_add_distrib, h1, h2, List.length_cons]
      push_cast
      ring
  have hl : (R.length : ℝ) ≠ 0 := by
    have : R.length ≠ 0 := by simpa using hR
    exact_mod_cast this
  unfold meanRow mean dotProduct
  simp only [List.length_map]
  have := key R h
  have e : ∀ j, (R.map fun x => x j).sum / (R.length : ℝ) * v j = (R.map fun x => x j).sum * v j / R.length := fun j => by
    ring
  simp only [e]
  rw [← Finset.sum_div, this, mul_div_cancel_left₀ _ hl]

/-- The covariance of rows on a hyperplane is singular. -/
theorem npCov_hyperplane {R : List (Fin p → ℝ)} {v : Fin p → ℝ} (hv : v ≠ 0) {c : ℝ} (h : ∀ x ∈ R, x ⬝ᵥ v = c) :
    (npCov R).det = 0 := by
  rw [← Matrix.exists_mulVec_eq_zero_iff]
  refine ⟨v, hv, ?_⟩
  rw [npCov_mulVec]
  by_cases hR : R = []
  · subst hR; simp
  have hm := meanRow_dot hR h
  have : (R.map fun x => ((x - meanRow R) ⬝ᵥ v) • (x - meanRow R)) = R.map fun _ => 0 := by
    refine List.map_congr_left fun x hx => ?_
    rw [sub_dotProduct, h x hx, hm, sub_self, zero_smul]
  rw [this]
  simp

/-- The covariance of at most `p` rows is singular. -/
theorem npCov_few_rows (hp : 0 < p) {R : List (Fin p → ℝ)} (hR : R.length ≤ p) : (npCov R).det = 0 := by
  rcases R with _ | ⟨x0, R⟩
  · exact npCov_hyperplane (v := fun _ => 1) (fun h => by simpa using congrFun h ⟨0, hp⟩) (c := 0) (by simp)
  simp only [List.length_cons] at hR
  let f : (Fin p → ℝ) →ₗ[ℝ] (Fin R.length → ℝ) :=
    (Matrix.of fun (i : Fin R.length) j => R[i] j - x0 j).mulVecLin
  have hker : LinearMap.ker f ≠ ⊥ := by
    intro h
    have := LinearMap.finrank_le_finrank_of_injective (LinearMap.ker_eq_bot.1 h)
    simp at this
    omega
  obtain ⟨v, hv, hv0⟩ := (Submodule.ne_bot_iff _).1 hker
  refine npCov_hyperplane hv0 (c := x0 ⬝ᵥ v) fun x hx => ?_
  rcases List.mem_cons.1 hx with rfl | hx
  · rfl
  obtain ⟨i, hi, rfl⟩ := List.mem_iff_getElem.1 hx
  have := congrFun (LinearMap.mem_ker.1 hv) ⟨i, hi⟩
  simp only [f, Matrix.mulVecLin_apply, Matrix.mulVec, Matrix.of_apply, dotProduct, Pi.zero_apply, Fin.getElem_fin,
    sub_mul, Finset.sum_sub_distrib] at this
  unfold dotProduct
  linarith

/-- **C133**: with at most `2p` rows DetMCD raises an exception: its starting sets have `⌈n/2⌉ ≤ p` rows, and the
covariance of so few rows is singular. -/
theorem C133_few_rows (hp : 0 < p) (env : DetEnv p) (cfg : MCDConfig ℝ) {X : List (Fin p → ℝ)}
    (ha : alphaIsAll cfg.alpha X.length = false) (hn : X.length ≤ 2 * p) (fuel : ℕ) :
    ∃ e, detFit env cfg X fuel = some (.error e) := by
  unfold detFit
  rw [ha]
  simp only [Bool.false_eq_true, if_false]
  rcases hin : detInits env X with e | inits
  · exact ⟨e, rfl⟩
  simp only [Run.andThen]
  unfold detMCD
  rw [ha]
  simp only [Bool.false_eq_true, if_false]
  have hne : inits ≠ [] := by
    rintro rfl
    unfold detInits at hin
    rcases hZ : detZ env.tauCorr X with e | Z
    · rw [hZ] at hin; simp [Except.bind] at hin
    rw [hZ] at hin
    simp only [Except.bind] at hin
    rcases hS : detScatters env Z with e | Ss
    · rw [hS] at hin; simp at hin
    rw [hS] at hin
    simp only at hin
    have h6 : Ss.length = 6 := by
      unfold detScatters at hS
      split_ifs at hS
      split at hS
      · rw [← Except.ok.inj hS]; rfl
      · simp at hS
    rcases hst : mapExcept (detStart env Z) Ss with e | starts
    · rw [hst] at hin; simp at hin
    rw [hst] at hin
    simp only at hin
    have l1 := (mapExcept_ok hst).length_eq
    have l2 := (mapExcept_ok hin).length_eq
    rw [List.length_nil] at l2
    omega
  obtain ⟨idx, rest, rfl⟩ := List.exists_cons_of_ne_nil hne
  obtain ⟨-, h⟩ := detInits_ok hin
  obtain ⟨-, hlt, hl⟩ := h idx List.mem_cons_self
  have herr : ∃ e, mapExcept (fun idx => (getSubset X idx 0).bind (cStep env.srt cfg.alpha X)) (idx :: rest) =
      .error e := by
    unfold mapExcept
    rcases hg : getSubset X idx 0 with e | s
    · exact ⟨e, rfl⟩
    · refine ⟨.linAlgError, ?_⟩
      obtain ⟨-, rfl⟩ := getSubset_ok hg
      simp only [Except.bind]
      rw [cStep_singular (npCov_few_rows hp (by
        unfold takeAt
        have := List.length_filterMap_le (fun i => X[i]?) idx
        omega))]
  obtain ⟨e, he⟩ := herr
  exact ⟨e, by rw [he]; rfl⟩

end Robpy
