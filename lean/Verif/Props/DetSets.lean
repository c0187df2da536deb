import Verif.Props.DetWitness
import Verif.Props.LTSCorr

/-! # C156: the starting sets of DetMCD are those of the published algorithm -/

namespace Robpy
open Matrix

variable {p : ℕ}

/-! ## Specification -/

/-- Sum of products of deviations of columns `i` and `j`. -/
noncomputable def Spec.devProd (Y : List (Fin p → ℝ)) (i j : Fin p) : ℝ :=
  (Y.map fun y => (y i - (Y.map fun y => y i).sum / Y.length) * (y j - (Y.map fun y => y j).sum / Y.length)).sum

/-- `S` is Pearson's correlation matrix of the rows `Y`. -/
def Spec.IsPearson (Y : List (Fin p → ℝ)) (S : Matrix (Fin p) (Fin p) ℝ) : Prop :=
  (∀ j, 0 < Spec.devProd Y j j) ∧
    ∀ i j, S i j = Spec.devProd Y i j / (Real.sqrt (Spec.devProd Y i i) * Real.sqrt (Spec.devProd Y j j))

/-- The rows of `R` are the average ranks of the rows of `Z`, column by column: twice the rank is the number of smaller values plus
the number of values that are not larger, plus one. -/
def Spec.AreRanks (Z R : List (Fin p → ℝ)) : Prop :=
  List.Forall₂ (fun z r => ∀ j, 2 * r j = ((Z.countP fun w => decide (w j < z j) : ℕ) : ℝ) +
    ((Z.countP fun w => decide (w j ≤ z j) : ℕ) : ℝ) + 1) Z R

/-- `idx` are `⌈n/2⌉` different positions whose values are not larger than those at the other positions. -/
def Spec.SmallestHalf (n : ℕ) (d : ℕ → ℝ) (idx : List ℕ) : Prop :=
  idx.Nodup ∧ (∀ i ∈ idx, i < n) ∧ idx.length = (n + 1) / 2 ∧ ∀ i ∈ idx, ∀ j, j < n → j ∉ idx → d i ≤ d j

/-- The six preliminary estimates: Pearson's correlation of the hyperbolic tangents, of the ranks and of the normal scores; the
covariance of the spatial signs; the covariance of the half of the rows with the smallest norms; a matrix that satisfies `ogk`. -/
def Spec.Preliminary (ppf : ℝ → ℝ) (ogk : Matrix (Fin p) (Fin p) ℝ → Prop) (Z : List (Fin p → ℝ)) (Ss : List (Matrix (Fin p) (Fin p) ℝ)) : Prop :=
  ∃ S1 S2 S3 S4 S5 S6, Ss = [S1, S2, S3, S4, S5, S6] ∧ Spec.IsPearson (Z.map fun z j => Real.tanh (z j)) S1 ∧
    (∃ R, Spec.AreRanks Z R ∧ Spec.IsPearson R S2 ∧
      Spec.IsPearson (R.map fun r j => ppf ((r j - 1 / 3) / (Z.length + 1 / 3))) S3) ∧
    (∃ U : List (Fin p → ℝ), List.Forall₂ (fun z u => u ⬝ᵥ u = 1 ∧ ∃ c : ℝ, 0 < c ∧ u = c • z) Z U ∧
      ∀ i j, S4 i j = (U.map fun u => u i * u j).sum / U.length) ∧
    (∃ idx : List ℕ, Spec.SmallestHalf Z.length (fun i => (Z.getD i 0) ⬝ᵥ (Z.getD i 0)) idx ∧ 2 ≤ idx.length ∧
      ∀ i j, S5 i j = Spec.devProd (idx.map fun i => Z.getD i 0) i j / ((idx.length : ℝ) - 1)) ∧
    ogk S6

/-- One starting set: in an orthonormal basis of eigenvectors of the preliminary estimate `S` the scatter is diagonal, with the
squared robust scales (`c` times the order statistic of Qn) of the data along the basis; the location has coordinatewise
medians of the sphered data as its sphered coordinates; the set is the half of the rows that is closest to the location. -/
def Spec.StartingSet (c : ℝ) (Z : List (Fin p → ℝ)) (S : Matrix (Fin p) (Fin p) ℝ) (idx : List ℕ) : Prop :=
  ∃ (E : Matrix (Fin p) (Fin p) ℝ) (lam q : Fin p → ℝ) (root : Matrix (Fin p) (Fin p) ℝ) (mu : Fin p → ℝ)
    (sigma : Matrix (Fin p) (Fin p) ℝ),
    Eᵀ * E = 1 ∧ (∀ j, S *ᵥ (fun i => E i j) = lam j • fun i => E i j) ∧
      (∀ j, Spec.IsKthSmallest ((Z.length / 2 + 1).choose 2) (Spec.pairDists (Z.map fun z => z ⬝ᵥ fun i => E i j)) (q j)) ∧
      (∀ i j, (fun k => E k i) ⬝ᵥ (sigma *ᵥ fun k => E k j) = if i = j then (c * q j) ^ 2 else 0) ∧
      root * root = sigma ∧ sigma.det ≠ 0 ∧
      (∀ j, npMedian (Z.map fun z => (z ᵥ* root⁻¹) j) = some ((root⁻¹ *ᵥ mu) j)) ∧
      Spec.SmallestHalf Z.length (fun i => (Z.getD i 0 - mu) ⬝ᵥ (sigma⁻¹ *ᵥ (Z.getD i 0 - mu))) idx

/-! ## Proof -/

theorem take_argsort_le (srt : ArgSort ℝ) (d : List ℝ) (k : ℕ) {i j : ℕ} {a b : ℝ} (hi : i ∈ (srt.toFun d).take k)
    (hj : j ∉ (srt.toFun d).take k) (ha : d[i]? = some a) (hb : d[j]? = some b) : a ≤ b := by
  have hs := srt.sorted d
  rw [← List.take_append_drop k (srt.toFun d)] at hs
  unfold takeAt at hs
  rw [List.filterMap_append, List.pairwise_append] at hs
  refine hs.2.2 a (mem_takeAt_of hi ha) b (mem_takeAt_of ?_ hb)
  have hjm : j ∈ srt.toFun d := (srt.perm d).mem_iff.2 (List.mem_range.2 (by
    by_contra h
    rw [List.getElem?_eq_none (by omega)] at hb
    simp at hb))
  rw [← List.take_append_drop k (srt.toFun d), List.mem_append] at hjm
  exact hjm.resolve_left hj

theorem smallestHalf_argsort (srt : ArgSort ℝ) (Z : List (Fin p → ℝ)) (f : (Fin p → ℝ) → ℝ) :
    Spec.SmallestHalf Z.length (fun i => f (Z.getD i 0)) ((srt.toFun (Z.map f)).take ((Z.length + 1) / 2)) := by
  obtain ⟨h1, h2, h3⟩ := take_argsort srt (Z.map f) ((Z.length + 1) / 2)
  rw [List.length_map] at h2 h3
  refine ⟨h1, h2, by rw [h3]; omega, fun i hi j hj hn => ?_⟩
  have hget : ∀ k, k < Z.length → (Z.map f)[k]? = some (f (Z.getD k 0)) := by
    intro k hk
    rw [List.getElem?_map, List.getElem?_eq_getElem hk, List.getD_eq_getElem?_getD, List.getElem?_eq_getElem hk]
    rfl
  exact take_argsort_le srt (Z.map f) _ hi hn (hget i (h2 i hi)) (hget j hj)

theorem npCov_devProd (Y : List (Fin p → ℝ)) (i j : Fin p) : npCov Y i j = Spec.devProd Y i j / ((Y.length : ℝ) - 1) := by
  unfold npCov Spec.devProd meanRow mean
  simp

theorem devProd_self_nonneg (Y : List (Fin p → ℝ)) (j : Fin p) : 0 ≤ Spec.devProd Y j j := by
  refine List.sum_nonneg fun x hx => ?_
  obtain ⟨y, -, rfl⟩ := List.mem_map.1 hx
  exact mul_self_nonneg _

theorem corrcoefRows_pearson {Y : List (Fin p → ℝ)} {S : Matrix (Fin p) (Fin p) ℝ} (hn : 2 ≤ Y.length)
    (h : corrcoefRows Y = some S) : Spec.IsPearson Y S := by
  unfold corrcoefRows at h
  split_ifs at h with h0
  push Not at h0
  have hS := (Option.some.inj h).symm
  have hn1 : (0 : ℝ) < (Y.length : ℝ) - 1 := by
    have : (2 : ℝ) ≤ Y.length := by exact_mod_cast hn
    linarith
  have hpos : ∀ j, 0 < Spec.devProd Y j j := by
    intro j
    refine lt_of_le_of_ne (devProd_self_nonneg Y j) fun h => h0 j ?_
    rw [npCov_devProd, ← h, zero_div]
  refine ⟨hpos, fun i j => ?_⟩
  rw [hS]
  unfold covarianceToCorrelation
  rw [npCov_devProd, npCov_devProd, npCov_devProd, Real.sqrt_div (hpos i).le, Real.sqrt_div (hpos j).le]
  have hs := Real.mul_self_sqrt hn1.le
  have hs0 := (Real.sqrt_pos.2 hn1).ne'
  have h1 := (Real.sqrt_pos.2 (hpos i)).ne'
  have h2 := (Real.sqrt_pos.2 (hpos j)).ne'
  rw [div_mul_div_comm, hs, div_div_div_cancel_right₀ hn1.ne']

theorem avgRank_spec (Z : List (Fin p → ℝ)) : Spec.AreRanks Z (rankRows Z) := by
  unfold Spec.AreRanks rankRows
  rw [List.forall₂_map_right_iff, List.forall₂_same]
  intro z hz j
  clear hz
  unfold avgRank column
  simp only
  rw [List.countP_map, List.countP_map]
  have hle : (Z.countP fun w => decide (w j ≤ z j)) =
      (Z.countP fun w => decide (w j < z j)) + Z.countP fun w => decide (w j = z j) := by
    induction Z with
    | nil => rfl
    | cons w Z ih =>
      simp only [List.countP_cons, ih]
      rcases lt_trichotomy (w j) (z j) with h | h | h
      · simp [h, h.le, h.ne]; omega
      · simp [h]; omega
      · simp [not_lt.2 h.le, not_le.2 h, h.ne']
  rw [hle]
  push_cast
  simp only [Function.comp_def]
  ring

theorem pearson_isSymm {Y : List (Fin p → ℝ)} {S : Matrix (Fin p) (Fin p) ℝ} (h : Spec.IsPearson Y S) : S.IsSymm := by
  refine Matrix.IsSymm.ext fun i j => ?_
  rw [h.2, h.2, mul_comm (Real.sqrt _)]
  congr 1
  unfold Spec.devProd
  congr 1
  exact List.map_congr_left fun y _ => mul_comm _ _

theorem lowerSym_eq {S : Matrix (Fin p) (Fin p) ℝ} (h : S.IsSymm) : lowerSym S = S := by
  ext i j
  unfold lowerSym
  split_ifs
  · rfl
  · exact h.apply i j

theorem rowNorm_sq (z : Fin p → ℝ) : rowNorm z * rowNorm z = z ⬝ᵥ z :=
  Real.mul_self_sqrt (Finset.sum_nonneg fun j _ => mul_self_nonneg _)

theorem detScatters_spec {env : DetEnv p} {Z : List (Fin p → ℝ)} {Ss : List (Matrix (Fin p) (Fin p) ℝ)} (hn : 2 ≤ Z.length)
    (h : detScatters env Z = .ok Ss) : Spec.Preliminary env.ppf (fun S => ∃ mu, ogkRaw env.eigh medNum qnNum 2 Z = some (mu, S)) Z Ss := by
  unfold detScatters at h
  split_ifs at h with hp
  split at h
  case h_2 => cases h
  case h_1 S1 S2 S3 S4 S5 mu6 S6 h1 h2 h3 h4 h5 h6 =>
    refine ⟨S1, S2, S3, S4, S5, S6, (Except.ok.inj h).symm, corrcoefRows_pearson (by simpa using hn) h1,
      ⟨rankRows Z, avgRank_spec Z, corrcoefRows_pearson (by simpa [rankRows] using hn) h2, ?_⟩, ?_, ?_,
      mu6, h6⟩
    · unfold scoreRows at h3
      exact corrcoefRows_pearson (by simpa [rankRows] using hn) h3
    · unfold spatialSigns at h4
      split_ifs at h4 with h0
      push Not at h0
      have hS := Option.some.inj h4
      refine ⟨Z.map fun z => (1 / rowNorm z) • z, ?_, fun i j => ?_⟩
      · rw [List.forall₂_map_right_iff, List.forall₂_same]
        intro z hz
        have hr : 0 < rowNorm z := lt_of_le_of_ne (Real.sqrt_nonneg _) (Ne.symm (h0 z hz))
        refine ⟨?_, 1 / rowNorm z, by positivity, rfl⟩
        rw [smul_dotProduct, dotProduct_smul, ← rowNorm_sq, smul_eq_mul, smul_eq_mul]
        field_simp
      · rw [← hS]
        simp only [List.map_map, List.length_map]
        congr 2
        refine List.map_congr_left fun z _ => ?_
        simp [mul_comm]
    · unfold halfCov at h5
      simp only at h5
      split_ifs at h5 with h0
      have hS := Option.some.inj h5
      have hhalf := smallestHalf_argsort env.srt Z rowNorm
      refine ⟨_, ⟨hhalf.1, hhalf.2.1, hhalf.2.2.1, fun i hi j hj hnj => ?_⟩, by omega, fun i j => ?_⟩
      · have := hhalf.2.2.2 i hi j hj hnj
        simp only at this ⊢
        rw [← rowNorm_sq, ← rowNorm_sq]
        exact mul_self_le_mul_self (Real.sqrt_nonneg _) this
      · have htake : takeAt Z ((env.srt.toFun (Z.map rowNorm)).take ((Z.length + 1) / 2)) =
            ((env.srt.toFun (Z.map rowNorm)).take ((Z.length + 1) / 2)).map fun i => Z.getD i 0 := by
          unfold takeAt
          generalize (env.srt.toFun (Z.map rowNorm)).take ((Z.length + 1) / 2) = l at hhalf ⊢
          have hlt := hhalf.2.1
          clear hhalf
          induction l with
          | nil => rfl
          | cons i l ih =>
            rw [List.filterMap_cons, List.getElem?_eq_getElem (hlt i (by simp)), List.map_cons, ih fun k hk => hlt k (by simp [hk]),
              List.getD_eq_getElem?_getD, List.getElem?_eq_getElem (hlt i (by simp))]
            rfl
        rw [← hS, htake, npCov_devProd, List.length_map]

theorem preliminary_isSymm {ppf : ℝ → ℝ} {ogk : Matrix (Fin p) (Fin p) ℝ → Prop} (ho : ∀ S, ogk S → S.IsSymm) {Z : List (Fin p → ℝ)}
    {Ss : List (Matrix (Fin p) (Fin p) ℝ)} (h : Spec.Preliminary ppf ogk Z Ss) : ∀ S ∈ Ss, S.IsSymm := by
  obtain ⟨S1, S2, S3, S4, S5, S6, rfl, h1, ⟨R, -, h2, h3⟩, ⟨U, -, h4⟩, ⟨idx, -, -, h5⟩, h6⟩ := h
  intro S hS
  simp only [List.mem_cons, List.not_mem_nil, or_false] at hS
  rcases hS with rfl | rfl | rfl | rfl | rfl | rfl
  · exact pearson_isSymm h1
  · exact pearson_isSymm h2
  · exact pearson_isSymm h3
  · refine Matrix.IsSymm.ext fun i j => ?_
    rw [h4, h4]
    congr 2
    exact List.map_congr_left fun u _ => mul_comm _ _
  · refine Matrix.IsSymm.ext fun i j => ?_
    rw [h5, h5]
    unfold Spec.devProd
    congr 2
    exact List.map_congr_left fun y _ => mul_comm _ _
  · exact ho _ h6

/-- The constant of `Qn` depends on the number of observations only. -/
theorem qnNum_const {n : ℕ} (hn : 2 ≤ n) : ∃ c, 0 < c ∧ ∀ x : List ℝ, x.length = n →
    ∃ v, Spec.IsKthSmallest ((n / 2 + 1).choose 2) (Spec.pairDists x) v ∧ qnNum x = c * v := by
  obtain ⟨d, hd, h0, -⟩ := C01_dn_range (K := ℝ) n hn
  refine ⟨2.219144 * d, by positivity, fun x hx => ?_⟩
  obtain ⟨v, d', hv, hd', hs⟩ := C01_qn_corrected true true x (by omega) (x.length * x.length + 1) (by omega)
  rw [hx] at hd' hv
  rw [hd] at hd'
  obtain rfl := Option.some.inj hd'
  refine ⟨v, hv, ?_⟩
  unfold qnNum
  rw [hs]
  simp only [if_true]
  ring

theorem detCov_posSemidef (env : DetEnv p) (Z : List (Fin p → ℝ)) (S : Matrix (Fin p) (Fin p) ℝ) : (detCov env Z S).PosSemidef := by
  unfold detCov
  simp only
  have := (Matrix.PosSemidef.diagonal fun j => sq_nonneg
    (qnNum (column (Z.map fun z => z ᵥ* detE env S) j))).mul_mul_conjTranspose_same (detE env S)
  rwa [Matrix.conjTranspose_eq_transpose_of_trivial] at this

theorem detStart_spec {env : DetEnv p} (hc : DetContract env) {Z : List (Fin p → ℝ)} (hn : 2 ≤ Z.length)
    {S : Matrix (Fin p) (Fin p) ℝ} (hS : S.IsSymm) {c : ℝ} (hq : ∀ x : List ℝ, x.length = Z.length →
      ∃ v, Spec.IsKthSmallest ((Z.length / 2 + 1).choose 2) (Spec.pairDists x) v ∧ qnNum x = c * v)
    {s : (Fin p → ℝ) × Matrix (Fin p) (Fin p) ℝ} (h : detStart env Z S = .ok s) {idx : List ℕ} (hi : detIndices env Z s = .ok idx) :
    Spec.StartingSet c Z S idx := by
  have horth : (detE env S)ᵀ * detE env S = 1 := rev_orth (env.eigh (lowerSym S) (lowerSym_isSymm S)).orth
  have hcol : ∀ j, column (Z.map fun z => z ᵥ* detE env S) j = Z.map fun z => z ⬝ᵥ fun i => detE env S i j := by
    intro j
    unfold column
    rw [List.map_map]
    rfl
  choose q hq1 hq2 using fun j => hq (Z.map fun z => z ⬝ᵥ fun i => detE env S i j) (by simp)
  unfold detStart at h
  simp only at h
  rcases hinv : npInv (env.sqrtm (detCov env Z S)) with e | inv
  · rw [hinv] at h; simp [Except.map] at h
  rw [hinv] at h
  have hs := (Except.ok.inj h).symm
  obtain ⟨hdet, rfl⟩ := npInv_ok hinv
  have hroot := hc.sqrtm _ (detCov_posSemidef env Z S)
  unfold detIndices at hi
  rcases hd : sqMahalanobis Z s.1 s.2 with e | d
  · rw [hd] at hi; simp [Except.map] at hi
  rw [hd] at hi
  obtain rfl := (Except.ok.inj hi).symm
  obtain ⟨hdet2, hde⟩ := sqMahalanobis_ok hd
  refine ⟨detE env S, fun j => (env.eigh (lowerSym S) (lowerSym_isSymm S)).w (Fin.rev j), q, env.sqrtm (detCov env Z S), s.1,
    detCov env Z S, horth, fun j => ?_, hq1, fun i j => ?_, hroot, by rw [hs] at hdet2; exact hdet2, fun j => ?_, ?_⟩
  · have hdec := (env.eigh (lowerSym S) (lowerSym_isSymm S)).decomp
    have ho := (env.eigh (lowerSym S) (lowerSym_isSymm S)).orth
    unfold detE
    generalize env.eigh (lowerSym S) (lowerSym_isSymm S) = e at hdec ho ⊢
    have hSV : S * e.V = e.V * Matrix.diagonal e.w := by
      have h1 : S = e.V * Matrix.diagonal e.w * e.Vᵀ := (lowerSym_eq hS).symm.trans hdec
      calc S * e.V = e.V * Matrix.diagonal e.w * e.Vᵀ * e.V := congrArg (· * e.V) h1
        _ = _ := by rw [Matrix.mul_assoc, ho, Matrix.mul_one]
    ext i
    have := congrFun (congrFun hSV i) (Fin.rev j)
    rw [Matrix.mul_diagonal] at this
    simp only [Matrix.submatrix_apply, id_eq, Pi.smul_apply, smul_eq_mul]
    rw [mul_comm, ← this]
    rfl
  · have hE : (detE env S)ᵀ * detCov env Z S * detE env S =
        Matrix.diagonal fun j => qnNum (column (Z.map fun z => z ᵥ* detE env S) j) ^ 2 := by
      unfold detCov
      simp only
      rw [Matrix.mul_assoc, Matrix.mul_assoc, Matrix.mul_assoc, horth, Matrix.mul_one, ← Matrix.mul_assoc, horth, Matrix.one_mul]
    have := congrFun (congrFun hE i) j
    rw [Matrix.diagonal_apply, hcol, Matrix.mul_assoc] at this
    have e1 : ((detE env S)ᵀ * (detCov env Z S * detE env S)) i j =
        (fun k => detE env S k i) ⬝ᵥ (detCov env Z S *ᵥ fun k => detE env S k j) := rfl
    rw [e1] at this
    rw [this]
    split_ifs with hij
    · subst hij; rw [hq2]
    · rfl
  · have hne : Z ≠ [] := by rintro rfl; simp at hn
    obtain ⟨m, hm⟩ := npMedian_isSome (xs := Z.map fun z => (z ᵥ* (env.sqrtm (detCov env Z S))⁻¹) j) (by simpa using hne)
    rw [hm, hs]
    simp only
    rw [Matrix.mulVec_mulVec, Matrix.nonsing_inv_mul _ (isUnit_iff_ne_zero.2 hdet), Matrix.one_mulVec]
    unfold medNum column
    rw [List.map_map]
    have : (fun z => (z ᵥ* (env.sqrtm (detCov env Z S))⁻¹) j) =
        ((fun x : Fin p → ℝ => x j) ∘ fun z => z ᵥ* (env.sqrtm (detCov env Z S))⁻¹) := rfl
    rw [← this, hm]
    rfl
  · rw [hde]
    have := smallestHalf_argsort env.srt Z fun x => quadForm s.2⁻¹ (x - s.1)
    have hs2 : s.2 = detCov env Z S := by rw [hs]
    rw [hs2] at this ⊢
    refine ⟨this.1, this.2.1, this.2.2.1, fun i hi j hj hnj => ?_⟩
    have := this.2.2.2 i hi j hj hnj
    simpa only [quadForm_eq] using this

/-- **C156**: the starting sets of DetMCD.  The data are standardised by their medians and scales; there are six preliminary
estimates, as specified, and each of them gives one starting set, as specified. -/
theorem C156_sets {env : DetEnv p} (hc : DetContract env) {X : List (Fin p → ℝ)} {inits : List (List ℕ)}
    (h : detInits env X = .ok inits) :
    ∃ (med scale : Fin p → ℝ) (c : ℝ) (Z : List (Fin p → ℝ)) (Ss : List (Matrix (Fin p) (Fin p) ℝ)),
      (∀ j, npMedian (X.map fun x => x j) = some (med j) ∧ scale j ≠ 0) ∧ 0 < c ∧
      (X.length < 1000 → ∀ j, ∃ v, Spec.IsKthSmallest ((X.length / 2 + 1).choose 2) (Spec.pairDists (X.map fun x => x j)) v ∧
        scale j = c * v) ∧
      (1000 ≤ X.length → ∀ j, scale j = tauNum env.tauCorr (X.map fun x => x j)) ∧
      Z = X.map (fun x j => (x j - med j) / scale j) ∧ Spec.Preliminary env.ppf (fun S => ∃ mu, ogkRaw env.eigh medNum qnNum 2 Z = some (mu, S)) Z Ss ∧
      List.Forall₂ (Spec.StartingSet c Z) Ss inits := by
  unfold detInits at h
  rcases hZ : detZ env.tauCorr X with e | Z
  · rw [hZ] at h; simp [Except.bind] at h
  obtain ⟨h2, hsc, hZe⟩ := detZ_ok hZ
  have hl : Z.length = X.length := by rw [hZe, List.length_map]
  rw [hZ] at h
  simp only [Except.bind] at h
  rcases hS : detScatters env Z with e | Ss
  · rw [hS] at h; simp at h
  rw [hS] at h
  simp only at h
  rcases hst : mapExcept (detStart env Z) Ss with e | starts
  · rw [hst] at h; simp at h
  rw [hst] at h
  simp only at h
  obtain ⟨c, hc0, hq⟩ := qnNum_const h2
  have hpre := detScatters_spec (by omega) hS
  refine ⟨fun j => medNum (column X j), fun j => detScale env.tauCorr X.length (column X j), c, Z, Ss, fun j => ⟨?_, hsc j⟩, hc0,
    fun hlt j => ?_, fun hge j => ?_, hZe, hpre, ?_⟩
  · have hne : X ≠ [] := by rintro rfl; simp at h2
    obtain ⟨m, hm⟩ := npMedian_isSome (xs := X.map fun x => x j) (by simpa using hne)
    rw [hm]
    simp only [medNum, column, hm]
    rfl
  · obtain ⟨v, hv, hv'⟩ := hq (column X j) (by simp [column])
    refine ⟨v, hv, ?_⟩
    simp only [detScale, if_pos hlt, hv']
  · simp only [detScale, if_neg (not_lt.2 hge)]
    rfl
  · have f1 := mapExcept_ok hst
    have f2 := mapExcept_ok h
    have hsym := preliminary_isSymm (fun S ⟨mu, h⟩ => (C42_posSemidef _ _ _ _ _ _ _ h).1) hpre
    clear hpre hS hst h
    induction f1 generalizing inits with
    | nil => cases f2; exact .nil
    | cons ha _ ih =>
      cases f2 with
      | cons hb f2 =>
        refine .cons (detStart_spec hc (by omega) (hsym _ (by simp)) (by rw [hl]; exact hq) ha hb) (ih f2 ?_)
        exact fun S hS => hsym S (by simp [hS])

/-- **C156**: the fit of DetMCD is made from one of six sets, each of them one C-step after its starting set, and that set has the
smallest determinant of the six. -/
theorem C156_result {env : DetEnv p} {cfg : MCDConfig ℝ} (htol : 0 < cfg.tol) {X : List (Fin p → ℝ)} {fuel : ℕ}
    {fit : CovFit ℝ (Fin p)} (hall : ¬ alphaIsAll cfg.alpha X.length = true) (h : detFit env cfg X fuel = some (.ok fit)) :
    ∃ inits ss s, detInits env X = .ok inits ∧
      List.Forall₂ (fun idx t => ∃ s0, getSubset X idx 0 = .ok s0 ∧ cStep env.srt cfg.alpha X s0 = .ok t) inits ss ∧
      s ∈ ss ∧ (∀ t ∈ ss, s.determinant ≤ t.determinant) ∧ postProcess cfg X s = .ok fit := by
  unfold detFit at h
  rw [if_neg hall] at h
  obtain ⟨inits, h1, h2⟩ := Run.andThen_ok h
  unfold detMCD at h2
  rw [if_neg hall] at h2
  obtain ⟨ss, h3, h4⟩ := Run.andThen_ok h2
  obtain ⟨s, h5, h6⟩ := Run.andThen_ok h4
  have hf := mapExcept_ok (Option.some.inj h3)
  have hf' : List.Forall₂ (fun idx t => ∃ s0, getSubset X idx 0 = .ok s0 ∧ cStep env.srt cfg.alpha X s0 = .ok t) inits ss := by
    refine hf.imp fun idx t ht => ?_
    rcases hg : getSubset X idx 0 with e | s0
    · rw [hg] at ht; simp [Except.bind] at ht
    · rw [hg] at ht; exact ⟨s0, rfl, ht⟩
  obtain ⟨h7, h8⟩ := convergeFrom_stepped htol fuel ss s (fun t ht => by
    obtain ⟨idx, -, hidx⟩ := mapExcept_mem (Option.some.inj h3) t ht
    rcases hg : getSubset X idx 0 with e | s0
    · rw [hg] at hidx; simp [Except.bind] at hidx
    · rw [hg] at hidx; exact ⟨s0, hidx⟩) h5
  exact ⟨inits, ss, s, Option.some.inj h1, hf', h7, h8, Option.some.inj h6⟩

/-- **C77** for DetMCD with its starting sets: `alpha` equal to 1 or n gives the mean and the classical covariance, whether or not
starting sets exist. -/
theorem C77_det (env : DetEnv p) (cfg : MCDConfig ℝ) (X : List (Fin p → ℝ)) (fuel : ℕ)
    (h : Spec.alphaValue cfg.alpha = some 1 ∨ Spec.alphaValue cfg.alpha = some (X.length : ℝ)) :
    ∃ fit, detFit env cfg X fuel = some (.ok fit) ∧ (∀ j, fit.location j = (X.map fun x => x j).sum / X.length) ∧
      ∀ i j, fit.covariance i j = Spec.devProd X i j / ((X.length : ℝ) - 1) := by
  refine ⟨classicalFit X, ?_, fun j => ?_, fun i j => npCov_devProd X i j⟩
  · unfold detFit
    rw [(alphaIsAll_iff cfg.alpha X.length).2 h]
    rfl
  · simp [classicalFit, meanRow, mean]

/-- The hypothesis of `C77_det`, on data with one column, on which no starting sets exist (C134). -/
example : ∃ fit, detFit (detEnvSpectral 1) { c132Cfg with alpha := .float 1 } [![1], ![2], ![4]] 1 = some (.ok fit) :=
  (C77_det _ _ _ 1 (Or.inl rfl)).imp fun _ h => h.1

/-- The hypotheses of `C156_sets` and `C156_result` are met. -/
example : ∃ fit inits, DetContract (detEnvSpectral 2) ∧ detFit (detEnvSpectral 2) c132Cfg c132Good 1 = some (.ok fit) ∧
    detInits (detEnvSpectral 2) c132Good = .ok inits := by
  obtain ⟨fit, h, -⟩ := c132Good_returns
  obtain ⟨inits, -, -, h2, -⟩ := C156_result (by norm_num [c132Cfg]) (by simp [alphaIsAll, c132Cfg, c132Good]) h
  exact ⟨fit, inits, detEnvSpectral_contract 2, h, h2⟩

end Robpy
