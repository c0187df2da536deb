import Verif.Props.RobpcaRotation
import Verif.Props.PCAMap
import Verif.Props.PCATotal

/-! # C206: `ROBPCA` in other units, rotated and shifted, and its outlier map -/

namespace Robpy
open Matrix

variable {p r : ℕ}

/-- A covariance estimator that follows a common change of units and sign changes of the coordinates of data with at least one row, and
returns symmetric matrices. -/
def Spec.followsUnits (cov : ∀ {k : ℕ}, List (Fin k → ℝ) → Except PyErr (Matrix (Fin k) (Fin k) ℝ)) : Prop :=
  (∀ {k : ℕ} (a : ℝ) (s : Fin k → ℝ), 0 < a → Signs s → ∀ Z : List (Fin k → ℝ), Z ≠ [] →
    cov (Z.map fun x => a • (Matrix.diagonal s *ᵥ x)) = (cov Z).map fun M => a ^ 2 • (Matrix.diagonal s * M * (Matrix.diagonal s)ᵀ)) ∧
  ∀ {k : ℕ} (Z : List (Fin k → ℝ)) (M : Matrix (Fin k) (Fin k) ℝ), cov Z = .ok M → M.IsSymm

section
variable {O : Matrix (Fin r) (Fin r) ℝ} {a : ℝ}

/-- The eigendecomposition of a matrix read off from one of a multiple. -/
noncomputable def unscale {A : Matrix (Fin r) (Fin r) ℝ} {c : ℝ} (hc : 0 < c) (E : EighAsc (c • A)) : EighAsc A where
  w := fun i => c⁻¹ * E.w i
  V := E.V
  orth := E.orth
  decomp := by
    have h1 : symLower (c • A) = c • symLower A := by
      ext i j
      simp only [symLower, Matrix.smul_apply, smul_eq_mul]
      split_ifs <;> rfl
    have h2 : Matrix.diagonal (fun i => c⁻¹ * E.w i) = c⁻¹ • Matrix.diagonal E.w := by
      ext i j
      by_cases h : i = j
      · subst h; simp
      · simp [h]
    rw [h2, Matrix.mul_smul, Matrix.smul_mul, ← E.decomp, h1, smul_smul, inv_mul_cancel₀ hc.ne', one_smul]
  mono := fun i j h => mul_le_mul_of_nonneg_left (E.mono h) (inv_nonneg.2 hc.le)

theorem eigh_similar (hO : Oᵀ * O = 1) {c : ℝ} (hc : 0 < c) {A : Matrix (Fin r) (Fin r) ℝ} (hA : A.IsSymm)
    (hs : Spec.simpleSpectrum A) (E : EighAsc A) (E' : EighAsc (c • (O * A * Oᵀ))) :
    (∃ t, Signs t ∧ E'.V = O * E.V * Matrix.diagonal t) ∧ E'.w = fun i => c * E.w i := by
  obtain ⟨t, ht, hV⟩ := eigh_orth hO hA hs E (unscale hc E')
  have hw := eigh_orth_w hO hA E (unscale hc E') ht hV
  refine ⟨⟨t, ht, hV⟩, ?_⟩
  funext i
  have := congrFun hw i
  change c⁻¹ * E'.w i = E.w i at this
  rw [← this, ← mul_assoc, mul_inv_cancel₀ hc.ne', one_mul]

theorem npCov_similar (X : List (Fin r → ℝ)) (hX : X.length ≠ 0) :
    npCov (X.map fun x => a • (O *ᵥ x)) = a ^ 2 • (O * npCov X * Oᵀ) := by
  have := npCov_affine (a • O) 0 X (by exact_mod_cast hX)
  simp only [add_zero, smul_mulVec] at this
  rw [this, transpose_smul, Matrix.smul_mul, Matrix.smul_mul, Matrix.mul_smul, smul_smul, pow_two]

theorem meanRow_similar (X : List (Fin r → ℝ)) (hX : X.length ≠ 0) :
    meanRow (X.map fun x => a • (O *ᵥ x)) = a • (O *ᵥ meanRow X) := by
  have := meanRow_affine (a • O) 0 X (by exact_mod_cast hX)
  simpa only [add_zero, smul_mulVec] using this

theorem rank_similar (hO : Oᵀ * O = 1) {c : ℝ} (hc : c ≠ 0) (A : Matrix (Fin r) (Fin r) ℝ) : (c • (O * A * Oᵀ)).rank = A.rank := by
  rw [← rank_orth hO A]
  have hu : IsUnit (c • (1 : Matrix (Fin r) (Fin r) ℝ)).det := by
    rw [det_smul, det_one, mul_one]
    exact (pow_ne_zero _ hc).isUnit
  have e : c • (O * A * Oᵀ) = (c • (1 : Matrix (Fin r) (Fin r) ℝ)) * (O * A * Oᵀ) := by
    rw [Matrix.smul_mul, Matrix.one_mul]
  rw [e, rank_mul_eq_right_of_isUnit_det _ _ hu]

theorem sortedEigen_similar (hO : Oᵀ * O = 1) (ha : 0 < a) (D : RobpcaDeps) (Y : List (Fin r → ℝ))
    (hs : Spec.simpleSpectrum (npCov Y)) :
    Spec.sameOutcome (fun q b => b.1 = q.1.map (a ^ 2 * ·) ∧ Spec.turned O q.2.1 b.2.1 ∧ b.2.2 = a ^ 2 • (O * q.2.2 * Oᵀ))
      (sortedEigen D Y) (sortedEigen D (Y.map fun x => a • (O *ᵥ x))) := by
  have ha2 : 0 < a ^ 2 := by positivity
  unfold sortedEigen
  rw [List.length_map]
  by_cases h0 : r ≤ 1 ∨ Y.length ≤ 1
  · rw [if_pos h0, if_pos h0]
    exact Or.inl ⟨_, rfl, rfl⟩
  rw [if_neg h0, if_neg h0]
  rw [npCov_similar Y (by omega)]
  obtain ⟨⟨t, ht, hV⟩, hw⟩ := eigh_similar hO ha2 (npCov_isSymm Y) hs (D.eigh _) (D.eigh (a ^ 2 • (O * npCov Y * Oᵀ)))
  have hinj : Function.Injective (D.eigh (npCov Y)).w := hs _ _ (D.eigh _).orth (eighAsc_decomp (npCov_isSymm Y) _)
  have hmono : StrictMono (D.eigh (npCov Y)).w := (D.eigh (npCov Y)).mono.strictMono_of_injective hinj
  have e1 := argsort_strict D.argsort (List.ofFn (D.eigh (npCov Y)).w) (List.pairwise_ofFn.2 fun i j hij => hmono hij)
  have e2 := argsort_strict D.argsort (List.ofFn fun i => a ^ 2 * (D.eigh (npCov Y)).w i)
    (List.pairwise_ofFn.2 fun i j hij => mul_lt_mul_of_pos_left (hmono hij) ha2)
  rw [List.length_ofFn] at e1 e2
  have e3 : (List.ofFn fun i => a ^ 2 * (D.eigh (npCov Y)).w i) = (List.ofFn (D.eigh (npCov Y)).w).map (a ^ 2 * ·) := by
    rw [List.map_ofFn]
    rfl
  refine Or.inr ⟨_, _, rfl, rfl, ?_, ?_, rfl⟩
  · simp only [hw, e1, e2]
    rw [e3, takeAt_map]
  · simp only [hw, hV, e1, e2]
    exact forall2_takeAt (colsOf_signed _ ht) _

theorem orthDistRow_units (ha : 0 ≤ a) (C : List (Fin r → ℝ)) (loc x : Fin r → ℝ) :
    orthDistRow (a • loc) C (a • x) = a * orthDistRow loc C x := by
  have := orthDistRow_move (Q := (1 : Matrix (Fin r) (Fin r) ℝ)) (by simp) ha 0 loc C x
  simpa only [one_mulVec, add_zero, List.map_id'] using this

theorem orthDistRow_similar (hO : Oᵀ * O = 1) (ha : 0 ≤ a) {C D : List (Fin r → ℝ)} (h : Spec.turned O C D) (loc x : Fin r → ℝ) :
    orthDistRow (a • (O *ᵥ loc)) D (a • (O *ᵥ x)) = a * orthDistRow loc C x := by
  rw [orthDistRow_units ha, orthDistRow_orth hO h]

theorem belowCutoff_units (ha : 0 < a) (cut : Option ℝ) (d : ℝ) : belowCutoff (cut.map (a * ·)) (a * d) = belowCutoff cut d := by
  rcases cut with _ | c
  · rfl
  · simp [belowCutoff, ha]

theorem stepFor_similar (hO : Oᵀ * O = 1) (ha : 0 < a) (D : RobpcaDeps) (hD : Spec.followsUnits D.mcdCov) (T : List (Fin r → ℝ))
    (loc : Fin r → ℝ) (hT : T ≠ []) (k m : ℕ) (f : Fin m → Fin r → ℝ) {s : Fin m → ℝ} (hs : Signs s)
    (hsimple : ∀ M, D.mcdCov (T.map fun x (i : Fin m) => ∑ j, (x j - loc j) * f i j) = .ok M → Spec.simpleSpectrum M) :
    Spec.sameOutcome (fun q b => b.1 = q.1 ∧ Spec.turned O q.2 b.2) (stepFor D T loc k m f)
      (stepFor D (T.map fun x => a • (O *ᵥ x)) (a • (O *ᵥ loc)) k m fun i => s i • (O *ᵥ f i)) := by
  have ha2 : 0 < a ^ 2 := by positivity
  have hZ : ((T.map fun x => a • (O *ᵥ x)).map fun x (i : Fin m) => ∑ j, (x j - (a • (O *ᵥ loc)) j) * (s i • (O *ᵥ f i)) j) =
      (T.map fun x (i : Fin m) => ∑ j, (x j - loc j) * f i j).map fun z => a • (Matrix.diagonal s *ᵥ z) := by
    rw [List.map_map, List.map_map]
    refine List.map_congr_left fun x _ => ?_
    funext i
    have := dot_orth (mul_eq_one_comm.1 hO) (x - loc) (f i)
    rw [mulVec_sub] at this
    simp only [dotProduct, Pi.sub_apply] at this
    simp only [Function.comp, Pi.smul_apply, mulVec_diagonal, ← this, smul_eq_mul, Finset.mul_sum]
    exact Finset.sum_congr rfl fun j _ => by ring
  have hcov : ∀ Z : List (Fin m → ℝ), Z ≠ [] → D.mcdCov (Z.map fun z => a • (Matrix.diagonal s *ᵥ z)) =
      (D.mcdCov Z).map fun M => a ^ 2 • (Matrix.diagonal s * M * (Matrix.diagonal s)ᵀ) := hD.1 a s ha hs
  unfold stepFor
  rw [hZ, hcov _ (by simpa using hT)]
  generalize hq : (T.map fun x (i : Fin m) => ∑ j, (x j - loc j) * f i j) = Z at hsimple ⊢
  generalize hM : D.mcdCov Z = q at hsimple ⊢
  rcases q with e | M
  · exact Or.inl ⟨e, rfl, rfl⟩
  have hS := diag_signs_orth hs
  obtain ⟨⟨t, ht, hV⟩, -⟩ := eigh_similar hS ha2 (hD.2 _ _ hM) (hsimple M rfl) (D.eigh M)
    (D.eigh (a ^ 2 • (Matrix.diagonal s * M * (Matrix.diagonal s)ᵀ)))
  refine Or.inr ⟨_, _, rfl, rfl, ?_, ?_⟩
  · simp only [rank_similar hS ha2.ne']
  · simp only [rank_similar hS ha2.ne', hV]
    unfold Spec.turned
    rw [List.forall₂_map_left_iff, List.forall₂_map_right_iff, List.forall₂_reverse_iff]
    refine List.Forall₂.imp ?_ (forall2_lastCols (colsOf_signed (D.eigh M).V ht) _)
    have hcomb : ∀ v : Fin m → ℝ, (fun j => ∑ i, (s i • (O *ᵥ f i)) j * (Matrix.diagonal s *ᵥ v) i) =
        O *ᵥ fun j => ∑ i, f i j * v i := by
      intro v
      funext j
      have e : (O *ᵥ fun j => ∑ i, f i j * v i) j = ∑ i, (O *ᵥ f i) j * v i := by
        simp only [mulVec, dotProduct, Finset.mul_sum, Finset.sum_mul]
        rw [Finset.sum_comm]
        exact Finset.sum_congr rfl fun i _ => Finset.sum_congr rfl fun l _ => by ring
      rw [e]
      refine Finset.sum_congr rfl fun i _ => ?_
      rw [mulVec_diagonal, Pi.smul_apply, smul_eq_mul]
      linear_combination ((O *ᵥ f i) j * v i) * hs.sq i
    rintro v w (e | e) <;> subst e
    · left; exact hcomb v
    · right
      rw [← hcomb v]
      funext j
      simp only [Pi.neg_apply, mul_neg, Finset.sum_neg_distrib]

theorem finalMcdStep_similar (hO : Oᵀ * O = 1) (ha : 0 < a) (D : RobpcaDeps) (hD : Spec.followsUnits D.mcdCov) (T : List (Fin r → ℝ))
    (hT : T ≠ []) (loc : Fin r → ℝ) (k : ℕ) {C C' : List (Fin r → ℝ)} (h : Spec.turned O C C')
    (hsimple : ∀ M, D.mcdCov (Spec.coordinates C loc T) = .ok M → Spec.simpleSpectrum M) :
    Spec.sameOutcome (fun q b => b.1 = q.1 ∧ Spec.turned O q.2 b.2) (finalMcdStep D T loc k C)
      (finalMcdStep D (T.map fun x => a • (O *ᵥ x)) (a • (O *ᵥ loc)) k C') := by
  obtain ⟨hl, s, hs, hC'⟩ := turned_signs h
  rw [finalMcdStep_eq_stepFor D (T.map fun x => a • (O *ᵥ x)) (a • (O *ᵥ loc)) k C' C.length hl (fun i => s i • (O *ᵥ C[i])) hC']
  exact stepFor_similar hO ha D hD T loc hT k C.length (fun i => C[i]) hs hsimple

theorem robpcaCore_similar (hO : Oᵀ * O = 1) (ha : 0 < a) (D : RobpcaDeps)
    (hcut : ∀ l : List ℝ, l ≠ [] → (∀ d ∈ l, 0 ≤ d) → D.odCutoff (l.map (a * ·)) = (D.odCutoff l).map (a * ·)) (thr : ℝ)
    (finalMCD : Bool) (hD : finalMCD = true → Spec.followsUnits D.mcdCov) (nc : Option ℕ) (T H : List (Fin r → ℝ)) (hT : T ≠ [])
    (hs : Spec.differentEigenvalues D thr finalMCD nc T H) :
    Spec.sameOutcome (fun q b => b.1 = q.1 ∧ Spec.turned O q.2.1 b.2.1 ∧ b.2.2 = q.2.2.map (a ^ 2 * ·))
      (robpcaCore D thr finalMCD nc T H)
      (robpcaCore D thr finalMCD nc (T.map fun x => a • (O *ᵥ x)) (H.map fun x => a • (O *ᵥ x))) := by
  have ha2 : 0 < a ^ 2 := by positivity
  unfold robpcaCore
  rcases sortedEigen_similar hO ha D H hs.1 with ⟨e, h1, h2⟩ | ⟨⟨w, V, A⟩, ⟨w', V', A'⟩, h1, h2, hw, hV, hA⟩
  · rw [h1, h2]
    exact Or.inl ⟨e, rfl, rfl⟩
  simp only at hw hV hA
  subst hw
  rw [h1, h2]
  simp only [Except.bind, pickK_scale ha2]
  rcases hk : pickK nc thr w with e | k
  · exact Or.inl ⟨e, rfl, rfl⟩
  simp only
  obtain ⟨hs2, hs3⟩ := hs.2 w V A k h1 hk
  have hVk : Spec.turned O (V.take k) (V'.take k) := List.forall₂_take k hV
  have hod : (T.map fun x => a • (O *ᵥ x)).map (orthDistRow (a • (O *ᵥ meanRow T)) (V'.take k)) =
      (T.map (orthDistRow (meanRow T) (V.take k))).map (a * ·) := by
    rw [List.map_map, List.map_map]
    exact List.map_congr_left fun x _ => orthDistRow_similar hO ha.le hVk _ x
  have hc := hcut (T.map (orthDistRow (meanRow T) (V.take k))) (by simpa using hT) (by
    intro d hd
    obtain ⟨x, -, rfl⟩ := List.mem_map.1 hd
    exact orthDistRow_nonneg _ _ _)
  rw [meanRow_similar T (by simpa using hT), hod, hc]
  have hrows : ((T.map fun x => a • (O *ᵥ x)).filter fun x =>
      belowCutoff ((D.odCutoff (T.map (orthDistRow (meanRow T) (V.take k)))).map (a * ·))
      (orthDistRow (a • (O *ᵥ meanRow T)) (V'.take k) x)) = (Spec.closeRows D (V.take k) T).map fun x => a • (O *ᵥ x) := by
    unfold Spec.closeRows
    rw [List.filter_map]
    congr 1
    refine List.filter_congr fun x _ => ?_
    simp only [Function.comp, orthDistRow_similar hO ha.le hVk, belowCutoff_units ha]
  rw [hrows]
  have hfold : (T.filter fun x => belowCutoff (D.odCutoff (T.map (orthDistRow (meanRow T) (V.take k))))
      (orthDistRow (meanRow T) (V.take k) x)) = Spec.closeRows D (V.take k) T := rfl
  rw [hfold]
  rcases sortedEigen_similar hO ha D _ hs2 with ⟨e, g1, g2⟩ | ⟨⟨w2, V2, A2⟩, ⟨w2', V2', A2'⟩, g1, g2, hw2, hV2, hA2⟩
  · rw [g1, g2]
    exact Or.inl ⟨e, rfl, rfl⟩
  simp only at hw2 hV2 hA2
  rw [g1, g2]
  simp only
  rw [hA2, rank_similar hO ha2.ne']
  have hC : Spec.turned O (V2.take (min k A2.rank)) (V2'.take (min k A2.rank)) := List.forall₂_take _ hV2
  by_cases hf : finalMCD = true ∧ min k A2.rank > 1
  · rw [if_pos hf, if_pos hf]
    rcases finalMcdStep_similar hO ha D (hD hf.1) T hT (meanRow T) (min k A2.rank) hC (hs3 hf.1 _ _ _ g1) with
      ⟨e, f1, f2⟩ | ⟨⟨k3, C3⟩, ⟨k3', C3'⟩, f1, f2, hk3, hC3⟩
    · rw [f1, f2]
      exact Or.inl ⟨e, rfl, rfl⟩
    · rw [f1, f2]
      exact Or.inr ⟨_, _, rfl, rfl, hk3, hC3, by simp only [List.map_take]⟩
  · rw [if_neg hf, if_neg hf]
    exact Or.inr ⟨_, _, rfl, rfl, rfl, hC, by simp only [List.map_take]⟩

end

section
variable {P : Matrix (Fin p) (Fin p) ℝ} {O : Matrix (Fin r) (Fin r) ℝ} {a : ℝ}

theorem meanRow_move (b : Fin p → ℝ) (X : List (Fin p → ℝ)) (hX : X ≠ []) :
    meanRow (X.map fun x => a • (P *ᵥ x) + b) = a • (P *ᵥ meanRow X) + b := by
  have := meanRow_affine (a • P) b X (by simpa using hX)
  simpa only [smul_mulVec] using this

theorem firstScores_similar (hP : Pᵀ * P = 1) (b : Fin p → ℝ) (L : Matrix (Fin p) (Fin r) ℝ) (X : List (Fin p → ℝ)) (hX : X ≠ []) :
    Spec.firstScores (P * L * Oᵀ) (X.map fun x => a • (P *ᵥ x) + b) = (Spec.firstScores L X).map fun t => a • (O *ᵥ t) := by
  unfold Spec.firstScores
  rw [meanRow_move b X hX, List.map_map, List.map_map]
  refine List.map_congr_left fun x _ => ?_
  simp only [Function.comp]
  rw [add_sub_add_right_eq_sub, ← smul_sub, ← mulVec_sub, smul_vecMul, ← vecMul_vecMul, ← vecMul_vecMul, vecMul_mulVec, hP,
    vecMul_one, vecMul_transpose]

/-- **C206**: data `a P x + b` in other units, rotated and shifted.  With corresponding loadings of the first PCA, `ROBPCA` returns the
moved centre, the rotated components up to their signs, the variances times `a²` and the same number of components, or the same error:
if the eigenvalues of the covariance matrices are different and the final MCD follows changes of units and of signs. -/
theorem C206_similarity {S : Type} (ch : Choice S) (svdLast : ∀ {r : ℕ}, List (Fin r → ℝ) → Fin r → ℝ) (fresh : ℕ → S) (seed : Option S)
    (srtE : ArgSort (WithTop (WithTop ℝ))) (srt : ArgSort ℝ) (eigh : ∀ {r : ℕ} (A : Matrix (Fin r) (Fin r) ℝ), EighAsc A) (chi z : ℝ)
    (hz : 0 ≤ z) (corrRaw : ℕ → ℕ → ℝ) (corr : ℝ → ℝ)
    (mcdCov : ∀ {k : ℕ}, List (Fin k → ℝ) → Except PyErr (Matrix (Fin k) (Fin k) ℝ))
    (alpha thr : ℝ) (finalMCD : Bool) (hmcd : finalMCD = true → Spec.followsUnits mcdCov) (hP : Pᵀ * P = 1) (hO : Oᵀ * O = 1)
    (ha : 0 < a) (b : Fin p → ℝ) (L : Matrix (Fin p) (Fin r) ℝ) (st : PCAState p) (X : List (Fin p → ℝ)) (hX : X ≠ [])
    (hs : ∀ out h, stahelDonoho ch svdLast fresh (Spec.firstScores L X) 2 250 seed = .ok out →
      robpcaH alpha X.length st.nComponents = .ok h →
      Spec.differentEigenvalues (stdDeps ch svdLast fresh seed srtE srt eigh chi z corrRaw corr mcdCov) thr finalMCD st.nComponents
        (Spec.firstScores L X) (takeAt (Spec.firstScores L X) ((srtE.toFun (out.map nanLast)).take h))) :
    Spec.sameOutcome (fun s u => Spec.upToSign (Spec.movePCA a P b s) u)
      (robpcaFit (stdDeps ch svdLast fresh seed srtE srt eigh chi z corrRaw corr mcdCov) alpha thr finalMCD L st X)
      (robpcaFit (stdDeps ch svdLast fresh seed srtE srt eigh chi z corrRaw corr mcdCov) alpha thr finalMCD (P * L * Oᵀ) st
        (X.map fun x => a • (P *ᵥ x) + b)) := by
  have hout := C62_invariant ch (svdLast (r := r)) fresh (Spec.firstScores L X) 250 seed a ha.ne' Oᵀ
    (by rw [transpose_transpose]; exact hO) 0
  simp only [add_zero, vecMul_transpose] at hout
  set D := stdDeps ch svdLast fresh seed srtE srt eigh chi z corrRaw corr mcdCov with hDdef
  have hout' : D.outl ((Spec.firstScores L X).map fun t => a • (O *ᵥ t)) = D.outl (Spec.firstScores L X) := hout
  have hs' : ∀ out h, D.outl (Spec.firstScores L X) = .ok out → robpcaH alpha X.length st.nComponents = .ok h →
      Spec.differentEigenvalues D thr finalMCD st.nComponents (Spec.firstScores L X)
        (takeAt (Spec.firstScores L X) ((D.argsortExt.toFun (out.map nanLast)).take h)) := hs
  have hcut : ∀ l : List ℝ, l ≠ [] → (∀ d ∈ l, 0 ≤ d) → D.odCutoff (l.map (a * ·)) = (D.odCutoff l).map (a * ·) :=
    fun l hl hd => getOdCutoff_scale chi z hz corrRaw corr ha l hl hd
  have hD : finalMCD = true → Spec.followsUnits D.mcdCov := hmcd
  clear_value D
  have e1 : ∀ (K : Matrix (Fin p) (Fin r) ℝ) (Y : List (Fin p → ℝ)), (Y.map fun x => (x - meanRow Y) ᵥ* K) = Spec.firstScores K Y :=
    fun _ _ => rfl
  unfold robpcaFit
  simp only [e1, firstScores_similar hP b L X hX, List.length_map]
  rw [hout']
  have hTne : Spec.firstScores L X ≠ [] := by simpa [Spec.firstScores] using hX
  have hloc : meanRow (((Spec.firstScores L X).map fun t => a • (O *ᵥ t)).map fun t =>
      (P * L * Oᵀ) *ᵥ t + meanRow (X.map fun x => a • (P *ᵥ x) + b)) =
      a • (P *ᵥ meanRow ((Spec.firstScores L X).map fun t => L *ᵥ t + meanRow X)) + b := by
    rw [← meanRow_move b _ (by simpa using hTne), meanRow_move b X hX, List.map_map, List.map_map]
    refine congrArg meanRow (List.map_congr_left fun t _ => ?_)
    simp only [Function.comp]
    rw [mulVec_smul, mulVec_mulVec, Matrix.mul_assoc, hO, Matrix.mul_one, mulVec_add, mulVec_mulVec, smul_add, add_assoc]
  rw [hloc]
  have hcol : ∀ c : Fin r → ℝ, loadColumn (P * L * Oᵀ) (O *ᵥ c) = P *ᵥ loadColumn L c := by
    intro c
    change (P * L * Oᵀ) *ᵥ (O *ᵥ c) = P *ᵥ (L *ᵥ c)
    rw [mulVec_mulVec, Matrix.mul_assoc, hO, Matrix.mul_one, mulVec_mulVec]
  have hneg : ∀ c : Fin r → ℝ, loadColumn (P * L * Oᵀ) (-(O *ᵥ c)) = -(P *ᵥ loadColumn L c) := by
    intro c
    rw [← hcol]
    exact mulVec_neg _ _
  rcases hq : D.outl (Spec.firstScores L X) with e | out
  · exact Or.inl ⟨e, rfl, rfl⟩
  simp only [Except.bind]
  rcases hh : robpcaH alpha X.length st.nComponents with e | h
  · exact Or.inl ⟨e, rfl, rfl⟩
  simp only
  rw [takeAt_map]
  rcases robpcaCore_similar hO ha D hcut thr finalMCD hD st.nComponents (Spec.firstScores L X) _ hTne (hs' out h hq hh) with
    ⟨e, f1, f2⟩ | ⟨⟨k, C, ev⟩, ⟨k', C', ev'⟩, f1, f2, hk, hC, hev⟩
  · rw [f1, f2]
    exact Or.inl ⟨e, rfl, rfl⟩
  · rw [f1, f2]
    simp only at hk hC hev
    subst hk hev
    refine Or.inr ⟨_, _, rfl, rfl, rfl, ?_, ?_, _, _, rfl, rfl, ?_⟩
    · simp [Spec.movePCA]
    · simp [Spec.movePCA]
    · simp only
      rw [List.map_map, List.forall₂_map_left_iff, List.forall₂_map_right_iff]
      refine List.Forall₂.imp ?_ hC
      rintro v w (e | e) <;> subst e
      · left; exact hcol v
      · right; exact hneg v

end

/-! ## The outlier map -/

theorem outlier_signs (loc : Fin p → ℝ) {C D : List (Fin p → ℝ)} (h : List.Forall₂ (fun v w => w = v ∨ w = -v) C D) (x : Fin p → ℝ)
    (ev : List ℝ) : broadcastDiv (scoresRow loc D x) ev = broadcastDiv (scoresRow loc C x) ev ∧
      orthDistRow loc D x = orthDistRow loc C x := by
  have ht : Spec.turned (1 : Matrix (Fin p) (Fin p) ℝ) C D := by
    unfold Spec.turned
    simpa only [one_mulVec] using h
  constructor
  · have hsq : (scoresRow loc D x).map (· ^ 2) = (scoresRow loc C x).map (· ^ 2) := by
      clear ht
      unfold scoresRow
      induction h with
      | nil => rfl
      | @cons v w C D hvw _ ih =>
        simp only [List.map_cons]
        rw [ih]
        congr 1
        rcases hvw with e | e <;> subst e
        · rfl
        · simp
    generalize scoresRow loc D x = t' at hsq ⊢
    generalize scoresRow loc C x = t at hsq ⊢
    have hl : t'.length = t.length := by simpa using congrArg List.length hsq
    have hz : ∀ (t t' ev : List ℝ), t'.map (· ^ 2) = t.map (· ^ 2) →
        List.zipWith (fun s v => s ^ 2 / v) t' ev = List.zipWith (fun s v => s ^ 2 / v) t ev := by
      intro t t' ev hq
      have e : ∀ l : List ℝ, List.zipWith (fun s v => s ^ 2 / v) l ev = List.zipWith (fun s v => s / v) (l.map (· ^ 2)) ev := by
        intro l
        rw [List.zipWith_map_left]
      rw [e, e, hq]
    unfold broadcastDiv
    rw [hl, hz t t' ev hsq]
    by_cases hlen : t.length = ev.length
    · rw [if_pos hlen, if_pos hlen]
    rw [if_neg hlen, if_neg hlen]
    rcases t with _ | ⟨s, _ | ⟨s2, t⟩⟩ <;> rcases t' with _ | ⟨u, _ | ⟨u2, t'⟩⟩ <;> rcases ev with _ | ⟨v, _ | ⟨v2, ev⟩⟩ <;>
      simp_all
    have := congrArg (List.map (· / v)) hsq.2.2
    simpa only [List.map_map, Function.comp_def] using this
  · have := orthDistRow_orth (O := (1 : Matrix (Fin p) (Fin p) ℝ)) (by simp) ht loc x
    simpa only [one_mulVec] using this

/-- The outlier map does not depend on the signs of the components. -/
theorem plotOutlierMap_signs (chi2 : ℕ → ℝ) (chi z : ℝ) (corrRaw : ℕ → ℕ → ℝ) (corr : ℝ → ℝ) {s u : PCAState p}
    (h : Spec.upToSign s u) (X : List (Fin p → ℝ)) :
    plotOutlierMap chi2 chi z corrRaw corr u X = plotOutlierMap chi2 chi z corrRaw corr s X := by
  obtain ⟨nc, loc, C, ev⟩ := s
  obtain ⟨nc', loc', C', ev'⟩ := u
  obtain ⟨h1, h2, h3, C0, D0, h4, h5, h6⟩ := h
  simp only at h1 h2 h3 h4 h5
  subst h1 h2 h3 h4 h5
  rcases loc' with _ | _ | loc
  · rfl
  · rfl
  rcases ev' with _ | ev
  · rfl
  unfold plotOutlierMap outlierMap
  simp only [fun x => (outlier_signs loc h6 x ev).1]
  have : orthDistRow loc D0 = orthDistRow loc C0 := funext fun x => (outlier_signs loc h6 x ev).2
  rw [this]

/-- **C206**: the outlier map drawn after fitting the moved data shows the same score distances and lines, orthogonal distances in the
new units, and therefore the same observations beyond the lines. -/
theorem C206_map (chi2 : ℕ → ℝ) (chi z : ℝ) (hz : 0 ≤ z) (corrRaw : ℕ → ℕ → ℝ) (corr : ℝ → ℝ) {P : Matrix (Fin p) (Fin p) ℝ}
    (hP : Pᵀ * P = 1) {a : ℝ} (ha : 0 < a) (b : Fin p → ℝ) {s u : PCAState p} (h : Spec.upToSign (Spec.movePCA a P b s) u)
    (X : List (Fin p → ℝ)) (hX : X ≠ []) :
    plotOutlierMap chi2 chi z corrRaw corr u (X.map fun x => a • (P *ᵥ x) + b) =
        (plotOutlierMap chi2 chi z corrRaw corr s X).map (Spec.rescaleMap a) ∧
      ((plotOutlierMap chi2 chi z corrRaw corr u (X.map fun x => a • (P *ᵥ x) + b)).map Spec.beyond) =
        (plotOutlierMap chi2 chi z corrRaw corr s X).map Spec.beyond := by
  have e : plotOutlierMap chi2 chi z corrRaw corr u (X.map fun x => a • (P *ᵥ x) + b) =
      (plotOutlierMap chi2 chi z corrRaw corr s X).map (Spec.rescaleMap a) := by
    rw [plotOutlierMap_signs chi2 chi z corrRaw corr h, C158_move chi2 chi z hz corrRaw corr s X hX ha hP b]
  refine ⟨e, ?_⟩
  rw [e]
  rcases plotOutlierMap chi2 chi z corrRaw corr s X with err | d
  · rfl
  · simp only [Except.map, C158_beyond a ha]

/-- **C206**: the hypothesis on the final MCD is met by FastMCD with reweighting, for the same random draws. -/
theorem C206_fastMCD {G : Type} (srt : ArgSort ℝ) (rng : Rng G) (cfg : ℕ → MCDConfig ℝ) (fuel : ℕ) (g : G)
    (htol : ∀ k, 0 < (cfg k).tol) (hsteps : ∀ k, 1 ≤ (cfg k).nInitialCSteps) (hrew : ∀ k, (cfg k).reweighting = true) :
    Spec.followsUnits (Spec.fastMCDCov srt rng cfg fuel g) := by
  refine ⟨fun {k} a s ha hs Z hZ => ?_, (C205_fastMCD srt rng cfg fuel g htol hsteps hrew).2⟩
  have hdet : (a • Matrix.diagonal s).det ≠ 0 := by
    rw [det_smul, det_diagonal]
    refine mul_ne_zero (pow_ne_zero _ ha.ne') (Finset.prod_ne_zero_iff.2 ?_)
    intro i _ h0
    have := hs.sq i
    rw [h0] at this
    norm_num at this
  have e : (fun x => a • (Matrix.diagonal s *ᵥ x)) = Spec.affine (a • Matrix.diagonal s) 0 := by
    funext x
    simp [Spec.affine, smul_mulVec]
  have e2 : ∀ M : Matrix (Fin k) (Fin k) ℝ, (a • Matrix.diagonal s) * M * (a • Matrix.diagonal s)ᵀ =
      a ^ 2 • (Matrix.diagonal s * M * (Matrix.diagonal s)ᵀ) := by
    intro M
    rw [transpose_smul, Matrix.smul_mul, Matrix.smul_mul, Matrix.mul_smul, smul_smul, pow_two]
  unfold Spec.fastMCDCov
  beta_reduce
  rw [e, C39_fastMCD (a • Matrix.diagonal s) 0 hdet srt rng (cfg k) (htol k) (hsteps k) Z hZ fuel g]
  rcases fastMCD srt rng (cfg k) Z fuel g with _ | (e | f)
  · rfl
  · rfl
  · simp only [Option.map_some, Except.map, Spec.affFit, e2]

/-! ## Example -/

/-- The sample covariance matrix follows changes of units and signs. -/
theorem npCov_followsUnits : Spec.followsUnits fun Z => .ok (npCov Z) := by
  refine ⟨fun {k} a s ha hs Z hZ => ?_, npCov_followsSigns.2⟩
  simp only [Except.map, npCov_similar Z (by simpa using hZ)]

example : Spec.followsUnits (Spec.fastMCDCov (argsortStable ℝ) rngFirst
    (fun _ => ⟨.none, 500, 2, 10, none, 1e-8, true, true, 1.39, 7.38, 1⟩) 100 ()) :=
  C206_fastMCD _ _ _ _ _ (fun _ => by norm_num) (fun _ => by norm_num) fun _ => rfl

/-- The hypotheses of `C206_similarity` for six rows in units ten times as small, turned and shifted, with one loading vector of the
opposite sign. -/
example : Spec.sameOutcome (fun s u => Spec.upToSign (Spec.movePCA 10 !![3 / 5, -4 / 5; 4 / 5, 3 / 5] ![1, 2] s) u)
    (robpcaFit (stdDeps c61Rng.toChoice (fun _ => 0) (fun _ => false) none (argsortStable _) (argsortStable _) eighDiag 5 2
      (fun _ _ => 1) (fun _ => 1) fun Z => .ok (npCov Z)) 1 (4 / 5) true (1 : Matrix (Fin 2) (Fin 2) ℝ) ⟨some 1, none, none, none⟩ (c60Data 18))
    (robpcaFit (stdDeps c61Rng.toChoice (fun _ => 0) (fun _ => false) none (argsortStable _) (argsortStable _) eighDiag 5 2
      (fun _ _ => 1) (fun _ => 1) fun Z => .ok (npCov Z)) 1 (4 / 5) true
      (!![3 / 5, -4 / 5; 4 / 5, 3 / 5] * (1 : Matrix (Fin 2) (Fin 2) ℝ) * (Matrix.diagonal ![1, -1])ᵀ) ⟨some 1, none, none, none⟩
      ((c60Data 18).map fun x => (10 : ℝ) • (!![3 / 5, -4 / 5; 4 / 5, 3 / 5] *ᵥ x) + ![1, 2])) := by
  refine C206_similarity c61Rng.toChoice (fun _ => 0) (fun _ => false) none (argsortStable _) (argsortStable _) eighDiag 5 2
    (by norm_num) (fun _ _ => 1) (fun _ => 1) (fun Z => .ok (npCov Z)) 1 (4 / 5) true (fun _ => npCov_followsUnits) ?_
    (diag_signs_orth fun i => by fin_cases i <;> simp) (by norm_num) ![1, 2] 1 _ (c60Data 18) (by simp [c60Data]) ?_
  · ext i j
    fin_cases i <;> fin_cases j <;> norm_num [Matrix.mul_apply, Fin.sum_univ_two]
  · exact fun out h => c205_different out h

/-- The hypothesis of `C206_map`: the fit of the moved data reported the component with the opposite sign. -/
example (X : List (Fin 2 → ℝ)) (hX : X ≠ []) :
    plotOutlierMap (fun _ => 5) 5 2 (fun _ _ => 1) (fun _ => 1) ⟨some 1, some (some ![3, 1]), some [![0, -1]], some [8]⟩
        (X.map fun x => (2 : ℝ) • ((1 : Matrix (Fin 2) (Fin 2) ℝ) *ᵥ x) + ![1, 1]) =
      (plotOutlierMap (fun _ => 5) 5 2 (fun _ _ => 1) (fun _ => 1) ⟨some 1, some (some ![1, 0]), some [![0, 1]], some [2]⟩ X).map
        (Spec.rescaleMap 2) := by
  refine (C206_map _ _ _ (by norm_num) _ _ (by simp) (by norm_num) ![1, 1] ?_ X hX).1
  refine ⟨rfl, ?_, ?_, _, _, rfl, rfl, ?_⟩
  · simp [Spec.movePCA]
    norm_num
  · simp [Spec.movePCA]
    norm_num
  · simp

end Robpy
