import Verif.Props.PCARotation
import Verif.Props.PCAOrder
import Verif.Props.Outlyingness
import Verif.Props.PCARobpca
import Verif.Props.MCDAffine

/-! # C205: rotations and shifts of the data, `ROBPCA` -/

namespace Robpy
open Matrix

variable {p r : ℕ}

namespace Spec

/-- Both calls raise the same error, or both return and the results are related. -/
def sameOutcome {α β : Type} (R : α → β → Prop) (a : Except PyErr α) (b : Except PyErr β) : Prop :=
  (∃ e, a = .error e ∧ b = .error e) ∨ ∃ x y, a = .ok x ∧ b = .ok y ∧ R x y

/-- The vectors of the second list are the rotated vectors of the first, up to their signs. -/
def turned (O : Matrix (Fin r) (Fin r) ℝ) (C D : List (Fin r → ℝ)) : Prop :=
  List.Forall₂ (fun v w => w = O *ᵥ v ∨ w = -(O *ᵥ v)) C D

/-- A covariance estimator that follows sign changes of the coordinates of data with at least one row, and returns symmetric
matrices. -/
def followsSigns (cov : ∀ {k : ℕ}, List (Fin k → ℝ) → Except PyErr (Matrix (Fin k) (Fin k) ℝ)) : Prop :=
  (∀ {k : ℕ} (s : Fin k → ℝ), Signs s → ∀ Z : List (Fin k → ℝ), Z ≠ [] → cov (Z.map (Matrix.diagonal s *ᵥ ·)) =
    (cov Z).map fun M => Matrix.diagonal s * M * (Matrix.diagonal s)ᵀ) ∧
  ∀ {k : ℕ} (Z : List (Fin k → ℝ)) (M : Matrix (Fin k) (Fin k) ℝ), cov Z = .ok M → M.IsSymm

end Spec

section
variable {O : Matrix (Fin r) (Fin r) ℝ}

theorem forall2_takeAt {α β : Type} {R : α → β → Prop} {a : List α} {b : List β} (h : List.Forall₂ R a b) (idx : List ℕ) :
    List.Forall₂ R (takeAt a idx) (takeAt b idx) := by
  have hget : ∀ i : ℕ, (a[i]? = none ∧ b[i]? = none) ∨ ∃ x y, a[i]? = some x ∧ b[i]? = some y ∧ R x y := by
    induction h with
    | nil => intro i; left; simp
    | cons hxy _ ih =>
      intro i
      cases i with
      | zero => right; exact ⟨_, _, rfl, rfl, hxy⟩
      | succ i => simpa using ih i
  unfold takeAt
  induction idx with
  | nil => exact List.Forall₂.nil
  | cons i idx ih =>
    rw [List.filterMap_cons, List.filterMap_cons]
    rcases hget i with ⟨h1, h2⟩ | ⟨x, y, h1, h2, hR⟩
    · rw [h1, h2]; exact ih
    · rw [h1, h2]; exact List.Forall₂.cons hR ih

theorem eigh_orth_w {A : Matrix (Fin r) (Fin r) ℝ} (hO : Oᵀ * O = 1) (hA : A.IsSymm) (E : EighAsc A) (E' : EighAsc (O * A * Oᵀ))
    {t : Fin r → ℝ} (ht : Signs t) (hV : E'.V = O * E.V * Matrix.diagonal t) : E'.w = E.w := by
  have hA' : (O * A * Oᵀ).IsSymm := by
    unfold Matrix.IsSymm
    rw [transpose_mul, transpose_mul, transpose_transpose, hA.eq, Matrix.mul_assoc]
  have d := eighAsc_decomp hA E
  have d' := eighAsc_decomp hA' E'
  have inner : ∀ (V B : Matrix (Fin r) (Fin r) ℝ) (w : Fin r → ℝ), Vᵀ * V = 1 → B = V * Matrix.diagonal w * Vᵀ →
      Vᵀ * B * V = Matrix.diagonal w := by
    intro V B w hV hB
    rw [hB]
    simp only [← Matrix.mul_assoc]
    rw [hV, Matrix.one_mul, Matrix.mul_assoc, hV, Matrix.mul_one]
  have e1 := inner _ _ _ E'.orth d'
  have e2 := inner _ _ _ E.orth d
  have e3 : E'.Vᵀ * (O * A * Oᵀ) * E'.V = Matrix.diagonal t * (E.Vᵀ * A * E.V) * Matrix.diagonal t := by
    rw [hV, transpose_mul, transpose_mul, Matrix.diagonal_transpose]
    calc _ = Matrix.diagonal t * (E.Vᵀ * ((Oᵀ * O) * A * (Oᵀ * O)) * E.V) * Matrix.diagonal t := by
          simp only [Matrix.mul_assoc]
      _ = _ := by rw [hO, Matrix.one_mul, Matrix.mul_one]
  rw [e1, e2, Matrix.diagonal_mul_diagonal, Matrix.diagonal_mul_diagonal] at e3
  have := Matrix.diagonal_injective e3
  funext i
  have hi := congrFun this i
  rw [hi, mul_right_comm, ht.sq, one_mul]

theorem rank_orth (hO : Oᵀ * O = 1) (A : Matrix (Fin r) (Fin r) ℝ) : (O * A * Oᵀ).rank = A.rank := by
  have hd : IsUnit O.det := by
    have := congrArg Matrix.det hO
    rw [det_mul, det_one] at this
    exact IsUnit.of_mul_eq_one _ (by rw [mul_comm]; exact this)
  rw [rank_mul_eq_left_of_isUnit_det _ _ (by rwa [det_transpose]), rank_mul_eq_right_of_isUnit_det _ _ hd]

theorem npCov_orth (X : List (Fin r → ℝ)) (hX : X.length ≠ 0) : npCov (X.map (O *ᵥ ·)) = O * npCov X * Oᵀ := by
  have := npCov_affine O 0 X (by exact_mod_cast hX)
  simpa only [add_zero] using this

theorem meanRow_turned (X : List (Fin r → ℝ)) (hX : X.length ≠ 0) : meanRow (X.map (O *ᵥ ·)) = O *ᵥ meanRow X := by
  have := meanRow_affine O 0 X (by exact_mod_cast hX)
  simpa only [add_zero] using this

theorem sortedEigen_orth (hO : Oᵀ * O = 1) (D : RobpcaDeps) (Y : List (Fin r → ℝ)) (hs : Spec.simpleSpectrum (npCov Y)) :
    Spec.sameOutcome (fun a b => b.1 = a.1 ∧ Spec.turned O a.2.1 b.2.1 ∧ b.2.2 = O * a.2.2 * Oᵀ) (sortedEigen D Y)
      (sortedEigen D (Y.map (O *ᵥ ·))) := by
  unfold sortedEigen
  rw [List.length_map]
  by_cases h0 : r ≤ 1 ∨ Y.length ≤ 1
  · rw [if_pos h0, if_pos h0]
    exact Or.inl ⟨_, rfl, rfl⟩
  rw [if_neg h0, if_neg h0]
  rw [npCov_orth Y (by omega)]
  obtain ⟨t, ht, hV⟩ := eigh_orth hO (npCov_isSymm Y) hs (D.eigh _) (D.eigh (O * npCov Y * Oᵀ))
  have hw := eigh_orth_w hO (npCov_isSymm Y) (D.eigh _) (D.eigh (O * npCov Y * Oᵀ)) ht hV
  refine Or.inr ⟨_, _, rfl, rfl, ?_, ?_, rfl⟩
  · simp only [hw]
  · simp only [hw, hV]
    exact forall2_takeAt (colsOf_signed _ ht) _

theorem backRow_orth (hO : Oᵀ * O = 1) {C D : List (Fin r → ℝ)} (h : Spec.turned O C D) (loc x : Fin r → ℝ) :
    backRow D (scoresRow (O *ᵥ loc) D (O *ᵥ x)) = O *ᵥ backRow C (scoresRow loc C x) := by
  have hdot : ∀ v : Fin r → ℝ, ∑ j, ((O *ᵥ x) j - (O *ᵥ loc) j) * (O *ᵥ v) j = ∑ j, (x j - loc j) * v j := by
    intro v
    have := dot_orth (mul_eq_one_comm.1 hO) (x - loc) v
    rw [mulVec_sub] at this
    exact this
  have hcons : ∀ (c : Fin r → ℝ) (C : List (Fin r → ℝ)) (l y : Fin r → ℝ), backRow (c :: C) (scoresRow l (c :: C) y) =
      (∑ j, (y j - l j) * c j) • c + backRow C (scoresRow l C y) := by
    intro c C l y
    funext j
    simp [backRow, scoresRow]
  induction h with
  | nil =>
    have : ∀ l y : Fin r → ℝ, backRow ([] : List (Fin r → ℝ)) (scoresRow l [] y) = 0 := by intro l y; funext j; simp [backRow]
    rw [this, this, mulVec_zero]
  | @cons v w C D hvw _ ih =>
    rw [hcons, hcons, ih, mulVec_add, mulVec_smul]
    congr 1
    rcases hvw with e | e <;> subst e
    · rw [hdot]
    · simp only [Pi.neg_apply, mul_neg, Finset.sum_neg_distrib, hdot, smul_neg, neg_smul, neg_neg]

theorem orthDistRow_orth (hO : Oᵀ * O = 1) {C D : List (Fin r → ℝ)} (h : Spec.turned O C D) (loc x : Fin r → ℝ) :
    orthDistRow (O *ᵥ loc) D (O *ᵥ x) = orthDistRow loc C x := by
  have e : (fun j => ((O *ᵥ x) j - (O *ᵥ loc) j) - backRow D (scoresRow (O *ᵥ loc) D (O *ᵥ x)) j) =
      O *ᵥ (x - loc - backRow C (scoresRow loc C x)) := by
    rw [backRow_orth hO h, mulVec_sub, mulVec_sub]
    rfl
  unfold orthDistRow
  rw [e]
  have := dot_orth (mul_eq_one_comm.1 hO) (x - loc - backRow C (scoresRow loc C x)) (x - loc - backRow C (scoresRow loc C x))
  unfold vecNorm
  exact congrArg Real.sqrt this

/-! ## The final MCD step -/

/-- The final step for a family of vectors indexed by `Fin m`. -/
noncomputable def stepFor (D : RobpcaDeps) (T : List (Fin r → ℝ)) (loc : Fin r → ℝ) (k m : ℕ) (f : Fin m → Fin r → ℝ) :
    Except PyErr (ℕ × List (Fin r → ℝ)) :=
  (D.mcdCov (T.map fun x (i : Fin m) => ∑ j, (x j - loc j) * f i j)).map fun M =>
    let k' := min k M.rank
    (k', ((lastCols k' (colsOf (D.eigh M).V)).reverse).map fun e j => ∑ i, f i j * e i)

theorem finalMcdStep_eq_stepFor (D : RobpcaDeps) (T : List (Fin r → ℝ)) (loc : Fin r → ℝ) (k : ℕ) (C : List (Fin r → ℝ)) (m : ℕ)
    (hm : C.length = m) (f : Fin m → Fin r → ℝ) (hf : ∀ (i : ℕ) (hi : i < C.length), C[i] = f ⟨i, hm ▸ hi⟩) :
    finalMcdStep D T loc k C = stepFor D T loc k m f := by
  subst hm
  have : f = fun i => C[i] := funext fun i => (hf i.1 i.2).symm
  subst this
  rfl

theorem turned_signs {C D : List (Fin r → ℝ)} (h : Spec.turned O C D) : ∃ (hl : D.length = C.length) (s : Fin C.length → ℝ),
    Signs s ∧ ∀ (i : ℕ) (hi : i < D.length), D[i] = s ⟨i, hl ▸ hi⟩ • (O *ᵥ C[i]'(hl ▸ hi)) := by
  have hl := h.length_eq
  have key : ∀ i : Fin C.length, ∃ s : ℝ, (s = 1 ∨ s = -1) ∧ D[i.1]'(hl ▸ i.2) = s • (O *ᵥ C[i.1]) := by
    intro i
    have := (List.forall₂_iff_get.1 h).2 i.1 i.2 (hl ▸ i.2)
    simp only [List.get_eq_getElem] at this
    rcases this with e | e
    · exact ⟨1, Or.inl rfl, by rw [e, one_smul]⟩
    · exact ⟨-1, Or.inr rfl, by rw [e]; simp⟩
  choose s hs hD using key
  exact ⟨hl.symm, s, hs, fun i hi => hD ⟨i, hl.symm ▸ hi⟩⟩

theorem forall2_lastCols {α β : Type} {R : α → β → Prop} {a : List α} {b : List β} (h : List.Forall₂ R a b) (k : ℕ) :
    List.Forall₂ R (lastCols k a) (lastCols k b) := by
  unfold lastCols
  by_cases hk : k = 0
  · rw [if_pos hk, if_pos hk]; exact h
  · rw [if_neg hk, if_neg hk, h.length_eq]
    exact List.forall₂_drop _ h

theorem diag_signs_orth {m : ℕ} {s : Fin m → ℝ} (hs : Signs s) : (Matrix.diagonal s)ᵀ * Matrix.diagonal s = 1 := by
  rw [diagonal_transpose, diagonal_mul_diagonal, ← diagonal_one]
  congr 1
  funext i
  exact hs.sq i

theorem stepFor_orth (hO : Oᵀ * O = 1) (D : RobpcaDeps) (hD : Spec.followsSigns D.mcdCov) (T : List (Fin r → ℝ)) (loc : Fin r → ℝ)
    (hT : T ≠ []) (k m : ℕ) (f : Fin m → Fin r → ℝ) {s : Fin m → ℝ} (hs : Signs s)
    (hsimple : ∀ M, D.mcdCov (T.map fun x (i : Fin m) => ∑ j, (x j - loc j) * f i j) = .ok M → Spec.simpleSpectrum M) :
    Spec.sameOutcome (fun a b => b.1 = a.1 ∧ Spec.turned O a.2 b.2) (stepFor D T loc k m f)
      (stepFor D (T.map (O *ᵥ ·)) (O *ᵥ loc) k m fun i => s i • (O *ᵥ f i)) := by
  have hZ : ((T.map (O *ᵥ ·)).map fun x (i : Fin m) => ∑ j, (x j - (O *ᵥ loc) j) * (s i • (O *ᵥ f i)) j) =
      (T.map fun x (i : Fin m) => ∑ j, (x j - loc j) * f i j).map (Matrix.diagonal s *ᵥ ·) := by
    rw [List.map_map, List.map_map]
    refine List.map_congr_left fun x _ => ?_
    funext i
    have := dot_orth (mul_eq_one_comm.1 hO) (x - loc) (f i)
    rw [mulVec_sub] at this
    simp only [dotProduct, Pi.sub_apply] at this
    simp only [Function.comp, mulVec_diagonal, ← this, Pi.smul_apply, smul_eq_mul, Finset.mul_sum]
    exact Finset.sum_congr rfl fun j _ => by ring
  have hcov : ∀ Z : List (Fin m → ℝ), Z ≠ [] → D.mcdCov (Z.map (Matrix.diagonal s *ᵥ ·)) =
      (D.mcdCov Z).map fun M => Matrix.diagonal s * M * (Matrix.diagonal s)ᵀ := hD.1 s hs
  unfold stepFor
  rw [hZ, hcov _ (by simpa using hT)]
  generalize hq : (T.map fun x (i : Fin m) => ∑ j, (x j - loc j) * f i j) = Z at hsimple ⊢
  generalize hM : D.mcdCov Z = q at hsimple ⊢
  rcases q with e | M
  · exact Or.inl ⟨e, rfl, rfl⟩
  have hS := diag_signs_orth hs
  obtain ⟨t, ht, hV⟩ := eigh_orth hS (hD.2 _ _ hM) (hsimple M rfl) (D.eigh M) (D.eigh (Matrix.diagonal s * M * (Matrix.diagonal s)ᵀ))
  refine Or.inr ⟨_, _, rfl, rfl, ?_, ?_⟩
  · simp only [rank_orth hS]
  · simp only [rank_orth hS, hV]
    unfold Spec.turned
    rw [List.forall₂_map_left_iff, List.forall₂_map_right_iff, List.forall₂_reverse_iff]
    refine List.Forall₂.imp ?_ (forall2_lastCols (colsOf_signed (D.eigh M).V ht) _)
    have hcomb : ∀ v : Fin m → ℝ, (fun j => ∑ i, (s i • (O *ᵥ f i)) j * (Matrix.diagonal s *ᵥ v) i) =
        O *ᵥ fun j => ∑ i, f i j * v i := by
      intro v
      funext j
      have e : (O *ᵥ fun j => ∑ i, f i j * v i) j = ∑ i, (O *ᵥ f i) j * v i := by
        simp only [mulVec, dotProduct, Finset.mul_sum, Finset.sum_mul]
        rw [Finset.sum_comm]
        exact Finset.sum_congr rfl fun i _ => Finset.sum_congr rfl fun l _ => by ring
      rw [e]
      refine Finset.sum_congr rfl fun i _ => ?_
      rw [mulVec_diagonal, Pi.smul_apply, smul_eq_mul]
      linear_combination ((O *ᵥ f i) j * v i) * hs.sq i
    rintro v w (e | e) <;> subst e
    · left; exact hcomb v
    · right
      rw [← hcomb v]
      funext j
      simp only [Pi.neg_apply, mul_neg, Finset.sum_neg_distrib]

theorem finalMcdStep_orth (hO : Oᵀ * O = 1) (D : RobpcaDeps) (hD : Spec.followsSigns D.mcdCov) (T : List (Fin r → ℝ))
    (hT : T ≠ []) (loc : Fin r → ℝ) (k : ℕ) {C C' : List (Fin r → ℝ)} (h : Spec.turned O C C')
    (hsimple : ∀ M, D.mcdCov (Spec.coordinates C loc T) = .ok M → Spec.simpleSpectrum M) :
    Spec.sameOutcome (fun a b => b.1 = a.1 ∧ Spec.turned O a.2 b.2) (finalMcdStep D T loc k C)
      (finalMcdStep D (T.map (O *ᵥ ·)) (O *ᵥ loc) k C') := by
  obtain ⟨hl, s, hs, hC'⟩ := turned_signs h
  rw [finalMcdStep_eq_stepFor D (T.map (O *ᵥ ·)) (O *ᵥ loc) k C' C.length hl (fun i => s i • (O *ᵥ C[i])) hC']
  exact stepFor_orth hO D hD T loc hT k C.length (fun i => C[i]) hs hsimple

/-! ## The fit -/

/-- The rows whose orthogonal distances are below the cutoff, robpca.py 98-100. -/
noncomputable def Spec.closeRows (D : RobpcaDeps) (C : List (Fin r → ℝ)) (T : List (Fin r → ℝ)) : List (Fin r → ℝ) :=
  T.filter fun x => belowCutoff (D.odCutoff (T.map (orthDistRow (meanRow T) C))) (orthDistRow (meanRow T) C x)

/-- The eigenvalues of the covariance matrices whose eigenvectors `ROBPCA` uses are different: of the h-subset, of the rows close to
the first subspace, and of the final MCD. -/
def Spec.differentEigenvalues (D : RobpcaDeps) (thr : ℝ) (finalMCD : Bool) (nc : Option ℕ) (T H : List (Fin r → ℝ)) : Prop :=
  Spec.simpleSpectrum (npCov H) ∧ ∀ w V A k, sortedEigen D H = .ok (w, V, A) → pickK nc thr w = .ok k →
    Spec.simpleSpectrum (npCov (Spec.closeRows D (V.take k) T)) ∧ (finalMCD = true → ∀ w2 V2 A2,
      sortedEigen D (Spec.closeRows D (V.take k) T) = .ok (w2, V2, A2) → ∀ M,
        D.mcdCov (Spec.coordinates (V2.take (min k A2.rank)) (meanRow T) T) = .ok M → Spec.simpleSpectrum M)

theorem robpcaCore_orth (hO : Oᵀ * O = 1) (D : RobpcaDeps) (thr : ℝ) (finalMCD : Bool)
    (hD : finalMCD = true → Spec.followsSigns D.mcdCov) (nc : Option ℕ) (T H : List (Fin r → ℝ)) (hT : T.length ≠ 0)
    (hs : Spec.differentEigenvalues D thr finalMCD nc T H) :
    Spec.sameOutcome (fun a b => b.1 = a.1 ∧ Spec.turned O a.2.1 b.2.1 ∧ b.2.2 = a.2.2) (robpcaCore D thr finalMCD nc T H)
      (robpcaCore D thr finalMCD nc (T.map (O *ᵥ ·)) (H.map (O *ᵥ ·))) := by
  unfold robpcaCore
  rcases sortedEigen_orth hO D H hs.1 with ⟨e, h1, h2⟩ | ⟨⟨w, V, A⟩, ⟨w', V', A'⟩, h1, h2, hw, hV, hA⟩
  · rw [h1, h2]
    exact Or.inl ⟨e, rfl, rfl⟩
  simp only at hw hV hA
  subst hw
  rw [h1, h2]
  simp only [Except.bind]
  rcases hk : pickK nc thr w' with e | k
  · exact Or.inl ⟨e, rfl, rfl⟩
  simp only
  obtain ⟨hs2, hs3⟩ := hs.2 w' V A k h1 hk
  have hVk : Spec.turned O (V.take k) (V'.take k) := List.forall₂_take k hV
  have hod : (T.map (O *ᵥ ·)).map (orthDistRow (O *ᵥ meanRow T) (V'.take k)) = T.map (orthDistRow (meanRow T) (V.take k)) := by
    rw [List.map_map]
    exact List.map_congr_left fun x _ => orthDistRow_orth hO hVk _ x
  rw [meanRow_turned T hT, hod]
  have hrows : ((T.map (O *ᵥ ·)).filter fun x => belowCutoff (D.odCutoff (T.map (orthDistRow (meanRow T) (V.take k))))
      (orthDistRow (O *ᵥ meanRow T) (V'.take k) x)) = (Spec.closeRows D (V.take k) T).map (O *ᵥ ·) := by
    unfold Spec.closeRows
    rw [List.filter_map]
    congr 1
    refine List.filter_congr fun x _ => ?_
    simp only [Function.comp, orthDistRow_orth hO hVk]
  rw [hrows]
  have hfold : (T.filter fun x => belowCutoff (D.odCutoff (T.map (orthDistRow (meanRow T) (V.take k))))
      (orthDistRow (meanRow T) (V.take k) x)) = Spec.closeRows D (V.take k) T := rfl
  rw [hfold]
  rcases sortedEigen_orth hO D _ hs2 with ⟨e, g1, g2⟩ | ⟨⟨w2, V2, A2⟩, ⟨w2', V2', A2'⟩, g1, g2, hw2, hV2, hA2⟩
  · rw [g1, g2]
    exact Or.inl ⟨e, rfl, rfl⟩
  simp only at hw2 hV2 hA2
  rw [g1, g2]
  simp only
  rw [hA2, rank_orth hO]
  have hC : Spec.turned O (V2.take (min k A2.rank)) (V2'.take (min k A2.rank)) := List.forall₂_take _ hV2
  by_cases hf : finalMCD = true ∧ min k A2.rank > 1
  · rw [if_pos hf, if_pos hf]
    rcases finalMcdStep_orth hO D (hD hf.1) T (by rintro rfl; exact hT rfl) (meanRow T) (min k A2.rank) hC (hs3 hf.1 _ _ _ g1) with
      ⟨e, f1, f2⟩ | ⟨⟨k3, C3⟩, ⟨k3', C3'⟩, f1, f2, hk3, hC3⟩
    · rw [f1, f2]
      exact Or.inl ⟨e, rfl, rfl⟩
    · rw [f1, f2]
      exact Or.inr ⟨_, _, rfl, rfl, hk3, hC3, rfl⟩
  · rw [if_neg hf, if_neg hf]
    exact Or.inr ⟨_, _, rfl, rfl, rfl, hC, rfl⟩

end

variable {P : Matrix (Fin p) (Fin p) ℝ} {O : Matrix (Fin r) (Fin r) ℝ}

theorem firstScores_orth (hP : Pᵀ * P = 1) (b : Fin p → ℝ) (L : Matrix (Fin p) (Fin r) ℝ) (X : List (Fin p → ℝ)) (hX : X ≠ []) :
    Spec.firstScores (P * L * Oᵀ) (X.map fun x => P *ᵥ x + b) = (Spec.firstScores L X).map (O *ᵥ ·) := by
  have hlen : (X.length : ℝ) ≠ 0 := by simpa using hX
  unfold Spec.firstScores
  rw [meanRow_affine P b X hlen, List.map_map, List.map_map]
  refine List.map_congr_left fun x _ => ?_
  simp only [Function.comp]
  rw [add_sub_add_right_eq_sub, ← mulVec_sub, ← vecMul_vecMul, ← vecMul_vecMul, vecMul_mulVec, hP, vecMul_one, vecMul_transpose]

/-- **C205**, for any outlyingness that does not change: the fit of the rotated and shifted data, with the loadings `P L Oᵀ` of the
first PCA. -/
theorem robpcaFit_orth (hP : Pᵀ * P = 1) (hO : Oᵀ * O = 1) (b : Fin p → ℝ) (D : RobpcaDeps) (alpha thr : ℝ) (finalMCD : Bool)
    (hD : finalMCD = true → Spec.followsSigns D.mcdCov) (L : Matrix (Fin p) (Fin r) ℝ) (st : PCAState p) (X : List (Fin p → ℝ))
    (hX : X ≠ []) (hout : D.outl ((Spec.firstScores L X).map (O *ᵥ ·)) = D.outl (Spec.firstScores L X))
    (hs : ∀ out h, D.outl (Spec.firstScores L X) = .ok out → robpcaH alpha X.length st.nComponents = .ok h →
      Spec.differentEigenvalues D thr finalMCD st.nComponents (Spec.firstScores L X)
        (takeAt (Spec.firstScores L X) ((D.argsortExt.toFun (out.map nanLast)).take h))) :
    Spec.sameOutcome (fun s u => Spec.upToSign (Spec.movePCA 1 P b s) u) (robpcaFit D alpha thr finalMCD L st X)
      (robpcaFit D alpha thr finalMCD (P * L * Oᵀ) st (X.map fun x => P *ᵥ x + b)) := by
  have hlen : (X.length : ℝ) ≠ 0 := by simpa using hX
  have e1 : ∀ (K : Matrix (Fin p) (Fin r) ℝ) (Y : List (Fin p → ℝ)), (Y.map fun x => (x - meanRow Y) ᵥ* K) = Spec.firstScores K Y :=
    fun _ _ => rfl
  unfold robpcaFit
  simp only [e1, firstScores_orth hP b L X hX, List.length_map]
  rw [hout]
  have hTlen : (Spec.firstScores L X).length ≠ 0 := by simpa [Spec.firstScores] using hX
  have hloc : meanRow (((Spec.firstScores L X).map (O *ᵥ ·)).map fun t => (P * L * Oᵀ) *ᵥ t + meanRow (X.map fun x => P *ᵥ x + b)) =
      P *ᵥ meanRow ((Spec.firstScores L X).map fun t => L *ᵥ t + meanRow X) + b := by
    have hl2 : ((((Spec.firstScores L X).map fun t => L *ᵥ t + meanRow X).length : ℕ) : ℝ) ≠ 0 := by
      rw [List.length_map]
      exact_mod_cast hTlen
    rw [← meanRow_affine P b _ hl2, meanRow_affine P b X hlen, List.map_map, List.map_map]
    refine congrArg meanRow (List.map_congr_left fun t _ => ?_)
    simp only [Function.comp]
    rw [mulVec_mulVec, Matrix.mul_assoc, hO, Matrix.mul_one, mulVec_add, mulVec_mulVec, add_assoc]
  rw [hloc]
  have hcol : ∀ c : Fin r → ℝ, loadColumn (P * L * Oᵀ) (O *ᵥ c) = P *ᵥ loadColumn L c := by
    intro c
    change (P * L * Oᵀ) *ᵥ (O *ᵥ c) = P *ᵥ (L *ᵥ c)
    rw [mulVec_mulVec, Matrix.mul_assoc, hO, Matrix.mul_one, mulVec_mulVec]
  have hneg : ∀ c : Fin r → ℝ, loadColumn (P * L * Oᵀ) (-(O *ᵥ c)) = -(P *ᵥ loadColumn L c) := by
    intro c
    rw [← hcol]
    exact mulVec_neg _ _
  rcases hq : D.outl (Spec.firstScores L X) with e | out
  · exact Or.inl ⟨e, rfl, rfl⟩
  simp only [Except.bind]
  rcases hh : robpcaH alpha X.length st.nComponents with e | h
  · exact Or.inl ⟨e, rfl, rfl⟩
  simp only
  rw [takeAt_map]
  rcases robpcaCore_orth hO D thr finalMCD hD st.nComponents (Spec.firstScores L X) _ hTlen (hs out h hq hh) with
    ⟨e, f1, f2⟩ | ⟨⟨k, C, ev⟩, ⟨k', C', ev'⟩, f1, f2, hk, hC, hev⟩
  · rw [f1, f2]
    exact Or.inl ⟨e, rfl, rfl⟩
  · rw [f1, f2]
    simp only at hk hC hev
    subst hk hev
    refine Or.inr ⟨_, _, rfl, rfl, rfl, ?_, ?_, _, _, rfl, rfl, ?_⟩
    · simp [Spec.movePCA]
    · simp [Spec.movePCA]
    · simp only
      rw [List.map_map, List.forall₂_map_left_iff, List.forall₂_map_right_iff]
      refine List.Forall₂.imp ?_ hC
      rintro v w (e | e) <;> subst e
      · left; exact hcol v
      · right; exact hneg v

/-- **C205**: rotated and shifted data `P x + b`.  The loadings of the first PCA are those of the original data, rotated, up to an
orthogonal change `O` of the scores.  Then `ROBPCA` returns the rotated and shifted centre, the rotated components up to their signs,
and the same variances and number of components, or the same error: if the eigenvalues of the covariance matrices are different, and
the final MCD follows sign changes of its coordinates. -/
theorem C205_rotation {S : Type} (ch : Choice S) (svdLast : ∀ {r : ℕ}, List (Fin r → ℝ) → Fin r → ℝ) (fresh : ℕ → S) (seed : Option S)
    (srtE : ArgSort (WithTop (WithTop ℝ))) (srt : ArgSort ℝ) (eigh : ∀ {r : ℕ} (A : Matrix (Fin r) (Fin r) ℝ), EighAsc A) (chi z : ℝ)
    (corrRaw : ℕ → ℕ → ℝ) (corr : ℝ → ℝ) (mcdCov : ∀ {k : ℕ}, List (Fin k → ℝ) → Except PyErr (Matrix (Fin k) (Fin k) ℝ))
    (alpha thr : ℝ) (finalMCD : Bool) (hmcd : finalMCD = true → Spec.followsSigns mcdCov) (hP : Pᵀ * P = 1) (hO : Oᵀ * O = 1)
    (b : Fin p → ℝ) (L : Matrix (Fin p) (Fin r) ℝ) (st : PCAState p) (X : List (Fin p → ℝ)) (hX : X ≠ [])
    (hs : ∀ out h, stahelDonoho ch svdLast fresh (Spec.firstScores L X) 2 250 seed = .ok out →
      robpcaH alpha X.length st.nComponents = .ok h →
      Spec.differentEigenvalues (stdDeps ch svdLast fresh seed srtE srt eigh chi z corrRaw corr mcdCov) thr finalMCD st.nComponents
        (Spec.firstScores L X) (takeAt (Spec.firstScores L X) ((srtE.toFun (out.map nanLast)).take h))) :
    Spec.sameOutcome (fun s u => Spec.upToSign (Spec.movePCA 1 P b s) u)
      (robpcaFit (stdDeps ch svdLast fresh seed srtE srt eigh chi z corrRaw corr mcdCov) alpha thr finalMCD L st X)
      (robpcaFit (stdDeps ch svdLast fresh seed srtE srt eigh chi z corrRaw corr mcdCov) alpha thr finalMCD (P * L * Oᵀ) st
        (X.map fun x => P *ᵥ x + b)) := by
  refine robpcaFit_orth hP hO b _ alpha thr finalMCD hmcd L st X hX ?_ hs
  have := C62_invariant ch (svdLast (r := r)) fresh (Spec.firstScores L X) 250 seed 1 one_ne_zero Oᵀ
    (by rw [transpose_transpose]; exact hO) 0
  simp only [one_smul, add_zero, vecMul_transpose] at this
  exact this

/-- If there are at least as many rows as columns, the loadings of the first PCA are orthogonal matrices, and those of the rotated data
have the form that `C205_rotation` asks for whatever the PCA returns. -/
theorem C205_loadings {L L' : Matrix (Fin p) (Fin p) ℝ} (hP : Pᵀ * P = 1) (hL : Lᵀ * L = 1) (hL' : L'ᵀ * L' = 1) :
    ∃ O : Matrix (Fin p) (Fin p) ℝ, Oᵀ * O = 1 ∧ L' = P * L * Oᵀ := by
  have hP2 := mul_eq_one_comm.1 hP
  have hL2 := mul_eq_one_comm.1 hL
  have hL3 := mul_eq_one_comm.1 hL'
  refine ⟨L'ᵀ * (P * L), ?_, ?_⟩
  · rw [transpose_mul, transpose_transpose, Matrix.mul_assoc, ← Matrix.mul_assoc L', hL3, Matrix.one_mul, transpose_mul,
      Matrix.mul_assoc, ← Matrix.mul_assoc Pᵀ, hP, Matrix.one_mul, hL]
  · rw [transpose_mul, transpose_transpose, ← Matrix.mul_assoc, transpose_mul, Matrix.mul_assoc P L, ← Matrix.mul_assoc L, hL2,
      Matrix.one_mul, hP2, Matrix.one_mul]

/-- `FastMCD().fit(...).covariance` as a function of the data, robpca.py 108: `cfg` holds the settings and constants for each number
of columns, `g` the state of the generator.  A run that needs more than `fuel` steps is represented by an error. -/
noncomputable def Spec.fastMCDCov {G : Type} (srt : ArgSort ℝ) (rng : Rng G) (cfg : ℕ → MCDConfig ℝ) (fuel : ℕ) (g : G) {k : ℕ}
    (Z : List (Fin k → ℝ)) : Except PyErr (Matrix (Fin k) (Fin k) ℝ) :=
  match fastMCD srt rng (cfg k) Z fuel g with
  | none => .error .valueError
  | some r => r.map fun f => f.covariance

/-- **C205**: the hypothesis on the final MCD is met by FastMCD with reweighting, as `ROBPCA` calls it, for the same random draws. -/
theorem C205_fastMCD {G : Type} (srt : ArgSort ℝ) (rng : Rng G) (cfg : ℕ → MCDConfig ℝ) (fuel : ℕ) (g : G)
    (htol : ∀ k, 0 < (cfg k).tol) (hsteps : ∀ k, 1 ≤ (cfg k).nInitialCSteps) (hrew : ∀ k, (cfg k).reweighting = true) :
    Spec.followsSigns (Spec.fastMCDCov srt rng cfg fuel g) := by
  refine ⟨fun {k} s hs Z hZ => ?_, fun {k} Z M h => ?_⟩
  · have hdet : (Matrix.diagonal s).det ≠ 0 := by
      rw [det_diagonal, Finset.prod_ne_zero_iff]
      intro i _ h0
      have := hs.sq i
      rw [h0] at this
      norm_num at this
    have e : (fun x => Matrix.diagonal s *ᵥ x) = Spec.affine (Matrix.diagonal s) 0 := by
      funext x
      simp [Spec.affine]
    unfold Spec.fastMCDCov
    beta_reduce
    rw [e, C39_fastMCD (Matrix.diagonal s) 0 hdet srt rng (cfg k) (htol k) (hsteps k) Z hZ fuel g]
    rcases fastMCD srt rng (cfg k) Z fuel g with _ | (e | f) <;> rfl
  · unfold Spec.fastMCDCov at h
    beta_reduce at h
    rcases hf : fastMCD srt rng (cfg k) Z fuel g with _ | (e | f)
    · rw [hf] at h; cases h
    · rw [hf] at h; cases h
    rw [hf] at h
    have hM : f.covariance = M := Except.ok.inj h
    subst hM
    unfold fastMCD at hf
    by_cases ha : alphaIsAll (cfg k).alpha Z.length = true
    · rw [if_pos ha] at hf
      rw [← Except.ok.inj (Option.some.inj hf)]
      exact npCov_isSymm Z
    rw [if_neg ha] at hf
    obtain ⟨s, -, h2⟩ := Run.andThen_ok hf
    have h3 := Option.some.inj h2
    unfold postProcess at h3
    rcases hsc : (if (cfg k).correct then correctCovariance (cfg k).chi50 Z s else .ok s.scale) with e | scale
    · rw [hsc] at h3; cases h3
    rw [hsc] at h3
    simp only [Except.bind] at h3
    rw [if_pos (hrew k)] at h3
    unfold reweight at h3
    rcases hd : sqMahalanobis Z s.location scale with e | d
    · rw [hd] at h3; cases h3
    rw [hd] at h3
    simp only [Except.bind] at h3
    by_cases hl : (maskRows (d.map fun v => decide (v < (cfg k).chi975)) Z).length < 2
    · rw [if_pos hl] at h3; cases h3
    rw [if_neg hl] at h3
    rw [← Except.ok.inj h3]
    by_cases hc : (cfg k).correct = true
    · simp only [hc, if_true]
      exact (npCov_isSymm _).smul _
    · simp only [hc]
      exact npCov_isSymm _

/-! ## Example -/

/-- Settings that meet the hypotheses of `C205_fastMCD`. -/
example : Spec.followsSigns (Spec.fastMCDCov (argsortStable ℝ) rngFirst
    (fun _ => ⟨.none, 500, 2, 10, none, 1e-8, true, true, 1.39, 7.38, 1⟩) 100 ()) :=
  C205_fastMCD _ _ _ _ _ (fun _ => by norm_num) (fun _ => by norm_num) fun _ => rfl

/-- The sample covariance matrix follows sign changes of the coordinates. -/
theorem npCov_followsSigns : Spec.followsSigns fun Z => .ok (npCov Z) := by
  refine ⟨fun {k} s hs Z hZ => ?_, fun {k} Z M h => ?_⟩
  · simp only [Except.map, npCov_orth Z (by simpa using hZ)]
  · rw [← Except.ok.inj h]
    exact npCov_isSymm Z

/-- The six centred rows. -/
theorem c205_scores : Spec.firstScores (1 : Matrix (Fin 2) (Fin 2) ℝ) (c60Data 18) =
    [![0, 15], ![0, -3], ![1, -3], ![-1, -3], ![8, -3], ![-8, -3]] := by
  have : Spec.firstScores (1 : Matrix (Fin 2) (Fin 2) ℝ) (c60Data 18) = (c60Data 18).map fun x => x - meanRow (c60Data 18) := by
    simp [Spec.firstScores]
  rw [this, c60_centered]
  norm_num

theorem c205_cutoff : ∃ c, getOdCutoff 5 2 (fun _ _ => 1) (fun _ => 1) [0, 0, 1, 1, 8, 8] = some c ∧ 1 < c ∧ c < 8 := by
  have hpow : ([(0:ℝ), 0, 1, 1, 8, 8].map fun d => d ^ (2 / 3 : ℝ)) = [0, 0, 1, 1, 4, 4] := by
    simp only [List.map_cons, List.map_nil, rpow_eight, Real.one_rpow]
    rw [Real.zero_rpow (by norm_num)]
  have hraw : rawEstimates 4 [(0:ℝ), 0, 1, 1, 4, 4] = some (1 / 4, 1 / 2) := by
    unfold rawEstimates
    rw [npSort_eq_self (by norm_num)]
    norm_num [List.range_succ, rawStep, window, var, mean]
  have hcalc : mcdCalculate 5 (fun _ _ => 1) (fun _ => 1) 4 [(0:ℝ), 0, 1, 1, 4, 4] = some
      { rawVariance := 1 / 4 * 1, rawLocation := 1 / 2, variance := some (1 / 4), location := some (1 / 2) } := by
    unfold mcdCalculate
    rw [if_neg (by simp), hraw]
    norm_num [reweighting, rewMask, List.filter_cons, var, mean]
  have hs1 : 1 / 3 < Real.sqrt (1 / 4) := Real.lt_sqrt_of_sq_lt (by norm_num)
  have hs2 : Real.sqrt (1 / 4) < 1 := by rw [Real.sqrt_lt' (by norm_num)]; norm_num
  refine ⟨(1 / 2 + Real.sqrt (1 / 4) * 2) ^ (3 / 2 : ℝ), ?_, ?_, ?_⟩
  · unfold getOdCutoff
    rw [hpow]
    simp only [List.length_cons, List.length_nil]
    norm_num only
    norm_num only at hcalc
    rw [hcalc]
  · exact Real.one_lt_rpow (by linarith) (by norm_num)
  · have h8 : (8 : ℝ) = 4 ^ (3 / 2 : ℝ) := by
      have : (4 : ℝ) = 2 ^ (2 : ℝ) := by norm_num
      rw [this, ← Real.rpow_mul (by norm_num)]
      norm_num
    rw [h8]
    exact Real.rpow_lt_rpow (by positivity) (by linarith) (by norm_num)

theorem simpleSpectrum_short {k : ℕ} (hk : k ≤ 1) (A : Matrix (Fin k) (Fin k) ℝ) : Spec.simpleSpectrum A := by
  intro V w _ _ i j _
  exact Fin.ext (by omega)

/-- The condition on the eigenvalues for the six rows. -/
theorem c205_different (out : List ExtFloat) (h : ℕ)
    (hout : stahelDonoho c61Rng.toChoice (fun _ => 0) (fun _ => false) (Spec.firstScores (1 : Matrix (Fin 2) (Fin 2) ℝ) (c60Data 18)) 2 250
      none = .ok out)
    (hh : robpcaH 1 (c60Data 18).length (some 1) = .ok h) :
    Spec.differentEigenvalues (stdDeps c61Rng.toChoice (fun _ => 0) (fun _ => false) none (argsortStable _) (argsortStable _) eighDiag 5 2
      (fun _ _ => 1) (fun _ => 1) fun Z => .ok (npCov Z)) (4 / 5) true (some 1) (Spec.firstScores (1 : Matrix (Fin 2) (Fin 2) ℝ) (c60Data 18))
      (takeAt (Spec.firstScores (1 : Matrix (Fin 2) (Fin 2) ℝ) (c60Data 18)) (((argsortStable _).toFun (out.map nanLast)).take h)) := by
  have hmean : meanRow [![(0:ℝ), 15], ![0, -3], ![1, -3], ![-1, -3], ![8, -3], ![-8, -3]] = 0 := by
    funext j
    fin_cases j <;> norm_num [meanRow, mean]
  have hcov : npCov [![(0:ℝ), 15], ![0, -3], ![1, -3], ![-1, -3], ![8, -3], ![-8, -3]] = Matrix.diagonal ![26, 54] := by
    ext i j
    unfold npCov
    simp only [hmean]
    fin_cases i <;> fin_cases j <;> simp <;> norm_num
  have hmono : StrictMono (![26, 54] : Fin 2 → ℝ) := by
    intro i j hij
    fin_cases i <;> fin_cases j <;> simp at hij ⊢
    norm_num
  obtain ⟨out', ho, hol⟩ := stahelDonoho_ok c61Rng.toChoice (fun _ => 0) (fun _ => false)
    (Spec.firstScores (1 : Matrix (Fin 2) (Fin 2) ℝ) (c60Data 18)) (by rw [c205_scores]; simp) 250 (by norm_num) none
  rw [hout] at ho
  obtain rfl := Except.ok.inj ho
  have hh6 : h = 6 := by
    unfold robpcaH at hh
    rw [if_neg (by norm_num)] at hh
    simpa [c60Data] using (Except.ok.inj hh).symm
  subst hh6
  have hperm := (argsortStable (WithTop (WithTop ℝ))).perm (out.map nanLast)
  rw [List.length_map, hol] at hperm
  have htake : ((argsortStable (WithTop (WithTop ℝ))).toFun (out.map nanLast)).take 6 =
      (argsortStable (WithTop (WithTop ℝ))).toFun (out.map nanLast) := by
    rw [List.take_of_length_le]
    rw [hperm.length_eq, List.length_range, c205_scores]
    simp
  have hsel := takeAt_perm (Spec.firstScores (1 : Matrix (Fin 2) (Fin 2) ℝ) (c60Data 18)) hperm
  rw [takeAt_range] at hsel
  rw [htake]
  generalize takeAt (Spec.firstScores (1 : Matrix (Fin 2) (Fin 2) ℝ) (c60Data 18))
    ((argsortStable (WithTop (WithTop ℝ))).toFun (out.map nanLast)) = H at hsel ⊢
  rw [c205_scores] at hsel ⊢
  obtain ⟨cut, hcut, h1, h8⟩ := c205_cutoff
  refine ⟨?_, fun w V A k hE hk => ?_⟩
  · rw [npCov_perm hsel, hcov]
    exact simpleSpectrum_two_diag _ (by simp)
  rw [sortedEigen_perm hsel, sortedEigen_diag rfl le_rfl (by simp) hmono hcov] at hE
  have hV : V = [![0, 1], ![1, 0]] := by
    rw [← colsOf_one_two]
    exact (congrArg (fun q => q.2.1) (Except.ok.inj hE)).symm
  have hk1 : k = 1 := by
    simpa [pickK] using hk.symm
  subst hV hk1
  refine ⟨?_, fun _ w2 V2 A2 _ M _ => simpleSpectrum_short ?_ M⟩
  · have hod : [![(0:ℝ), 15], ![0, -3], ![1, -3], ![-1, -3], ![8, -3], ![-8, -3]].map (orthDistRow 0 [![(0:ℝ), 1]]) = [0, 0, 1, 1, 8, 8] := by
      simp only [List.map_cons, List.map_nil, orthDist_e2]
      norm_num
    have hkeep : Spec.closeRows (stdDeps c61Rng.toChoice (fun _ => 0) (fun _ => false) none (argsortStable _) (argsortStable _) eighDiag 5 2
        (fun _ _ => 1) (fun _ => 1) fun Z => .ok (npCov Z)) ([![(0:ℝ), 1], ![1, 0]].take 1)
        [![(0:ℝ), 15], ![0, -3], ![1, -3], ![-1, -3], ![8, -3], ![-8, -3]] = [![(0:ℝ), 15], ![0, -3], ![1, -3], ![-1, -3]] := by
      have e0 : belowCutoff (some cut) 0 = true := by simp [belowCutoff]; linarith
      have e1 : belowCutoff (some cut) 1 = true := by simp [belowCutoff, h1]
      have e8 : belowCutoff (some cut) 8 = false := by simp [belowCutoff, h8.le]
      have a8 : |(8:ℝ)| = 8 := by norm_num
      unfold Spec.closeRows
      simp only [List.take_succ_cons, List.take_zero, hmean, hod, stdDeps, hcut]
      simp only [List.filter_cons, orthDist_e2, abs_zero, abs_neg, abs_one, a8, e0, e1, e8, if_true, List.filter_nil]
      simp
    rw [hkeep]
    refine simpleSpectrum_two_diag _ ?_
    norm_num [npCov, meanRow, mean]
  · rw [List.length_take]
    exact le_trans (min_le_left _ _) (min_le_left _ _)

/-- The hypotheses of `C205_rotation` for six rows, turned and shifted, with one loading vector of the opposite sign. -/
example : Spec.sameOutcome (fun s u => Spec.upToSign (Spec.movePCA 1 !![3 / 5, -4 / 5; 4 / 5, 3 / 5] ![1, 2] s) u)
    (robpcaFit (stdDeps c61Rng.toChoice (fun _ => 0) (fun _ => false) none (argsortStable _) (argsortStable _) eighDiag 5 2
      (fun _ _ => 1) (fun _ => 1) fun Z => .ok (npCov Z)) 1 (4 / 5) true (1 : Matrix (Fin 2) (Fin 2) ℝ) ⟨some 1, none, none, none⟩ (c60Data 18))
    (robpcaFit (stdDeps c61Rng.toChoice (fun _ => 0) (fun _ => false) none (argsortStable _) (argsortStable _) eighDiag 5 2
      (fun _ _ => 1) (fun _ => 1) fun Z => .ok (npCov Z)) 1 (4 / 5) true
      (!![3 / 5, -4 / 5; 4 / 5, 3 / 5] * (1 : Matrix (Fin 2) (Fin 2) ℝ) * (Matrix.diagonal ![1, -1])ᵀ) ⟨some 1, none, none, none⟩
      ((c60Data 18).map fun x => !![3 / 5, -4 / 5; 4 / 5, 3 / 5] *ᵥ x + ![1, 2])) := by
  refine C205_rotation c61Rng.toChoice (fun _ => 0) (fun _ => false) none (argsortStable _) (argsortStable _) eighDiag 5 2
    (fun _ _ => 1) (fun _ => 1) (fun Z => .ok (npCov Z)) 1 (4 / 5) true (fun _ => npCov_followsSigns) ?_
    (diag_signs_orth fun i => by fin_cases i <;> simp) ![1, 2] 1 _ (c60Data 18) (by simp [c60Data]) ?_
  · ext i j
    fin_cases i <;> fin_cases j <;> norm_num [Matrix.mul_apply, Fin.sum_univ_two]
  exact fun out h => c205_different out h

end Robpy
