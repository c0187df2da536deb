import Verif.Props.RowOrder

/-! C167: the deterministic covariance estimators and the order of the columns. -/

namespace Robpy
open Matrix

section
variable {p : ℕ}

/-- The matrix which reorders the columns of a data matrix by `σ` and flips signs by `t`. -/
def spMat (σ : Equiv.Perm (Fin p)) (t : Fin p → ℝ) : Matrix (Fin p) (Fin p) ℝ := fun i j => if i = σ j then t j else 0

theorem vecMul_spMat (σ : Equiv.Perm (Fin p)) (t : Fin p → ℝ) (x : Fin p → ℝ) (j : Fin p) :
    (x ᵥ* spMat σ t) j = x (σ j) * t j := by
  simp [Matrix.vecMul, dotProduct, spMat]

theorem mulVec_spMat (σ : Equiv.Perm (Fin p)) (t : Fin p → ℝ) (x : Fin p → ℝ) (j : Fin p) :
    ((spMat σ t)ᵀ *ᵥ x) j = x (σ j) * t j := by
  rw [Matrix.mulVec_transpose, vecMul_spMat]

theorem spMat_conj (σ : Equiv.Perm (Fin p)) (t : Fin p → ℝ) (A : Matrix (Fin p) (Fin p) ℝ) (i j : Fin p) :
    ((spMat σ t)ᵀ * A * spMat σ t) i j = t i * A (σ i) (σ j) * t j := by
  simp [Matrix.mul_apply, spMat, Matrix.transpose_apply]

/-- Signs. -/
def Signs (t : Fin p → ℝ) : Prop := ∀ j, t j = 1 ∨ t j = -1

theorem Signs.sq {t : Fin p → ℝ} (h : Signs t) (j : Fin p) : t j * t j = 1 := by
  rcases h j with e | e <;> rw [e] <;> norm_num

theorem spMat_orth (σ : Equiv.Perm (Fin p)) {t : Fin p → ℝ} (h : Signs t) : (spMat σ t)ᵀ * spMat σ t = 1 := by
  ext i j
  have := spMat_conj σ t 1 i j
  rw [Matrix.mul_one] at this
  rw [this]
  by_cases hij : i = j
  · subst hij; simp [h.sq]
  · simp [Matrix.one_apply, hij]

theorem spMat_orth' (σ : Equiv.Perm (Fin p)) {t : Fin p → ℝ} (h : Signs t) : spMat σ t * (spMat σ t)ᵀ = 1 :=
  mul_eq_one_comm.1 (spMat_orth σ h)

namespace Spec

/-- All eigenvalues of a symmetric matrix are different. -/
def simpleSpectrum (A : Matrix (Fin p) (Fin p) ℝ) : Prop :=
  ∀ (V : Matrix (Fin p) (Fin p) ℝ) (w : Fin p → ℝ), Vᵀ * V = 1 → A = V * Matrix.diagonal w * Vᵀ → Function.Injective w

/-- The pairwise robust correlation matrix of Gnanadesikan and Kettenring: from the scales of sums and differences of standardised
columns; ones on the diagonal. -/
noncomputable def pairwiseCor (est : List ℝ → ℝ) (Z : List (Fin p → ℝ)) : Matrix (Fin p) (Fin p) ℝ := fun i j =>
  let y := fun (z : Fin p → ℝ) k => z k / est (Z.map fun z => z k)
  let a := est (Z.map fun z => y z i + y z j) ^ 2
  let b := est (Z.map fun z => y z i - y z j) ^ 2
  if i = j then 1 else (a - b) / (a + b)

end Spec

/-- Eigenvectors are unique up to order and sign if the eigenvalues are different. -/
theorem eigen_unique {A : Matrix (Fin p) (Fin p) ℝ} {V V' : Matrix (Fin p) (Fin p) ℝ} {w w' : Fin p → ℝ} (hV : Vᵀ * V = 1)
    (hV' : V'ᵀ * V' = 1) (hA : A = V * Matrix.diagonal w * Vᵀ) (hA' : A = V' * Matrix.diagonal w' * V'ᵀ)
    (hw : Function.Injective w) : ∃ σ : Equiv.Perm (Fin p), ∃ t, Signs t ∧ V' = V * spMat σ t := by
  have hV2 : V * Vᵀ = 1 := mul_eq_one_comm.1 hV
  set Q := Vᵀ * V' with hQ
  have hQQ : Qᵀ * Q = 1 := by
    rw [hQ, Matrix.transpose_mul, Matrix.transpose_transpose, Matrix.mul_assoc, ← Matrix.mul_assoc V, hV2, Matrix.one_mul, hV']
  have hcomm : Matrix.diagonal w * Q = Q * Matrix.diagonal w' := by
    have h1 : Vᵀ * A * V' = Matrix.diagonal w * Q := by
      rw [hA, hQ]; simp only [← Matrix.mul_assoc]; rw [hV, Matrix.one_mul]
    have h2 : Vᵀ * A * V' = Q * Matrix.diagonal w' := by
      rw [hA', hQ]; simp only [Matrix.mul_assoc]; rw [hV', Matrix.mul_one]
    rw [← h1, h2]
  have hent : ∀ i j, Q i j ≠ 0 → w i = w' j := by
    intro i j h
    have := congrFun (congrFun hcomm i) j
    rw [Matrix.diagonal_mul, Matrix.mul_diagonal, mul_comm (Q i j)] at this
    exact mul_right_cancel₀ h this
  have hdot : ∀ j k, ∑ i, Q i j * Q i k = if j = k then 1 else 0 := by
    intro j k
    have := congrFun (congrFun hQQ j) k
    rw [Matrix.mul_apply] at this
    simpa [Matrix.one_apply] using this
  have hex : ∀ j, ∃ i, Q i j ≠ 0 := by
    intro j
    by_contra h
    push Not at h
    have := hdot j j
    simp [h] at this
  choose s hs using hex
  have hzero : ∀ i j, i ≠ s j → Q i j = 0 := by
    intro i j hij
    by_contra h
    exact hij (hw ((hent i j h).trans (hent (s j) j (hs j)).symm))
  have hsum : ∀ j k, ∑ i, Q i j * Q i k = Q (s j) j * Q (s j) k := fun j k =>
    Finset.sum_eq_single (s j) (fun i _ hi => by rw [hzero i j hi, zero_mul]) (fun h => absurd (Finset.mem_univ _) h)
  have hinj : Function.Injective s := by
    intro j k hjk
    by_contra hne
    have := hdot j k
    rw [hsum, if_neg hne] at this
    rcases mul_eq_zero.1 this with h | h
    · exact hs j h
    · exact hs k (hjk ▸ h)
  have hbij : Function.Bijective s := Finite.injective_iff_bijective.1 hinj
  refine ⟨Equiv.ofBijective s hbij, fun j => Q (s j) j, fun j => ?_, ?_⟩
  · have := hdot j j
    rw [hsum, if_pos rfl] at this
    exact mul_self_eq_one_iff.1 this
  · have hQsp : Q = spMat (Equiv.ofBijective s hbij) fun j => Q (s j) j := by
      ext i j
      unfold spMat
      split_ifs with h
      · rw [h]; rfl
      · exact hzero i j h
    rw [← hQsp, hQ, ← Matrix.mul_assoc, hV2, Matrix.one_mul]

/-- One pass of OGK on reordered and reflected columns, with any two routines for the eigenvectors. -/
theorem ogkStep_cols (eigh eigh' : ∀ A : Matrix (Fin p) (Fin p) ℝ, A.IsSymm → Eigh A) {est : List ℝ → ℝ}
    (hest : ∀ l : List ℝ, est (l.map fun x => -x) = est l) (σ : Equiv.Perm (Fin p)) {t : Fin p → ℝ} (ht : Signs t)
    (Z : List (Fin p → ℝ)) (hsimple : Spec.simpleSpectrum (Spec.pairwiseCor est Z)) :
    (ogkStep eigh est Z = none ∧ ogkStep eigh' est (Z.map fun z => z ᵥ* spMat σ t) = none) ∨
      ∃ Y M, ∃ σ2 : Equiv.Perm (Fin p), ∃ t2, Signs t2 ∧ ogkStep eigh est Z = some (Y, M) ∧
        ogkStep eigh' est (Z.map fun z => z ᵥ* spMat σ t) =
          some (Y.map fun y => y ᵥ* spMat σ2 t2, (spMat σ t)ᵀ * M * spMat σ2 t2) := by
  have hsgn : ∀ (f : (Fin p → ℝ) → ℝ) (c : ℝ), c = 1 ∨ c = -1 → ∀ L : List (Fin p → ℝ),
      est (L.map fun z => f z * c) = est (L.map f) := by
    intro f c hc L
    rcases hc with rfl | rfl
    · simp
    · have := hest (L.map f)
      rw [List.map_map] at this
      rw [← this]
      simp [Function.comp_def]
  have hs : ∀ i, est (column (Z.map fun z => z ᵥ* spMat σ t) i) = est (column Z (σ i)) := by
    intro i
    simp only [column, List.map_map, Function.comp_def, vecMul_spMat]
    exact hsgn (fun z => z (σ i)) (t i) (ht i) Z
  set s : Fin p → ℝ := fun i => est (column Z i) with hsd
  set Y := Z.map fun z j => z j / s j with hYd
  have hY' : ((Z.map fun z => z ᵥ* spMat σ t).map fun z j => z j / s (σ j)) = Y.map fun y => y ᵥ* spMat σ t := by
    rw [hYd, List.map_map, List.map_map]
    refine List.map_congr_left fun z _ => ?_
    funext j
    simp only [Function.comp, vecMul_spMat]
    ring
  set sum : Fin p → Fin p → ℝ := fun i j => est (Y.map fun y => y i + y j) with hsumd
  set diff : Fin p → Fin p → ℝ := fun i j => est (Y.map fun y => y i - y j) with hdiffd
  have hsumc : ∀ i j, sum i j = sum j i := fun i j => by simp only [hsumd, add_comm]
  have hdiffc : ∀ i j, diff i j = diff j i := fun i j => by
    have := hsgn (fun y => y i - y j) (-1) (Or.inr rfl) Y
    simp only [hdiffd]
    rw [← this]
    congr 1
    exact List.map_congr_left fun y _ => by ring
  -- sums and differences of the new columns
  have hpair : ∀ i j, (est ((Y.map fun y => y ᵥ* spMat σ t).map fun y => y i + y j) = sum (σ i) (σ j) ∧
      est ((Y.map fun y => y ᵥ* spMat σ t).map fun y => y i - y j) = diff (σ i) (σ j) ∧ t i * t j = 1) ∨
      (est ((Y.map fun y => y ᵥ* spMat σ t).map fun y => y i + y j) = diff (σ i) (σ j) ∧
      est ((Y.map fun y => y ᵥ* spMat σ t).map fun y => y i - y j) = sum (σ i) (σ j) ∧ t i * t j = -1) := by
    intro i j
    simp only [List.map_map, Function.comp_def, vecMul_spMat]
    by_cases hij : t i = t j
    · refine .inl ⟨?_, ?_, by rw [hij]; exact ht.sq j⟩
      · refine Eq.trans ?_ (hsgn (fun y => y (σ i) + y (σ j)) (t j) (ht j) Y)
        congr 1
        refine List.map_congr_left fun y _ => ?_
        rw [hij]; ring
      · refine Eq.trans ?_ (hsgn (fun y => y (σ i) - y (σ j)) (t j) (ht j) Y)
        congr 1
        refine List.map_congr_left fun y _ => ?_
        rw [hij]; ring
    · have hij' : t i = -t j := by
        rcases ht i with a | a <;> rcases ht j with b | b <;> rw [a, b] at hij ⊢ <;> simp_all
      refine .inr ⟨?_, ?_, by rw [hij', neg_mul, ht.sq j]⟩
      · refine Eq.trans ?_ (hsgn (fun y => y (σ i) - y (σ j)) (t i) (ht i) Y)
        congr 1
        refine List.map_congr_left fun y _ => ?_
        rw [hij']; ring
      · refine Eq.trans ?_ (hsgn (fun y => y (σ i) + y (σ j)) (t i) (ht i) Y)
        congr 1
        refine List.map_congr_left fun y _ => ?_
        rw [hij']; ring
  set cor : Fin p → Fin p → ℝ := fun i j => (sum i j ^ 2 - diff i j ^ 2) / (sum i j ^ 2 + diff i j ^ 2) with hcord
  have hcorc : ∀ i j, cor i j = cor j i := fun i j => by simp only [hcord, hsumc i j, hdiffc i j]
  set sum' : Fin p → Fin p → ℝ := fun i j => est ((Y.map fun y => y ᵥ* spMat σ t).map fun y => y i + y j) with hsumd'
  set diff' : Fin p → Fin p → ℝ := fun i j => est ((Y.map fun y => y ᵥ* spMat σ t).map fun y => y i - y j) with hdiffd'
  set cor' : Fin p → Fin p → ℝ := fun i j => (sum' i j ^ 2 - diff' i j ^ 2) / (sum' i j ^ 2 + diff' i j ^ 2) with hcord'
  have hcor' : ∀ i j, cor' i j = t i * cor (σ i) (σ j) * t j := by
    intro i j
    have e : t i * cor (σ i) (σ j) * t j = (t i * t j) * cor (σ i) (σ j) := by ring
    rw [e]
    rcases hpair i j with ⟨a, b, c⟩ | ⟨a, b, c⟩
    · rw [c, one_mul]; simp only [hcord', hsumd', hdiffd', hcord, a, b]
    · rw [c]; simp only [hcord', hsumd', hdiffd', hcord, a, b]; ring
  have hden : ∀ i j, sum' i j ^ 2 + diff' i j ^ 2 = sum (σ i) (σ j) ^ 2 + diff (σ i) (σ j) ^ 2 := by
    intro i j
    rcases hpair i j with ⟨a, b, -⟩ | ⟨a, b, -⟩
    · simp only [hsumd', hdiffd', a, b]
    · simp only [hsumd', hdiffd', a, b]; ring
  have hbad : ((∃ i, s (σ i) = 0) ∨ ∃ i j, j < i ∧ sum' i j ^ 2 + diff' i j ^ 2 = 0) ↔
      ((∃ i, s i = 0) ∨ ∃ i j, j < i ∧ sum i j ^ 2 + diff i j ^ 2 = 0) := by
    refine or_congr ⟨fun ⟨i, h⟩ => ⟨σ i, h⟩, fun ⟨i, h⟩ => ⟨σ.symm i, by rwa [Equiv.apply_symm_apply]⟩⟩ ?_
    constructor
    · rintro ⟨i, j, hij, h⟩
      rw [hden] at h
      rcases lt_or_gt_of_ne (fun e => hij.ne (σ.injective e) : σ j ≠ σ i) with h1 | h1
      · exact ⟨_, _, h1, h⟩
      · exact ⟨_, _, h1, by rwa [hsumc, hdiffc]⟩
    · rintro ⟨i, j, hij, h⟩
      have hne : σ.symm j ≠ σ.symm i := fun e => hij.ne (σ.symm.injective e)
      rcases lt_or_gt_of_ne hne with h1 | h1
      · exact ⟨_, _, h1, by rw [hden, Equiv.apply_symm_apply, Equiv.apply_symm_apply]; exact h⟩
      · exact ⟨_, _, h1, by rw [hden, Equiv.apply_symm_apply, Equiv.apply_symm_apply, hsumc, hdiffc]; exact h⟩
  have hU : ogkU cor = Spec.pairwiseCor est Z := by
    ext i j
    unfold ogkU Spec.pairwiseCor
    simp only
    split_ifs with h1 h2
    · rfl
    · simp only [hcord, hsumd, hdiffd, hYd, List.map_map]; rfl
    · rw [← hcorc i j]; simp only [hcord, hsumd, hdiffd, hYd, List.map_map]; rfl
  have hU' : ogkU cor' = (spMat σ t)ᵀ * ogkU cor * spMat σ t := by
    ext i j
    rw [spMat_conj]
    have hfull : ∀ a b, ogkU cor a b = if a = b then 1 else cor a b := fun a b => by
      unfold ogkU
      split_ifs <;> first | rfl | exact hcorc _ _
    rw [hfull]
    unfold ogkU
    by_cases hij : i = j
    · subst hij; simp [ht.sq]
    · rw [if_neg hij, if_neg fun e => hij (σ.injective e)]
      split_ifs
      · exact hcor' i j
      · rw [hcor' j i, hcorc (σ j) (σ i)]; ring
  have hst : ogkStep eigh est Z = if (∃ i, s i = 0) ∨ ∃ i j, j < i ∧ sum i j ^ 2 + diff i j ^ 2 = 0 then none
      else some (Y.map fun y => y ᵥ* ogkE eigh cor, Matrix.diagonal s * ogkE eigh cor) := rfl
  have hst' : ogkStep eigh' est (Z.map fun z => z ᵥ* spMat σ t) =
      if (∃ i, s (σ i) = 0) ∨ ∃ i j, j < i ∧ sum' i j ^ 2 + diff' i j ^ 2 = 0 then none
      else some ((Y.map fun y => y ᵥ* spMat σ t).map fun y => y ᵥ* ogkE eigh' cor',
        Matrix.diagonal (fun i => s (σ i)) * ogkE eigh' cor') := by
    unfold ogkStep
    simp only [hs]
    have : ((Z.map fun z => z ᵥ* spMat σ t).map fun z j => z j / est (column Z (σ j))) = Y.map fun y => y ᵥ* spMat σ t := hY'
    simp only [this]
    rfl
  rw [hst, hst']
  by_cases hb : (∃ i, s i = 0) ∨ ∃ i j, j < i ∧ sum i j ^ 2 + diff i j ^ 2 = 0
  · exact .inl ⟨if_pos hb, if_pos (hbad.2 hb)⟩
  rw [if_neg hb, if_neg fun h => hb (hbad.1 h)]
  right
  -- the eigenvectors
  set E := ogkE eigh cor with hE
  set E' := ogkE eigh' cor' with hE'
  have hrev : ∀ (A : Matrix (Fin p) (Fin p) ℝ) (e : Eigh A), (e.V.submatrix id Fin.rev)ᵀ * e.V.submatrix id Fin.rev = 1 ∧
      A = e.V.submatrix id Fin.rev * Matrix.diagonal (fun i => e.w i.rev) * (e.V.submatrix id Fin.rev)ᵀ := by
    intro A e
    refine ⟨mul_eq_one_comm.1 (eighRev_orth e), ?_⟩
    conv_lhs => rw [e.decomp]
    have h1 : e.V.submatrix id Fin.rev = e.V.submatrix id (Fin.revPerm : Equiv.Perm (Fin p)) := rfl
    have h2 : Matrix.diagonal (fun i => e.w (Fin.rev i)) =
        (Matrix.diagonal e.w).submatrix (Fin.revPerm : Equiv.Perm (Fin p)) (Fin.revPerm : Equiv.Perm (Fin p)) := by
      rw [Matrix.submatrix_diagonal_equiv]; rfl
    rw [h1, h2, Matrix.transpose_submatrix, Matrix.submatrix_mul_equiv, Matrix.submatrix_mul_equiv, Matrix.submatrix_id_id]
  obtain ⟨ho, hd⟩ := hrev _ (eigh (ogkU cor) (ogkU_isSymm cor))
  obtain ⟨ho', hd'⟩ := hrev _ (eigh' (ogkU cor') (ogkU_isSymm cor'))
  have hPP := spMat_orth' σ ht
  obtain ⟨σ2, t2, ht2, hEE⟩ := eigen_unique (A := ogkU cor) (V := E) (V' := spMat σ t * E')
    (w := fun i => (eigh (ogkU cor) (ogkU_isSymm cor)).w i.rev) (w' := fun i => (eigh' (ogkU cor') (ogkU_isSymm cor')).w i.rev) ho
    (by rw [Matrix.transpose_mul, Matrix.mul_assoc, ← Matrix.mul_assoc (spMat σ t)ᵀ, spMat_orth σ ht, Matrix.one_mul]; exact ho') hd
    (by
      have : spMat σ t * ogkU cor' * (spMat σ t)ᵀ = ogkU cor := by
        rw [hU']
        simp only [Matrix.mul_assoc]
        rw [hPP, Matrix.mul_one, ← Matrix.mul_assoc, hPP, Matrix.one_mul]
      rw [← this]
      conv_lhs => rw [hd']
      simp only [Matrix.transpose_mul, Matrix.mul_assoc]
      rfl)
    (hsimple _ _ ho (by rw [← hU]; exact hd))
  refine ⟨_, _, σ2, t2, ht2, rfl, ?_⟩
  congr 2
  · rw [List.map_map (l := Y), List.map_map (l := Y)]
    refine List.map_congr_left fun y _ => ?_
    simp only [Function.comp]
    rw [Matrix.vecMul_vecMul, Matrix.vecMul_vecMul, hEE]
  · rw [Matrix.mul_assoc, Matrix.mul_assoc, ← hEE, ← Matrix.mul_assoc, ← Matrix.mul_assoc, ]
    congr 1
    ext i j
    rw [spMat_conj]
    by_cases hij : i = j
    · subst hij; simp only [Matrix.diagonal_apply_eq]; rw [mul_right_comm, ht.sq, one_mul]
    · rw [Matrix.diagonal_apply_ne _ hij, Matrix.diagonal_apply_ne _ fun e => hij (σ.injective e)]; ring

/-- The condition of C167 for OGK: in every pass the pairwise correlation matrix has different eigenvalues. -/
def Spec.simplePasses (eigh : ∀ A : Matrix (Fin p) (Fin p) ℝ, A.IsSymm → Eigh A) (est : List ℝ → ℝ) :
    ℕ → List (Fin p → ℝ) → Prop
  | 0, _ => True
  | k + 1, Z => Spec.simpleSpectrum (Spec.pairwiseCor est Z) ∧
      ∀ r, ogkStep eigh est Z = some r → Spec.simplePasses eigh est k r.1

theorem ogkRaw_cols (eigh eigh' : ∀ A : Matrix (Fin p) (Fin p) ℝ, A.IsSymm → Eigh A) {loc est : List ℝ → ℝ}
    (hest : ∀ l : List ℝ, est (l.map fun x => -x) = est l) (hloc : ∀ l : List ℝ, loc (l.map fun x => -x) = -loc l) (k : ℕ)
    (σ : Equiv.Perm (Fin p)) {t : Fin p → ℝ} (ht : Signs t) (Z : List (Fin p → ℝ)) (hs : Spec.simplePasses eigh est k Z) :
    ogkRaw eigh' loc est k (Z.map fun z => z ᵥ* spMat σ t) =
      (ogkRaw eigh loc est k Z).map fun q => ((spMat σ t)ᵀ *ᵥ q.1, (spMat σ t)ᵀ * q.2 * spMat σ t) := by
  induction k generalizing Z σ t with
  | zero =>
    simp only [ogkRaw, ogkLoop, Option.map_some, List.foldr_nil]
    have hcol : ∀ i, column (Z.map fun z => z ᵥ* spMat σ t) i = (column Z (σ i)).map fun x => x * t i := fun i => by
      simp only [column, List.map_map, Function.comp_def, vecMul_spMat]
    congr 2
    · funext i
      rw [mulVec_spMat, hcol]
      rcases ht i with e | e <;> rw [e]
      · simp
      · simp [hloc]
    · ext i j
      rw [spMat_conj]
      by_cases hij : i = j
      · subst hij
        simp only [Matrix.diagonal_apply_eq]
        rw [hcol, mul_right_comm, ht.sq, one_mul]
        rcases ht i with e | e <;> rw [e]
        · simp
        · simp [hest]
      · rw [Matrix.diagonal_apply_ne _ hij, Matrix.diagonal_apply_ne _ fun e => hij (σ.injective e)]; ring
  | succ k ih =>
    obtain ⟨h1, h2⟩ := hs
    rw [ogkRaw_succ, ogkRaw_succ]
    rcases ogkStep_cols eigh eigh' hest σ ht Z h1 with ⟨e1, e2⟩ | ⟨Y, M, σ2, t2, ht2, e1, e2⟩
    · rw [e1, e2]; rfl
    · rw [e1, e2]
      simp only [Option.bind_some]
      rw [ih σ2 ht2 Y (h2 _ e1), Option.map_map, Option.map_map]
      congr 1
      funext q
      have ho := spMat_orth' σ2 ht2
      simp only [Function.comp]
      congr 1
      · rw [Matrix.mulVec_mulVec, Matrix.mulVec_mulVec, Matrix.mul_assoc, ho, Matrix.mul_one]
      · simp only [Matrix.transpose_mul, Matrix.transpose_transpose, Matrix.mul_assoc]
        rw [← Matrix.mul_assoc (spMat σ2 t2) (spMat σ2 t2)ᵀ, ho, Matrix.one_mul, ← Matrix.mul_assoc (spMat σ2 t2) (spMat σ2 t2)ᵀ, ho,
          Matrix.one_mul]

/-! ### Reordered columns -/

/-- Data with the columns in another order. -/
def Spec.reCols {K : Type} (σ : Equiv.Perm (Fin p)) (X : List (Fin p → K)) : List (Fin p → K) := X.map fun x j => x (σ j)

/-- The fitted attributes with the columns in another order; the distances of the rows are the same. -/
def Spec.reState (σ : Equiv.Perm (Fin p)) (st : CovState ℝ (Fin p)) : CovState ℝ (Fin p) :=
  ⟨st.location_.map fun l j => l (σ j), st.covariance_.map fun A i j => A (σ i) (σ j),
    st.correlation_.map fun A i j => A (σ i) (σ j), st.robustDist, st.classicDist⟩

theorem spMat_one (σ : Equiv.Perm (Fin p)) (x : Fin p → ℝ) : x ᵥ* spMat σ (fun _ => 1) = fun j => x (σ j) := by
  funext j; rw [vecMul_spMat, mul_one]

theorem reCols_eq (σ : Equiv.Perm (Fin p)) (X : List (Fin p → ℝ)) :
    Spec.reCols σ X = X.map fun x => x ᵥ* spMat σ (fun _ => 1) := by simp only [Spec.reCols, spMat_one]

theorem column_reCols (σ : Equiv.Perm (Fin p)) (X : List (Fin p → ℝ)) (j : Fin p) :
    column (Spec.reCols σ X) j = column X (σ j) := by simp [column, Spec.reCols, Function.comp_def]

theorem meanRow_reCols (σ : Equiv.Perm (Fin p)) (X : List (Fin p → ℝ)) :
    meanRow (Spec.reCols σ X) = fun j => meanRow X (σ j) := by
  funext j; simp [meanRow, Spec.reCols, Function.comp_def]

theorem npCov_reCols (σ : Equiv.Perm (Fin p)) (X : List (Fin p → ℝ)) :
    npCov (Spec.reCols σ X) = fun i j => npCov X (σ i) (σ j) := by
  funext i j
  simp only [npCov, meanRow_reCols]
  simp [Spec.reCols, Function.comp_def]

theorem sqMahalanobis_reCols (σ : Equiv.Perm (Fin p)) (X : List (Fin p → ℝ)) (loc : Fin p → ℝ) (A : Matrix (Fin p) (Fin p) ℝ) :
    sqMahalanobis (Spec.reCols σ X) (fun j => loc (σ j)) (fun i j => A (σ i) (σ j)) = sqMahalanobis X loc A := by
  have hsub : (fun i j => A (σ i) (σ j) : Matrix (Fin p) (Fin p) ℝ) = A.submatrix σ σ := rfl
  have hdet : (A.submatrix σ σ).det = A.det := Matrix.det_submatrix_equiv_self σ A
  rw [hsub]
  by_cases h : A.det = 0
  · rw [sqMahalanobis_singular h, sqMahalanobis_singular (hdet.trans h)]
  · rw [sqMahalanobis_eq h, sqMahalanobis_eq (hdet.trans_ne h)]
    congr 1
    rw [Spec.reCols, List.map_map]
    refine List.map_congr_left fun x _ => ?_
    simp only [Function.comp]
    rw [Matrix.inv_submatrix_equiv]
    have e1 : ((fun j => x (σ j)) - fun j => loc (σ j)) = (x - loc) ∘ σ := rfl
    rw [e1]
    simp only [quadForm]
    have e2 : ((x - loc) ∘ σ) ᵥ* (A⁻¹).submatrix σ σ = ((x - loc) ᵥ* A⁻¹) ∘ σ := by
      funext j
      simp only [Matrix.vecMul, dotProduct, Matrix.submatrix_apply, Function.comp]
      exact Equiv.sum_comp σ fun i => (x - loc) i * A⁻¹ i (σ j)
    rw [e2]
    exact Equiv.sum_comp σ fun i => ((x - loc) ᵥ* A⁻¹) i * (x - loc) i

/-- An estimator whose `calculate_covariance` follows a reordering of the columns on the given data. -/
def FollowsCols (σ : Equiv.Perm (Fin p)) (cc cc' : CalcCov ℝ (Fin p)) (X : List (Fin p → ℝ)) : Prop :=
  ∀ st, cc' (Spec.reCols σ X) (Spec.reState σ st) =
    ((cc X st).1.map fun o => o.map fun A i j => A (σ i) (σ j), Spec.reState σ (cc X st).2)

/-- `fit` inherits this from `calculate_covariance`. -/
theorem covFit_cols (assumeCentered : Bool) (cc cc' : CalcCov ℝ (Fin p)) (σ : Equiv.Perm (Fin p)) (st : CovState ℝ (Fin p))
    (cells : List (Fin p → Option ℝ)) (hc : FollowsCols σ cc cc' (cells.map fun r j => (r j).getD 0)) :
    covFit assumeCentered cc' (Spec.reState σ st) (Spec.reCols σ cells) =
      ((covFit assumeCentered cc st cells).1, Spec.reState σ (covFit assumeCentered cc st cells).2) := by
  unfold covFit
  have hv : (Spec.reCols σ cells = [] ∨ ∃ r ∈ Spec.reCols σ cells, ∃ j, r j = none) ↔ (cells = [] ∨ ∃ r ∈ cells, ∃ j, r j = none) := by
    refine or_congr (by simp [Spec.reCols]) ?_
    simp only [Spec.reCols, List.mem_map]
    constructor
    · rintro ⟨_, ⟨r, hr, rfl⟩, j, hj⟩; exact ⟨r, hr, σ j, hj⟩
    · rintro ⟨r, hr, j, hj⟩; exact ⟨_, ⟨r, hr, rfl⟩, σ.symm j, by simpa using hj⟩
  by_cases hb : cells = [] ∨ ∃ r ∈ cells, ∃ j, r j = none
  · rw [if_pos hb, if_pos (hv.2 hb)]
  rw [if_neg hb, if_neg fun h => hb (hv.1 h)]
  have hX : ((Spec.reCols σ cells).map fun r j => (r j).getD 0) = Spec.reCols σ (cells.map fun r j => (r j).getD 0) := by
    simp [Spec.reCols, Function.comp_def]
  rw [hX]
  generalize (cells.map fun r j => (r j).getD 0) = X at hc
  unfold covFitValid
  simp only [meanRow_reCols, npCov_reCols]
  have hst1 : ({ Spec.reState σ st with location_ := some (if assumeCentered then fun _ => 0 else fun j => meanRow X (σ j)) } :
      CovState ℝ (Fin p)) =
      Spec.reState σ { st with location_ := some (if assumeCentered then fun _ => 0 else meanRow X) } := by
    cases assumeCentered <;> rfl
  rw [hst1, hc]
  rcases cc X { st with location_ := some (if assumeCentered then fun _ => 0 else meanRow X) } with ⟨e | _ | cov, st2⟩
  · rfl
  · rfl
  · simp only [Except.map, Option.map_some]
    have hloc : ((Spec.reState σ st2).location_.getD fun _ => 0) = fun j => (st2.location_.getD fun _ => 0) (σ j) := by
      unfold Spec.reState
      rcases st2.location_ with _ | l <;> rfl
    rw [hloc, sqMahalanobis_reCols]
    rcases sqMahalanobis X (st2.location_.getD fun _ => 0) cov with e | d
    · rfl
    · simp only
      split_ifs with h1
      · rfl
      · rw [sqMahalanobis_reCols]
        rcases sqMahalanobis X (st2.location_.getD fun _ => 0) (npCov X) with e | d'
        · rfl
        · rfl

/-! ### The three estimators -/

theorem conMinusDis_swap (l : List (ℝ × ℝ)) : conMinusDis (l.map Prod.swap) = conMinusDis l := by
  induction l with
  | nil => rfl
  | cons a l ih => simp only [List.map_cons, conMinusDis, ih, List.map_map, Function.comp_def, Prod.fst_swap, Prod.snd_swap, mul_comm]

theorem kendallTau_comm (x y : List ℝ) : kendallTau x y = kendallTau y x := by
  unfold kendallTau
  rw [← List.zip_swap y x, conMinusDis_swap]
  by_cases h : untied x = 0 ∨ untied y = 0
  · rw [if_pos h, if_pos h.symm]
  · rw [if_neg h, if_neg fun e => h e.symm]
    congr 1
    ring

/-- **C167** for `KendallTau`. -/
theorem kendallCalc_cols {scale : List ℝ → Except PyErr ℝ} (σ : Equiv.Perm (Fin p)) (X : List (Fin p → ℝ))
    (hs : ∀ j, ∃ s, scale (column X j) = .ok s) : FollowsCols σ (kendallCalc scale) (kendallCalc scale) X := by
  intro st
  choose s hs using hs
  have hm : ∀ l : List (Fin p), mapExcept scale (l.map (column X)) = .ok (l.map s) := by
    intro l
    induction l with
    | nil => rfl
    | cons j l ih => simp only [List.map_cons, mapExcept, hs, ih]; rfl
  have hm' : ∀ l : List (Fin p), mapExcept scale (l.map (column (Spec.reCols σ X))) = .ok (l.map fun j => s (σ j)) := by
    intro l
    induction l with
    | nil => rfl
    | cons j l ih => simp only [List.map_cons, mapExcept, column_reCols, hs, ih]; rfl
  have hg : ∀ (f : Fin p → ℝ) (i : Fin p), (((List.finRange p).map f).getD i 0) = f i := fun f i => by
    simp [List.getD_eq_getElem?_getD]
  unfold kendallCalc
  rw [hm, hm']
  simp only [hg, column_reCols]
  have htau : ∀ i j : Fin p, (if i = j then some (1:ℝ)
      else if j < i then kendallTau (column X i) (column X j) else kendallTau (column X j) (column X i)) =
      if i = j then some 1 else kendallTau (column X i) (column X j) := by
    intro i j
    split_ifs
    · rfl
    · rfl
    · exact kendallTau_comm _ _
  have htau' : ∀ i j : Fin p, (if i = j then some (1:ℝ)
      else if j < i then kendallTau (column X (σ i)) (column X (σ j)) else kendallTau (column X (σ j)) (column X (σ i))) =
      if σ i = σ j then some 1 else kendallTau (column X (σ i)) (column X (σ j)) := by
    intro i j
    by_cases hij : i = j
    · rw [if_pos hij, if_pos (by rw [hij])]
    · rw [if_neg hij, if_neg fun e => hij (σ.injective e)]
      split_ifs
      · rfl
      · exact kendallTau_comm _ _
  simp only [htau, htau']
  have hex : (∃ i j, (if σ i = σ j then some (1:ℝ) else kendallTau (column X (σ i)) (column X (σ j))) = none) ↔
      ∃ i j, (if i = j then some (1:ℝ) else kendallTau (column X i) (column X j)) = none :=
    ⟨fun ⟨i, j, h⟩ => ⟨σ i, σ j, h⟩, fun ⟨i, j, h⟩ => ⟨σ.symm i, σ.symm j, by simpa using h⟩⟩
  by_cases hb : ∃ i j, (if i = j then some (1:ℝ) else kendallTau (column X i) (column X j)) = none
  · rw [if_pos hb, if_pos (hex.2 hb)]; rfl
  · rw [if_neg hb, if_neg fun h => hb (hex.1 h)]
    have hcov : ∀ (c : ℝ) (i j : Fin p), (if i = j then s (σ i) ^ 2 else if j < i then c * s (σ i) * s (σ j) else c * s (σ j) * s (σ i)) =
        if σ i = σ j then s (σ i) ^ 2 else if σ j < σ i then c * s (σ i) * s (σ j) else c * s (σ j) * s (σ i) := by
      intro c i j
      by_cases hij : i = j
      · rw [if_pos hij, if_pos (by rw [hij])]
      · rw [if_neg hij, if_neg fun e => hij (σ.injective e)]
        split_ifs <;> ring
    simp only [hcov]
    rfl

/-- **C167** for `WrappingCovariance`. -/
theorem wrappingCalc_cols (b c q1 q2 : ℝ) (le se : List ℝ → ℝ) (σ : Equiv.Perm (Fin p)) (X : List (Fin p → ℝ)) :
    FollowsCols σ (wrappingCalc b c q1 q2 le se) (wrappingCalc b c q1 q2 le se) X := by
  intro st
  have hW : wrappedRows b c q1 q2 le se (Spec.reCols σ X) = Spec.reCols σ (wrappedRows b c q1 q2 le se X) := by
    rw [wrappedRows_eq_map, wrappedRows_eq_map]
    simp only [column_reCols]
    simp [Spec.reCols, Function.comp_def]
  unfold wrappingCalc
  simp only [hW, npCov_reCols]
  have hl : (Spec.reCols σ X).length = X.length := by simp [Spec.reCols]
  rw [hl]
  split_ifs with h
  · rfl
  · rfl

/-- **C167** for `OGK`, with any two routines for the eigenvectors. -/
theorem ogkCalc_cols (eigh eigh' : ∀ A : Matrix (Fin p) (Fin p) ℝ, A.IsSymm → Eigh A) {loc est : List ℝ → ℝ}
    (hest : ∀ l : List ℝ, est (l.map fun x => -x) = est l) (hloc : ∀ l : List ℝ, loc (l.map fun x => -x) = -loc l) (k : ℕ)
    (reweighting : Bool) (ratio : ℝ) (σ : Equiv.Perm (Fin p)) (X : List (Fin p → ℝ)) (hs : Spec.simplePasses eigh est k X) :
    FollowsCols σ (ogkCalc eigh loc est k reweighting ratio) (ogkCalc eigh' loc est k reweighting ratio) X := by
  intro st
  have ht : Signs fun _ : Fin p => (1:ℝ) := fun _ => .inl rfl
  unfold ogkCalc
  have hraw := ogkRaw_cols eigh eigh' hest hloc k σ ht X hs
  rw [← reCols_eq] at hraw
  rw [hraw]
  rcases ogkRaw eigh loc est k X with _ | ⟨mu, cov⟩
  · rfl
  have e1 : (spMat σ fun _ => (1:ℝ))ᵀ *ᵥ mu = fun j => mu (σ j) := by
    funext j; rw [mulVec_spMat, mul_one]
  have e2 : (spMat σ fun _ => (1:ℝ))ᵀ * cov * spMat σ (fun _ => 1) = fun i j => cov (σ i) (σ j) := by
    ext i j; rw [spMat_conj, one_mul, mul_one]
  simp only [Option.map_some, e1, e2]
  cases reweighting
  · rfl
  · simp only [if_true]
    have hm : mahalanobis (Spec.reCols σ X) (fun j => mu (σ j)) (fun i j => cov (σ i) (σ j)) = mahalanobis X mu cov := by
      unfold mahalanobis; rw [sqMahalanobis_reCols]
    unfold ogkReweight
    rw [hm]
    rcases mahalanobis X mu cov with e | d
    · rfl
    · simp only [Except.map]
      have hr : ∀ mask, maskRows mask (Spec.reCols σ X) = Spec.reCols σ (maskRows mask X) := fun mask => maskRows_map_rows _ _ _
      have hl : ∀ rows : List (Fin p → ℝ), (Spec.reCols σ rows).length = rows.length := fun rows => by simp [Spec.reCols]
      rw [hr, hl, meanRow_reCols, npCov_reCols]
      split_ifs <;> rfl

/-- **C167**: reordering the columns reorders location, covariance and correlation and leaves the outcome and all distances as they
are.  For `KendallTau` the scale estimator must not raise on the columns; for `OGK` the scale must ignore and the location follow a
change of sign, and the pairwise correlation matrices must have different eigenvalues; then the result does not depend on the
routine for the eigenvectors either. -/
theorem C167_column_order (assumeCentered : Bool) (st : CovState ℝ (Fin p)) (cells : List (Fin p → Option ℝ))
    (σ : Equiv.Perm (Fin p)) :
    (∀ scale, (∀ l : List ℝ, l.length = cells.length → ∃ s, scale l = .ok s) →
      covFit assumeCentered (kendallCalc scale) (Spec.reState σ st) (Spec.reCols σ cells) =
        ((covFit assumeCentered (kendallCalc scale) st cells).1,
          Spec.reState σ (covFit assumeCentered (kendallCalc scale) st cells).2)) ∧
    (∀ b c q1 q2 le se, covFit assumeCentered (wrappingCalc b c q1 q2 le se) (Spec.reState σ st) (Spec.reCols σ cells) =
        ((covFit assumeCentered (wrappingCalc b c q1 q2 le se) st cells).1,
          Spec.reState σ (covFit assumeCentered (wrappingCalc b c q1 q2 le se) st cells).2)) ∧
    ∀ (eigh eigh' : ∀ A : Matrix (Fin p) (Fin p) ℝ, A.IsSymm → Eigh A) (loc est : List ℝ → ℝ),
      (∀ l : List ℝ, est (l.map fun x => -x) = est l) → (∀ l : List ℝ, loc (l.map fun x => -x) = -loc l) →
      ∀ k reweighting ratio, Spec.simplePasses eigh est k (cells.map fun r j => (r j).getD 0) →
      covFit assumeCentered (ogkCalc eigh' loc est k reweighting ratio) (Spec.reState σ st) (Spec.reCols σ cells) =
        ((covFit assumeCentered (ogkCalc eigh loc est k reweighting ratio) st cells).1,
          Spec.reState σ (covFit assumeCentered (ogkCalc eigh loc est k reweighting ratio) st cells).2) :=
  ⟨fun scale hs => covFit_cols _ _ _ σ st cells (kendallCalc_cols σ _ fun j => hs _ (by simp [column])),
    fun b c q1 q2 le se => covFit_cols _ _ _ σ st cells (wrappingCalc_cols b c q1 q2 le se σ _),
    fun eigh eigh' loc est he hl k rw ratio hs => covFit_cols _ _ _ σ st cells (ogkCalc_cols eigh eigh' he hl k rw ratio σ _ hs)⟩

/-- **C167**: with different eigenvalues the fit of `OGK` does not depend on the routine for the eigenvectors (signs and order). -/
theorem C167_routine (assumeCentered : Bool) (st : CovState ℝ (Fin p)) (cells : List (Fin p → Option ℝ))
    (eigh eigh' : ∀ A : Matrix (Fin p) (Fin p) ℝ, A.IsSymm → Eigh A) (loc est : List ℝ → ℝ)
    (he : ∀ l : List ℝ, est (l.map fun x => -x) = est l) (hl : ∀ l : List ℝ, loc (l.map fun x => -x) = -loc l) (k : ℕ)
    (reweighting : Bool) (ratio : ℝ) (hs : Spec.simplePasses eigh est k (cells.map fun r j => (r j).getD 0)) :
    covFit assumeCentered (ogkCalc eigh' loc est k reweighting ratio) st cells =
      covFit assumeCentered (ogkCalc eigh loc est k reweighting ratio) st cells := by
  have h := (C167_column_order assumeCentered st cells 1).2.2 eigh eigh' loc est he hl k reweighting ratio hs
  have h1 : ∀ st : CovState ℝ (Fin p), Spec.reState 1 st = st := by
    rintro ⟨a, b, c, d, e⟩
    cases a <;> cases b <;> cases c <;> rfl
  have h2 : Spec.reCols 1 cells = cells := List.map_id _
  rw [h1, h1, h2] at h
  exact h

/-- The default estimators satisfy the conditions of `C167_column_order`: `Qn` does not raise on two or more observations, the MAD
ignores and the median follows a change of sign. -/
theorem C167_defaults :
    (∀ (fc cc : Bool) (l : List ℝ), 2 ≤ l.length → ∃ s, (match qnScale fc cc (l.length * l.length + 1) l with
      | some r => r | none => .error .valueError : Except PyErr ℝ) = .ok s) ∧
    (∀ l : List ℝ, (madRaw (l.map fun x => -x)).getD 0 = (madRaw l).getD 0) ∧
    ∀ l : List ℝ, (npMedian (l.map fun x => -x)).getD 0 = -(npMedian l).getD 0 := by
  refine ⟨fun fc cc l hl => ?_, fun l => ?_, fun l => ?_⟩
  · obtain ⟨s, hs, -⟩ := C05_nonneg fc cc l hl _ (Nat.lt_succ_self _)
    exact ⟨s, by rw [hs]⟩
  · have := madRaw_affine (-1) 0 l
    simp only [neg_mul, one_mul, add_zero, abs_neg, abs_one] at this
    rw [this]
    rcases madRaw l with _ | v <;> simp
  · have := npMedian_affine (-1) 0 l
    simp only [neg_mul, one_mul, add_zero] at this
    rw [this]
    rcases npMedian l with _ | v <;> simp

/-- Two columns with a pairwise correlation other than 0 satisfy the condition on the eigenvalues. -/
theorem simpleSpectrum_two (A : Matrix (Fin 2) (Fin 2) ℝ) (h : A 0 1 ≠ 0) : Spec.simpleSpectrum A := by
  intro V w hV hA
  have hne : w 0 ≠ w 1 := by
    intro e
    have hw : Matrix.diagonal w = w 0 • (1 : Matrix (Fin 2) (Fin 2) ℝ) := by
      ext i j
      fin_cases i <;> fin_cases j <;> simp [e]
    rw [hw, Matrix.mul_smul, Matrix.mul_one, Matrix.smul_mul, mul_eq_one_comm.1 hV] at hA
    exact h (by rw [hA]; simp)
  intro i j hij
  fin_cases i <;> fin_cases j <;> simp_all

/-- The mean absolute value (times `n`), a scale for the examples. -/
noncomputable def absSum (l : List ℝ) : ℝ := (l.map fun x => |x|).sum

theorem absSum_neg (l : List ℝ) : absSum (l.map fun x => -x) = absSum l := by simp [absSum, Function.comp_def]

/-- Two rows for which one pass of OGK satisfies the condition: the pairwise correlation is 3/5. -/
example (eigh : ∀ A : Matrix (Fin 2) (Fin 2) ℝ, A.IsSymm → Eigh A) :
    Spec.simplePasses eigh absSum 1 [![1, 0], ![1, 1]] ∧ (ogkRaw eigh absSum absSum 1 [![1, 0], ![1, 1]]).isSome := by
  refine ⟨⟨simpleSpectrum_two _ ?_, fun _ _ => trivial⟩, ?_⟩
  · simp [Spec.pairwiseCor, absSum]
    norm_num [abs_of_pos, abs_of_neg]
  · rw [ogkRaw_succ]
    simp only [ogkStep, Fin.exists_fin_two, column, absSum]
    rw [if_neg (by norm_num [abs_of_pos, abs_of_neg])]
    simp [ogkRaw, ogkLoop]

/-- An orthogonal basis of the plane that is not the standard one. -/
noncomputable def eighTurned (A : Matrix (Fin 2) (Fin 2) ℝ) (h : A.IsSymm) : Eigh A :=
  open Classical in
  if hd : A = 1 then
    { w := fun _ => 1, V := !![3 / 5, -4 / 5; 4 / 5, 3 / 5],
      orth := by ext i j; fin_cases i <;> fin_cases j <;> norm_num [Matrix.mul_apply, Fin.sum_univ_two, Matrix.one_apply],
      decomp := by
        rw [hd, Matrix.diagonal_one, Matrix.mul_one]
        ext i j
        fin_cases i <;> fin_cases j <;> norm_num [Matrix.mul_apply, Fin.sum_univ_two, Matrix.one_apply] }
  else eighSpectral A h

/-- The standard basis for the unit matrix. -/
noncomputable def eighUnit (A : Matrix (Fin 2) (Fin 2) ℝ) (h : A.IsSymm) : Eigh A :=
  open Classical in
  if hd : A = 1 then { w := fun _ => 1, V := 1, orth := by simp, decomp := by rw [hd]; simp }
  else eighSpectral A h

/-- The condition on the eigenvalues is needed: for two uncorrelated columns the result depends on the eigenvectors that the routine
chooses, here the standard basis or a turned one. -/
theorem C167_needs_simple : ogkRaw eighUnit absSum absSum 1 [![1, 0], ![0, 1]] ≠ ogkRaw eighTurned absSum absSum 1 [![1, 0], ![0, 1]] := by
  set Z : List (Fin 2 → ℝ) := [![1, 0], ![0, 1]] with hZ
  have hs : ∀ i, absSum (column Z i) = 1 := fun i => by fin_cases i <;> simp [hZ, column, absSum]
  have hY : (Z.map fun z j => z j / absSum (column Z j)) = Z := by
    simp only [hs, div_one]; exact List.map_id _
  have hsum : absSum (Z.map fun y => y 1 + y 0) = 2 := by simp [hZ, absSum]; norm_num
  have hdiff : absSum (Z.map fun y => y 1 - y 0) = 2 := by simp [hZ, absSum]; norm_num
  have hU : ∀ cor : Fin 2 → Fin 2 → ℝ, cor 1 0 = 0 → ogkU cor = 1 := by
    intro cor h
    ext i j
    fin_cases i <;> fin_cases j <;> simp [ogkU, h]
  have hstep : ∀ eigh : ∀ A : Matrix (Fin 2) (Fin 2) ℝ, A.IsSymm → Eigh A, ∃ cor : Fin 2 → Fin 2 → ℝ, cor 1 0 = 0 ∧
      ogkStep eigh absSum Z = some (Z.map fun y => y ᵥ* ogkE eigh cor, ogkE eigh cor) := by
    intro eigh
    refine ⟨fun i j => (absSum (Z.map fun y => y i + y j) ^ 2 - absSum (Z.map fun y => y i - y j) ^ 2) /
      (absSum (Z.map fun y => y i + y j) ^ 2 + absSum (Z.map fun y => y i - y j) ^ 2), by beta_reduce; rw [hsum, hdiff]; norm_num, ?_⟩
    unfold ogkStep
    simp only [hY]
    rw [if_neg]
    · simp only [hs]
      rw [Matrix.diagonal_one, Matrix.one_mul]
    · rintro (⟨i, h⟩ | ⟨i, j, hij, h⟩)
      · rw [hs] at h; norm_num at h
      · fin_cases i <;> fin_cases j <;> simp at hij
        have h' : absSum (Z.map fun y => y 1 + y 0) ^ 2 + absSum (Z.map fun y => y 1 - y 0) ^ 2 = 0 := h
        rw [hsum, hdiff] at h'
        norm_num at h'
  intro h
  rw [ogkRaw_succ, ogkRaw_succ] at h
  obtain ⟨c1, h1, e1⟩ := hstep eighUnit
  obtain ⟨c2, h2, e2⟩ := hstep eighTurned
  rw [e1, e2] at h
  simp only [Option.bind_some, ogkRaw, ogkLoop, Option.map_some, List.foldr_nil, Option.some.injEq, Prod.mk.injEq] at h
  have hE1 : ogkE eighUnit c1 = !![0, 1; 1, 0] := by
    unfold ogkE
    have : (eighUnit (ogkU c1) (ogkU_isSymm c1)).V = 1 := by unfold eighUnit; rw [dif_pos (hU c1 h1)]
    rw [this]
    ext i j; fin_cases i <;> fin_cases j <;> simp [Fin.rev, Matrix.one_apply, Fin.ext_iff]
  have hE2 : ogkE eighTurned c2 = !![-4 / 5, 3 / 5; 3 / 5, 4 / 5] := by
    unfold ogkE
    have : (eighTurned (ogkU c2) (ogkU_isSymm c2)).V = !![3 / 5, -4 / 5; 4 / 5, 3 / 5] := by
      unfold eighTurned; rw [dif_pos (hU c2 h2)]
    rw [this]
    ext i j; fin_cases i <;> fin_cases j <;> simp [Fin.rev, Matrix.one_apply, Fin.ext_iff]
  have hM : ∀ M : Matrix (Fin 2) (Fin 2) ℝ, ∀ i, absSum (column (Z.map fun y => y ᵥ* M) i) = |M 0 i| + |M 1 i| := fun M i => by
    simp [hZ, absSum, column, Matrix.vecMul, dotProduct, Fin.sum_univ_two]
  have h3 := congrFun (congrFun h.2 0) 0
  have hq : ∀ (M : Matrix (Fin 2) (Fin 2) ℝ) (d : Fin 2 → ℝ), (M * Matrix.diagonal d * Mᵀ) 0 0 = M 0 0 ^ 2 * d 0 + M 0 1 ^ 2 * d 1 := by
    intro M d
    rw [Matrix.mul_apply, Fin.sum_univ_two, Matrix.mul_diagonal, Matrix.mul_diagonal]
    simp only [Matrix.transpose_apply]
    ring
  rw [hq, hq] at h3
  simp only [hM] at h3
  rw [hE1, hE2] at h3
  norm_num [abs_of_neg, abs_of_pos] at h3

end
end Robpy
