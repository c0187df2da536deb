import Verif.Props.PCARobpca

/-! Which directions the PCA estimators return: leading eigenvectors of the covariance of the observations they keep. -/

namespace Robpy
open Matrix

variable {p r : ℕ}

/-- `V` holds orthonormal eigenvectors of `A` for the eigenvalues `w`, largest first, and no direction orthogonal to them has a
larger value of the quadratic form than any of `w`. -/
def Spec.TopEigen (A : Matrix (Fin r) (Fin r) ℝ) (w : List ℝ) (V : List (Fin r → ℝ)) : Prop :=
  w.length = V.length ∧ Spec.Orthonormal V ∧ w.Pairwise (· ≥ ·) ∧
    (∀ (i : ℕ) l v, w[i]? = some l → V[i]? = some v → ∀ j, ∑ m, A j m * v m = l * v j) ∧
    ∀ x : Fin r → ℝ, (∀ v ∈ V, ∑ j, v j * x j = 0) → ∀ l ∈ w, ∑ i, x i * ∑ j, A i j * x j ≤ l * ∑ i, x i ^ 2

/-- Eigenvalues and eigenvectors side by side. -/
def eigPairs {A : Matrix (Fin r) (Fin r) ℝ} (E : EighAsc A) : List (ℝ × (Fin r → ℝ)) :=
  (List.finRange r).map fun i => (E.w i, fun j => E.V j i)

theorem eigPairs_fst {A : Matrix (Fin r) (Fin r) ℝ} (E : EighAsc A) : (eigPairs E).map Prod.fst = List.ofFn E.w := by
  unfold eigPairs
  rw [List.map_map, List.ofFn_eq_map]
  rfl

theorem eigPairs_snd {A : Matrix (Fin r) (Fin r) ℝ} (E : EighAsc A) : (eigPairs E).map Prod.snd = colsOf E.V := by
  unfold eigPairs
  rw [List.map_map]
  rfl

theorem symLower_of_isSymm {A : Matrix (Fin r) (Fin r) ℝ} (h : A.IsSymm) : symLower A = A := by
  ext i j
  simp only [symLower]
  split_ifs
  · rfl
  · exact h.apply i j

theorem eighAsc_decomp {A : Matrix (Fin r) (Fin r) ℝ} (hA : A.IsSymm) (E : EighAsc A) :
    A = E.V * Matrix.diagonal E.w * E.Vᵀ := (symLower_of_isSymm hA).symm.trans E.decomp

theorem eigPairs_eigen {A : Matrix (Fin r) (Fin r) ℝ} (hA : A.IsSymm) (E : EighAsc A) :
    ∀ q ∈ eigPairs E, A *ᵥ q.2 = q.1 • q.2 := by
  intro q hq
  obtain ⟨i, -, rfl⟩ := List.mem_map.1 hq
  have h2 : A * E.V = E.V * Matrix.diagonal E.w := by
    have := congrArg (· * E.V) (eighAsc_decomp hA E)
    refine this.trans ?_
    simp only [Matrix.mul_assoc, E.orth, Matrix.mul_one]
  funext j
  have h3 := congrFun (congrFun h2 j) i
  rw [Matrix.mul_diagonal] at h3
  simp only [Pi.smul_apply, smul_eq_mul, mul_comm (E.w i)]
  exact h3

/-- The quadratic form and the norm in eigenvector coordinates. -/
theorem eigPairs_quad {A : Matrix (Fin r) (Fin r) ℝ} (hA : A.IsSymm) (E : EighAsc A) (x : Fin r → ℝ) :
    ((eigPairs E).map fun q => q.1 * (∑ j, q.2 j * x j) ^ 2).sum = ∑ i, x i * ∑ j, A i j * x j ∧
    ((eigPairs E).map fun q => (∑ j, q.2 j * x j) ^ 2).sum = ∑ i, x i ^ 2 := by
  set y : Fin r → ℝ := E.Vᵀ *ᵥ x with hy
  have hV : E.V * E.Vᵀ = 1 := mul_eq_one_comm.1 E.orth
  have hyi : ∀ i, ∑ j, E.V j i * x j = y i := fun i => rfl
  have hsum : ∀ f : Fin r → ℝ, ((List.finRange r).map f).sum = ∑ i, f i := fun f => by
    rw [← List.ofFn_eq_map, List.sum_ofFn]
  have h1 : ((eigPairs E).map fun q => q.1 * (∑ j, q.2 j * x j) ^ 2).sum = ∑ i, E.w i * y i ^ 2 := by
    unfold eigPairs
    rw [List.map_map, ← hsum]
    rfl
  have h2 : ((eigPairs E).map fun q => (∑ j, q.2 j * x j) ^ 2).sum = ∑ i, y i ^ 2 := by
    unfold eigPairs
    rw [List.map_map, ← hsum]
    rfl
  rw [h1, h2]
  constructor
  · have h3 : ∑ i, x i * ∑ j, A i j * x j = x ⬝ᵥ (A *ᵥ x) := rfl
    have h4 : A *ᵥ x = E.V *ᵥ (Matrix.diagonal E.w *ᵥ y) := by
      rw [hy, Matrix.mulVec_mulVec, Matrix.mulVec_mulVec]
      exact congrArg (· *ᵥ x) ((eighAsc_decomp hA E).trans (by simp only [Matrix.mul_assoc]))
    have h5 : x ᵥ* E.V = y := by rw [hy, Matrix.mulVec_transpose]
    rw [h3, h4, Matrix.dotProduct_mulVec, h5]
    simp only [dotProduct, Matrix.mulVec_diagonal]
    exact Finset.sum_congr rfl fun i _ => by ring
  · have h3 : ∑ i, x i ^ 2 = x ⬝ᵥ x := by simp only [dotProduct, pow_two]
    have h4 : ∑ i, y i ^ 2 = y ⬝ᵥ y := by simp only [dotProduct, pow_two]
    have h5 : x ᵥ* E.V = y := by rw [hy, Matrix.mulVec_transpose]
    have h6 : E.V *ᵥ y = x := by rw [hy, Matrix.mulVec_mulVec, hV, Matrix.one_mulVec]
    rw [h3, h4]
    nth_rewrite 1 [← h5]
    rw [← Matrix.dotProduct_mulVec, h6]

/-- The first `k` of a decreasing arrangement of the eigenpairs. -/
theorem topEigen_take {A : Matrix (Fin r) (Fin r) ℝ} (hA : A.IsSymm) (E : EighAsc A) {P : List (ℝ × (Fin r → ℝ))}
    (hP : P.Perm (eigPairs E)) (hs : (P.map Prod.fst).Pairwise (· ≥ ·)) (k : ℕ) :
    Spec.TopEigen A ((P.map Prod.fst).take k) ((P.map Prod.snd).take k) := by
  have hO : Spec.Orthonormal (P.map Prod.snd) := by
    refine orthonormal_perm (hP.map _) ?_
    rw [eigPairs_snd]
    exact orthonormal_colsOf E.orth
  refine ⟨by simp, orthonormal_sublist (List.take_sublist _ _) hO, hs.sublist (List.take_sublist _ _), ?_, ?_⟩
  · intro i l v hl hv j
    rw [List.getElem?_take] at hl hv
    split_ifs at hl hv
    rw [List.getElem?_map] at hl hv
    obtain ⟨q, hq, rfl⟩ := Option.map_eq_some_iff.1 hl
    rw [hq] at hv
    obtain rfl := Option.some.inj hv
    have := eigPairs_eigen hA E q (hP.mem_iff.1 (List.mem_of_getElem? hq))
    exact congrFun this j
  · intro x hx l hl
    obtain ⟨h1, h2⟩ := eigPairs_quad hA E x
    rw [← h1, ← h2, ← (hP.map _).sum_eq, ← (hP.map _).sum_eq]
    conv_lhs => rw [← List.take_append_drop k P]
    conv_rhs => rw [← List.take_append_drop k P]
    rw [List.map_append, List.sum_append, List.map_append, List.sum_append]
    have h0 : ∀ q ∈ P.take k, (∑ j, q.2 j * x j) = 0 := fun q hq => hx q.2 (by
      rw [← List.map_take]
      exact List.mem_map_of_mem hq)
    have h3 : ((P.take k).map fun q => q.1 * (∑ j, q.2 j * x j) ^ 2).sum = 0 := by
      refine List.sum_eq_zero fun y hy => ?_
      obtain ⟨q, hq, rfl⟩ := List.mem_map.1 hy
      simp [h0 q hq]
    have h4 : ((P.take k).map fun q => (∑ j, q.2 j * x j) ^ 2).sum = 0 := by
      refine List.sum_eq_zero fun y hy => ?_
      obtain ⟨q, hq, rfl⟩ := List.mem_map.1 hy
      simp [h0 q hq]
    rw [h3, h4, zero_add, zero_add, ← List.sum_map_mul_left]
    refine List.sum_le_sum fun q hq => mul_le_mul_of_nonneg_right ?_ (sq_nonneg _)
    rw [← List.take_append_drop k (P.map Prod.fst), List.pairwise_append] at hs
    exact hs.2.2 l hl q.1 (by rw [← List.map_drop]; exact List.mem_map_of_mem hq)

theorem sortedEigen_top {D : RobpcaDeps} {X : List (Fin r → ℝ)} {w : List ℝ} {V : List (Fin r → ℝ)}
    {A : Matrix (Fin r) (Fin r) ℝ} (h : sortedEigen D X = .ok (w, V, A)) (k : ℕ) :
    Spec.TopEigen (npCov X) (w.take k) (V.take k) := by
  have hws := (sortedEigen_spec h).2.2.2.1
  unfold sortedEigen at h
  split_ifs at h with h0
  simp only [Except.ok.injEq, Prod.mk.injEq] at h
  obtain ⟨rfl, rfl, rfl⟩ := h
  have hp := D.argsort.perm (List.ofFn (D.eigh (npCov X)).w)
  rw [List.length_ofFn] at hp
  rw [← eigPairs_fst, ← eigPairs_snd, takeAt_map, takeAt_map] at *
  refine topEigen_take (npCov_isSymm X) (D.eigh (npCov X)) ?_ hws k
  have h2 := takeAt_perm (eigPairs (D.eigh (npCov X))) ((List.reverse_perm _).trans hp)
  refine h2.trans ?_
  have h3 := takeAt_range (eigPairs (D.eigh (npCov X)))
  have h4 : (eigPairs (D.eigh (npCov X))).length = r := by simp [eigPairs]
  rw [h4] at h3
  rw [h3]

/-! ### From scores back to the original coordinates -/

/-- The covariance of linear images of shifted rows. -/
theorem npCov_load (m : Fin p → ℝ) (L : Matrix (Fin p) (Fin r) ℝ) (Y : List (Fin p → ℝ)) (hY : Y ≠ []) :
    npCov (Y.map fun x => (x - m) ᵥ* L) = Lᵀ * npCov Y * L := by
  have hn : (Y.length : ℝ) ≠ 0 := by
    have := List.length_pos_iff.2 hY
    positivity
  have hmean : meanRow (Y.map fun x => (x - m) ᵥ* L) = (meanRow Y - m) ᵥ* L := by
    funext j
    have h1 : ∀ Z : List (Fin p → ℝ), (Z.map fun x => ((x - m) ᵥ* L) j).sum =
        ∑ i, ((Z.map fun x => x i).sum - Z.length * m i) * L i j := by
      intro Z
      induction Z with
      | nil => simp
      | cons z Z ih =>
        rw [List.map_cons, List.sum_cons, ih]
        simp only [Matrix.vecMul, dotProduct, List.map_cons, List.sum_cons, List.length_cons, Pi.sub_apply]
        rw [← Finset.sum_add_distrib]
        exact Finset.sum_congr rfl fun i _ => by push_cast; ring
    unfold meanRow mean
    rw [List.map_map, List.length_map]
    simp only [Function.comp_def]
    rw [h1]
    simp only [Matrix.vecMul, dotProduct, Pi.sub_apply, List.length_map]
    rw [Finset.sum_div]
    exact Finset.sum_congr rfl fun i _ => by field_simp
  rw [npCov_eq_sum, npCov_eq_sum, hmean, List.map_map, List.length_map, Matrix.mul_smul, Matrix.smul_mul]
  congr 1
  generalize meanRow Y = c
  clear hmean hn hY
  induction Y with
  | nil => simp
  | cons x Y ih =>
    rw [List.map_cons, List.sum_cons, ih, List.map_cons, List.sum_cons, Matrix.mul_add, Matrix.add_mul]
    congr 1
    simp only [Function.comp_apply]
    rw [← Matrix.sub_vecMul, sub_sub_sub_cancel_right, Matrix.mul_vecMulVec, Matrix.vecMulVec_mul, Matrix.mulVec_transpose]

/-- The rows lie in the column space of `L`, after `m` has been subtracted. -/
def Spec.RowsIn (m : Fin p → ℝ) (L : Matrix (Fin p) (Fin r) ℝ) (Y : List (Fin p → ℝ)) : Prop :=
  ∀ x ∈ Y, ∃ t : Fin r → ℝ, x - m = L *ᵥ t

theorem proj_of_rowsIn {m : Fin p → ℝ} {L : Matrix (Fin p) (Fin r) ℝ} (hL : Lᵀ * L = 1) {x : Fin p → ℝ}
    (h : ∃ t : Fin r → ℝ, x - m = L *ᵥ t) : (L * Lᵀ) *ᵥ (x - m) = x - m := by
  obtain ⟨t, ht⟩ := h
  rw [ht, Matrix.mulVec_mulVec, Matrix.mul_assoc, hL, Matrix.mul_one]

theorem meanRow_proj {m : Fin p → ℝ} {L : Matrix (Fin p) (Fin r) ℝ} (hL : Lᵀ * L = 1) {Y : List (Fin p → ℝ)} (hY : Y ≠ [])
    (h : Spec.RowsIn m L Y) : (L * Lᵀ) *ᵥ (meanRow Y - m) = meanRow Y - m := by
  have hn : (Y.length : ℝ) ≠ 0 := by
    have := List.length_pos_iff.2 hY
    positivity
  have h1 : (Y.length : ℝ) • (meanRow Y - m) = (Y.map fun x => x - m).sum := by
    have h2 : ∀ Z : List (Fin p → ℝ), ∀ j, (Z.map fun x => x - m).sum j = (Z.map fun x => x j).sum - Z.length * m j := by
      intro Z j
      induction Z with
      | nil => simp
      | cons z Z ih =>
        rw [List.map_cons, List.sum_cons, Pi.add_apply, ih]
        simp only [List.map_cons, List.sum_cons, List.length_cons, Pi.sub_apply]
        push_cast
        ring
    funext j
    rw [h2]
    simp only [Pi.smul_apply, smul_eq_mul, Pi.sub_apply, meanRow, mean, List.length_map]
    field_simp
  have h3 : (L * Lᵀ) *ᵥ (Y.map fun x => x - m).sum = (Y.map fun x => x - m).sum := by
    have h4 : ∀ Z : List (Fin p → ℝ), (∀ x ∈ Z, ∃ t : Fin r → ℝ, x - m = L *ᵥ t) →
        (L * Lᵀ) *ᵥ (Z.map fun x => x - m).sum = (Z.map fun x => x - m).sum := by
      intro Z hZ
      induction Z with
      | nil => simp
      | cons z Z ih =>
        rw [List.map_cons, List.sum_cons, Matrix.mulVec_add, ih fun x hx => hZ x (by simp [hx]),
          proj_of_rowsIn hL (hZ z (by simp))]
    exact h4 Y h
  rw [← h1, Matrix.mulVec_smul] at h3
  exact smul_right_injective _ hn h3

theorem npCov_proj {m : Fin p → ℝ} {L : Matrix (Fin p) (Fin r) ℝ} (hL : Lᵀ * L = 1) {Y : List (Fin p → ℝ)} (hY : Y ≠ [])
    (h : Spec.RowsIn m L Y) : L * Lᵀ * npCov Y = npCov Y := by
  have hm := meanRow_proj hL hY h
  rw [npCov_eq_sum, Matrix.mul_smul]
  congr 1
  have key : ∀ Z : List (Fin p → ℝ), (∀ x ∈ Z, ∃ t : Fin r → ℝ, x - m = L *ᵥ t) →
      L * Lᵀ * (Z.map fun x => vecMulVec (x - meanRow Y) (x - meanRow Y)).sum =
      (Z.map fun x => vecMulVec (x - meanRow Y) (x - meanRow Y)).sum := by
    intro Z hZ
    induction Z with
    | nil => simp
    | cons z Z ih =>
      rw [List.map_cons, List.sum_cons, Matrix.mul_add, ih fun x hx => hZ x (by simp [hx]), Matrix.mul_vecMulVec]
      have h2 : (L * Lᵀ) *ᵥ (z - meanRow Y) = z - meanRow Y := by
        have : z - meanRow Y = (z - m) - (meanRow Y - m) := by abel
        rw [this, Matrix.mulVec_sub, hm, proj_of_rowsIn hL (hZ z (by simp))]
      rw [h2]
  exact key Y h

theorem npCov_unload {m : Fin p → ℝ} {L : Matrix (Fin p) (Fin r) ℝ} (hL : Lᵀ * L = 1) {Y : List (Fin p → ℝ)} (hY : Y ≠ [])
    (h : Spec.RowsIn m L Y) : npCov Y = L * npCov (Y.map fun x => (x - m) ᵥ* L) * Lᵀ := by
  have h1 := npCov_proj hL hY h
  have h2 : npCov Y * (L * Lᵀ) = npCov Y := by
    have := congrArg Matrix.transpose h1
    rw [Matrix.transpose_mul, Matrix.transpose_mul, Matrix.transpose_transpose, (npCov_isSymm Y).eq] at this
    exact this
  rw [npCov_load m L Y hY]
  calc npCov Y = (L * Lᵀ) * (npCov Y * (L * Lᵀ)) := by rw [h2, h1]
    _ = L * (Lᵀ * npCov Y * L) * Lᵀ := by simp only [Matrix.mul_assoc]

theorem rank_npCov_load {m : Fin p → ℝ} {L : Matrix (Fin p) (Fin r) ℝ} (hL : Lᵀ * L = 1) {Y : List (Fin p → ℝ)} (hY : Y ≠ [])
    (h : Spec.RowsIn m L Y) : (npCov (Y.map fun x => (x - m) ᵥ* L)).rank = (npCov Y).rank := by
  apply le_antisymm
  · rw [npCov_load m L Y hY]
    exact (Matrix.rank_mul_le_left _ _).trans (Matrix.rank_mul_le_right _ _)
  · rw [npCov_unload hL hY h]
    exact (Matrix.rank_mul_le_left _ _).trans (Matrix.rank_mul_le_right _ _)

theorem loadColumn_eq (L : Matrix (Fin p) (Fin r) ℝ) (c : Fin r → ℝ) : loadColumn L c = L *ᵥ c := rfl

/-- Leading directions of the scores are leading directions of the observations. -/
theorem topEigen_load {m : Fin p → ℝ} {L : Matrix (Fin p) (Fin r) ℝ} (hL : Lᵀ * L = 1) {Y : List (Fin p → ℝ)} (hY : Y ≠ [])
    (h : Spec.RowsIn m L Y) {w : List ℝ} {V : List (Fin r → ℝ)}
    (hV : Spec.TopEigen (npCov (Y.map fun x => (x - m) ᵥ* L)) w V) : Spec.TopEigen (npCov Y) w (V.map (loadColumn L)) := by
  obtain ⟨h1, h2, h3, h4, h5⟩ := hV
  set A := npCov (Y.map fun x => (x - m) ᵥ* L) with hA
  have hB : npCov Y = L * A * Lᵀ := npCov_unload hL hY h
  refine ⟨by simpa using h1, orthonormal_map _ (dotp_loadColumn hL) h2, h3, ?_, ?_⟩
  · intro i l v hl hv j
    rw [List.getElem?_map] at hv
    obtain ⟨u, hu, rfl⟩ := Option.map_eq_some_iff.1 hv
    have h6 : A *ᵥ u = l • u := funext fun j => h4 i l u hl hu j
    have h7 : npCov Y *ᵥ (L *ᵥ u) = l • (L *ᵥ u) := by
      rw [hB, Matrix.mulVec_mulVec, Matrix.mul_assoc, hL, Matrix.mul_one, ← Matrix.mulVec_mulVec, h6, Matrix.mulVec_smul]
    exact congrFun h7 j
  · intro x hx l hl
    have h6 : ∀ v ∈ V, ∑ j, v j * (Lᵀ *ᵥ x) j = 0 := fun v hv => by
      have := hx (loadColumn L v) (List.mem_map_of_mem hv)
      have h7 : ∑ j, loadColumn L v j * x j = v ⬝ᵥ (Lᵀ *ᵥ x) := by
        rw [Matrix.dotProduct_mulVec, Matrix.vecMul_transpose]
        rfl
      rw [h7] at this
      exact this
    have h7 := h5 _ h6 l hl
    have h8 : ∑ i, x i * ∑ j, npCov Y i j * x j = ∑ i, (Lᵀ *ᵥ x) i * ∑ j, A i j * (Lᵀ *ᵥ x) j := by
      have a1 : ∑ i, x i * ∑ j, npCov Y i j * x j = x ⬝ᵥ (npCov Y *ᵥ x) := rfl
      have a2 : ∑ i, (Lᵀ *ᵥ x) i * ∑ j, A i j * (Lᵀ *ᵥ x) j = (Lᵀ *ᵥ x) ⬝ᵥ (A *ᵥ (Lᵀ *ᵥ x)) := rfl
      rw [a1, a2, hB, ← Matrix.mulVec_mulVec, ← Matrix.mulVec_mulVec, Matrix.dotProduct_mulVec, Matrix.mulVec_transpose]
    rw [h8]
    refine h7.trans (mul_le_mul_of_nonneg_left ?_ ?_)
    · have a1 : ∑ i, (Lᵀ *ᵥ x) i ^ 2 = (Lᵀ *ᵥ x) ⬝ᵥ (Lᵀ *ᵥ x) := by simp only [dotProduct, pow_two]
      have a2 : ∑ i, x i ^ 2 = x ⬝ᵥ x := by simp only [dotProduct, pow_two]
      have a3 : 0 ≤ (x - L *ᵥ (Lᵀ *ᵥ x)) ⬝ᵥ (x - L *ᵥ (Lᵀ *ᵥ x)) := by
        simp only [dotProduct]
        exact Finset.sum_nonneg fun _ _ => mul_self_nonneg _
      have a4 : (L *ᵥ (Lᵀ *ᵥ x)) ⬝ᵥ (L *ᵥ (Lᵀ *ᵥ x)) = (Lᵀ *ᵥ x) ⬝ᵥ (Lᵀ *ᵥ x) := dotp_loadColumn hL _ _
      have a5 : x ⬝ᵥ (L *ᵥ (Lᵀ *ᵥ x)) = (Lᵀ *ᵥ x) ⬝ᵥ (Lᵀ *ᵥ x) := by
        rw [Matrix.dotProduct_mulVec, Matrix.mulVec_transpose]
      rw [sub_dotProduct, dotProduct_sub, dotProduct_sub, a4, a5, dotProduct_comm (L *ᵥ (Lᵀ *ᵥ x)) x, a5] at a3
      rw [a1, a2]
      linarith
    · obtain ⟨i, hi, rfl⟩ := List.getElem_of_mem hl
      have hi' : i < V.length := by omega
      have b1 := h4 i _ _ (List.getElem?_eq_getElem hi) (List.getElem?_eq_getElem hi')
      have b2 := h2 i i _ _ (List.getElem?_eq_getElem hi') (List.getElem?_eq_getElem hi')
      have b3 := (npCov_posSemidef (Y.map fun x => (x - m) ᵥ* L)).dotProduct_mulVec_nonneg V[i]
      have b4 : npCov (Y.map fun x => (x - m) ᵥ* L) *ᵥ V[i] = w[i] • V[i] := funext b1
      rw [b4, dotProduct_smul] at b3
      have b5 : star V[i] ⬝ᵥ V[i] = 1 := by simpa [dotProduct] using b2
      rw [b5] at b3
      simpa using b3

/-! ### Distances -/

/-- Distance from `x` to the affine space through `m` spanned by the orthonormal `V`. -/
noncomputable def Spec.distToSpan (m : Fin p → ℝ) (V : List (Fin p → ℝ)) (x : Fin p → ℝ) : ℝ :=
  Real.sqrt (∑ j, (x j - m j) ^ 2 - (V.map fun v => (∑ j, (x j - m j) * v j) ^ 2).sum)

theorem orthDistRow_eq (m : Fin p → ℝ) {V : List (Fin p → ℝ)} (hV : Spec.Orthonormal V) (x : Fin p → ℝ) :
    orthDistRow m V x = Spec.distToSpan m V x := by
  have h := pythagoras_row m hV x
  have h2 : ((scoresRow m V x).map fun t => t ^ 2).sum = (V.map fun v => (∑ j, (x j - m j) * v j) ^ 2).sum := by
    unfold scoresRow
    rw [List.map_map]
    rfl
  rw [h2] at h
  have h3 : 0 ≤ orthDistRow m V x := Real.sqrt_nonneg _
  rw [Spec.distToSpan, h, add_sub_cancel_left, Real.sqrt_sq h3]

theorem distToSpan_load {m : Fin p → ℝ} {L : Matrix (Fin p) (Fin r) ℝ} (hL : Lᵀ * L = 1) (V : List (Fin r → ℝ))
    {x : Fin p → ℝ} (h : ∃ t : Fin r → ℝ, x - m = L *ᵥ t) :
    Spec.distToSpan 0 V ((x - m) ᵥ* L) = Spec.distToSpan m (V.map (loadColumn L)) x := by
  obtain ⟨t, ht⟩ := h
  have h1 : (x - m) ᵥ* L = t := by
    rw [ht, ← Matrix.mulVec_transpose, Matrix.mulVec_mulVec, hL, Matrix.one_mulVec]
  have h2 : ∀ c, ∑ j, (x j - m j) * loadColumn L c j = ∑ j, t j * c j := fun c => by
    have : ∀ j, x j - m j = loadColumn L t j := fun j => congrFun ht j
    simp only [this]
    exact dotp_loadColumn hL t c
  have h3 : ∑ j, (x j - m j) ^ 2 = ∑ j, t j ^ 2 := by
    have : ∀ j, x j - m j = loadColumn L t j := fun j => congrFun ht j
    simp only [this, pow_two]
    exact dotp_loadColumn hL t t
  unfold Spec.distToSpan
  rw [h1, h3, List.map_map]
  simp only [Function.comp_def, h2, Pi.zero_apply, sub_zero]

/-! ### C97 -/

/-- Rows whose distance to the affine space is below a cutoff computed from all distances; none if there is no cutoff. -/
noncomputable def Spec.keptRows (cutoff : List ℝ → Option ℝ) (m : Fin p → ℝ) (V X : List (Fin p → ℝ)) : List (Fin p → ℝ) :=
  open Classical in X.filter fun x => ∃ c, cutoff (X.map (Spec.distToSpan m V)) = some c ∧ Spec.distToSpan m V x < c

/-- `a` is at most `b`, where NaN counts as largest. -/
def Spec.LessOutlying (a b : ExtFloat) : Prop := b = none ∨ ∃ u v, a = some u ∧ b = some v ∧ u ≤ v

theorem lessOutlying_iff (a b : ExtFloat) : nanLast a ≤ nanLast b ↔ Spec.LessOutlying a b := by
  rcases a with _ | u <;> rcases b with _ | v
  · simp [nanLast, Spec.LessOutlying]
  · simp only [nanLast, Spec.LessOutlying, top_le_iff, reduceCtorEq, false_and, exists_const, or_self, iff_false]
    exact WithTop.coe_ne_top
  · simp [nanLast, Spec.LessOutlying]
  · simp only [nanLast, Spec.LessOutlying, reduceCtorEq, Option.some.injEq, false_or, WithTop.coe_le_coe]
    constructor
    · exact fun h => ⟨u, v, rfl, rfl, h⟩
    · rintro ⟨u', v', rfl, rfl, h⟩
      exact h

/-- The positions that `argsort(d)[:k]` selects. -/
theorem argsort_take {K : Type} [LinearOrder K] (srt : ArgSort K) (d : List K) (k : ℕ) :
    ((srt.toFun d).take k).Nodup ∧ ((srt.toFun d).take k).length = min k d.length ∧
      (∀ i ∈ (srt.toFun d).take k, i < d.length) ∧
      ∀ (i j : ℕ) (a b : K), i ∈ (srt.toFun d).take k → j ∉ (srt.toFun d).take k → d[i]? = some a → d[j]? = some b → a ≤ b := by
  have hp := srt.perm d
  have hlt : ∀ i ∈ srt.toFun d, i < d.length := fun i hi => List.mem_range.1 (hp.mem_iff.1 hi)
  refine ⟨(hp.nodup_iff.2 List.nodup_range).sublist (List.take_sublist _ _), ?_,
    fun i hi => hlt i (List.take_subset _ _ hi), ?_⟩
  · rw [List.length_take, hp.length_eq, List.length_range]
  · intro i j a b hi hj ha hb
    have hjlt : j < d.length := (List.getElem?_eq_some_iff.1 hb).1
    have hjd : j ∈ (srt.toFun d).drop k := by
      have := hp.mem_iff.2 (List.mem_range.2 hjlt)
      rw [← List.take_append_drop k (srt.toFun d), List.mem_append] at this
      exact this.resolve_left hj
    have hs := srt.sorted d
    rw [← List.take_append_drop k (srt.toFun d)] at hs
    unfold takeAt at hs
    rw [List.filterMap_append, List.pairwise_append] at hs
    exact hs.2.2 a (List.mem_filterMap.2 ⟨i, hi, ha⟩) b (List.mem_filterMap.2 ⟨j, hjd, hb⟩)

/-- What the h-subset of ROBPCA has to be: the size, and no observation outside it is less outlying. -/
def Spec.HSubset (alpha : ℝ) (nc : Option ℕ) (out : List ExtFloat) (I : List ℕ) : Prop :=
  I.Nodup ∧ (∀ i ∈ I, i < out.length) ∧
    I.length = min out.length (max ⌊alpha * out.length⌋₊ ((out.length + nc.getD 10 + 1) / 2)) ∧
    ∀ (i j : ℕ) (a b : ExtFloat), i ∈ I → j ∉ I → out[i]? = some a → out[j]? = some b → Spec.LessOutlying a b

theorem meanRow_centered {X : List (Fin p → ℝ)} (hX : X ≠ []) (L : Matrix (Fin p) (Fin r) ℝ) :
    meanRow (X.map fun x => (x - meanRow X) ᵥ* L) = 0 := by
  have hn : (X.length : ℝ) ≠ 0 := by
    have := List.length_pos_iff.2 hX
    positivity
  funext j
  have h1 : ∀ (m : Fin p → ℝ) (Z : List (Fin p → ℝ)), (Z.map fun x => ((x - m) ᵥ* L) j).sum =
      ∑ i, ((Z.map fun x => x i).sum - Z.length * m i) * L i j := by
    intro m Z
    induction Z with
    | nil => simp
    | cons z Z ih =>
      rw [List.map_cons, List.sum_cons, ih]
      simp only [Matrix.vecMul, dotProduct, List.map_cons, List.sum_cons, List.length_cons, Pi.sub_apply]
      rw [← Finset.sum_add_distrib]
      exact Finset.sum_congr rfl fun i _ => by push_cast; ring
  have h2 := h1 (meanRow X) X
  have h3 : ∀ i, (X.map fun x => x i).sum - X.length * meanRow X i = 0 := fun i => by
    unfold meanRow mean
    rw [List.length_map]
    field_simp
    ring
  simp only [h3, zero_mul, Finset.sum_const_zero] at h2
  change mean (List.map _ (List.map _ X)) = 0
  rw [List.map_map]
  unfold mean
  simp only [Function.comp_def]
  rw [h2, zero_div]

/-- **C97**: the explained variances of ROBPCA are the largest eigenvalues of the covariance of an h-subset of least outlying
observations.  `L` is assumed to have orthonormal columns whose span holds the centred data. -/
theorem C97_variances {S : Type} (ch : Choice S) (svd : ∀ {r : ℕ}, List (Fin r → ℝ) → Fin r → ℝ) (fresh : ℕ → S)
    (seed : Option S) (a1 : ArgSort (WithTop (WithTop ℝ))) (a2 : ArgSort ℝ)
    (eigh : ∀ {r : ℕ} (A : Matrix (Fin r) (Fin r) ℝ), EighAsc A) (chi z : ℝ) (corrRaw : ℕ → ℕ → ℝ) (corr : ℝ → ℝ)
    (mcdCov : ∀ {k : ℕ}, List (Fin k → ℝ) → Except PyErr (Matrix (Fin k) (Fin k) ℝ)) (alpha thr : ℝ) (fin : Bool)
    (L : Matrix (Fin p) (Fin r) ℝ) (hL : Lᵀ * L = 1) (st st' : PCAState p) (X : List (Fin p → ℝ))
    (hrow : Spec.RowsIn (meanRow X) L X)
    (h : robpcaFit (stdDeps ch svd fresh seed a1 a2 eigh chi z corrRaw corr mcdCov) alpha thr fin L st X = .ok st') :
    ∃ out I ev V, stahelDonoho ch svd fresh (X.map fun x => (x - meanRow X) ᵥ* L) 2 250 seed = .ok out ∧
      out.length = X.length ∧ Spec.HSubset alpha st.nComponents out I ∧ st'.explainedVariance_ = some ev ∧
      Spec.TopEigen (npCov (takeAt X I)) ev V ∧ (∀ k, st.nComponents = some k → ev.length = min k r) ∧
      (fin = false → ∃ w C, st'.components_ = some C ∧
        Spec.TopEigen (npCov (Spec.keptRows (getOdCutoff chi z corrRaw corr) (meanRow X) V X)) w C ∧
        C.length = min ev.length (npCov (Spec.keptRows (getOdCutoff chi z corrRaw corr) (meanRow X) V X)).rank) := by
  have hev := C93_robpca_partial _ _ _ _ _ _ _ _ h
  set D := stdDeps ch svd fresh seed a1 a2 eigh chi z corrRaw corr mcdCov with hD
  unfold robpcaFit at h
  set T := X.map fun x => (x - meanRow X) ᵥ* L with hT
  rcases ho : D.outl T with e | out
  · simp [ho, Except.bind] at h
  rcases hh : robpcaH alpha X.length st.nComponents with e | hs
  · simp [ho, hh, Except.bind] at h
  simp only [ho, hh, Except.bind] at h
  have hol : out.length = X.length := by
    have ho' : stahelDonoho ch svd fresh T 2 250 seed = .ok out := ho
    unfold stahelDonoho at ho'
    rw [if_neg (by norm_num)] at ho'
    rcases hm : mapExcept (fun i => randomDirection ch svd T 2 (seed.getD (fresh i))) (List.range 250) with e | Ds
    · simp [hm, Except.map] at ho'
    · simp only [hm, Except.map, Except.ok.injEq] at ho'
      rw [← ho']
      simp [sdFromDirections, hT]
  have hsv : hs = max ⌊alpha * X.length⌋₊ ((X.length + st.nComponents.getD 10 + 1) / 2) := by
    unfold robpcaH at hh
    split_ifs at hh
    exact (Except.ok.inj hh).symm
  set I := (a1.toFun (out.map nanLast)).take hs with hI
  have hI' : (D.argsortExt.toFun (out.map nanLast)).take hs = I := rfl
  rw [hI'] at h
  have hTI : takeAt T I = (takeAt X I).map fun x => (x - meanRow X) ᵥ* L := by rw [hT, takeAt_map]
  obtain ⟨q1, q2, q3, q4⟩ := argsort_take a1 (out.map nanLast) hs
  rw [← hI] at q1 q2 q3 q4
  rw [List.length_map] at q2 q3
  have hsub : Spec.HSubset alpha st.nComponents out I := by
    refine ⟨q1, q3, ?_, ?_⟩
    · rw [q2, hsv, hol, min_comm]
    · intro i j a b hi hj ha hb
      rw [← lessOutlying_iff]
      exact q4 i j _ _ hi hj (by rw [List.getElem?_map, ha]; rfl) (by rw [List.getElem?_map, hb]; rfl)
  rcases hc : robpcaCore D thr fin st.nComponents T (takeAt T I) with e | ⟨k, C, ev⟩
  · simp [hc, Except.map] at h
  simp only [hc, Except.map, Except.ok.injEq] at h
  subst h
  unfold robpcaCore at hc
  rcases h1 : sortedEigen D (takeAt T I) with e | ⟨w, V, A⟩
  · simp [h1, Except.bind] at hc
  simp only [h1, Except.bind] at hc
  rcases h2 : pickK st.nComponents thr w with e | k1
  · simp [h2] at hc
  simp only [h2] at hc
  rcases h3 : sortedEigen D (T.filter fun x => belowCutoff (D.odCutoff (T.map (orthDistRow (meanRow T) (V.take k1))))
    (orthDistRow (meanRow T) (V.take k1) x)) with e | ⟨w2, V2, A2⟩
  · simp [h3] at hc
  simp only [h3] at hc
  have hne : ∀ {B w V A}, sortedEigen D (r := r) B = .ok (w, V, A) → B ≠ [] := by
    rintro B w V A hB rfl
    unfold sortedEigen at hB
    simp at hB
  have hIne : takeAt X I ≠ [] := fun hnil => hne h1 (by rw [hTI, hnil]; rfl)
  have hrI : Spec.RowsIn (meanRow X) L (takeAt X I) := fun x hx => hrow x (mem_takeAt hx)
  have hXne : X ≠ [] := by
    rintro rfl
    exact hIne (by simp [takeAt])
  have hmT : meanRow T = 0 := meanRow_centered hXne L
  have t1 := sortedEigen_top h1 k1
  rw [hTI] at t1
  have t2 := topEigen_load hL hIne hrI t1
  have hwl := (sortedEigen_spec h1).2.2.1
  have hev' : ev = w.take k1 := by
    by_cases hf : fin = true ∧ min k1 A2.rank > 1
    · rw [if_pos hf] at hc
      rcases h4 : finalMcdStep D T (meanRow T) (min k1 A2.rank) (V2.take (min k1 A2.rank)) with e | ⟨k', C'⟩
      · simp [h4, Except.map] at hc
      simp only [h4, Except.map, Except.ok.injEq, Prod.mk.injEq] at hc
      exact hc.2.2.symm
    · rw [if_neg hf] at hc
      simp only [Except.map, Except.ok.injEq, Prod.mk.injEq] at hc
      exact hc.2.2.symm
  refine ⟨out, I, ev, (V.take k1).map (loadColumn L), ho, hol, hsub, rfl, ?_, ?_, ?_⟩
  · rw [hev']
    exact t2
  · obtain ⟨k', C', ev'', -, -, e3, -, -, e6⟩ := hev
    intro k0 hk0
    obtain rfl := Option.some.inj e3
    exact (e6 k0 hk0).2
  · intro hfin
    rw [if_neg (by simp [hfin])] at hc
    simp only [Except.map, Except.ok.injEq, Prod.mk.injEq] at hc
    obtain ⟨rfl, rfl, -⟩ := hc
    have hVo : Spec.Orthonormal (V.take k1) := t1.2.1
    have hd : ∀ x ∈ X, orthDistRow (meanRow T) (V.take k1) ((x - meanRow X) ᵥ* L) =
        Spec.distToSpan (meanRow X) ((V.take k1).map (loadColumn L)) x := fun x hx => by
      rw [hmT, orthDistRow_eq 0 hVo, distToSpan_load hL _ (hrow x hx)]
    have hod : T.map (orthDistRow (meanRow T) (V.take k1)) =
        X.map (Spec.distToSpan (meanRow X) ((V.take k1).map (loadColumn L))) := by
      rw [hT, List.map_map]
      exact List.map_congr_left hd
    have hfil : (T.filter fun x => belowCutoff (D.odCutoff (T.map (orthDistRow (meanRow T) (V.take k1))))
        (orthDistRow (meanRow T) (V.take k1) x)) = (Spec.keptRows (getOdCutoff chi z corrRaw corr) (meanRow X)
          ((V.take k1).map (loadColumn L)) X).map fun x => (x - meanRow X) ᵥ* L := by
      rw [hod]
      conv_lhs => rw [hT, List.filter_map]
      congr 1
      refine List.filter_congr fun x hx => ?_
      simp only [Function.comp_apply]
      rw [hd x hx, Bool.eq_iff_iff, decide_eq_true_iff]
      have : D.odCutoff = getOdCutoff chi z corrRaw corr := rfl
      rw [this]
      rcases getOdCutoff chi z corrRaw corr (X.map (Spec.distToSpan (meanRow X) ((V.take k1).map (loadColumn L)))) with _ | c
      · simp [belowCutoff]
      · simp [belowCutoff]
    set Y := Spec.keptRows (getOdCutoff chi z corrRaw corr) (meanRow X) ((V.take k1).map (loadColumn L)) X with hY
    rw [hfil] at h3
    have hYne : Y ≠ [] := fun hnil => hne h3 (by rw [hnil]; rfl)
    have hrY : Spec.RowsIn (meanRow X) L Y := fun x hx => hrow x (List.mem_filter.1 hx).1
    have hA2 : A2 = npCov (Y.map fun x => (x - meanRow X) ᵥ* L) := (sortedEigen_spec h3).2.2.2.2
    have hr2 : A2.rank = (npCov Y).rank := by rw [hA2, rank_npCov_load hL hYne hrY]
    refine ⟨_, _, rfl, topEigen_load hL hYne hrY (sortedEigen_top h3 _), ?_⟩
    have hrank : A2.rank ≤ r := by simpa using Matrix.rank_le_width A2
    have hV2l := (sortedEigen_spec h3).2.1
    rw [List.length_map, List.length_take, hV2l, hev', List.length_take, hwl, ← hr2]
    omega

/-- The matrix of second moments of the directions from the centre to the observations. -/
noncomputable def Spec.signMoments (X : List (Fin p → ℝ)) (m : Fin p → ℝ) : Matrix (Fin p) (Fin p) ℝ := fun i j =>
  (X.map fun x => (x i - m i) * (x j - m j) / ∑ l, (x l - m l) ^ 2).sum / X.length

/-- **C97**: the components of PCALocantore are leading eigenvectors of the spatial sign covariance around the l1-median, and the
explained variances are the squared rescaled MADs of the scores. -/
theorem C97_locantore (eps c thr : ℝ) (eigh : ∀ A : Matrix (Fin p) (Fin p) ℝ, EighAsc A) (st st' : PCAState p)
    (X : List (Fin p → ℝ)) (fuel : ℕ) (h : locantoreFit eps c thr eigh st X fuel = some (.ok st')) :
    ∃ loc w C, l1median eps X fuel = some (.ok loc) ∧ st'.location_ = some (some loc) ∧ st'.components_ = some C ∧
      Spec.TopEigen (Spec.signMoments X loc) w C ∧
      ∃ ev, st'.explainedVariance_ = some ev ∧ ev.length = C.length ∧ ∀ (i : ℕ) v l, C[i]? = some v → ev[i]? = some l →
        ∃ s, madRaw (X.map fun x => ∑ j, (x j - loc j) * v j) = some s ∧ l = (c * s) ^ 2 := by
  obtain ⟨loc, h1, h2⟩ := locantoreFit_ok h
  obtain ⟨hX, hloc, k, hk, rfl⟩ := locantoreWith_ok h2
  have hA : spatialSignCov X loc = Spec.signMoments X loc := by
    funext i j
    unfold spatialSignCov Spec.signMoments
    congr 2
    refine List.map_congr_left fun x _ => ?_
    have hsq : rowDist x loc * rowDist x loc = ∑ l, (x l - loc l) ^ 2 := by
      unfold rowDist
      rw [Real.mul_self_sqrt (Finset.sum_nonneg fun _ _ => mul_self_nonneg _)]
      exact Finset.sum_congr rfl fun _ _ => (pow_two _).symm
    rw [← hsq, mul_mul_mul_comm, div_mul_div_comm, one_mul, mul_one_div]
  have hsym : (spatialSignCov X loc).IsSymm := by
    ext i j
    rw [Matrix.transpose_apply, hA]
    unfold Spec.signMoments
    congr 2
    refine List.map_congr_left fun x _ => by rw [mul_comm (x j - loc j)]
  have htop := topEigen_take hsym (eigh (spatialSignCov X loc)) (List.reverse_perm _) (by
    rw [List.map_reverse, List.pairwise_reverse, eigPairs_fst]
    exact List.pairwise_ofFn.2 fun i j hij => (eigh (spatialSignCov X loc)).mono hij.le) k
  rw [List.map_reverse, List.map_reverse, eigPairs_snd, hA] at htop
  refine ⟨loc, _, _, h1, rfl, rfl, by rw [hA]; exact htop, _, rfl, ?_, ?_⟩
  · simp [madVariances]
  · intro i v l hv hl
    unfold madVariances at hl
    rw [← List.map_take, List.getElem?_map, hv] at hl
    obtain rfl := Option.some.inj hl
    obtain ⟨s, hm⟩ := madRaw_isSome (xs := X.map fun x => ∑ j, (x j - loc j) * v j) (by simpa using hX)
    exact ⟨s, hm, by simp [hm]⟩

/-! The hypotheses of C97 are met by the run on `c93Data`; two rows of variance 400 and 1600/9 are found, and one component. -/

example : ∃ (out : List ExtFloat) (I : List ℕ) (V : List (Fin 3 → ℝ)), Spec.HSubset 1 (some 2) out I ∧ out.length = 10 ∧
    Spec.TopEigen (npCov (takeAt c93Data I)) [3600 / 9, 1600 / 9] V := by
  obtain ⟨st', hst', -, hev⟩ := c93_run false
  obtain ⟨out, I, ev, V, -, h2, h3, h4, h5, -, -⟩ := C97_variances _ _ _ _ _ _ _ _ _ _ _ _ _ _ _ _ c93_loadings.1 _ _ _
    (fun x _ => ⟨x - meanRow c93Data, by simp⟩) hst'
  rw [hev] at h4
  obtain rfl := Option.some.inj h4
  exact ⟨out, I, V, h3, h2, h5⟩

end Robpy
