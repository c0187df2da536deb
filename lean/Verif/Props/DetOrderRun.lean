import Verif.Props.DetSym

/-! # C188: a run of DetMCD in which no tie decides

The data are symmetric in both coordinates, so all scatter matrices are diagonal and the run can be followed exactly. -/

namespace Robpy
open Matrix

variable {p : ℕ}

/-- The sign of one coordinate changed. -/
def flipAt (k : Fin p) (x : Fin p → ℝ) : Fin p → ℝ := fun j => if j = k then -x j else x j

/-- Rows that are the same, up to their order, after a change of sign of one coordinate. -/
def SymRows (Z : List (Fin p → ℝ)) : Prop := ∀ k, Z.Perm (Z.map (flipAt k))

theorem offdiag_of_flip {Y : List (Fin p → ℝ)} (k : Fin p) (c : ℝ)
    (h : Y.Perm (Y.map fun y j => if j = k then c - y j else y j)) (hY : Y ≠ []) {j : Fin p} (hj : j ≠ k) : npCov Y k j = 0 := by
  let D : Matrix (Fin p) (Fin p) ℝ := Matrix.diagonal fun j => if j = k then -1 else 1
  let b : Fin p → ℝ := fun j => if j = k then c else 0
  have e : (fun y : Fin p → ℝ => D *ᵥ y + b) = fun y j => if j = k then c - y j else y j := by
    funext y j
    simp only [D, b, Pi.add_apply, Matrix.mulVec_diagonal]
    split_ifs <;> ring
  have hl : (Y.length : ℝ) ≠ 0 := by
    have := List.length_pos_iff.2 hY
    positivity
  have h1 := npCov_affine D b Y hl
  rw [e] at h1
  have h2 : npCov Y = D * npCov Y * Dᵀ := (npCov_perm h).trans h1
  have h3 := congrFun (congrFun h2 k) j
  simp only [D, Matrix.diagonal_transpose, Matrix.mul_diagonal, Matrix.diagonal_mul, if_pos, if_neg hj] at h3
  linarith

theorem corrcoefRows_offdiag {Y : List (Fin p → ℝ)} {S : Matrix (Fin p) (Fin p) ℝ} (h : corrcoefRows Y = some S) {i j : Fin p}
    (h0 : npCov Y i j = 0) : S i j = 0 := by
  unfold corrcoefRows at h
  split_ifs at h
  rw [← Option.some.inj h]
  unfold covarianceToCorrelation
  simp [h0]

theorem column_flip (k j : Fin p) (Z : List (Fin p → ℝ)) :
    column (Z.map (flipAt k)) j = if j = k then (column Z j).map (fun v => -v) else column Z j := by
  unfold column flipAt
  rw [List.map_map]
  split_ifs with h
  · rw [List.map_map]
    exact List.map_congr_left fun z _ => by simp [h]
  · exact List.map_congr_left fun z _ => by simp [h]

theorem rankRows_flip (k : Fin p) (Z : List (Fin p → ℝ)) :
    rankRows (Z.map (flipAt k)) = (rankRows Z).map fun y j => if j = k then ((Z.length : ℝ) + 1) - y j else y j := by
  unfold rankRows
  rw [List.map_map, List.map_map]
  refine List.map_congr_left fun z _ => ?_
  funext j
  simp only [Function.comp]
  rw [column_flip]
  unfold flipAt
  split_ifs with h
  · rw [avgRank_neg, column_length]
  · rfl

theorem scoreRows_flip {ppf : ℝ → ℝ} {c : ℝ} (hppf : ∀ u, 0 < u → u < 1 → ppf (1 - u) = c - ppf u) (k : Fin p) (Z : List (Fin p → ℝ)) :
    scoreRows ppf (Z.map (flipAt k)) = (scoreRows ppf Z).map fun y j => if j = k then c - y j else y j := by
  unfold scoreRows
  rw [rankRows_flip, List.length_map, List.map_map, List.map_map]
  refine List.map_congr_left fun r hr => ?_
  funext j
  simp only [Function.comp]
  split_ifs with h
  · unfold rankRows at hr
    obtain ⟨z, hz, rfl⟩ := List.mem_map.1 hr
    obtain ⟨h1, h2⟩ := avgRank_range (l := column Z j) (a := z j) (List.mem_map.2 ⟨z, hz, rfl⟩)
    rw [column_length] at h2
    set r := avgRank (column Z j) (z j)
    have hn : (0:ℝ) < Z.length + 1 / 3 := by positivity
    rw [← hppf _ (div_pos (by linarith) hn) ((div_lt_one hn).2 (by linarith))]
    congr 1
    field_simp
    ring
  · rfl

theorem rowNorm_flip (k : Fin p) (z : Fin p → ℝ) : rowNorm (flipAt k z) = rowNorm z := by
  unfold rowNorm flipAt
  congr 1
  refine Finset.sum_congr rfl fun j _ => ?_
  split_ifs <;> ring

theorem spatialSigns_offdiag {Z : List (Fin p → ℝ)} (h : SymRows Z) {S : Matrix (Fin p) (Fin p) ℝ} (hS : spatialSigns Z = some S)
    {k j : Fin p} (hj : j ≠ k) : S k j = 0 := by
  unfold spatialSigns at hS
  split_ifs at hS
  rw [← Option.some.inj hS]
  simp only
  have h1 := ((h k).map fun z => (z k * (1 / rowNorm z)) * (z j * (1 / rowNorm z))).sum_eq
  rw [List.map_map] at h1
  have h2 : (Z.map ((fun z => (z k * (1 / rowNorm z)) * (z j * (1 / rowNorm z))) ∘ flipAt k)).sum =
      -(Z.map fun z => (z k * (1 / rowNorm z)) * (z j * (1 / rowNorm z))).sum := by
    generalize Z = L
    induction L with
    | nil => simp
    | cons z L ih =>
      rw [List.map_cons, List.sum_cons, ih, List.map_cons, List.sum_cons]
      simp only [Function.comp, rowNorm_flip]
      simp only [flipAt, if_pos, if_neg hj]
      ring
  rw [h2] at h1
  have : (Z.map fun z => (z k * (1 / rowNorm z)) * (z j * (1 / rowNorm z))).sum = 0 := by linarith
  rw [this, zero_div]

theorem halfCov_offdiag (srt : ArgSort ℝ) {Z : List (Fin p → ℝ)} (h : SymRows Z) (hc : Spec.clearCut ((Z.length + 1) / 2) (Z.map rowNorm))
    {S : Matrix (Fin p) (Fin p) ℝ} (hS : halfCov srt Z = some S) {k j : Fin p} (hj : j ≠ k) : S k j = 0 := by
  unfold halfCov at hS
  simp only at hS
  split_ifs at hS with h2
  rw [← Option.some.inj hS]
  obtain ⟨t, ht⟩ := hc
  have hcut := takeAt_cut srt Z rowNorm ht
  rw [npCov_perm hcut]
  refine offdiag_of_flip k 0 ?_ ?_ hj
  · have h3 := (h k).filter fun z => decide (rowNorm z ≤ t)
    rw [List.filter_map] at h3
    have e1 : ((fun z => decide (rowNorm z ≤ t)) ∘ flipAt k) = fun z => decide (rowNorm z ≤ t) := by
      funext z
      simp only [Function.comp, rowNorm_flip]
    rw [e1] at h3
    have e2 : (fun (y : Fin p → ℝ) j => if j = k then 0 - y j else y j) = flipAt k := by
      funext y j
      simp [flipAt]
    rw [e2]
    exact h3
  · intro h0
    rw [h0] at hcut
    have h4 := hcut.length_eq
    have h5 : ∀ i ∈ (srt.toFun (Z.map rowNorm)).take ((Z.length + 1) / 2), i < Z.length := fun i hi => by
      have := (take_argsort srt (Z.map rowNorm) ((Z.length + 1) / 2)).2.1 i hi
      rwa [List.length_map] at this
    rw [takeAt_length _ _ h5] at h4
    simp only [List.length_nil] at h4
    omega

/-- An eigendecomposition that returns the unit vectors for diagonal matrices. -/
noncomputable def eighAxes (A : Matrix (Fin p) (Fin p) ℝ) (h : A.IsSymm) : Eigh A := by
  classical exact if hd : ∀ i j, i ≠ j → A i j = 0 then
    { w := fun i => A i i, V := 1, orth := by simp,
      decomp := by
        rw [Matrix.one_mul, Matrix.transpose_one, Matrix.mul_one]
        funext i j
        by_cases hij : i = j
        · subst hij; simp
        · rw [hd i j hij, Matrix.diagonal_apply_ne _ hij] }
  else eighSpectral A h

theorem eighAxes_V {A : Matrix (Fin p) (Fin p) ℝ} (h : A.IsSymm) (hd : ∀ i j, i ≠ j → A i j = 0) : (eighAxes A h).V = 1 := by
  unfold eighAxes
  rw [dif_pos hd]

/-- `detEnvSpectral` with this eigendecomposition. -/
noncomputable def detEnvDiag (p : ℕ) : DetEnv p := { detEnvSpectral p with eigh := eighAxes }

theorem detEnvDiag_contract (p : ℕ) : DetContract (detEnvDiag p) where
  sqrtm _ hA := sqrtSpectral_sq hA
  ppf := strictMonoOn_id
  tau := one_pos

theorem vecMul_rev (z : Fin p → ℝ) : z ᵥ* ((1 : Matrix (Fin p) (Fin p) ℝ).submatrix id Fin.rev) = fun j => z j.rev := by
  funext j
  simp [Matrix.vecMul, dotProduct, Matrix.one_apply]

theorem sym_rev {Z : List (Fin p → ℝ)} (h : SymRows Z) : SymRows (Z.map fun z j => z (Fin.rev j)) := by
  intro k
  have h1 := (h k.rev).map fun (z : Fin p → ℝ) (j : Fin p) => z (Fin.rev j)
  refine h1.trans (List.Perm.of_eq ?_)
  rw [List.map_map, List.map_map]
  refine List.map_congr_left fun z _ => ?_
  funext j
  simp [flipAt, Fin.rev_inj]

theorem sym_div {Z : List (Fin p → ℝ)} (h : SymRows Z) (s : Fin p → ℝ) : SymRows (Z.map fun z j => z j / s j) := by
  intro k
  have h1 := (h k).map fun (z : Fin p → ℝ) (j : Fin p) => z j / s j
  refine h1.trans (List.Perm.of_eq ?_)
  rw [List.map_map, List.map_map]
  refine List.map_congr_left fun z _ => ?_
  funext j
  simp only [flipAt, Function.comp]
  split_ifs <;> ring

theorem ogkStep_sym {Z : List (Fin p → ℝ)} (h : SymRows Z) {r : List (Fin p → ℝ) × Matrix (Fin p) (Fin p) ℝ}
    (hr : ogkStep eighAxes qnNum Z = some r) :
    SymRows r.1 ∧ ∃ s : Fin p → ℝ, r.2 = Matrix.diagonal s * (1 : Matrix (Fin p) (Fin p) ℝ).submatrix id Fin.rev := by
  unfold ogkStep at hr
  simp only at hr
  split_ifs at hr
  have hY := sym_div h fun i => qnNum (column Z i)
  generalize (Z.map fun (z : Fin p → ℝ) j => z j / qnNum (column Z j)) = Y at hr hY
  have hcor : ∀ i j : Fin p, i ≠ j → qnNum (Y.map fun y => y i + y j) = qnNum (Y.map fun y => y i - y j) := by
    intro i j hij
    have h1 := (hY j).map fun y => y i + y j
    rw [List.map_map] at h1
    rw [qnNum_orderFree _ _ h1]
    congr 1
    refine List.map_congr_left fun y _ => ?_
    simp [flipAt, hij, sub_eq_add_neg]
  have hE : ∀ cor : Fin p → Fin p → ℝ, (∀ i j, i ≠ j → cor i j = 0) → ogkE eighAxes cor = (1 : Matrix (Fin p) (Fin p) ℝ).submatrix id Fin.rev := by
    intro cor hc
    unfold ogkE
    rw [eighAxes_V]
    intro i j hij
    unfold ogkU
    rw [if_neg hij]
    split_ifs
    · exact hc i j hij
    · exact hc j i hij.symm
  have hE' := hE (fun i j => (qnNum (Y.map fun y => y i + y j) ^ 2 - qnNum (Y.map fun y => y i - y j) ^ 2) /
      (qnNum (Y.map fun y => y i + y j) ^ 2 + qnNum (Y.map fun y => y i - y j) ^ 2)) (by
    intro i j hij
    rw [hcor i j hij, sub_self, zero_div])
  rw [hE'] at hr
  obtain rfl := Option.some.inj hr
  refine ⟨?_, _, rfl⟩
  simp only [vecMul_rev]
  exact sym_rev hY

theorem ogkRaw_sym (k : ℕ) {Z : List (Fin p → ℝ)} (h : SymRows Z) {q : (Fin p → ℝ) × Matrix (Fin p) (Fin p) ℝ}
    (hq : ogkRaw eighAxes medNum qnNum k Z = some q) {i j : Fin p} (hij : i ≠ j) : q.2 i j = 0 := by
  induction k generalizing Z q i j with
  | zero =>
    simp only [ogkRaw, ogkLoop, Option.map_some, List.foldr_nil] at hq
    obtain rfl := Option.some.inj hq
    exact Matrix.diagonal_apply_ne _ hij
  | succ k ih =>
    rw [ogkRaw_succ] at hq
    rcases hr : ogkStep eighAxes qnNum Z with _ | r
    · rw [hr] at hq; simp at hq
    · rw [hr] at hq
      simp only [Option.bind_some] at hq
      rcases hq0 : ogkRaw eighAxes medNum qnNum k r.1 with _ | q0
      · rw [hq0] at hq; simp at hq
      · rw [hq0] at hq
        obtain rfl := Option.some.inj hq
        obtain ⟨h1, s, h2⟩ := ogkStep_sym h hr
        have h0 : q0.2 i.rev j.rev = 0 := ih h1 hq0 fun e => hij (Fin.rev_injective e)
        simp only
        rw [h2, Matrix.transpose_mul, Matrix.diagonal_transpose, ← Matrix.mul_assoc, Matrix.mul_diagonal, Matrix.mul_assoc, Matrix.mul_assoc,
          Matrix.diagonal_mul]
        have : ((1 : Matrix (Fin p) (Fin p) ℝ).submatrix id Fin.rev * (q0.2 * ((1 : Matrix (Fin p) (Fin p) ℝ).submatrix id Fin.rev)ᵀ)) i j = q0.2 i.rev j.rev := by
          have hP : ∀ a b : Fin p, (1 : Matrix (Fin p) (Fin p) ℝ) a b.rev = if b = a.rev then 1 else 0 := fun a b => by
            rw [Matrix.one_apply]
            refine if_congr ⟨fun e => by rw [e, Fin.rev_rev], fun e => by rw [e, Fin.rev_rev]⟩ rfl rfl
          have hP' : ∀ a b : Fin p, (1 : Matrix (Fin p) (Fin p) ℝ) b.rev (id a) = if b = a.rev then 1 else 0 := fun a b => by
            rw [Matrix.one_apply]
            refine if_congr ⟨fun e => by rw [← Fin.rev_rev b, e]; rfl, fun e => by rw [e, Fin.rev_rev]; rfl⟩ rfl rfl
          simp [Matrix.mul_apply, hP, hP']
        rw [this, h0]; ring

/-- All six scatter matrices are diagonal. -/
theorem detScatters_sym {Z : List (Fin p → ℝ)} (h : SymRows Z) (hZ : Z ≠ []) (hc : Spec.clearCut ((Z.length + 1) / 2) (Z.map rowNorm))
    {Ss : List (Matrix (Fin p) (Fin p) ℝ)} (hS : detScatters (detEnvDiag p) Z = .ok Ss) : ∀ S ∈ Ss, ∀ i j, i ≠ j → S i j = 0 := by
  have hmap : ∀ {Y Y' : List (Fin p → ℝ)} (k : Fin p), Y.Perm Y' → Y ≠ [] → ∀ c : ℝ,
      (Y' = Y.map fun y j => if j = k then c - y j else y j) → ∀ j, j ≠ k → npCov Y k j = 0 := fun k hp hne c e j hj =>
    offdiag_of_flip k c (e ▸ hp) hne hj
  unfold detScatters at hS
  split_ifs at hS
  rcases h1 : corrcoefRows (Z.map fun z j => Real.tanh (z j)) with _ | S1
  · rw [h1] at hS; simp at hS
  rcases h2 : corrcoefRows (rankRows Z) with _ | S2
  · rw [h1, h2] at hS; simp at hS
  rcases h3 : corrcoefRows (scoreRows (detEnvDiag p).ppf Z) with _ | S3
  · rw [h1, h2, h3] at hS; simp at hS
  rcases h4 : spatialSigns Z with _ | S4
  · rw [h1, h2, h3, h4] at hS; simp at hS
  rcases h5 : halfCov (detEnvDiag p).srt Z with _ | S5
  · rw [h1, h2, h3, h4, h5] at hS; simp at hS
  rcases h6 : ogkRaw (detEnvDiag p).eigh medNum qnNum 2 Z with _ | q
  · rw [h1, h2, h3, h4, h5, h6] at hS; simp at hS
  rw [h1, h2, h3, h4, h5, h6] at hS
  obtain rfl := Except.ok.inj hS
  intro S hSm i j hij
  simp only [List.mem_cons, List.not_mem_nil, or_false] at hSm
  rcases hSm with rfl | rfl | rfl | rfl | rfl | rfl
  · refine corrcoefRows_offdiag h1 (hmap i ((h i).map _) (by simpa using hZ) 0 ?_ j hij.symm)
    rw [List.map_map, List.map_map]
    refine List.map_congr_left fun z _ => ?_
    funext j
    simp only [Function.comp, flipAt]
    split_ifs
    · rw [Real.tanh_neg, zero_sub]
    · rfl
  · refine corrcoefRows_offdiag h2 (hmap i (rankRows_perm (h i)) (by simpa [rankRows] using hZ) _ (rankRows_flip i Z) j hij.symm)
  · refine corrcoefRows_offdiag h3 (hmap i (scoreRows_perm (detEnvDiag p).ppf (h i)) (by simpa [rankRows, scoreRows] using hZ) 1
      (scoreRows_flip (ppf := (detEnvDiag p).ppf) (c := 1) (fun _ _ _ => rfl) i Z) j hij.symm)
  · exact spatialSigns_offdiag h h4 hij.symm
  · exact halfCov_offdiag _ h hc h5 hij.symm
  · exact ogkRaw_sym 2 h h6 hij

theorem detE_diag {S : Matrix (Fin p) (Fin p) ℝ} (h : ∀ i j, i ≠ j → S i j = 0) :
    detE (detEnvDiag p) S = (1 : Matrix (Fin p) (Fin p) ℝ).submatrix id Fin.rev := by
  unfold detE
  have : ((detEnvDiag p).eigh (lowerSym S) (lowerSym_isSymm S)).V = 1 := eighAxes_V _ fun i j hij => by
    unfold lowerSym
    split_ifs
    · exact h i j hij
    · exact h j i hij.symm
  rw [this]

/-- Every start is at the origin with the unit matrix, when all columns have scale 1. -/
theorem detStart_sym {Z : List (Fin p → ℝ)} (hneg : Z.Perm (Z.map fun z => -z)) (h2 : 2 ≤ Z.length) (hq : ∀ j, qnNum (column Z j) = 1)
    {S : Matrix (Fin p) (Fin p) ℝ} (hS : ∀ i j, i ≠ j → S i j = 0) {s : (Fin p → ℝ) × Matrix (Fin p) (Fin p) ℝ}
    (hs : detStart (detEnvDiag p) Z S = .ok s) : s = (0, 1) := by
  have hcov : detCov (detEnvDiag p) Z S = 1 := by
    unfold detCov
    simp only
    rw [detE_diag hS]
    have : (fun j => qnNum (column (Z.map fun z => z ᵥ* (1 : Matrix (Fin p) (Fin p) ℝ).submatrix id Fin.rev) j) ^ 2) = fun _ => (1:ℝ) := by
      funext j
      have e : column (Z.map fun z => z ᵥ* (1 : Matrix (Fin p) (Fin p) ℝ).submatrix id Fin.rev) j = column Z j.rev := by
        unfold column
        rw [List.map_map]
        refine List.map_congr_left fun z _ => ?_
        simp only [Function.comp, vecMul_rev]
      rw [e, hq, one_pow]
    rw [this, Matrix.diagonal_one, Matrix.mul_one]
    have h1 : ((1 : Matrix (Fin p) (Fin p) ℝ).submatrix id Fin.rev)ᵀ * (1 : Matrix (Fin p) (Fin p) ℝ).submatrix id Fin.rev = 1 :=
      rev_orth (by simp)
    exact mul_eq_one_comm.1 h1
  unfold detStart at hs
  simp only [hcov] at hs
  rcases hi : npInv ((detEnvDiag p).sqrtm 1) with e | inv
  · rw [hi] at hs; simp [Except.map] at hs
  rw [hi] at hs
  have := (Except.ok.inj hs).symm
  rw [this]
  have hm : (fun j => medNum (column (Z.map fun z => z ᵥ* inv) j)) = 0 := by
    funext j
    have h3 : medNum (column (Z.map fun z => z ᵥ* inv) j) = medNum (column ((Z.map fun z => -z).map fun z => z ᵥ* inv) j) :=
      medNum_orderFree _ _ (column_perm (hneg.map _) j)
    rw [column_neg_vecMul, medNum_neg (column_ne_nil (by rw [List.length_map]; exact h2) j)] at h3
    simp only [Pi.zero_apply]
    linarith
  simp only
  rw [hm, Matrix.mulVec_zero]

/-! ## The data -/

/-- Four rows in the middle, two further out, two still further out. -/
def c188Clear : List (Fin 2 → ℝ) := [![1, 1], ![1, -1], ![-1, 1], ![-1, -1], ![10, 0], ![-10, 0], ![0, 20], ![0, -20]]

/-- Subsets of six rows, no reweighting. -/
noncomputable def c188ClearCfg : MCDConfig ℝ := { c132Cfg with alpha := .int 6, reweighting := false }

theorem clear_aux1 {a b K : ℝ} (hK : 0 < K) (c1 : (1 * a + 1 * b) ^ 2 = K) (c2 : (1 * a + -1 * b) ^ 2 = K)
    (h : (10 * a + 0 * b) ^ 2 = K ∨ (0 * a + 20 * b) ^ 2 = K) : False := by
  have hab : a * b = 0 := by linarith [show (1 * a + 1 * b) ^ 2 - (1 * a + -1 * b) ^ 2 = 4 * (a * b) by ring]
  rcases mul_eq_zero.1 hab with h' | h' <;> subst h' <;> rcases h with h | h <;> ring_nf at c1 c2 h <;> linarith

theorem clear_aux2 {a b K : ℝ} (hK : 0 < K) (c3 : (10 * a + 0 * b) ^ 2 = K) (c4 : (0 * a + 20 * b) ^ 2 = K)
    (h : (1 * a + 1 * b) ^ 2 = K ∨ (1 * a + -1 * b) ^ 2 = K) : False := by
  have e2 : (a - 2 * b) * (a + 2 * b) = 0 := by
    linarith [show (10 * a + 0 * b) ^ 2 - (0 * a + 20 * b) ^ 2 = 100 * ((a - 2 * b) * (a + 2 * b)) by ring]
  rcases mul_eq_zero.1 e2 with h' | h'
  · have e : a = 2 * b := by linarith
    subst e
    rcases h with h | h <;> ring_nf at c4 h <;> linarith
  · have e : a = -2 * b := by linarith
    subst e
    rcases h with h | h <;> ring_nf at c4 h <;> linarith

theorem c188Clear_gp : Spec.RowsInGeneralPosition c188Clear := by
  intro v hv k
  by_contra hcon
  push Not at hcon
  refine hv ?_
  suffices h' : v 0 = 0 ∧ v 1 = 0 by
    funext i
    fin_cases i
    · exact h'.1
    · exact h'.2
  simp only [c188Clear, List.countP_cons, List.countP_nil, dotProduct, Fin.sum_univ_two, Matrix.cons_val_zero, Matrix.cons_val_one] at hcon
  generalize v 0 = a at hcon ⊢
  generalize v 1 = b at hcon ⊢
  by_cases hk : k = 0
  · subst hk
    by_cases ha : a = 0
    · subst ha
      refine ⟨rfl, ?_⟩
      by_contra hb
      simp [hb] at hcon
    · by_cases hb : b = 0
      · subst hb
        simp [ha] at hcon
      · by_cases h1 : a + b = 0
        · have e : b = -a := by linarith
          subst e
          have h2 : a + a ≠ 0 := fun h => ha (by linarith)
          have h3 : -a + -a ≠ 0 := fun h => ha (by linarith)
          simp [ha, h2, h3] at hcon
        · by_cases h2 : a = b
          · subst h2
            have h3 : -a + -a ≠ 0 := fun h => ha (by linarith)
            simp [ha, h1, h3] at hcon
          · have h3 : a + -b ≠ 0 := fun h => h2 (by linarith)
            have h4 : -a + b ≠ 0 := fun h => h2 (by linarith)
            have h5 : -a + -b ≠ 0 := fun h => h1 (by linarith)
            simp [ha, hb, h1, h3, h4, h5] at hcon
  · exfalso
    have key : ∀ u w : ℝ, w = -u → ((if decide (u = k) = true then 1 else 0) + (if decide (w = k) = true then 1 else 0) : ℕ) =
        if u ^ 2 = k ^ 2 then 1 else 0 := by
      intro u w hw
      by_cases hu : u = k
      · have : w ≠ k := fun h => hk (by linarith)
        simp [hu, this]
      · by_cases hw' : w = k
        · have : u ^ 2 = k ^ 2 := by rw [← hw', hw]; ring
          simp [hu, hw', this]
        · have : u ^ 2 ≠ k ^ 2 := fun h => by
            rcases sq_eq_sq_iff_eq_or_eq_neg.1 h with h | h
            · exact hu h
            · exact hw' (by rw [hw, h, neg_neg])
          simp [hu, hw', this]
    have k1 := key (1 * a + 1 * b) (-1 * a + -1 * b) (by ring)
    have k2 := key (1 * a + -1 * b) (-1 * a + 1 * b) (by ring)
    have k3 := key (10 * a + 0 * b) (-10 * a + 0 * b) (by ring)
    have k4 := key (0 * a + 20 * b) (0 * a + -20 * b) (by ring)
    have hk2 : 0 < k ^ 2 := by positivity
    have hsum : 2 < (if (1 * a + 1 * b) ^ 2 = k ^ 2 then 1 else 0) + (if (1 * a + -1 * b) ^ 2 = k ^ 2 then 1 else 0) +
        (if (10 * a + 0 * b) ^ 2 = k ^ 2 then 1 else 0) + (if (0 * a + 20 * b) ^ 2 = k ^ 2 then 1 else 0) := by
      rw [← k1, ← k2, ← k3, ← k4]
      refine lt_of_lt_of_eq hcon ?_
      ac_rfl
    clear hcon k1 k2 k3 k4 key
    by_cases c12 : (1 * a + 1 * b) ^ 2 = k ^ 2 ∧ (1 * a + -1 * b) ^ 2 = k ^ 2
    · refine clear_aux1 hk2 c12.1 c12.2 ?_
      by_contra hn
      push Not at hn
      rw [if_neg hn.1, if_neg hn.2, if_pos c12.1, if_pos c12.2] at hsum
      omega
    · have hc : ((10 * a + 0 * b) ^ 2 = k ^ 2 ∧ (0 * a + 20 * b) ^ 2 = k ^ 2) ∧
          ((1 * a + 1 * b) ^ 2 = k ^ 2 ∨ (1 * a + -1 * b) ^ 2 = k ^ 2) := by
        by_contra hn
        split_ifs at hsum <;> first | omega | tauto
      exact clear_aux2 hk2 hc.1.1 hc.1.2 hc.2

theorem c188Clear_sym : SymRows c188Clear := by
  intro k
  have e0 : c188Clear.map (flipAt 0) = [![-1, 1], ![-1, -1], ![1, 1], ![1, -1], ![-10, 0], ![10, 0], ![0, 20], ![0, -20]] := by
    simp [c188Clear, flipAt, funext_iff, Fin.forall_fin_two]
  have e1 : c188Clear.map (flipAt 1) = [![1, -1], ![1, 1], ![-1, -1], ![-1, 1], ![10, 0], ![-10, 0], ![0, -20], ![0, 20]] := by
    simp [c188Clear, flipAt, funext_iff, Fin.forall_fin_two]
  fin_cases k
  · change c188Clear.Perm (c188Clear.map (flipAt 0))
    rw [e0]
    unfold c188Clear
    exact (List.perm_append_comm (l₁ := [![1, 1], ![1, -1]]) (l₂ := [![-1, 1], ![-1, -1]])).append (List.Perm.swap _ _ _)
  · change c188Clear.Perm (c188Clear.map (flipAt 1))
    rw [e1]
    exact (List.Perm.swap _ _ _).trans (((List.Perm.swap _ _ _).trans ((((List.Perm.swap _ _ _).cons _).cons _).cons _ |>.cons _)).cons _ |>.cons _)

theorem c188Clear_neg : c188Clear.Perm (c188Clear.map fun x => -x) := by
  have h := (c188Clear_sym 0).trans ((c188Clear_sym 1).map (flipAt 0))
  rw [List.map_map] at h
  refine h.trans (List.Perm.of_eq (List.map_congr_left fun x _ => ?_))
  funext j
  fin_cases j <;> simp [flipAt]

theorem c188Clear_column (j : Fin 2) : Spec.IsKthSmallest 10 (Spec.pairDists (column c188Clear j)) 1 := by
  fin_cases j <;>
  · unfold Spec.IsKthSmallest
    norm_num [c188Clear, column, Spec.pairDists, List.countP_cons]

/-- Both columns have the same scale. -/
theorem c188Clear_scale : ∃ c, 0 < c ∧ ∀ j, qnNum (column c188Clear j) = c := by
  obtain ⟨d, hd, h0, -⟩ := C01_dn_range (K := ℝ) 8 (by norm_num)
  refine ⟨2.219144 * d, by positivity, fun j => ?_⟩
  have hl : (column c188Clear j).length = 8 := by rw [column_length]; rfl
  obtain ⟨v, d', hv, hd', hs⟩ := C01_qn_corrected true true (column c188Clear j) (by omega)
    ((column c188Clear j).length * (column c188Clear j).length + 1) (by omega)
  rw [hl] at hd' hv
  rw [hd] at hd'
  obtain rfl := Option.some.inj hd'
  have hv1 : v = 1 := isKth_unique hv (c188Clear_column j)
  unfold qnNum
  rw [hs, hv1]
  simp

theorem c188Clear_med (j : Fin 2) : medNum (column c188Clear j) = 0 := by
  have h : medNum (column c188Clear j) = medNum (column (c188Clear.map fun x => -x) j) := medNum_orderFree _ _ (column_perm c188Clear_neg j)
  rw [column_neg', medNum_neg (column_ne_nil (by simp [c188Clear]) j)] at h
  linarith

/-- No tie decides: the cuts are clear. -/
theorem c188Clear_cuts : Spec.determinedCuts (detEnvDiag 2) c188ClearCfg.alpha c188Clear := by
  obtain ⟨c, hc, hq⟩ := c188Clear_scale
  have hsc : ∀ j, detScale (detEnvDiag 2).tauCorr c188Clear.length (column c188Clear j) = c := fun j => by
    unfold detScale
    rw [if_pos (by simp [c188Clear]), hq]
  have hZ : ∀ Z, detZ (detEnvDiag 2).tauCorr c188Clear = .ok Z → Z = c188Clear.map fun x j => x j / c := by
    intro Z h
    obtain ⟨-, -, rfl⟩ := detZ_ok h
    refine List.map_congr_left fun x _ => ?_
    funext j
    rw [hsc, c188Clear_med, sub_zero]
  have hnorm : Spec.clearCut ((c188Clear.length + 1) / 2) ((c188Clear.map fun x j => x j / c).map rowNorm) := by
    refine ⟨2 / c, ?_⟩
    have e : ∀ x : Fin 2 → ℝ, (rowNorm (fun j => x j / c) ≤ 2 / c) ↔ x 0 * x 0 + x 1 * x 1 ≤ 4 := fun x => by
      unfold rowNorm
      rw [Real.sqrt_le_left (by positivity), Fin.sum_univ_two, div_pow, div_mul_div_comm, div_mul_div_comm, ← add_div, sq c,
        div_le_div_iff_of_pos_right (by positivity)]
      norm_num
    rw [List.map_map, List.countP_map]
    simp only [Function.comp_def, e]
    norm_num [c188Clear, List.countP_cons]
  have hstart : ∀ Z, detZ (detEnvDiag 2).tauCorr c188Clear = .ok Z → ∀ Ss, detScatters (detEnvDiag 2) Z = .ok Ss → ∀ S ∈ Ss, ∀ s,
      detStart (detEnvDiag 2) Z S = .ok s → s = (0, 1) := by
    intro Z h Ss hSs S hS s hs
    obtain rfl := hZ Z h
    have hneg : (c188Clear.map fun (x : Fin 2 → ℝ) j => x j / c).Perm ((c188Clear.map fun (x : Fin 2 → ℝ) j => x j / c).map fun z => -z) := by
      have := c188Clear_neg.map fun (x : Fin 2 → ℝ) j => x j / c
      refine this.trans (List.Perm.of_eq ?_)
      rw [List.map_map, List.map_map]
      refine List.map_congr_left fun x _ => ?_
      funext j
      simp [neg_div]
    refine detStart_sym hneg (by simp [c188Clear]) (fun j => ?_)
      (detScatters_sym (sym_div c188Clear_sym _) (by simp [c188Clear]) (by rw [List.length_map]; exact hnorm) hSs S hS) hs
    have e : column (c188Clear.map fun (x : Fin 2 → ℝ) j => x j / c) j = (column c188Clear j).map fun v => c⁻¹ * v + 0 := by
      unfold column
      rw [List.map_map, List.map_map]
      refine List.map_congr_left fun x _ => ?_
      simp only [Function.comp]
      ring
    rw [e, qnNum_affine (by rw [column_length]; simp [c188Clear]), hq, abs_of_pos (inv_pos.2 hc), inv_mul_cancel₀ hc.ne']
  have hquad : ∀ x : Fin 2 → ℝ, quadForm (1 : Matrix (Fin 2) (Fin 2) ℝ)⁻¹ ((fun j => x j / c) - 0) = (x 0 * x 0 + x 1 * x 1) / (c * c) := fun x => by
    unfold quadForm
    rw [inv_one, Matrix.vecMul_one, sub_zero, dotProduct, Fin.sum_univ_two, div_mul_div_comm, div_mul_div_comm, ← add_div]
  have hcount : ((c188Clear.map fun x => (x 0 * x 0 + x 1 * x 1) / (c * c)).countP fun v => decide (v ≤ 4 / (c * c))) = 4 := by
    rw [List.countP_map]
    simp only [Function.comp_def, div_le_div_iff_of_pos_right (mul_pos hc hc)]
    norm_num [c188Clear, List.countP_cons]
  refine ⟨fun Z h => ?_, ?_⟩
  · have hZe := hZ Z h
    refine ⟨by rw [hZe]; exact hnorm, fun Ss hSs S hS s d hs hd => ?_⟩
    rw [hstart Z h Ss hSs S hS s hs] at hd
    obtain ⟨-, rfl⟩ := sqMahalanobis_ok hd
    refine ⟨4 / (c * c), ?_⟩
    rw [hZe, List.map_map]
    simp only [Function.comp_def, hquad]
    exact hcount
  · intro inits k hin hk idx hidx d hd
    have hk6 : k = 6 := by
      have : mcdGetH c188ClearCfg.alpha c188Clear.length 2 = .ok 6 := rfl
      rw [this] at hk
      exact (Except.ok.inj hk).symm
    subst hk6
    have hrows : (takeAt c188Clear idx).Perm [![1, 1], ![1, -1], ![-1, 1], ![-1, -1]] := by
      unfold detInits at hin
      rcases hz : detZ (detEnvDiag 2).tauCorr c188Clear with e | Z
      · rw [hz] at hin; simp [Except.bind] at hin
      rw [hz] at hin
      simp only [Except.bind] at hin
      rcases hSs : detScatters (detEnvDiag 2) Z with e | Ss
      · rw [hSs] at hin; simp at hin
      rw [hSs] at hin
      simp only at hin
      rcases hst : mapExcept (detStart (detEnvDiag 2) Z) Ss with e | starts
      · rw [hst] at hin; simp at hin
      rw [hst] at hin
      simp only at hin
      obtain ⟨s, hsm, hs⟩ := mapExcept_mem hin idx hidx
      obtain ⟨S, hS, hsS⟩ := mapExcept_mem hst s hsm
      rw [hstart Z hz Ss hSs S hS s hsS] at hs
      unfold detIndices at hs
      rw [sqMahalanobis_eq (by simp), hZ Z hz, List.map_map, List.length_map] at hs
      simp only [Function.comp_def, hquad] at hs
      obtain rfl := (Except.ok.inj hs).symm
      refine (takeAt_cut (detEnvDiag 2).srt c188Clear (fun x => (x 0 * x 0 + x 1 * x 1) / (c * c)) hcount).trans (List.Perm.of_eq ?_)
      simp only [div_le_div_iff_of_pos_right (mul_pos hc hc)]
      norm_num [c188Clear, List.filter_cons]
    have hmean : meanRow (takeAt c188Clear idx) = 0 := by
      rw [meanRow_perm hrows]
      funext j
      fin_cases j <;> norm_num [meanRow, mean]
    have hcov : npCov (takeAt c188Clear idx) = (4 / 3 : ℝ) • 1 := by
      rw [npCov_perm hrows]
      funext i j
      fin_cases i <;> fin_cases j <;> norm_num [npCov, meanRow, mean, Matrix.one_apply]
    rw [hmean, hcov] at hd
    obtain ⟨-, rfl⟩ := sqMahalanobis_ok hd
    have hinv : ((4 / 3 : ℝ) • (1 : Matrix (Fin 2) (Fin 2) ℝ))⁻¹ = (3 / 4 : ℝ) • 1 := by
      refine Matrix.inv_eq_right_inv ?_
      rw [Matrix.smul_mul, Matrix.one_mul, smul_smul]
      norm_num
    refine ⟨75, ?_⟩
    have hq2 : ∀ x : Fin 2 → ℝ, quadForm ((3 / 4 : ℝ) • (1 : Matrix (Fin 2) (Fin 2) ℝ)) (x - 0) = 3 / 4 * (x 0 * x 0 + x 1 * x 1) := fun x => by
      unfold quadForm
      rw [sub_zero, Matrix.vecMul_smul, Matrix.vecMul_one, smul_dotProduct, dotProduct, Fin.sum_univ_two, smul_eq_mul]
    rw [hinv, List.countP_map]
    simp only [Function.comp_def, hq2]
    norm_num [c188Clear, List.countP_cons]

/-- The hypotheses of `C188_order_partial` are met in a run that returns a result, with the rows in reverse order for the second run. -/
example : (∃ fit, detFit (detEnvDiag 2) c188ClearCfg c188Clear 1 = some (.ok fit)) ∧
    Spec.sameRun (Spec.sameMCD c188Clear c188Clear.reverse) (detFit (detEnvDiag 2) c188ClearCfg c188Clear 1)
      (detFit (detEnvDiag 2) c188ClearCfg c188Clear.reverse 1) := by
  have htol : 0 < c188ClearCfg.tol := by norm_num [c188ClearCfg, c132Cfg]
  refine ⟨?_, C188_order_partial _ _ htol c188Clear.reverse_perm.symm c188Clear_cuts 1⟩
  obtain ⟨fit, hfit, -⟩ := (C132_partial (detEnvDiag 2) (detEnvDiag_contract 2) c188ClearCfg htol (X := c188Clear)
    (by simp [Spec.DocumentedAlpha, c188ClearCfg, c188Clear]) (by simp [alphaIsAll, c188ClearCfg, c188Clear])
    (by intro _; norm_num [c188ClearCfg, c132Cfg]) (by intro h; simp [c188ClearCfg] at h)
    c188Clear_gp le_rfl (by simp [c188Clear]) 0).2 (fun x hx h => by
      have hm : ∀ j, x j = 0 := fun j => by
        have h1 := c188Clear_med j
        unfold medNum column at h1
        rw [h j] at h1
        exact h1
      have h0 := hm 0
      have h1 := hm 1
      simp only [c188Clear, List.mem_cons, List.not_mem_nil, or_false] at hx
      rcases hx with rfl | rfl | rfl | rfl | rfl | rfl | rfl | rfl <;> first | (norm_num at h0; done) | (norm_num at h1; done))
  exact ⟨fit, hfit⟩

end Robpy
