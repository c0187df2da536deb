import Verif.Props.PCAUnits
import Verif.Props.MMOrder
import Verif.Props.ColumnOrder
import Verif.Props.PCAOptimal

/-! # C200, C201: rotations of the data, the l1-median and `PCALocantore` -/

namespace Robpy
open Matrix

variable {p : ℕ} {Q : Matrix (Fin p) (Fin p) ℝ}

/-! ## The l1-median -/

theorem rowDist_orth (hQ : Qᵀ * Q = 1) (x mu : Fin p → ℝ) : rowDist (Q *ᵥ x) (Q *ᵥ mu) = rowDist x mu := by
  have h := dot_orth (mul_eq_one_comm.1 hQ) (x - mu) (x - mu)
  unfold rowDist
  rw [mulVec_sub] at h
  simp only [dotProduct, Pi.sub_apply] at h
  rw [h]

theorem mulVec_inj_orth (hQ : Qᵀ * Q = 1) {x y : Fin p → ℝ} (h : Q *ᵥ x = Q *ᵥ y) : x = y := by
  have := congrArg (Qᵀ *ᵥ ·) h
  simpa only [mulVec_mulVec, hQ, one_mulVec] using this

theorem mem_map_orth (hQ : Qᵀ * Q = 1) {X : List (Fin p → ℝ)} {mu : Fin p → ℝ} : Q *ᵥ mu ∈ X.map (Q *ᵥ ·) ↔ mu ∈ X := by
  constructor
  · intro h
    obtain ⟨x, hx, he⟩ := List.mem_map.1 h
    exact mulVec_inj_orth hQ he ▸ hx
  · exact fun h => List.mem_map.2 ⟨mu, h, rfl⟩

/-- A weighted sum of rows, one coordinate at a time. -/
theorem mulVec_weighted (X : List (Fin p → ℝ)) (w : (Fin p → ℝ) → ℝ) (i : Fin p) :
    (X.map fun x => (Q *ᵥ x) i * w x).sum = (Q *ᵥ fun j => (X.map fun x => x j * w x).sum) i := by
  induction X with
  | nil => simp [mulVec, dotProduct]
  | cons x l ih =>
    simp only [List.map_cons, List.sum_cons, ih]
    simp only [mulVec, dotProduct, Finset.sum_mul, mul_add, Finset.sum_add_distrib]
    congr 1
    exact Finset.sum_congr rfl fun j _ => by ring

theorem meanRow_orth (X : List (Fin p → ℝ)) : meanRow (X.map (Q *ᵥ ·)) = Q *ᵥ meanRow X := by
  funext i
  have h := mulVec_weighted (Q := Q) X (fun _ => (X.length : ℝ)⁻¹) i
  have e : meanRow X = fun j => (X.map fun x => x j * (X.length : ℝ)⁻¹).sum := by
    funext j
    simp only [meanRow, mean, List.length_map, List.sum_map_mul_right, div_eq_mul_inv]
  rw [e, ← h]
  simp only [meanRow, mean, List.length_map, List.map_map, List.sum_map_mul_right, div_eq_mul_inv, Function.comp_def]

theorem l1Next_orth (hQ : Qᵀ * Q = 1) {X : List (Fin p → ℝ)} (hX : X ≠ []) (mu : Option (Fin p → ℝ)) :
    l1Next (X.map (Q *ᵥ ·)) (mu.map (Q *ᵥ ·)) = (l1Next X mu).map (Q *ᵥ ·) := by
  rcases mu with _ | mu
  · simp [l1Next, hX]
  rw [Option.map_some]
  by_cases h : mu ∈ X
  · rw [l1Next_of_mem h, l1Next_of_mem ((mem_map_orth hQ).2 h)]
    rfl
  rw [l1Next_of_not_mem h, l1Next_of_not_mem fun hm => h ((mem_map_orth hQ).1 hm), Option.map_some]
  have hW : l1WeightSum (X.map (Q *ᵥ ·)) (Q *ᵥ mu) = l1WeightSum X mu := by
    unfold l1WeightSum
    rw [List.map_map]
    congr 1
    exact List.map_congr_left fun x _ => by simp only [Function.comp, rowDist_orth hQ]
  congr 1
  funext i
  have h2 := mulVec_weighted (Q := Q) X (fun x => 1 / rowDist x mu / l1WeightSum X mu) i
  simp only [mul_div_assoc, hW] at h2 ⊢
  rw [← h2, List.map_map]
  congr 1
  exact List.map_congr_left fun x _ => by simp only [Function.comp, rowDist_orth hQ]

theorem l1Iter_orth (hQ : Qᵀ * Q = 1) {X : List (Fin p → ℝ)} (hX : X ≠ []) (i : ℕ) :
    l1Iter (X.map (Q *ᵥ ·)) i = (l1Iter X i).map (Q *ᵥ ·) := by
  induction i with
  | zero =>
    rw [l1Iter, l1Iter, if_neg hX, if_neg (by simpa using hX), meanRow_orth]
    rfl
  | succ i ih => rw [l1Iter, l1Iter, ih, l1Next_orth hQ hX]

/-- **C200** (full statement): the l1-median of rotated data is the rotated l1-median.  `eps` is the tolerance `1e-7` of the code. -/
def C200_statement : Prop :=
  ∀ (p : ℕ) (eps : ℝ) (Q : Matrix (Fin p) (Fin p) ℝ) (X : List (Fin p → ℝ)) (f1 f2 : ℕ) (m1 m2 : Fin p → ℝ), 0 < eps → Qᵀ * Q = 1 →
    X ≠ [] → l1median eps X f1 = some (.ok m1) → l1median eps (X.map (Q *ᵥ ·)) f2 = some (.ok m2) → m2 = Q *ᵥ m1

/-- **C200** (partial): every pass of the loop follows the rotation, so that the result for the rotated data is the rotation of one of
the iterates for the original data.  Missing: it need not be the iterate at which the loop stops for the original data. -/
theorem C200_iterates_partial (hQ : Qᵀ * Q = 1) {eps : ℝ} {X : List (Fin p → ℝ)} (hX : X ≠ []) {fuel : ℕ} {m2 : Fin p → ℝ}
    (h : l1median eps (X.map (Q *ᵥ ·)) fuel = some (.ok m2)) :
    ∃ i a b, l1Iter X i = some a ∧ l1Iter X (i + 1) = some b ∧ m2 = Q *ᵥ b ∧ ∑ j, |(Q *ᵥ a) j - (Q *ᵥ b) j| < eps := by
  unfold l1median at h
  obtain ⟨b, a, i, hb, h1, h2, h3⟩ := l1Loop_result fuel 0 _ h
  have := Except.ok.inj hb
  subst this
  rw [l1Iter_orth hQ hX] at h1 h2
  rcases ha : l1Iter X i with _ | a'
  · rw [ha] at h1; cases h1
  rcases hb' : l1Iter X (i + 1) with _ | b'
  · rw [hb'] at h2; cases h2
  rw [ha] at h1
  rw [hb'] at h2
  have e1 := Option.some.inj h1
  have e2 := Option.some.inj h2
  exact ⟨i, a', b', ha, hb', e2.symm, by simp only at e1 e2; rw [e1, e2]; exact h3⟩

/-- The rows with the columns in another order and some columns with the opposite sign. -/
def Spec.turnColumns (σ : Equiv.Perm (Fin p)) (t : Fin p → ℝ) (x : Fin p → ℝ) : Fin p → ℝ := fun j => t j * x (σ j)

theorem turnColumns_eq (σ : Equiv.Perm (Fin p)) (t : Fin p → ℝ) (x : Fin p → ℝ) : Spec.turnColumns σ t x = (spMat σ t)ᵀ *ᵥ x := by
  funext j
  rw [mulVec_transpose, vecMul_spMat, mul_comm]
  rfl

theorem turn_orth (σ : Equiv.Perm (Fin p)) {t : Fin p → ℝ} (ht : Signs t) : ((spMat σ t)ᵀ)ᵀ * (spMat σ t)ᵀ = 1 := by
  rw [transpose_transpose, spMat_orth' σ ht]

theorem turn_dist (σ : Equiv.Perm (Fin p)) {t : Fin p → ℝ} (ht : Signs t) (a b : Fin p → ℝ) :
    ∑ j, |Spec.turnColumns σ t a j - Spec.turnColumns σ t b j| = ∑ j, |a j - b j| := by
  rw [← Equiv.sum_comp σ fun j => |a j - b j|]
  refine Finset.sum_congr rfl fun j _ => ?_
  unfold Spec.turnColumns
  rw [← mul_sub, abs_mul]
  rcases ht j with e | e <;> simp [e]

/-- **C200** (partial): it holds for the rotations and reflections that reorder the columns and change their signs; endless loops
correspond as well. -/
theorem C200_columns_partial (eps : ℝ) (σ : Equiv.Perm (Fin p)) {t : Fin p → ℝ} (ht : Signs t) {X : List (Fin p → ℝ)} (hX : X ≠ [])
    (fuel : ℕ) :
    l1median eps (X.map (Spec.turnColumns σ t)) fuel = (l1median eps X fuel).map fun r => r.map (Spec.turnColumns σ t) := by
  have hQ := turn_orth σ ht
  have hT : Spec.turnColumns σ t = ((spMat σ t)ᵀ *ᵥ ·) := funext (turnColumns_eq σ t)
  unfold l1median
  rw [if_neg hX, if_neg (by simpa using hX)]
  have hm : some (meanRow (X.map (Spec.turnColumns σ t))) = (some (meanRow X)).map (Spec.turnColumns σ t) := by
    rw [hT, meanRow_orth]; rfl
  rw [hm]
  generalize some (meanRow X) = mu
  induction fuel generalizing mu with
  | zero => rfl
  | succ n ih =>
    have hstep : l1Step eps (X.map (Spec.turnColumns σ t)) (mu.map (Spec.turnColumns σ t)) =
        (l1Step eps X mu).map fun s => s.map (fun o => o.map (Spec.turnColumns σ t)) (Spec.turnColumns σ t) := by
      have hnx := l1Next_orth hQ hX mu
      rw [← hT] at hnx
      unfold l1Step
      rw [hnx]
      rcases mu with _ | a
      · rfl
      rcases l1Next X (some a) with _ | d
      · rfl
      simp only [Option.map_some]
      rw [turn_dist σ ht]
      by_cases hlt : ∑ j, |a j - d j| < eps
      · rw [if_pos hlt, if_pos hlt]; rfl
      · rw [if_neg hlt, if_neg hlt]; rfl
    rw [runLoop, runLoop, hstep]
    rcases l1Step eps X mu with e | (s | v)
    · rfl
    · exact ih s
    · rfl

/-! ### The witness: three observations on a line, very close to each other, turned by an angle with cosine 3/5 -/

/-- Three observations on the first axis. -/
noncomputable def c200Data : List (Fin 2 → ℝ) := [![0, 0], ![1 / 6000000, 0], ![5 / 6000000, 0]]

/-- A rotation with rational entries. -/
noncomputable def c200Rot : Matrix (Fin 2) (Fin 2) ℝ := !![3 / 5, -(4 / 5); 4 / 5, 3 / 5]

theorem c200Rot_orth : c200Rotᵀ * c200Rot = 1 := by
  ext i j
  fin_cases i <;> fin_cases j <;> simp [c200Rot, Matrix.mul_apply, Fin.sum_univ_two] <;> norm_num

theorem rowDist_axis (a m : ℝ) : rowDist ![a, 0] ![m, 0] = |a - m| := by
  simp [rowDist, Fin.sum_univ_two, Real.sqrt_mul_self_eq_abs]

theorem c200_next {m m' : ℝ} (h1 : 1 / 6000000 < m) (h5 : m < 5 / 6000000)
    (h : m' * (1 / m + 1 / (m - 1 / 6000000) + 1 / (5 / 6000000 - m)) =
      1 / 6000000 * (1 / (m - 1 / 6000000)) + 5 / 6000000 * (1 / (5 / 6000000 - m))) :
    l1Next c200Data (some ![m, 0]) = some ![m', 0] := by
  have hm : ![m, 0] ∉ c200Data := by
    simp only [c200Data, List.mem_cons, List.not_mem_nil, or_false]
    rintro (e | e | e) <;> have := congrFun e 0 <;> simp at this <;> norm_num at h1 h5 <;> linarith
  rw [l1Next_of_not_mem hm]
  congr 1
  have h0 : 0 < m := lt_trans (by norm_num) h1
  have e1 : |0 - m| = m := by rw [zero_sub, abs_neg, abs_of_pos h0]
  have e2 : |1 / 6000000 - m| = m - 1 / 6000000 := by rw [abs_sub_comm]; exact abs_of_pos (by linarith)
  have e3 : |5 / 6000000 - m| = 5 / 6000000 - m := abs_of_pos (by linarith)
  have hW : l1WeightSum c200Data ![m, 0] = 1 / m + 1 / (m - 1 / 6000000) + 1 / (5 / 6000000 - m) := by
    simp only [l1WeightSum, c200Data, List.map_cons, List.map_nil, List.sum_cons, List.sum_nil, rowDist_axis, e1, e2, e3]
    ring
  have hWp : 0 < l1WeightSum c200Data ![m, 0] := l1WeightSum_pos (by simp [c200Data]) hm
  rw [← hW] at h
  have h' : m' = (1 / 6000000 * (1 / (m - 1 / 6000000)) + 5 / 6000000 * (1 / (5 / 6000000 - m))) / l1WeightSum c200Data ![m, 0] :=
    eq_div_of_mul_eq hWp.ne' h
  generalize l1WeightSum c200Data ![m, 0] = W at h'
  funext j
  simp only [c200Data, List.map_cons, List.map_nil, List.sum_cons, List.sum_nil, rowDist_axis, e1, e2, e3]
  fin_cases j
  · simp only [Fin.zero_eta, Fin.isValue, cons_val_zero, h']
    ring
  · simp

theorem c200_next0 : l1Next c200Data (some ![2 / 6000000, 0]) = some ![16 / 66000000, 0] :=
  c200_next (by norm_num) (by norm_num) (by norm_num)

theorem c200_next1 : l1Next c200Data (some ![16 / 66000000, 0]) = some ![1024 / 5394000000, 0] :=
  c200_next (by norm_num) (by norm_num) (by norm_num)

theorem c200_mean : meanRow c200Data = ![2 / 6000000, 0] := by
  funext j
  fin_cases j <;> norm_num [meanRow, mean, c200Data]

theorem l1Step_some {eps : ℝ} {X : List (Fin p → ℝ)} {a b : Fin p → ℝ} (h : l1Next X (some a) = some b) :
    l1Step eps X (some a) = if ∑ j, |a j - b j| < eps then .ok (.inr b) else .ok (.inl (some b)) := by
  unfold l1Step
  rw [h]

theorem c200_first : l1median 1e-7 c200Data 1 = some (.ok ![16 / 66000000, 0]) := by
  unfold l1median
  rw [if_neg (by simp [c200Data]), c200_mean, runLoop, l1Step_some c200_next0, if_pos]
  simp only [Fin.sum_univ_two, cons_val_zero, cons_val_one]
  norm_num [abs_of_pos]

theorem c200Rot_axis (m : ℝ) : c200Rot *ᵥ ![m, 0] = ![3 / 5 * m, 4 / 5 * m] := by
  funext i
  fin_cases i <;> simp [c200Rot, mul_comm]

theorem c200_second : l1median 1e-7 (c200Data.map (c200Rot *ᵥ ·)) 2 = some (.ok (c200Rot *ᵥ ![1024 / 5394000000, 0])) := by
  have hX : c200Data ≠ [] := by simp [c200Data]
  have h0 := l1Next_orth c200Rot_orth hX (some ![2 / 6000000, 0])
  have h1 := l1Next_orth c200Rot_orth hX (some ![16 / 66000000, 0])
  rw [c200_next0] at h0
  rw [c200_next1] at h1
  simp only [Option.map_some] at h0 h1
  unfold l1median
  rw [if_neg (by simp [c200Data]), meanRow_orth, c200_mean, runLoop, l1Step_some h0, if_neg]
  · simp only
    rw [runLoop, l1Step_some h1, if_pos]
    simp only [c200Rot_axis, Fin.sum_univ_two, cons_val_zero, cons_val_one]
    norm_num [abs_of_pos]
  · simp only [c200Rot_axis, Fin.sum_univ_two, cons_val_zero, cons_val_one]
    norm_num [abs_of_pos]

/-- The loop stops when the sum of the absolute changes of the coordinates is small, and this sum depends on the axes: for the turned
observations the loop makes one more pass. -/
theorem C200_violated : ¬ C200_statement := by
  intro h
  have := h 2 1e-7 c200Rot c200Data 1 2 _ _ (by norm_num) c200Rot_orth (by simp [c200Data]) c200_first c200_second
  have := congrFun (mulVec_inj_orth c200Rot_orth this) 0
  norm_num at this

/-- The result for the turned observations is the second iterate of the original ones, turned. -/
example : ∃ i a b, l1Iter c200Data i = some a ∧ l1Iter c200Data (i + 1) = some b ∧
    c200Rot *ᵥ ![1024 / 5394000000, 0] = c200Rot *ᵥ b ∧ ∑ j, |(c200Rot *ᵥ a) j - (c200Rot *ᵥ b) j| < 1e-7 :=
  C200_iterates_partial c200Rot_orth (by simp [c200Data]) c200_second

/-- The two columns exchanged and one sign changed. -/
example : l1median 1e-7 (c200Data.map (Spec.turnColumns (Equiv.swap 0 1) ![1, -1])) 1 =
    some (.ok (Spec.turnColumns (Equiv.swap 0 1) ![1, -1] ![16 / 66000000, 0])) := by
  rw [C200_columns_partial 1e-7 _ (by intro j; fin_cases j <;> simp) (by simp [c200Data]), c200_first]
  rfl

/-! ## `PCALocantore` -/

/-- The same fitted object, except that components may have the opposite sign. -/
def Spec.upToSign (s u : PCAState p) : Prop :=
  u.nComponents = s.nComponents ∧ u.location_ = s.location_ ∧ u.explainedVariance_ = s.explainedVariance_ ∧
    ∃ C D, s.components_ = some C ∧ u.components_ = some D ∧ List.Forall₂ (fun v w => w = v ∨ w = -v) C D

theorem spatialSignCov_symm (X : List (Fin p → ℝ)) (loc : Fin p → ℝ) : (spatialSignCov X loc).IsSymm := by
  ext i j
  rw [transpose_apply]
  unfold spatialSignCov
  congr 2
  exact List.map_congr_left fun x _ => mul_comm _ _

theorem spatialSignCov_orth (hQ : Qᵀ * Q = 1) (X : List (Fin p → ℝ)) (loc : Fin p → ℝ) :
    spatialSignCov (X.map (Q *ᵥ ·)) (Q *ᵥ loc) = Q * spatialSignCov X loc * Qᵀ := by
  have key : ∀ (Z : List (Fin p → ℝ)) (l : Fin p → ℝ) (n : ℝ), (fun i j => (Z.map fun x => ((x i - l i) * (1 / rowDist x l)) *
      ((x j - l j) * (1 / rowDist x l))).sum / n : Matrix (Fin p) (Fin p) ℝ) =
      n⁻¹ • (Z.map fun x => (1 / rowDist x l) ^ 2 • vecMulVec (x - l) (x - l)).sum := by
    intro Z l n
    ext i j
    induction Z with
    | nil => simp
    | cons x Z ih =>
      simp only [List.map_cons, List.sum_cons, smul_add, Matrix.add_apply, add_div] at ih ⊢
      rw [← ih]
      congr 1
      simp only [Matrix.smul_apply, vecMulVec_apply, Pi.sub_apply, smul_eq_mul]
      ring
  have h1 := key (X.map (Q *ᵥ ·)) (Q *ᵥ loc) (X.map (Q *ᵥ ·)).length
  have h2 := key X loc X.length
  change spatialSignCov _ _ = _ at h1
  change spatialSignCov _ _ = _ at h2
  rw [h1, h2, List.length_map, List.map_map, Matrix.mul_smul, Matrix.smul_mul]
  congr 1
  clear h1 h2 key
  induction X with
  | nil => simp
  | cons x X ih =>
    simp only [List.map_cons, List.sum_cons, Function.comp, Matrix.mul_add, Matrix.add_mul] at ih ⊢
    rw [ih]
    congr 1
    rw [rowDist_orth hQ, Matrix.mul_smul, Matrix.smul_mul, ← mulVec_sub]
    congr 1
    rw [mul_vecMulVec, vecMulVec_mul, vecMul_transpose]

/-- The eigenvectors of the rotated matrix are the rotated eigenvectors, up to their signs. -/
theorem eigh_orth (hQ : Qᵀ * Q = 1) {A : Matrix (Fin p) (Fin p) ℝ} (hA : A.IsSymm) (hs : Spec.simpleSpectrum A) (E : EighAsc A)
    (E' : EighAsc (Q * A * Qᵀ)) : ∃ t, Signs t ∧ E'.V = Q * E.V * Matrix.diagonal t := by
  have hA' : (Q * A * Qᵀ).IsSymm := by
    unfold Matrix.IsSymm
    rw [transpose_mul, transpose_mul, transpose_transpose, hA.eq, Matrix.mul_assoc]
  have hV : (Q * E.V)ᵀ * (Q * E.V) = 1 := by
    rw [transpose_mul, Matrix.mul_assoc, ← Matrix.mul_assoc Qᵀ, hQ, Matrix.one_mul, E.orth]
  have d := eighAsc_decomp hA E
  have d' := eighAsc_decomp hA' E'
  have dQ : Q * A * Qᵀ = Q * E.V * Matrix.diagonal E.w * (Q * E.V)ᵀ := by
    rw [transpose_mul]
    conv_lhs => rw [d]
    simp only [Matrix.mul_assoc]
  have hinj : Function.Injective E.w := hs _ _ E.orth d
  obtain ⟨σ, t, ht, hVV⟩ := eigen_unique hV E'.orth dQ d' hinj
  have hw : ∀ j, E'.w j = E.w (σ j) := by
    have h1 : E'.Vᵀ * (Q * A * Qᵀ) * E'.V = Matrix.diagonal E'.w := by
      refine (congrArg (fun M => E'.Vᵀ * M * E'.V) d').trans ?_
      rw [← Matrix.mul_assoc, ← Matrix.mul_assoc, E'.orth, Matrix.one_mul, Matrix.mul_assoc, E'.orth, Matrix.mul_one]
    have h2 : E'.Vᵀ * (Q * A * Qᵀ) * E'.V = (spMat σ t)ᵀ * Matrix.diagonal E.w * spMat σ t := by
      rw [hVV, dQ, transpose_mul]
      calc (spMat σ t)ᵀ * (Q * E.V)ᵀ * (Q * E.V * Matrix.diagonal E.w * (Q * E.V)ᵀ) * (Q * E.V * spMat σ t)
          = (spMat σ t)ᵀ * ((Q * E.V)ᵀ * (Q * E.V)) * Matrix.diagonal E.w * ((Q * E.V)ᵀ * (Q * E.V)) * spMat σ t := by
            simp only [Matrix.mul_assoc]
        _ = _ := by rw [hV, Matrix.mul_one, Matrix.mul_one]
    intro j
    have h3 := congrFun (congrFun (h1.symm.trans h2) j) j
    rw [spMat_conj, Matrix.diagonal_apply_eq, Matrix.diagonal_apply_eq, mul_right_comm, ht.sq, one_mul] at h3
    exact h3
  have hmono : StrictMono E.w := E.mono.strictMono_of_injective hinj
  have hσ : StrictMono σ := by
    refine Monotone.strictMono_of_injective (fun i j hij => ?_) σ.injective
    have := E'.mono hij
    rw [hw, hw] at this
    exact hmono.le_iff_le.1 this
  have hid : (σ : Fin p → Fin p) = id := (StrictMono.range_inj hσ strictMono_id).1 (by rw [σ.surjective.range_eq, Set.range_id])
  refine ⟨t, ht, ?_⟩
  rw [hVV]
  congr 1
  ext i j
  have : σ j = j := congrFun hid j
  by_cases hij : i = j
  · subst hij; simp [spMat, this]
  · simp [spMat, this, hij]

theorem colsOf_signed (V : Matrix (Fin p) (Fin p) ℝ) {t : Fin p → ℝ} (ht : Signs t) :
    List.Forall₂ (fun v w => w = Q *ᵥ v ∨ w = -(Q *ᵥ v)) (colsOf V) (colsOf (Q * V * Matrix.diagonal t)) := by
  unfold colsOf
  rw [List.forall₂_map_left_iff, List.forall₂_map_right_iff, List.forall₂_same]
  intro i _
  have e : (fun j => (Q * V * Matrix.diagonal t) j i) = t i • (Q *ᵥ fun j => V j i) := by
    funext j
    rw [Matrix.mul_diagonal, Matrix.mul_apply, Pi.smul_apply, smul_eq_mul, mul_comm]
    rfl
  rw [e]
  rcases ht i with h | h <;> rw [h] <;> simp

theorem madVariances_orth (hQ : Qᵀ * Q = 1) (c : ℝ) (X : List (Fin p → ℝ)) (loc : Fin p → ℝ) {C D : List (Fin p → ℝ)}
    (h : List.Forall₂ (fun v w => w = Q *ᵥ v ∨ w = -(Q *ᵥ v)) C D) :
    madVariances c (X.map (Q *ᵥ ·)) (Q *ᵥ loc) D = madVariances c X loc C := by
  have hdot : ∀ x v : Fin p → ℝ, ∑ j, ((Q *ᵥ x) j - (Q *ᵥ loc) j) * (Q *ᵥ v) j = ∑ j, (x j - loc j) * v j := by
    intro x v
    have := dot_orth (mul_eq_one_comm.1 hQ) (x - loc) v
    rw [mulVec_sub] at this
    exact this
  induction h with
  | nil => rfl
  | @cons v w C D hvw _ ih =>
    unfold madVariances at ih ⊢
    rw [List.map_cons, List.map_cons, ih]
    congr 3
    rw [List.map_map]
    rcases hvw with e | e <;> subst e
    · have e : X.map ((fun x => ∑ j, (x j - (Q *ᵥ loc) j) * (Q *ᵥ v) j) ∘ (Q *ᵥ ·)) = X.map fun x => ∑ j, (x j - loc j) * v j :=
        List.map_congr_left fun x _ => hdot x v
      rw [e]
    · have e : X.map ((fun x => ∑ j, (x j - (Q *ᵥ loc) j) * (-(Q *ᵥ v)) j) ∘ (Q *ᵥ ·)) =
          (X.map fun x => ∑ j, (x j - loc j) * v j).map fun s => -1 * s + 0 := by
        rw [List.map_map]
        refine List.map_congr_left fun x _ => ?_
        simp only [Function.comp, Pi.neg_apply, mul_neg, Finset.sum_neg_distrib, hdot, add_zero, neg_mul, one_mul]
      rw [e, madRaw_affine]
      rcases madRaw (X.map fun x => ∑ j, (x j - loc j) * v j) with _ | s <;> simp

theorem locantoreWith_orth (hQ : Qᵀ * Q = 1) (c thr : ℝ) (eigh : ∀ A : Matrix (Fin p) (Fin p) ℝ, EighAsc A) (st : PCAState p)
    (X : List (Fin p → ℝ)) (loc : Fin p → ℝ) (hs : Spec.simpleSpectrum (spatialSignCov X loc)) :
    (∀ e, locantoreWith c thr eigh st X loc = .error e → locantoreWith c thr eigh st (X.map (Q *ᵥ ·)) (Q *ᵥ loc) = .error e) ∧
    ∀ s, locantoreWith c thr eigh st X loc = .ok s → ∃ u, locantoreWith c thr eigh st (X.map (Q *ᵥ ·)) (Q *ᵥ loc) = .ok u ∧
      Spec.upToSign (Spec.movePCA 1 Q 0 s) u := by
  have hcols : List.Forall₂ (fun v w => w = Q *ᵥ v ∨ w = -(Q *ᵥ v)) (colsOf (eigh (spatialSignCov X loc)).V).reverse
      (colsOf (eigh (spatialSignCov (X.map (Q *ᵥ ·)) (Q *ᵥ loc))).V).reverse := by
    rw [List.forall₂_reverse_iff, spatialSignCov_orth hQ]
    obtain ⟨t, ht, h⟩ := eigh_orth hQ (spatialSignCov_symm X loc) hs (eigh _) (eigh (Q * spatialSignCov X loc * Qᵀ))
    rw [h]
    exact colsOf_signed _ ht
  have hmad := madVariances_orth hQ c X loc hcols
  unfold locantoreWith
  simp only [hmad, mem_map_orth hQ, List.map_eq_nil_iff]
  by_cases h0 : X = [] ∨ loc ∈ X
  · rw [if_pos h0, if_pos h0]
    exact ⟨fun e h => h, fun s h => by cases h⟩
  rw [if_neg h0, if_neg h0]
  generalize (colsOf (eigh (spatialSignCov X loc)).V).reverse = C at hcols ⊢
  generalize (colsOf (eigh (spatialSignCov (X.map (Q *ᵥ ·)) (Q *ᵥ loc))).V).reverse = D at hcols ⊢
  rcases pickK st.nComponents thr (madVariances c X loc C) with e | k
  · exact ⟨fun e h => h, fun s h => by cases h⟩
  refine ⟨fun e h => (by cases h), fun s h => ?_⟩
  have := Except.ok.inj h
  subst this
  refine ⟨_, rfl, rfl, ?_, ?_, _, _, rfl, rfl, ?_⟩
  · simp [Spec.movePCA]
  · simp [Spec.movePCA]
  · rw [List.forall₂_map_left_iff]
    exact List.forall₂_take k hcols

/-- **C201**: rotated data.  If the l1-median follows the rotation and the eigenvalues of the spatial sign covariance matrix are
different, `PCALocantore` returns the rotated centre, the rotated components up to their signs and the same variances and number of
components, or the same error. -/
theorem C201_rotation (hQ : Qᵀ * Q = 1) (eps c thr : ℝ) (eigh : ∀ A : Matrix (Fin p) (Fin p) ℝ, EighAsc A) (st : PCAState p)
    (X : List (Fin p → ℝ)) (f1 f2 : ℕ) (loc : Fin p → ℝ) (h1 : l1median eps X f1 = some (.ok loc))
    (h2 : l1median eps (X.map (Q *ᵥ ·)) f2 = some (.ok (Q *ᵥ loc))) (hs : Spec.simpleSpectrum (spatialSignCov X loc)) :
    (∀ e, locantoreFit eps c thr eigh st X f1 = some (.error e) →
      locantoreFit eps c thr eigh st (X.map (Q *ᵥ ·)) f2 = some (.error e)) ∧
    ∀ s, locantoreFit eps c thr eigh st X f1 = some (.ok s) →
      ∃ u, locantoreFit eps c thr eigh st (X.map (Q *ᵥ ·)) f2 = some (.ok u) ∧ Spec.upToSign (Spec.movePCA 1 Q 0 s) u := by
  obtain ⟨ha, hb⟩ := locantoreWith_orth hQ c thr eigh st X loc hs
  unfold locantoreFit
  rw [h1, h2]
  simp only [Run.andThen, Option.some.injEq]
  exact ⟨ha, hb⟩

/-- **C201**: the columns in another order, some with the opposite sign.  The l1-median follows such changes, so that only the
condition on the eigenvalues is left. -/
theorem C201_columns (eps c thr : ℝ) (eigh : ∀ A : Matrix (Fin p) (Fin p) ℝ, EighAsc A) (st : PCAState p) (σ : Equiv.Perm (Fin p))
    {t : Fin p → ℝ} (ht : Signs t) {X : List (Fin p → ℝ)} (hX : X ≠ []) (fuel : ℕ)
    (hs : ∀ loc, l1median eps X fuel = some (.ok loc) → Spec.simpleSpectrum (spatialSignCov X loc)) :
    (locantoreFit eps c thr eigh st X fuel = none → locantoreFit eps c thr eigh st (X.map (Spec.turnColumns σ t)) fuel = none) ∧
    (∀ e, locantoreFit eps c thr eigh st X fuel = some (.error e) →
      locantoreFit eps c thr eigh st (X.map (Spec.turnColumns σ t)) fuel = some (.error e)) ∧
    ∀ s, locantoreFit eps c thr eigh st X fuel = some (.ok s) →
      ∃ u, locantoreFit eps c thr eigh st (X.map (Spec.turnColumns σ t)) fuel = some (.ok u) ∧
        Spec.upToSign (Spec.movePCA 1 ((spMat σ t)ᵀ) 0 s) u := by
  have hT : Spec.turnColumns σ t = ((spMat σ t)ᵀ *ᵥ ·) := funext (turnColumns_eq σ t)
  have hl := C200_columns_partial eps σ ht hX fuel
  rcases h : l1median eps X fuel with _ | (e | loc)
  · rw [h] at hl
    unfold locantoreFit
    rw [h, hl]
    exact ⟨fun _ => rfl, fun e h => (by cases h), fun s h => by cases h⟩
  · rw [h] at hl
    unfold locantoreFit
    rw [h, hl]
    exact ⟨fun h => (by cases h), fun e h => h, fun s h => by cases h⟩
  · rw [h] at hl
    rw [hT] at hl ⊢
    refine ⟨fun h' => ?_, C201_rotation (turn_orth σ ht) eps c thr eigh st X fuel fuel loc h hl (hs loc h)⟩
    unfold locantoreFit at h'
    rw [h] at h'
    cases h'

theorem simpleSpectrum_two_diag (A : Matrix (Fin 2) (Fin 2) ℝ) (h : A 0 0 ≠ A 1 1) : Spec.simpleSpectrum A := by
  intro V w hV hA
  have hne : w 0 ≠ w 1 := by
    intro he
    have hw : Matrix.diagonal w = w 0 • (1 : Matrix (Fin 2) (Fin 2) ℝ) := by
      ext i j
      fin_cases i <;> fin_cases j <;> simp [he]
    rw [hw, Matrix.mul_smul, Matrix.mul_one, Matrix.smul_mul, mul_eq_one_comm.1 hV] at hA
    exact h (by rw [hA]; simp)
  intro i j hij
  fin_cases i <;> fin_cases j
  · rfl
  · exact absurd hij hne
  · exact absurd hij.symm hne
  · rfl

theorem c200_spectrum : Spec.simpleSpectrum (spatialSignCov c200Data ![16 / 66000000, 0]) := by
  refine simpleSpectrum_two_diag _ ?_
  simp only [spatialSignCov, c200Data, List.map_cons, List.map_nil, List.sum_cons, List.sum_nil, rowDist_axis, cons_val_zero,
    cons_val_one, List.length_cons, List.length_nil]
  have e1 : |(0 : ℝ) - 16 / 66000000| = 16 / 66000000 := by norm_num [abs_of_pos]
  have e2 : |(1 : ℝ) / 6000000 - 16 / 66000000| = 5 / 66000000 := by
    rw [abs_sub_comm]; norm_num [abs_of_pos]
  have e3 : |(5 : ℝ) / 6000000 - 16 / 66000000| = 39 / 66000000 := by norm_num [abs_of_pos]
  rw [e1, e2, e3]
  norm_num

/-- C201 for the three observations, with the columns exchanged and one sign changed. -/
example (eigh : ∀ A : Matrix (Fin 2) (Fin 2) ℝ, EighAsc A) : ∃ s u,
    locantoreFit 1e-7 1.4826 0.8 eigh ⟨some 1, none, none, none⟩ c200Data 1 = some (.ok s) ∧
    locantoreFit 1e-7 1.4826 0.8 eigh ⟨some 1, none, none, none⟩ (c200Data.map (Spec.turnColumns (Equiv.swap 0 1) ![1, -1])) 1 =
      some (.ok u) ∧ Spec.upToSign (Spec.movePCA 1 ((spMat (Equiv.swap 0 1) ![1, -1])ᵀ) 0 s) u := by
  obtain ⟨-, -, h⟩ := C201_columns 1e-7 1.4826 0.8 eigh ⟨some 1, none, none, none⟩ (Equiv.swap 0 1) (t := ![1, -1])
    (by intro j; fin_cases j <;> simp) (X := c200Data) (by simp [c200Data]) 1 (by
      intro loc hl
      rw [c200_first] at hl
      have := Except.ok.inj (Option.some.inj hl)
      subst this
      exact c200_spectrum)
  have hs : ∃ s, locantoreFit 1e-7 1.4826 0.8 eigh ⟨some 1, none, none, none⟩ c200Data 1 = some (.ok s) := by
    unfold locantoreFit
    rw [c200_first]
    simp only [Run.andThen]
    unfold locantoreWith
    rw [if_neg]
    · exact ⟨_, rfl⟩
    · simp only [c200Data, List.mem_cons, List.not_mem_nil, or_false, reduceCtorEq, false_or]
      rintro (e | e | e) <;> have := congrFun e 0 <;> norm_num at this
  obtain ⟨s, hs⟩ := hs
  obtain ⟨u, hu, hr⟩ := h s hs
  exact ⟨s, u, hs, hu, hr⟩

end Robpy
