import Verif.Props.CellColumns

/-! # C207: the C-steps of `CellMCD` and the order of the columns -/

namespace Robpy
open Matrix

variable {n p : ℕ}

/-! ## Truncation of the eigenvalues -/

/-- A function of a symmetric matrix does not depend on the eigendecomposition. -/
theorem eig_fun {V U : Matrix (Fin p) (Fin p) ℝ} {a b : Fin p → ℝ} (hV : Vᵀ * V = 1) (hU : Uᵀ * U = 1)
    (h : V * diagonal a * Vᵀ = U * diagonal b * Uᵀ) (f : ℝ → ℝ) :
    V * diagonal (fun i => f (a i)) * Vᵀ = U * diagonal (fun i => f (b i)) * Uᵀ := by
  have hV' : V * Vᵀ = 1 := mul_eq_one_comm.1 hV
  have hU' : U * Uᵀ = 1 := mul_eq_one_comm.1 hU
  set M := Vᵀ * U with hM
  have h1 : diagonal a * M = M * diagonal b := by
    calc diagonal a * M = (Vᵀ * V) * diagonal a * Vᵀ * U := by rw [hV, Matrix.one_mul, hM, Matrix.mul_assoc]
      _ = Vᵀ * (V * diagonal a * Vᵀ) * U := by simp only [Matrix.mul_assoc]
      _ = Vᵀ * (U * diagonal b * Uᵀ) * U := by rw [h]
      _ = M * diagonal b * (Uᵀ * U) := by simp only [hM, Matrix.mul_assoc]
      _ = M * diagonal b := by rw [hU, Matrix.mul_one]
  have h2 : diagonal (fun i => f (a i)) * M = M * diagonal fun i => f (b i) := by
    ext i j
    have := congrFun (congrFun h1 i) j
    rw [Matrix.diagonal_mul, Matrix.mul_diagonal] at this ⊢
    by_cases hm : M i j = 0
    · simp [hm]
    · have hab : a i = b j := by
        rw [mul_comm] at this
        exact mul_left_cancel₀ hm this
      rw [hab, mul_comm]
  calc V * diagonal (fun i => f (a i)) * Vᵀ = V * diagonal (fun i => f (a i)) * Vᵀ * (U * Uᵀ) := by rw [hU', Matrix.mul_one]
    _ = V * (diagonal (fun i => f (a i)) * M) * Uᵀ := by simp only [hM, Matrix.mul_assoc]
    _ = V * Vᵀ * U * diagonal (fun i => f (b i)) * Uᵀ := by rw [h2]; simp only [hM, Matrix.mul_assoc]
    _ = _ := by rw [hV', Matrix.one_mul]

theorem truncated_cols (τ : Equiv.Perm (Fin p)) (eigh : ∀ A : Matrix (Fin p) (Fin p) ℝ, A.IsSymm → Eigh A)
    (order : (Fin p → ℝ) → Equiv.Perm (Fin p)) (cov : Matrix (Fin p) (Fin p) ℝ) (minEig : ℝ) :
    truncatedCovariance eigh order (cov.submatrix τ τ) minEig = (truncatedCovariance eigh order cov minEig).submatrix τ τ := by
  rw [truncated_eq, truncated_eq]
  set E := eigh (symPart cov) (symPart_isSymm cov)
  set F := eigh (symPart (cov.submatrix τ τ)) (symPart_isSymm _)
  have hs : symPart (cov.submatrix τ τ) = (symPart cov).submatrix τ τ := rfl
  have hsub : ∀ d : Fin p → ℝ, (E.V * diagonal d * E.Vᵀ).submatrix τ τ =
      E.V.submatrix τ id * diagonal d * (E.V.submatrix τ id)ᵀ := by
    intro d
    ext i j
    simp [Matrix.mul_apply, Matrix.diagonal_apply]
  rw [hsub]
  refine eig_fun F.orth ?_ ?_ fun x => max x minEig
  · have : (E.V.submatrix τ id)ᵀ * E.V.submatrix τ id = E.Vᵀ * E.V := by
      ext i j
      simp only [Matrix.mul_apply, Matrix.transpose_apply, Matrix.submatrix_apply, id_eq]
      exact Equiv.sum_comp τ fun k => E.V k i * E.V k j
    rw [this, E.orth]
  · rw [← hsub, ← F.decomp, ← E.decomp, hs]

/-! ## The imputation -/

theorem npInv_sub {m m' : Type} [Fintype m] [Fintype m'] [DecidableEq m] [DecidableEq m'] (e : m' ≃ m) (A : Matrix m m ℝ) :
    npInv (A.submatrix e e) = (npInv A).map fun B => B.submatrix e e := by
  unfold npInv
  rw [Matrix.det_submatrix_equiv_self, Matrix.adjugate_submatrix_equiv_self]
  by_cases h : A.det = 0
  · rw [if_pos h, if_pos h]; rfl
  · rw [if_neg h, if_neg h]; rfl

/-- The positions outside a pattern in the other order. -/
def misEquiv (τ : Equiv.Perm (Fin p)) (P : Fin p → Bool) : {k // ¬ P (τ k) = true} ≃ {j // ¬ P j = true} :=
  τ.subtypeEquiv fun _ => Iff.rfl

theorem imputeRow_cols (τ : Equiv.Perm (Fin p)) (mu : Fin p → ℝ) (S Si : Matrix (Fin p) (Fin p) ℝ) (w : Fin p → Bool)
    (x : Fin p → Option ℝ) :
    imputeRow (fun k => mu (τ k)) (S.submatrix τ τ) (Si.submatrix τ τ) (fun k => w (τ k)) (fun k => x (τ k)) =
      (imputeRow mu S Si w x).map fun r => (fun k => r.1 (τ k), r.2.submatrix τ τ) := by
  unfold imputeRow
  rw [obsVals_cols τ x w]
  rcases obsVals x w with _ | y
  · rfl
  simp only [Option.map_some]
  have h1 : (∀ j, w (τ j) = true) ↔ ∀ j, w j = true := ⟨fun h j => by simpa using h (τ.symm j), fun h j => h _⟩
  have h2 : (∀ j, w (τ j) = false) ↔ ∀ j, w j = false := ⟨fun h j => by simpa using h (τ.symm j), fun h j => h _⟩
  by_cases c1 : ∀ j, w j = true
  · rw [if_pos c1, if_pos (h1.2 c1)]; rfl
  rw [if_neg c1, if_neg fun h => c1 (h1.1 h)]
  by_cases c2 : ∀ j, w j = false
  · rw [if_pos c2, if_pos (h2.2 c2)]; rfl
  rw [if_neg c2, if_neg fun h => c2 (h2.1 h)]
  have hm : (Si.submatrix τ τ).submatrix (fun j : {j // ¬ w (τ j) = true} => j.1) (fun j => j.1) =
      (Si.submatrix (fun j : {j // ¬ w j = true} => j.1) fun j => j.1).submatrix (misEquiv τ w) (misEquiv τ w) := rfl
  rw [hm, npInv_sub]
  rcases npInv (Si.submatrix (fun j : {j // ¬ w j = true} => j.1) fun j => j.1) with e | D
  · rfl
  simp only [Except.map, Except.ok.injEq]
  refine Prod.ext ?_ ?_
  · funext j
    simp only
    by_cases hj : w (τ j) = true
    · rw [dif_pos hj, dif_pos hj]
    · rw [dif_neg hj, dif_neg hj]
      congr 1
      simp only [Matrix.mulVec, dotProduct, Matrix.mul_apply, Matrix.submatrix_apply]
      rw [← Equiv.sum_comp (patEquiv τ w)]
      refine Finset.sum_congr rfl fun k _ => ?_
      rw [← Equiv.sum_comp (misEquiv τ w)]
      rfl
  · ext j k
    rfl

theorem collect_map {α β : Type} (g : α → β) : ∀ {n : ℕ} (f : Fin n → Except PyErr α),
    collect (fun i => (f i).map g) = (collect f).map fun r i => g (r i)
  | 0, f => by
    unfold collect
    simp only [Except.map, Except.ok.injEq]
    funext i
    exact i.elim0
  | n + 1, f => by
    unfold collect
    rw [collect_map g fun i => f i.succ]
    beta_reduce
    rcases f 0 with e | a
    · rfl
    rcases collect fun i => f i.succ with e | r
    · rfl
    simp only [Except.map, Except.bind, Except.ok.injEq]
    funext i
    refine Fin.cases rfl (fun i => rfl) i

theorem meanRow_cols (τ : Equiv.Perm (Fin p)) (r : Fin n → Fin p → ℝ) :
    meanRow (List.ofFn fun i k => r i (τ k)) = fun k => meanRow (List.ofFn r) (τ k) := by
  funext k
  simp only [meanRow, List.map_ofFn]
  rfl

theorem npCov_cols (τ : Equiv.Perm (Fin p)) (r : Fin n → Fin p → ℝ) :
    npCov (List.ofFn fun i k => r i (τ k)) = (npCov (List.ofFn r)).submatrix τ τ := by
  funext i j
  simp only [npCov, meanRow_cols, Matrix.submatrix_apply, List.map_ofFn, List.length_ofFn]
  rfl

theorem emStep_cols (τ : Equiv.Perm (Fin p)) (X : Cells n p) (W : CellFlags n p) (mu : Fin p → ℝ) (S Si : Matrix (Fin p) (Fin p) ℝ) :
    emStep (Spec.colsBy τ X) (Spec.colsBy τ W) (fun k => mu (τ k)) (S.submatrix τ τ) (Si.submatrix τ τ) =
      (emStep X W mu S Si).map fun r => (fun k => r.1 (τ k), r.2.submatrix τ τ) := by
  unfold emStep
  have hc : (collect fun i => imputeRow (fun k => mu (τ k)) (S.submatrix τ τ) (Si.submatrix τ τ) (Spec.colsBy τ W i) (Spec.colsBy τ X i)) =
      (collect fun i => imputeRow mu S Si (W i) (X i)).map
        fun r i => ((fun k => (r i).1 (τ k), (r i).2.submatrix τ τ) : (Fin p → ℝ) × Matrix (Fin p) (Fin p) ℝ) := by
    refine Eq.trans ?_ (collect_map
      (fun r : (Fin p → ℝ) × Matrix (Fin p) (Fin p) ℝ => (fun k => r.1 (τ k), r.2.submatrix τ τ)) fun i => imputeRow mu S Si (W i) (X i))
    exact congrArg collect (funext fun i => imputeRow_cols τ mu S Si (W i) (X i))
  rw [hc]
  rcases collect fun i => imputeRow mu S Si (W i) (X i) with e | r
  · rfl
  simp only [Except.map, Except.ok.injEq, Prod.mk.injEq]
  refine ⟨meanRow_cols τ fun i => (r i).1, ?_⟩
  rw [npCov_cols τ fun i => (r i).1]
  ext i j
  simp [Matrix.sum_apply]

/-! ## The objective -/

theorem negTwoLogLik_cols (τ : Equiv.Perm (Fin p)) (S : Matrix (Fin p) (Fin p) ℝ) (mu x : Fin p → ℝ) (w : Fin p → Bool) :
    Spec.negTwoLogLik (S.submatrix τ τ) (fun k => mu (τ k)) (fun k => x (τ k)) (fun k => w (τ k)) = Spec.negTwoLogLik S mu x w := by
  unfold Spec.negTwoLogLik
  simp only
  rw [blockInv_cols]
  have hd : ((S.submatrix τ τ).submatrix (fun j : {k // w (τ k) = true} => j.1) fun j => j.1).det =
      (S.submatrix (fun j : {j // w j = true} => j.1) fun j => j.1).det :=
    Matrix.det_submatrix_equiv_self (patEquiv τ w) (S.submatrix (fun j : {j // w j = true} => j.1) fun j => j.1)
  rw [hd, Fintype.card_congr (patEquiv τ w)]
  congr 2
  rw [Matrix.dotProduct_mulVec, Matrix.dotProduct_mulVec]
  exact vecMul_dot_cols (patEquiv τ w) _ (fun j => x j.1 - mu j.1) fun j => x j.1 - mu j.1

theorem cellObjective_cols (τ : Equiv.Perm (Fin p)) (X : Cells n p) (q : Fin p → ℝ) (W : CellFlags n p) (mu : Fin p → ℝ)
    (S : Matrix (Fin p) (Fin p) ℝ) :
    Spec.cellObjective (Spec.colsBy τ X) (fun k => q (τ k)) (Spec.colsBy τ W) (fun k => mu (τ k)) (S.submatrix τ τ) =
      Spec.cellObjective X q W mu S := by
  unfold Spec.cellObjective
  refine Finset.sum_congr rfl fun i _ => ?_
  congr 1
  · exact negTwoLogLik_cols τ S mu (fun j => (X i j).getD 0) (W i)
  · exact Equiv.sum_comp τ fun j => if W i j = true then 0 else q j

theorem noMissing_cols (τ : Equiv.Perm (Fin p)) {X : Cells n p} {W : CellFlags n p} (h : Spec.NoMissing X W) :
    Spec.NoMissing (Spec.colsBy τ X) (Spec.colsBy τ W) := fun i j => h i (τ j)

/-! ## The C-steps -/

/-- A state with its columns in another order. -/
noncomputable def Spec.stateCols (τ : Equiv.Perm (Fin p)) (s : CellState n p) : CellState n p :=
  { W := Spec.colsBy τ s.W
    location := fun k => s.location (τ k)
    cov := s.cov.submatrix τ τ
    covInv := s.covInv.submatrix τ τ
    objective := s.objective }

theorem cellIter_cols (τ : Equiv.Perm (Fin p)) (env : CellEnv p) {minEig : ℝ} (ha : 0 < minEig) (X : Cells n p) (q : Fin p → ℝ) (h : ℕ)
    {s : CellState n p} (hS : s.cov.PosDef) (hi : s.covInv = s.cov⁻¹) (hW : Function.Injective (Spec.cleanCells s.W)) :
    cellIter env minEig (Spec.colsBy τ X) (fun k => q (τ k)) h (Spec.stateCols τ s) =
      (cellIter env minEig X q h s).map fun r => (Spec.stateCols τ r.1, r.2) := by
  have hu := C207_update_partial τ X hS s.location q h hW
  have hinv : (s.cov.submatrix τ τ)⁻¹ = s.covInv.submatrix τ τ := by rw [hi, Matrix.inv_submatrix_equiv]
  rw [hinv, ← hi] at hu
  unfold cellIter
  simp only [Spec.stateCols]
  rw [hu]
  rcases updateW X s.cov s.covInv s.location q h s.W with e | W
  · rfl
  simp only [Except.map, Except.bind]
  rw [emStep_cols]
  rcases hr : emStep X W s.location s.cov s.covInv with e | r
  · rfl
  simp only [Except.map]
  rw [truncated_cols]
  have hb := C33_bound env.eigh env.order r.2 minEig
  set T := truncatedCovariance env.eigh env.order r.2 minEig
  have hpd : T.PosDef := by
    have h2 : (minEig • (1 : Matrix (Fin p) (Fin p) ℝ)).PosDef := Matrix.PosDef.one.smul ha
    have := h2.add_posSemidef hb.2
    rwa [add_sub_cancel] at this
  have hpd' : (T.submatrix τ τ).PosDef := hpd.submatrix τ.injective
  have hm := emStep_noMissing hr
  rw [npInv_eq _ hpd.det_pos.ne', npInv_eq _ hpd'.det_pos.ne']
  simp only
  rw [penalised_eq hm q r.1 hpd, penalised_eq (noMissing_cols τ hm) _ _ hpd', cellObjective_cols]
  simp only [Except.ok.injEq, Prod.mk.injEq, Matrix.inv_submatrix_equiv, true_and]
  exact (Equiv.prodCongr τ τ).iSup_comp (g := fun jk : Fin p × Fin p => |r.2 jk.1 jk.2 - s.cov jk.1 jk.2|)

/-- In every C-step that is made the columns have different numbers of clean cells at its start. -/
noncomputable def Spec.loopDistinct (env : CellEnv p) (minEig crit : ℝ) (X : Cells n p) (q : Fin p → ℝ) (h : ℕ) :
    ℕ → CellState n p → Prop
  | 0, _ => True
  | k + 1, s => Function.Injective (Spec.cleanCells s.W) ∧
      ∀ r, cellIter env minEig X q h s = .ok r → objGreater r.1.objective s.objective = false → crit < r.2 →
        Spec.loopDistinct env minEig crit X q h k r.1

theorem cellLoop_cols (τ : Equiv.Perm (Fin p)) (env : CellEnv p) {minEig : ℝ} (ha : 0 < minEig) (crit : ℝ) (X : Cells n p)
    (q : Fin p → ℝ) (h k : ℕ) {s : CellState n p} (hS : s.cov.PosDef) (hi : s.covInv = s.cov⁻¹)
    (hd : Spec.loopDistinct env minEig crit X q h k s) :
    cellLoop env minEig crit (Spec.colsBy τ X) (fun j => q (τ j)) h k (Spec.stateCols τ s) =
      (cellLoop env minEig crit X q h k s).map (Spec.stateCols τ) := by
  induction k generalizing s with
  | zero => rfl
  | succ k ih =>
    obtain ⟨h1, h2⟩ := hd
    unfold cellLoop
    rw [cellIter_cols τ env ha X q h hS hi h1]
    rcases hr : cellIter env minEig X q h s with e | r
    · rfl
    simp only [Except.map, Except.bind]
    have ho : objGreater (Spec.stateCols τ r.1).objective (Spec.stateCols τ s).objective = objGreater r.1.objective s.objective := rfl
    rw [ho]
    by_cases hg : objGreater r.1.objective s.objective = true
    · rw [if_pos hg, if_pos hg]; rfl
    rw [if_neg hg, if_neg hg]
    by_cases hc : crit < r.2
    · rw [if_pos hc, if_pos hc]
      obtain ⟨-, hp, hv, -⟩ := cellIter_parts (s' := r.1) (conv := r.2) ha hr
      exact ih hp hv (h2 r hr (by simpa using hg) hc)
    · rw [if_neg hc, if_neg hc]

/-- **C207**, what holds of the C-steps: with the columns of the data and of the start in another order they give the location,
covariance, flags and objective in that order, or the same error, if in every C-step the columns have different numbers of clean
cells at its start.  Missing for the full claim: C-steps in which two columns have equally many clean cells, where it is false
(`C207_violated`). -/
theorem C207_steps_partial (τ : Equiv.Perm (Fin p)) (env : CellEnv p) (cfg : CellConfig) (ha : 0 < cfg.minEig) (alpha : ℝ) (X : Cells n p)
    (loc0 : Fin p → ℝ) {cov0 : Matrix (Fin p) (Fin p) ℝ} (hS : cov0.PosDef)
    (hd : Spec.loopDistinct env cfg.minEig cfg.crit X (cellQ env cov0⁻¹) (cellH alpha n) cfg.maxSteps.toNat (cellStart env X loc0 cov0)) :
    cStepsUntilConvergence env cfg alpha (Spec.colsBy τ X) (fun j => loc0 (τ j)) (cov0.submatrix τ τ) (cov0.submatrix τ τ)⁻¹ =
      (cStepsUntilConvergence env cfg alpha X loc0 cov0 cov0⁻¹).map (Spec.stateCols τ) := by
  have hS' : (cov0.submatrix τ τ).PosDef := hS.submatrix τ.injective
  have hq : cellQ env (cov0.submatrix τ τ)⁻¹ = fun j => cellQ env cov0⁻¹ (τ j) := by
    rw [Matrix.inv_submatrix_equiv]
    rfl
  unfold cStepsUntilConvergence
  by_cases h1 : cfg.maxSteps < -1
  · rw [if_pos h1, if_pos h1]; rfl
  rw [if_neg h1, if_neg h1, penalised_eq (initialW_noMissing X) _ _ hS, penalised_eq (initialW_noMissing _) _ _ hS']
  simp only [Except.bind]
  by_cases h2 : cfg.maxSteps = -1
  · rw [if_pos h2, if_pos h2]; rfl
  rw [if_neg h2, if_neg h2]
  by_cases h3 : cfg.maxSteps = 0 ∨ 1 ≤ cfg.crit
  · rw [if_pos h3, if_pos h3]; rfl
  rw [if_neg h3, if_neg h3, hq]
  have hst : Spec.stateCols τ (cellStart env X loc0 cov0) =
      { W := initialW (Spec.colsBy τ X), location := fun j => loc0 (τ j), cov := cov0.submatrix τ τ, covInv := (cov0.submatrix τ τ)⁻¹,
        objective := some (Spec.cellObjective (Spec.colsBy τ X) (fun j => cellQ env cov0⁻¹ (τ j)) (initialW (Spec.colsBy τ X))
          (fun j => loc0 (τ j)) (cov0.submatrix τ τ)) } := by
    have ho := cellObjective_cols τ X (cellQ env cov0⁻¹) (initialW X) loc0 cov0
    have hw : Spec.colsBy τ (initialW X) = initialW (Spec.colsBy τ X) := rfl
    rw [hw] at ho
    rw [ho, Matrix.inv_submatrix_equiv]
    rfl
  rw [← hst]
  exact cellLoop_cols τ env ha cfg.crit X _ _ _ hS rfl hd

/-! ## Examples -/

/-- C207 for one C-step on data whose second column has a missing cell. -/
example (alpha : ℝ) (loc0 : Fin 2 → ℝ) :
    cStepsUntilConvergence (exampleEnv 2) c207Cfg alpha (Spec.colsBy (Equiv.swap 0 1) ![![some 1, some 2], ![some 0, none], ![some 3, some 5]])
        (fun j => loc0 (Equiv.swap 0 1 j)) (c207S.submatrix (Equiv.swap 0 1) (Equiv.swap 0 1))
        (c207S.submatrix (Equiv.swap 0 1) (Equiv.swap 0 1))⁻¹ =
      (cStepsUntilConvergence (exampleEnv 2) c207Cfg alpha ![![some 1, some 2], ![some 0, none], ![some 3, some 5]] loc0 c207S c207S⁻¹).map
        (Spec.stateCols (Equiv.swap 0 1)) := by
  refine C207_steps_partial (Equiv.swap 0 1) (exampleEnv 2) c207Cfg (by norm_num [c207Cfg]) alpha _ loc0 c207S_posDef
    ⟨?_, fun _ _ _ _ => trivial⟩
  have h : (cellStart (exampleEnv 2) ![![some 1, some 2], ![some 0, none], ![some 3, some 5]] loc0 c207S).W =
      (![![true, true], ![true, false], ![true, true]] : CellFlags 3 2) := by
    funext i j
    fin_cases i <;> fin_cases j <;> rfl
  rw [h]
  decide

end Robpy
