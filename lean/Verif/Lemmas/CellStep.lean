import Verif.Lemmas.CellDelta

/-! Lemmas about `Verif.Model.CellMCD`: one C-step. -/

namespace Robpy
open Matrix

section
variable {n p : ℕ}

/-- The flag matrix with column `j` replaced. -/
def setColumn (W : CellFlags n p) (j : Fin p) (T : Fin n → Bool) : CellFlags n p :=
  fun i => Function.update (W i) j (T i)

/-- The objective as a function of one column. -/
theorem cellObjective_setColumn (X : Cells n p) (q : Fin p → ℝ) (W : CellFlags n p) (mu : Fin p → ℝ)
    (S : Matrix (Fin p) (Fin p) ℝ) (j : Fin p) : ∃ base : ℝ, ∀ T : Fin n → Bool,
      Spec.cellObjective X q (setColumn W j T) mu S = base + ∑ i, (if T i = true then
        Spec.negTwoLogLik S mu (fun k => (X i k).getD 0) (Function.update (W i) j true) -
        Spec.negTwoLogLik S mu (fun k => (X i k).getD 0) (Function.update (W i) j false) else q j) := by
  refine ⟨∑ i, (Spec.negTwoLogLik S mu (fun k => (X i k).getD 0) (Function.update (W i) j false) +
    ∑ k ∈ Finset.univ.erase j, if W i k = true then 0 else q k), fun T => ?_⟩
  unfold Spec.cellObjective
  rw [← Finset.sum_add_distrib]
  refine Finset.sum_congr rfl fun i _ => ?_
  have h1 : ∑ k, (if setColumn W j T i k = true then 0 else q k) =
      (if T i = true then 0 else q j) + ∑ k ∈ Finset.univ.erase j, if W i k = true then 0 else q k := by
    rw [← Finset.add_sum_erase _ _ (Finset.mem_univ j)]
    congr 1
    · simp [setColumn]
    · refine Finset.sum_congr rfl fun k hk => ?_
      rw [setColumn, Function.update_of_ne (Finset.ne_of_mem_erase hk)]
  rw [h1]
  unfold setColumn
  cases hT : T i
  · simp; ring
  · simp; ring

/-- One column of `_update_W`. -/
theorem updateColumn_spec {X : Cells n p} {S : Matrix (Fin p) (Fin p) ℝ} (hS : S.PosDef) (mu q : Fin p → ℝ)
    {h : ℕ} {W : CellFlags n p} (hW : Spec.NoMissing X W) (j : Fin p)
    (hh : h ≤ (Finset.univ.filter fun i => X i j ≠ none).card) :
    ∃ W', updateColumn X S S⁻¹ mu q h W j = .ok W' ∧ Spec.NoMissing X W' ∧
      (∀ i k, k ≠ j → W' i k = W i k) ∧ h ≤ (Finset.univ.filter fun i => W' i j = true).card ∧
      ∀ T : Fin n → Bool, (∀ i, T i = true → X i j ≠ none) →
        h ≤ (Finset.univ.filter fun i => T i = true).card →
        Spec.cellObjective X q W' mu S ≤ Spec.cellObjective X q (setColumn W j T) mu S := by
  set fin : Fin n → Bool := fun i => (X i j).isSome with hfin
  have hfin' : ∀ i, fin i = true ↔ X i j ≠ none := fun i => Option.isSome_iff_ne_none
  set d : Fin n → ℝ := fun i =>
    Spec.negTwoLogLik S mu (fun k => (X i k).getD 0) (Function.update (W i) j true) -
    Spec.negTwoLogLik S mu (fun k => (X i k).getD 0) (Function.update (W i) j false) with hd
  have hh' : h ≤ (Finset.univ.filter fun i => fin i = true).card := by
    refine hh.trans (Finset.card_le_card fun i hi => ?_)
    rw [Finset.mem_filter] at hi ⊢
    exact ⟨hi.1, (hfin' i).2 hi.2⟩
  have hcol : (collect fun i => deltaCell X W S S⁻¹ mu j i) = .ok (colDelta fin d) := by
    refine collect_ok fun i => ?_
    unfold colDelta
    split_ifs with hi
    · exact deltaCell_eq hS mu hW ((hfin' i).1 hi)
    · refine deltaCell_missing ?_
      by_contra hne
      exact hi ((hfin' i).2 hne)
  obtain ⟨g1, g2, g3⟩ := goodCells_optimal fin d (q j) hh'
  set G := goodCells (colDelta fin d) (q j) h with hG
  set W' : CellFlags n p := fun i k => if k = j then decide (i ∈ G) else W i k with hW'
  have hWj : ∀ i, W' i j = decide (i ∈ G) := fun i => by simp only [hW', if_true]
  have hset : W' = setColumn W j fun i => decide (i ∈ G) := by
    funext i k
    unfold setColumn
    by_cases hk : k = j
    · subst hk; rw [hWj, Function.update_self]
    · rw [Function.update_of_ne hk]
      show (if k = j then decide (i ∈ G) else W i k) = W i k
      rw [if_neg hk]
  refine ⟨W', ?_, ?_, ?_, ?_, ?_⟩
  · unfold updateColumn
    rw [hcol]
    rfl
  · intro i k hk
    by_cases hkj : k = j
    · subst hkj
      rw [hWj, decide_eq_true_eq] at hk
      exact (hfin' i).1 (g1 i hk)
    · refine hW i k ?_
      have : W' i k = W i k := if_neg hkj
      rwa [← this]
  · intro i k hk
    exact if_neg hk
  · refine g2.trans (Finset.card_le_card fun i hi => ?_)
    rw [Finset.mem_filter] at hi ⊢
    exact ⟨hi.1, by rw [hWj, decide_eq_true_eq]; exact hi.2⟩
  · intro T hT hTc
    obtain ⟨base, hbase⟩ := cellObjective_setColumn X q W mu S j
    rw [hset, hbase, hbase]
    have := g3 T (fun i hi => (hfin' i).2 (hT i hi)) hTc
    simp only [decide_eq_true_eq]
    linarith

theorem setColumn_self (W : CellFlags n p) (j : Fin p) : setColumn W j (fun i => W i j) = W := by
  funext i
  unfold setColumn
  rw [Function.update_eq_self]

/-- Several columns of `_update_W`. -/
theorem updateColumns_spec {X : Cells n p} {S : Matrix (Fin p) (Fin p) ℝ} (hS : S.PosDef) (mu q : Fin p → ℝ)
    {h : ℕ} (hh : ∀ j, h ≤ (Finset.univ.filter fun i => X i j ≠ none).card) :
    ∀ (js : List (Fin p)) {W : CellFlags n p}, Spec.NoMissing X W →
      ∃ W', updateColumns X S S⁻¹ mu q h js W = .ok W' ∧ Spec.NoMissing X W' ∧
        (∀ j ∈ js, h ≤ (Finset.univ.filter fun i => W' i j = true).card) ∧
        (∀ j, j ∉ js → ∀ i, W' i j = W i j) ∧
        (Spec.AtLeast h W → Spec.cellObjective X q W' mu S ≤ Spec.cellObjective X q W mu S)
  | [], W, hW => ⟨W, rfl, hW, by simp, fun _ _ _ => rfl, fun _ => le_rfl⟩
  | j :: js, W, hW => by
    obtain ⟨W1, a1, a2, a3, a4, a5⟩ := updateColumn_spec hS mu q hW j (hh j)
    obtain ⟨W2, b1, b2, b3, b4, b5⟩ := updateColumns_spec hS mu q hh js a2
    refine ⟨W2, ?_, b2, ?_, ?_, ?_⟩
    · rw [updateColumns, a1]; exact b1
    · intro k hk
      by_cases hkj : k ∈ js
      · exact b3 k hkj
      · have hk' : k = j := (List.mem_cons.1 hk).resolve_right hkj
        subst hk'
        simp only [b4 k hkj]
        exact a4
    · intro k hk i
      rw [List.mem_cons, not_or] at hk
      rw [b4 k hk.2, a3 i k hk.1]
    · intro hat
      have h1 : Spec.cellObjective X q W1 mu S ≤ Spec.cellObjective X q W mu S := by
        have := a5 (fun i => W i j) (fun i hi => hW i j hi) (hat j)
        rwa [setColumn_self] at this
      have h2 : Spec.AtLeast h W1 := by
        intro k
        by_cases hk : k = j
        · subst hk; exact a4
        · simp only [a3 _ k hk]
          exact hat k
      exact (b5 h2).trans h1

theorem columnOrder_mem (W : CellFlags n p) (j : Fin p) : j ∈ columnOrder W := by
  unfold columnOrder
  exact (List.mergeSort_perm _ _).mem_iff.2 (List.mem_finRange j)

/-- `_update_W`: afterwards no missing cell is marked as clean, every column has at least `h` clean cells, and
the objective has not increased. -/
theorem updateW_spec {X : Cells n p} {S : Matrix (Fin p) (Fin p) ℝ} (hS : S.PosDef) (mu q : Fin p → ℝ)
    {h : ℕ} (hh : ∀ j, h ≤ (Finset.univ.filter fun i => X i j ≠ none).card) {W : CellFlags n p}
    (hW : Spec.NoMissing X W) :
    ∃ W', updateW X S S⁻¹ mu q h W = .ok W' ∧ Spec.NoMissing X W' ∧ Spec.AtLeast h W' ∧
      (Spec.AtLeast h W → Spec.cellObjective X q W' mu S ≤ Spec.cellObjective X q W mu S) := by
  obtain ⟨W', h1, h2, h3, -, h5⟩ := updateColumns_spec hS mu q hh (columnOrder W) hW
  exact ⟨W', h1, h2, fun j => h3 j (columnOrder_mem W j), h5⟩

/-! ## The update of location and covariance -/

/-- The split of the columns into clean and flagged ones. -/
def patSplit (w : Fin p → Bool) : {j // w j = true} ⊕ {j // ¬ w j = true} ≃ Fin p :=
  Equiv.sumCompl fun j => w j = true

theorem imputeRow_spec {S : Matrix (Fin p) (Fin p) ℝ} (hS : S.PosDef) (mu : Fin p → ℝ) {w : Fin p → Bool}
    {x : Fin p → Option ℝ} (hx : ∀ j, w j = true → x j ≠ none) :
    ∃ y C, imputeRow mu S S⁻¹ w x = .ok (y, C) ∧ (∀ j, w j = true → y j = (x j).getD 0) ∧
      IsPad (patSplit w) (S⁻¹.submatrix (patSplit w ∘ Sum.inr) (patSplit w ∘ Sum.inr))⁻¹ C ∧
      (y - mu) ∘ patSplit w ∘ Sum.inr = -((S⁻¹.submatrix (patSplit w ∘ Sum.inr) (patSplit w ∘ Sum.inr))⁻¹ *ᵥ
          (S⁻¹.submatrix (patSplit w ∘ Sum.inr) (patSplit w ∘ Sum.inl) *ᵥ ((y - mu) ∘ patSplit w ∘ Sum.inl))) := by
  have hobs := obsVals_some hx
  have hl : ∀ k : {j // w j = true}, patSplit w (Sum.inl k) = k.1 := fun _ => rfl
  have hr : ∀ k : {j // ¬ w j = true}, patSplit w (Sum.inr k) = k.1 := fun _ => rfl
  unfold imputeRow
  rw [hobs]
  simp only
  by_cases h1 : ∀ j, w j = true
  · haveI : IsEmpty {j // ¬ w j = true} := ⟨fun k => k.2 (h1 k.1)⟩
    rw [if_pos h1]
    refine ⟨_, _, rfl, fun _ _ => rfl, ?_, ?_⟩
    · unfold IsPad
      ext (i | i) (j | j)
      · rfl
      · exact this.elim j
      · exact this.elim i
      · exact this.elim i
    · funext k; exact this.elim k
  · rw [if_neg h1]
    by_cases h2 : ∀ j, w j = false
    · haveI : IsEmpty {j // w j = true} := ⟨fun k => by have := k.2; rw [h2] at this; simp at this⟩
      rw [if_pos h2]
      refine ⟨_, _, rfl, fun j hj => ?_, ?_, ?_⟩
      · rw [h2] at hj; simp at hj
      · unfold IsPad
        have hc := cond_cov_block (patSplit w) hS
        have hz : S.submatrix (patSplit w ∘ Sum.inr) (patSplit w ∘ Sum.inl) *
            (S.submatrix (patSplit w ∘ Sum.inl) (patSplit w ∘ Sum.inl))⁻¹ *
            S.submatrix (patSplit w ∘ Sum.inl) (patSplit w ∘ Sum.inr) = 0 := by
          ext i j
          rw [Matrix.mul_apply]
          simp
        rw [hz, sub_zero] at hc
        rw [← hc]
        ext (i | i) (j | j)
        · exact this.elim i
        · exact this.elim i
        · exact this.elim j
        · rfl
      · have hv : ∀ v : {j // w j = true} → ℝ,
            S⁻¹.submatrix (patSplit w ∘ Sum.inr) (patSplit w ∘ Sum.inl) *ᵥ v = 0 := fun v => by
          funext k; simp [Matrix.mulVec, dotProduct]
        rw [hv, Matrix.mulVec_zero, neg_zero, sub_self]
        rfl
    · rw [if_neg h2]
      have hD : (S⁻¹.submatrix (fun j : {j // ¬ w j = true} => j.1) fun j => j.1).PosDef :=
        hS.inv.submatrix Subtype.val_injective
      rw [npInv_eq _ hD.det_pos.ne']
      refine ⟨_, _, rfl, fun j hj => ?_, ?_, ?_⟩
      · simp only [dif_pos hj]
      · unfold IsPad
        ext (i | i) (j | j)
        · exact dif_pos i.2
        · exact dif_pos i.2
        · exact (dif_neg i.2).trans (dif_pos j.2)
        · exact (dif_neg i.2).trans (dif_neg j.2)
      · funext k
        simp only [Function.comp_apply, Pi.sub_apply, hr, dif_neg k.2, Pi.neg_apply, sub_sub_cancel_left, neg_inj]
        rw [← Matrix.mulVec_mulVec]
        congr 2
        funext l
        congr 1
        show (x l.1).getD 0 = if h : w l.1 = true then (x l.1).getD 0 else _
        rw [dif_pos l.2]

theorem IsPad.isSymm {o m q : Type} [Fintype o] [Fintype m] [Fintype q] [DecidableEq o] [DecidableEq m]
    [DecidableEq q] {e : o ⊕ m ≃ q} {D : Matrix m m ℝ} {C : Matrix q q ℝ} (h : IsPad e D C) (hD : Dᵀ = D) :
    C.IsSymm := by
  have h1 : (C.submatrix e e)ᵀ = C.submatrix e e := by
    rw [h, fromBlocks_transpose, hD]
    simp
  ext i j
  have := congrFun (congrFun h1 (e.symm i)) (e.symm j)
  simpa using this

theorem sum_quadForm {m : Type} [Fintype m] [DecidableEq m] {K : Matrix m m ℝ} (hK : Kᵀ = K) (y : Fin n → m → ℝ)
    (hn : 0 < n) (mu : m → ℝ) :
    ∑ i, quadForm K (y i - mu) = ∑ i, quadForm K (y i - meanRow (List.ofFn y)) +
      n * quadForm K (meanRow (List.ofFn y) - mu) := by
  set b := meanRow (List.ofFn y) with hb
  have hn0 : (n : ℝ) ≠ 0 := by exact_mod_cast hn.ne'
  have hmean : ∑ i, (y i - b) = 0 := by
    funext k
    rw [Finset.sum_apply, Pi.zero_apply]
    simp only [Pi.sub_apply, Finset.sum_sub_distrib, Finset.sum_const, Finset.card_univ, Fintype.card_fin,
      nsmul_eq_mul]
    have : b k = (∑ i, y i k) / n := by
      rw [hb]; unfold meanRow mean
      rw [List.map_ofFn, List.sum_ofFn, List.length_ofFn]
      rfl
    rw [this]; field_simp; simp
  have hexp : ∀ i, quadForm K (y i - mu) =
      quadForm K (y i - b) + 2 * ((y i - b) ⬝ᵥ K *ᵥ (b - mu)) + quadForm K (b - mu) := fun i => by
    have : y i - mu = (y i - b) + (b - mu) := by abel
    rw [this, quadForm_eq, quadForm_eq, quadForm_eq, Matrix.mulVec_add, dotProduct_add, add_dotProduct,
      add_dotProduct]
    have hs : (b - mu) ⬝ᵥ K *ᵥ (y i - b) = (y i - b) ⬝ᵥ K *ᵥ (b - mu) := by
      rw [Matrix.dotProduct_mulVec, dotProduct_comm, ← Matrix.mulVec_transpose, hK]
    rw [hs]; ring
  simp only [hexp, Finset.sum_add_distrib, Finset.sum_const, Finset.card_univ, Fintype.card_fin, nsmul_eq_mul,
    ← Finset.mul_sum]
  have : ∑ i, (y i - b) ⬝ᵥ K *ᵥ (b - mu) = 0 := by
    rw [← sum_dotProduct, hmean, zero_dotProduct]
  rw [this]
  ring

theorem trace_mul_vecMulVec {m : Type} [Fintype m] [DecidableEq m] (K : Matrix m m ℝ) (v : m → ℝ) :
    (K * vecMulVec v v).trace = quadForm K v := by
  rw [Matrix.mul_vecMulVec, Matrix.trace_vecMulVec, quadForm_eq, dotProduct_comm]

/-- The new location and covariance: for every positive definite matrix that is at least as good as the old
one for the new second moments, the Gaussian terms of the clean cells do not increase. -/
theorem emStep_spec {X : Cells n p} {W : CellFlags n p} (hW : Spec.NoMissing X W) (hn : 1 < n) (mu : Fin p → ℝ)
    {S : Matrix (Fin p) (Fin p) ℝ} (hS : S.PosDef) :
    ∃ mu' T, emStep X W mu S S⁻¹ = .ok (mu', T) ∧ T.IsSymm ∧
      ∀ S' : Matrix (Fin p) (Fin p) ℝ, S'.PosDef →
        Real.log S'.det + (S'⁻¹ * T).trace ≤ Real.log S.det + (S⁻¹ * T).trace →
        ∑ i, Spec.negTwoLogLik S' mu' (fun j => (X i j).getD 0) (W i) ≤
          ∑ i, Spec.negTwoLogLik S mu (fun j => (X i j).getD 0) (W i) := by
  have hrow := fun i => imputeRow_spec hS mu (w := W i) (x := X i) (hW i)
  choose y C h1 h2 h3 h4 using hrow
  have hcol : (collect fun i => imputeRow mu S S⁻¹ (W i) (X i)) = .ok fun i => (y i, C i) :=
    collect_ok h1
  have hn0 : (n : ℝ) ≠ 0 := by positivity
  have hn1 : (n : ℝ) - 1 ≠ 0 := by
    have : (1 : ℝ) < n := by exact_mod_cast hn
    linarith
  set b := meanRow (List.ofFn y) with hb
  set T : Matrix (Fin p) (Fin p) ℝ :=
    (((n : ℝ) - 1) / n) • npCov (List.ofFn y) + (n : ℝ)⁻¹ • ∑ i, C i with hT
  have hCs : ∀ i, (C i).IsSymm := fun i => (h3 i).isSymm
    (symm_of_posDef (hS.inv.submatrix ((patSplit (W i)).injective.comp Sum.inr_injective)).inv)
  refine ⟨b, T, ?_, ?_, ?_⟩
  · unfold emStep
    rw [hcol]
    rfl
  · rw [hT]
    refine Matrix.IsSymm.add ((npCov_isSymm _).smul _) (Matrix.IsSymm.smul ?_ _)
    unfold Matrix.IsSymm
    rw [Matrix.transpose_sum]
    exact Finset.sum_congr rfl fun i _ => hCs i
  · intro S' hS' hle
    -- the second moments
    have hmom : ∀ K : Matrix (Fin p) (Fin p) ℝ,
        ∑ i, quadForm K (y i - b) + ∑ i, (K * C i).trace = n * (K * T).trace := by
      intro K
      have e1 : npCov (List.ofFn y) = ((n : ℝ) - 1)⁻¹ • ∑ i, vecMulVec (y i - b) (y i - b) := by
        rw [npCov_eq_sum, List.length_ofFn, List.map_ofFn, List.sum_ofFn]
        rfl
      rw [hT, e1, smul_smul, Matrix.mul_add, Matrix.trace_add, Matrix.mul_smul, Matrix.mul_smul,
        Matrix.trace_smul, Matrix.trace_smul, Matrix.mul_sum, Matrix.mul_sum, Matrix.trace_sum, Matrix.trace_sum]
      simp only [trace_mul_vecMulVec, smul_eq_mul]
      field_simp
    -- the row terms
    have hnll : ∀ (S0 : Matrix (Fin p) (Fin p) ℝ) (m0 : Fin p → ℝ) (i : Fin n),
        Spec.negTwoLogLik S0 m0 (fun j => (X i j).getD 0) (W i) =
          quadForm (S0.submatrix (patSplit (W i) ∘ Sum.inl) (patSplit (W i) ∘ Sum.inl))⁻¹
              ((y i - m0) ∘ patSplit (W i) ∘ Sum.inl) +
            Real.log (S0.submatrix (patSplit (W i) ∘ Sum.inl) (patSplit (W i) ∘ Sum.inl)).det +
            Fintype.card {j // W i j = true} * Real.log (2 * Real.pi) := by
      intro S0 m0 i
      unfold Spec.negTwoLogLik
      have hz : (y i - m0) ∘ patSplit (W i) ∘ Sum.inl =
          fun k : {j // W i j = true} => (X i k.1).getD 0 - m0 k.1 := by
        funext k
        show y i k.1 - m0 k.1 = _
        rw [h2 i k.1 k.2]
      rw [hz, quadForm_eq]
      rfl
    have hle1 : ∀ i, Spec.negTwoLogLik S' b (fun j => (X i j).getD 0) (W i) ≤
        (quadForm S'⁻¹ (y i - b) + (S'⁻¹ * C i).trace + Real.log S'.det) +
          (Real.log (S⁻¹.submatrix (patSplit (W i) ∘ Sum.inr) (patSplit (W i) ∘ Sum.inr)).det -
            Fintype.card {j // ¬ W i j = true} + Fintype.card {j // W i j = true} * Real.log (2 * Real.pi)) := by
      intro i
      rw [hnll]
      have := em_row_le (patSplit (W i)) hS hS' b (y i) (h3 i)
      linarith
    have heq1 : ∀ i, Spec.negTwoLogLik S mu (fun j => (X i j).getD 0) (W i) =
        (quadForm S⁻¹ (y i - mu) + (S⁻¹ * C i).trace + Real.log S.det) +
          (Real.log (S⁻¹.submatrix (patSplit (W i) ∘ Sum.inr) (patSplit (W i) ∘ Sum.inr)).det -
            Fintype.card {j // ¬ W i j = true} + Fintype.card {j // W i j = true} * Real.log (2 * Real.pi)) := by
      intro i
      rw [hnll]
      have := em_row_eq (patSplit (W i)) hS mu (y i) (h3 i) (h4 i)
      linarith
    set c : Fin n → ℝ := fun i =>
      Real.log (S⁻¹.submatrix (patSplit (W i) ∘ Sum.inr) (patSplit (W i) ∘ Sum.inr)).det -
        Fintype.card {j // ¬ W i j = true} + Fintype.card {j // W i j = true} * Real.log (2 * Real.pi) with hc
    have hsum1 := Finset.sum_le_sum fun i (_ : i ∈ Finset.univ) => hle1 i
    have hsum2 := Finset.sum_congr rfl fun i (_ : i ∈ (Finset.univ : Finset (Fin n))) => heq1 i
    change _ ≤ ∑ i, (quadForm S'⁻¹ (y i - b) + (S'⁻¹ * C i).trace + Real.log S'.det + c i) at hsum1
    change _ = ∑ i, (quadForm S⁻¹ (y i - mu) + (S⁻¹ * C i).trace + Real.log S.det + c i) at hsum2
    simp only [Finset.sum_add_distrib, Finset.sum_const, Finset.card_univ, Fintype.card_fin,
      nsmul_eq_mul] at hsum1 hsum2
    rw [sum_quadForm (symm_of_posDef hS.inv) y (by omega) mu, ← hb] at hsum2
    have hq : 0 ≤ quadForm S⁻¹ (b - mu) := by
      rw [quadForm_eq]; simpa using hS.inv.posSemidef.dotProduct_mulVec_nonneg (b - mu)
    have hm := hmom S⁻¹
    have hm' := hmom S'⁻¹
    have hnn : (0 : ℝ) ≤ n := Nat.cast_nonneg n
    have h5 : 0 ≤ (n : ℝ) * quadForm S⁻¹ (b - mu) := mul_nonneg hnn hq
    have h6 := mul_le_mul_of_nonneg_left hle hnn
    linarith

end

end Robpy
