import Verif.Props.CellOrder
import Verif.Props.CellMCDWitness

/-! # C207: the order of the columns and `CellMCD` -/

namespace Robpy
open Matrix

variable {n p : ℕ}

/-- The columns of a matrix of cells or flags in another order. -/
def Spec.colsBy {α : Type} (τ : Equiv.Perm (Fin p)) (X : Fin n → Fin p → α) : Fin n → Fin p → α := fun i j => X i (τ j)

/-- The number of clean cells of a column. -/
def Spec.cleanCells (W : CellFlags n p) (j : Fin p) : ℕ := (Finset.univ.filter fun i => W i j = true).card

/-- **C207**, the claim: with the columns of the data and of the start in another order, the C-steps give the flags in that order. -/
def C207_statement : Prop :=
  ∀ (n p : ℕ) (env : CellEnv p) (cfg : CellConfig) (alpha : ℝ) (X : Cells n p) (loc0 : Fin p → ℝ) (cov0 : Matrix (Fin p) (Fin p) ℝ)
    (τ : Equiv.Perm (Fin p)) (s s' : CellState n p), 0 < cfg.minEig → cov0.PosDef →
    cStepsUntilConvergence env cfg alpha X loc0 cov0 cov0⁻¹ = .ok s →
    cStepsUntilConvergence env cfg alpha (Spec.colsBy τ X) (fun j => loc0 (τ j)) (cov0.submatrix τ τ) (cov0.submatrix τ τ)⁻¹ = .ok s' →
    s'.W = Spec.colsBy τ s.W

/-! ## One update of the flags follows the columns when the numbers of clean cells differ -/

theorem obsVals_cols (τ : Equiv.Perm (Fin p)) (x : Fin p → Option ℝ) (P : Fin p → Bool) :
    obsVals (fun k => x (τ k)) (fun k => P (τ k)) =
      (obsVals x P).map fun y (k : {k // P (τ k) = true}) => y ⟨τ k.1, k.2⟩ := by
  unfold obsVals
  by_cases h : ∀ j : {j // P j = true}, (x j.1).isSome = true
  · rw [if_pos h, if_pos fun j : {k // P (τ k) = true} => h ⟨τ j.1, j.2⟩]
    rfl
  · rw [if_neg h, if_neg]
    · rfl
    · intro h'
      refine h fun j => ?_
      have := h' ⟨τ.symm j.1, by simpa using j.2⟩
      simpa using this

/-- The positions of a pattern in the other order. -/
def patEquiv (τ : Equiv.Perm (Fin p)) (P : Fin p → Bool) : {k // P (τ k) = true} ≃ {j // P j = true} :=
  τ.subtypeEquiv fun _ => Iff.rfl

theorem blockInv_cols (τ : Equiv.Perm (Fin p)) (S : Matrix (Fin p) (Fin p) ℝ) (P : Fin p → Bool) :
    ((S.submatrix τ τ).submatrix (fun j : {k // P (τ k) = true} => j.1) fun j => j.1)⁻¹ =
      (S.submatrix (fun j : {j // P j = true} => j.1) fun j => j.1)⁻¹.submatrix (patEquiv τ P) (patEquiv τ P) := by
  rw [← Matrix.inv_submatrix_equiv]
  rfl

theorem vecMul_dot_cols {m m' : Type} [Fintype m] [Fintype m'] (e : m' ≃ m) (R : Matrix m m ℝ) (a b : m → ℝ) :
    ((fun k => a (e k)) ᵥ* R.submatrix e e) ⬝ᵥ (fun k => b (e k)) = (a ᵥ* R) ⬝ᵥ b := by
  simp only [Matrix.vecMul, dotProduct, Matrix.submatrix_apply]
  rw [← Equiv.sum_comp e fun k => (∑ l, a l * R l k) * b k]
  refine Finset.sum_congr rfl fun k _ => ?_
  rw [← Equiv.sum_comp e fun l => a l * R l (e k)]

theorem regVar_cols (τ : Equiv.Perm (Fin p)) (S : Matrix (Fin p) (Fin p) ℝ) {P : Fin p → Bool}
    (R : Matrix {j // P j = true} {j // P j = true} ℝ) (j : Fin p) :
    regVar (P := fun k => P (τ k)) (S.submatrix τ τ) (R.submatrix (patEquiv τ P) (patEquiv τ P)) j = regVar S R (τ j) := by
  unfold regVar
  congr 1
  exact vecMul_dot_cols (patEquiv τ P) R (fun k => S (τ j) k.1) fun k => S k.1 (τ j)

theorem regress_cols (τ : Equiv.Perm (Fin p)) (mu : Fin p → ℝ) (S : Matrix (Fin p) (Fin p) ℝ) {P : Fin p → Bool}
    (R : Matrix {j // P j = true} {j // P j = true} ℝ) (y : {j // P j = true} → ℝ) (j : Fin p) :
    regress (P := fun k => P (τ k)) (fun k => mu (τ k)) (S.submatrix τ τ) (R.submatrix (patEquiv τ P) (patEquiv τ P))
      (fun k => y ⟨τ k.1, k.2⟩) j = regress mu S R y (τ j) := by
  unfold regress
  congr 1
  exact vecMul_dot_cols (patEquiv τ P) R (fun k => y k - mu k.1) fun k => S k.1 (τ j)

theorem deltaCell_cols (τ : Equiv.Perm (Fin p)) (X : Cells n p) (W : CellFlags n p) {S : Matrix (Fin p) (Fin p) ℝ} (hS : S.PosDef)
    (mu : Fin p → ℝ) (j : Fin p) (i : Fin n) :
    deltaCell (Spec.colsBy τ X) (Spec.colsBy τ W) (S.submatrix τ τ) (S.submatrix τ τ)⁻¹ (fun k => mu (τ k)) j i =
      deltaCell X W S S⁻¹ mu (τ j) i := by
  have hS' : (S.submatrix τ τ).PosDef := hS.submatrix τ.injective
  unfold deltaCell
  rcases hx : X i (τ j) with _ | x
  · simp only [Spec.colsBy, hx]
  · have hw : Function.update (Spec.colsBy τ W i) j false = fun k => Function.update (W i) (τ j) false (τ k) := by
      funext k
      by_cases hk : k = j
      · subst hk; simp
      · rw [Function.update_of_ne hk, Function.update_of_ne fun h => hk (τ.injective h)]
        rfl
    have hx' : Spec.colsBy τ X i j = some x := hx
    simp only [hx']
    generalize Function.update (Spec.colsBy τ W i) j false = P' at hw ⊢
    generalize Function.update (W i) (τ j) false = P at hw ⊢
    subst hw
    have hex : (∃ k, P (τ k) = true) ↔ ∃ k, P k = true :=
      ⟨fun ⟨k, hk⟩ => ⟨τ k, hk⟩, fun ⟨k, hk⟩ => ⟨τ.symm k, by simpa using hk⟩⟩
    by_cases h : ∃ k, P k = true
    · rw [if_pos h, if_pos (hex.2 h), patInv_eq hS, patInv_eq hS', blockInv_cols]
      simp only [Except.map]
      have ho : obsVals (Spec.colsBy τ X i) (fun k => P (τ k)) =
          (obsVals (X i) P).map fun y (k : {k // P (τ k) = true}) => y ⟨τ k.1, k.2⟩ := obsVals_cols τ (X i) P
      rw [ho]
      rcases obsVals (X i) P with _ | y
      · rfl
      · simp only [Option.map_some, regVar_cols, regress_cols]
    · rw [if_neg h, if_neg fun h' => h (hex.1 h')]
      rfl

theorem updateColumn_cols (τ : Equiv.Perm (Fin p)) (X : Cells n p) {S : Matrix (Fin p) (Fin p) ℝ} (hS : S.PosDef) (mu q : Fin p → ℝ)
    (h : ℕ) (W : CellFlags n p) (j : Fin p) :
    updateColumn (Spec.colsBy τ X) (S.submatrix τ τ) (S.submatrix τ τ)⁻¹ (fun k => mu (τ k)) (fun k => q (τ k)) h (Spec.colsBy τ W) j =
      (updateColumn X S S⁻¹ mu q h W (τ j)).map (Spec.colsBy τ) := by
  unfold updateColumn
  simp only [deltaCell_cols τ X W hS]
  rcases collect fun i => deltaCell X W S S⁻¹ mu (τ j) i with e | delta
  · rfl
  · simp only [Except.map, Except.ok.injEq]
    funext i k
    simp only [Spec.colsBy, τ.injective.eq_iff]

theorem updateColumns_cols (τ : Equiv.Perm (Fin p)) (X : Cells n p) {S : Matrix (Fin p) (Fin p) ℝ} (hS : S.PosDef) (mu q : Fin p → ℝ)
    (h : ℕ) (js : List (Fin p)) (W : CellFlags n p) :
    updateColumns (Spec.colsBy τ X) (S.submatrix τ τ) (S.submatrix τ τ)⁻¹ (fun k => mu (τ k)) (fun k => q (τ k)) h js (Spec.colsBy τ W) =
      (updateColumns X S S⁻¹ mu q h (js.map τ) W).map (Spec.colsBy τ) := by
  induction js generalizing W with
  | nil => rfl
  | cons j js ih =>
    rw [List.map_cons]
    unfold updateColumns
    rw [updateColumn_cols τ X hS]
    rcases updateColumn X S S⁻¹ mu q h W (τ j) with e | W'
    · rfl
    · exact ih W'

theorem columnOrder_cols (τ : Equiv.Perm (Fin p)) {W : CellFlags n p} (hW : Function.Injective (Spec.cleanCells W)) :
    (columnOrder (Spec.colsBy τ W)).map τ = columnOrder W := by
  have htr : ∀ (V : CellFlags n p) (a b c : Fin p), decide (Spec.cleanCells V a ≤ Spec.cleanCells V b) = true →
      decide (Spec.cleanCells V b ≤ Spec.cleanCells V c) = true → decide (Spec.cleanCells V a ≤ Spec.cleanCells V c) = true := by
    intro V a b c hab hbc
    simp only [decide_eq_true_eq] at hab hbc ⊢
    exact hab.trans hbc
  have htot : ∀ (V : CellFlags n p) (a b : Fin p),
      (decide (Spec.cleanCells V a ≤ Spec.cleanCells V b) || decide (Spec.cleanCells V b ≤ Spec.cleanCells V a)) = true := by
    intro V a b
    simp only [Bool.or_eq_true, decide_eq_true_eq]
    exact le_total _ _
  have hs : ∀ V : CellFlags n p, (columnOrder V).Pairwise fun a b => Spec.cleanCells V a ≤ Spec.cleanCells V b := by
    intro V
    have := List.pairwise_mergeSort (htr V) (htot V) (List.finRange p)
    exact this.imp fun h => by simpa using h
  have hp : ∀ V : CellFlags n p, (columnOrder V).Perm (List.finRange p) := fun V => List.mergeSort_perm _ _
  have hperm : ((columnOrder (Spec.colsBy τ W)).map τ).Perm (columnOrder W) := by
    refine ((hp _).map τ).trans (List.Perm.trans ?_ (hp W).symm)
    rw [List.perm_ext_iff_of_nodup ((List.nodup_finRange p).map τ.injective) (List.nodup_finRange p)]
    intro a
    simp only [List.mem_map, List.mem_finRange, true_and, iff_true]
    exact ⟨τ.symm a, by simp⟩
  refine hperm.eq_of_pairwise (le := fun a b => Spec.cleanCells W a ≤ Spec.cleanCells W b)
    (fun a b _ _ hab hba => hW (le_antisymm hab hba)) ?_ (hs W)
  rw [List.pairwise_map]
  exact hs (Spec.colsBy τ W)

/-- **C207**, what holds: one update of the flags with a positive definite covariance follows the order of the columns if the columns
have different numbers of clean cells.  Missing for the full claim: columns with equally many clean cells, as in data without
missing values, where it is false (`C207_violated`).  For the C-steps as a whole see `C207_steps_partial`. -/
theorem C207_update_partial (τ : Equiv.Perm (Fin p)) (X : Cells n p) {S : Matrix (Fin p) (Fin p) ℝ} (hS : S.PosDef) (mu q : Fin p → ℝ)
    (h : ℕ) {W : CellFlags n p} (hW : Function.Injective (Spec.cleanCells W)) :
    updateW (Spec.colsBy τ X) (S.submatrix τ τ) (S.submatrix τ τ)⁻¹ (fun k => mu (τ k)) (fun k => q (τ k)) h (Spec.colsBy τ W) =
      (updateW X S S⁻¹ mu q h W).map (Spec.colsBy τ) := by
  unfold updateW
  rw [updateColumns_cols τ X hS, columnOrder_cols τ hW]

/-! ## With equal numbers of clean cells it depends on the order of the columns -/

/-- Correlation 0.6. -/
noncomputable def c207S : Matrix (Fin 2) (Fin 2) ℝ := !![1, 3 / 5; 3 / 5, 1]

/-- Ten rows, the first one `(a, -a)`, the others zero. -/
noncomputable def c207X (a : ℝ) : Cells 10 2 := fun i j => some (if i = 0 then (if j = 0 then a else -a) else 0)

theorem c207S_posDef : c207S.PosDef := by
  refine Matrix.PosDef.of_dotProduct_mulVec_pos ?_ fun x hx => ?_
  · ext i j; fin_cases i <;> fin_cases j <;> simp [c207S]
  · have hx' : x 0 ≠ 0 ∨ x 1 ≠ 0 := by
      by_contra hc
      push Not at hc
      exact hx (by funext i; fin_cases i <;> simp [hc.1, hc.2])
    simp only [c207S, star_trivial, dotProduct, Matrix.mulVec, Fin.sum_univ_two, Matrix.of_apply, Matrix.cons_val_zero, Matrix.cons_val_one]
    rcases hx' with h | h
    · nlinarith [sq_nonneg (x 0 * (3 / 5) + x 1), sq_pos_of_ne_zero h]
    · nlinarith [sq_nonneg (x 1 * (3 / 5) + x 0), sq_pos_of_ne_zero h]

theorem c207S_inv (j : Fin 2) : c207S⁻¹ j j = 25 / 16 := by
  rw [Matrix.inv_def, Matrix.adjugate_fin_two, Matrix.det_fin_two]
  fin_cases j <;> simp [c207S] <;> norm_num

theorem c207_block {w : Fin 2 → Bool} {k : Fin 2} (hw : w k = true) (hw' : ∀ l, w l = true → l = k) (j : Fin 2) (hj : j ≠ k)
    (y : {l // w l = true} → ℝ) :
    regVar c207S (c207S.submatrix (fun l : {l // w l = true} => l.1) fun l => l.1)⁻¹ j = 16 / 25 ∧
      regress 0 c207S (c207S.submatrix (fun l : {l // w l = true} => l.1) fun l => l.1)⁻¹ y j = y ⟨k, hw⟩ * (3 / 5) := by
  haveI : Unique {l // w l = true} := ⟨⟨⟨k, hw⟩⟩, fun l => Subtype.ext (hw' l.1 l.2)⟩
  have hd : (default : {l // w l = true}) = ⟨k, hw⟩ := Subsingleton.elim _ _
  have h1 : ∀ l, c207S l l = 1 := by intro l; fin_cases l <;> simp [c207S]
  have h2 : c207S j k = 3 / 5 ∧ c207S k j = 3 / 5 := by fin_cases j <;> fin_cases k <;> simp_all [c207S]
  rw [Matrix.inv_subsingleton]
  constructor
  · simp [regVar, Matrix.vecMul, dotProduct, h1, h2, hd]
    norm_num
  · simp [regress, Matrix.vecMul, dotProduct, h1, h2, hd]

theorem c207_delta (a : ℝ) (W : CellFlags 10 2) (i : Fin 10) {j k : Fin 2} (hj : j ≠ k) (hk : W i k = true) (x y : ℝ)
    (hx : c207X a i j = some x) (hy : c207X a i k = some y) :
    deltaCell (c207X a) W c207S c207S⁻¹ 0 j i =
      .ok (((x - y * (3 / 5)) ^ 2 / (16 / 25) + Real.log (16 / 25) + Real.log (2 * Real.pi) : ℝ) : WithTop ℝ) := by
  unfold deltaCell
  simp only [hx]
  have hw : Function.update (W i) j false k = true := by rw [Function.update_of_ne hj.symm, hk]
  have hw' : ∀ l, Function.update (W i) j false l = true → l = k := by
    intro l hl
    by_contra hlk
    have : l = j := by omega
    subst this
    simp at hl
  generalize Function.update (W i) j false = w at hw hw'
  rw [if_pos ⟨k, hw⟩, patInv_eq c207S_posDef, obsVals_some (fun l _ => by simp [c207X])]
  obtain ⟨e1, e2⟩ := c207_block hw hw' j hj fun l => (c207X a i l.1).getD 0
  simp only [Except.map, e1, e2, hy, Option.getD_some]

theorem c207_single (a : ℝ) (W : CellFlags 10 2) (i : Fin 10) {j k : Fin 2} (hj : j ≠ k) (hk : W i k = false) (x : ℝ)
    (hx : c207X a i j = some x) :
    deltaCell (c207X a) W c207S c207S⁻¹ 0 j i = .ok ((x ^ 2 + Real.log (2 * Real.pi) : ℝ) : WithTop ℝ) := by
  unfold deltaCell
  simp only [hx]
  rw [if_neg]
  · have h1 : c207S j j = 1 := by fin_cases j <;> simp [c207S]
    simp [h1]
  · rintro ⟨l, hl⟩
    have : l = j ∨ l = k := by omega
    rcases this with rfl | rfl
    · simp at hl
    · rw [Function.update_of_ne hj.symm, hk] at hl
      cases hl

theorem c207_q (j : Fin 2) : cellQ (exampleEnv 2) c207S⁻¹ j = 6.635 + Real.log (16 / 25) + Real.log (2 * Real.pi) := by
  unfold cellQ
  rw [c207S_inv]
  have : Real.log (16 / 25) = - Real.log (25 / 16) := by rw [← Real.log_inv]; norm_num
  rw [this]
  simp [exampleEnv]
  ring

theorem c207_good {delta : Fin 10 → WithTop (WithTop ℝ)} {q : ℝ} {B : Fin 10 → Prop} [DecidablePred B]
    (hB : ∀ i, delta i ≤ ((q : WithTop ℝ) : WithTop (WithTop ℝ)) ↔ B i) (h5 : 5 ≤ ((List.finRange 10).filter fun i => decide (B i)).length)
    (i : Fin 10) : i ∈ goodCells delta q 5 ↔ B i := by
  unfold goodCells
  simp only [hB]
  rw [if_neg (by omega)]
  simp

/-- The first column is examined first and its cell in the first row is flagged; without it the other cell of that row is normal. -/
theorem c207_update {a : ℝ} (ha : a ^ 2 = 4) :
    updateW (c207X a) c207S c207S⁻¹ 0 (cellQ (exampleEnv 2) c207S⁻¹) 5 (initialW (c207X a)) =
      .ok fun i j => decide (¬ (i = 0 ∧ j = 0)) := by
  have hi : initialW (c207X a) = fun _ _ => true := by funext i j; simp [initialW, c207X]
  have ho : columnOrder (n := 10) (p := 2) (fun _ _ => true) = [0, 1] := by
    unfold columnOrder
    exact List.mergeSort_of_pairwise (by simp [List.finRange_succ])
  have hlog : -(9 / 16 : ℝ) ≤ Real.log (16 / 25) := by
    have := Real.one_sub_inv_le_log_of_pos (show (0 : ℝ) < 16 / 25 by norm_num)
    norm_num at this ⊢
    linarith
  have h1 : updateColumn (c207X a) c207S c207S⁻¹ 0 (cellQ (exampleEnv 2) c207S⁻¹) 5 (fun _ _ => true) 0 =
      .ok fun i j => decide (¬ (i = 0 ∧ j = 0)) := by
    unfold updateColumn
    rw [collect_ok fun i => c207_delta a (fun _ _ => true) i (j := 0) (k := 1) (by decide) rfl (if i = 0 then a else 0)
      (if i = 0 then -a else 0) (by simp [c207X]) (by simp [c207X])]
    simp only [Except.map, Except.ok.injEq]
    funext i j
    rw [c207_q]
    have hg := c207_good (q := 6.635 + Real.log (16 / 25) + Real.log (2 * Real.pi)) (B := fun i => i ≠ 0)
      (delta := fun i => ((((if i = 0 then a else 0) - (if i = 0 then -a else 0) * (3 / 5)) ^ 2 / (16 / 25) + Real.log (16 / 25) +
        Real.log (2 * Real.pi) : ℝ) : WithTop ℝ)) (fun i => by
          rw [WithTop.coe_le_coe, WithTop.coe_le_coe]
          by_cases h0 : i = 0
          · simp only [h0, if_true, ne_eq, not_true, iff_false, not_le]
            nlinarith
          · simp only [h0, if_false, ne_eq, not_false_eq_true, iff_true]
            norm_num) (by decide) i
    by_cases hj : j = 0
    · subst hj
      rw [if_pos rfl]
      exact decide_eq_decide.2 (hg.trans (by simp))
    · simp [hj]
  have h2 : updateColumn (c207X a) c207S c207S⁻¹ 0 (cellQ (exampleEnv 2) c207S⁻¹) 5 (fun i j => decide (¬ (i = 0 ∧ j = 0))) 1 =
      .ok fun i j => decide (¬ (i = 0 ∧ j = 0)) := by
    unfold updateColumn
    have hd : ∀ i : Fin 10, deltaCell (c207X a) (fun i j => decide (¬ (i = 0 ∧ j = 0))) c207S c207S⁻¹ 0 1 i =
        .ok (((if i = 0 then 4 else Real.log (16 / 25)) + Real.log (2 * Real.pi) : ℝ) : WithTop ℝ) := by
      intro i
      by_cases h0 : i = 0
      · rw [c207_single a _ i (j := 1) (k := 0) (by decide) (by simp [h0]) (-a) (by simp [c207X, h0])]
        simp [h0, ha]
      · rw [c207_delta a _ i (j := 1) (k := 0) (by decide) (by simp [h0]) 0 0 (by simp [c207X, h0]) (by simp [c207X, h0])]
        simp [h0]
    rw [collect_ok hd]
    simp only [Except.map, Except.ok.injEq]
    funext i j
    rw [c207_q]
    have hg := c207_good (q := 6.635 + Real.log (16 / 25) + Real.log (2 * Real.pi)) (B := fun _ => True)
      (delta := fun i => (((if i = 0 then 4 else Real.log (16 / 25)) + Real.log (2 * Real.pi) : ℝ) : WithTop ℝ)) (fun i => by
          rw [WithTop.coe_le_coe, WithTop.coe_le_coe]
          by_cases h0 : i = 0
          · simp only [h0, if_true, iff_true]
            linarith
          · simp only [h0, if_false, iff_true]
            linarith) (by decide) i
    by_cases hj : j = 1
    · subst hj
      rw [if_pos rfl]
      exact decide_eq_decide.2 (hg.trans (by simp))
    · simp [hj]
  unfold updateW
  rw [hi, ho]
  unfold updateColumns
  rw [h1]
  simp only [Except.bind]
  unfold updateColumns
  rw [h2]
  rfl

/-- One C-step, alpha 0.5. -/
noncomputable def c207Cfg : CellConfig := { cutoff := 3, crit := 1 / 10000, maxSteps := 1, minEig := 1 / 10000 }

theorem c207_steps {a : ℝ} (ha : a ^ 2 = 4) :
    ∃ s, cStepsUntilConvergence (exampleEnv 2) c207Cfg (1 / 2) (c207X a) 0 c207S c207S⁻¹ = .ok s ∧
      s.W = fun i j => decide (¬ (i = 0 ∧ j = 0)) := by
  have hh : cellH (1 / 2) 10 = 5 := by
    unfold cellH
    have : (1 / 2 : ℝ) * (10 : ℕ) = ((5 : ℤ) : ℝ) := by norm_num
    rw [this, pyRound_int]
    rfl
  have hen : Enough (c207X a) (cellH (1 / 2) 10) := by
    intro j
    rw [hh]
    simp [c207X]
  obtain ⟨s, hs, -⟩ := C118_result_partial (exampleEnv 2) (cfg := c207Cfg) (by norm_num [c207Cfg]) (by norm_num [c207Cfg])
    (by norm_num [c207Cfg]) (by norm_num) hen 0 c207S_posDef
  refine ⟨s, hs, ?_⟩
  rw [cSteps_eq (exampleEnv 2) (by norm_num [c207Cfg]) (by norm_num [c207Cfg]) _ _ _ c207S_posDef, hh] at hs
  have h1 : c207Cfg.maxSteps.toNat = 0 + 1 := rfl
  rw [h1] at hs
  unfold cellLoop at hs
  rcases hr : cellIter (exampleEnv 2) c207Cfg.minEig (c207X a) (cellQ (exampleEnv 2) c207S⁻¹) 5
    (cellStart (exampleEnv 2) (c207X a) 0 c207S) with e | r
  · rw [hr] at hs
    cases hs
  have hW : r.1.W = fun i j => decide (¬ (i = 0 ∧ j = 0)) := by
    unfold cellIter at hr
    have hu : updateW (c207X a) (cellStart (exampleEnv 2) (c207X a) 0 c207S).cov (cellStart (exampleEnv 2) (c207X a) 0 c207S).covInv
        (cellStart (exampleEnv 2) (c207X a) 0 c207S).location (cellQ (exampleEnv 2) c207S⁻¹) 5
        (cellStart (exampleEnv 2) (c207X a) 0 c207S).W = .ok fun i j => decide (¬ (i = 0 ∧ j = 0)) := c207_update ha
    rw [hu] at hr
    simp only [Except.bind] at hr
    split at hr
    · cases hr
    · split at hr
      · cases hr
      · unfold Except.map at hr
        split at hr
        · cases hr
        · rw [← Except.ok.inj hr]
  rw [hr] at hs
  simp only [Except.bind] at hs
  split_ifs at hs
  · rw [← Except.ok.inj hs]; exact hW
  · unfold cellLoop at hs
    rw [← Except.ok.inj hs]; exact hW
  · rw [← Except.ok.inj hs]; exact hW

/-- **C207** is false: of the two cells of the first row of `c207X 2`, the C-steps flag the one in the column that comes first. -/
theorem C207_violated : ¬ C207_statement := by
  intro h
  obtain ⟨s, hs, hW⟩ := c207_steps (a := 2) (by norm_num)
  obtain ⟨s', hs', hW'⟩ := c207_steps (a := -2) (by norm_num)
  have hX : Spec.colsBy (Equiv.swap 0 1) (c207X 2) = c207X (-2) := by
    funext i j
    fin_cases j <;> simp [Spec.colsBy, c207X]
  have hSS : c207S.submatrix (Equiv.swap 0 1) (Equiv.swap 0 1) = c207S := by
    ext i j
    fin_cases i <;> fin_cases j <;> simp [c207S]
  have := h 10 2 (exampleEnv 2) c207Cfg (1 / 2) (c207X 2) 0 c207S (Equiv.swap 0 1) s s' (by norm_num [c207Cfg]) c207S_posDef hs
    (by rw [hX, hSS]; exact hs')
  rw [hW, hW'] at this
  have := congrFun (congrFun this 0) 0
  simp [Spec.colsBy] at this

/-! ## Examples -/

/-- C207 for an update when the second column has a missing cell. -/
example (X : Cells 3 2) (mu q : Fin 2 → ℝ) :
    let W : CellFlags 3 2 := ![![true, true], ![true, false], ![true, true]]
    updateW (Spec.colsBy (Equiv.swap 0 1) X) (c207S.submatrix (Equiv.swap 0 1) (Equiv.swap 0 1))
        (c207S.submatrix (Equiv.swap 0 1) (Equiv.swap 0 1))⁻¹ (fun k => mu (Equiv.swap 0 1 k)) (fun k => q (Equiv.swap 0 1 k)) 2
        (Spec.colsBy (Equiv.swap 0 1) W) =
      (updateW X c207S c207S⁻¹ mu q 2 W).map (Spec.colsBy (Equiv.swap 0 1)) := by
  intro W
  refine C207_update_partial (Equiv.swap 0 1) X c207S_posDef mu q 2 ?_
  decide

end Robpy
