import Verif.Props.CellMCD

/-! # C44, C45, C118: cases that meet the hypotheses, and counterexamples to the full claims -/

namespace Robpy
open Matrix

section
variable {n p : ℕ}

/-! ## A covariance `c * 1` -/

theorem smul_one_posDef {c : ℝ} (hc : 0 < c) : (c • (1 : Matrix (Fin p) (Fin p) ℝ)).PosDef :=
  Matrix.PosDef.one.smul hc

theorem smul_one_inv {c : ℝ} (hc : 0 < c) :
    (c • (1 : Matrix (Fin p) (Fin p) ℝ))⁻¹ = c⁻¹ • (1 : Matrix (Fin p) (Fin p) ℝ) := by
  refine Matrix.inv_eq_right_inv ?_
  rw [Matrix.smul_mul, Matrix.mul_smul, smul_smul, mul_inv_cancel₀ hc.ne', one_smul, one_mul]

theorem regress_scalar {c : ℝ} (mu : Fin p → ℝ) {P : Fin p → Bool} {j : Fin p} (hj : P j = false)
    (R : Matrix {k // P k = true} {k // P k = true} ℝ) (y : {k // P k = true} → ℝ) :
    regress mu (c • (1 : Matrix (Fin p) (Fin p) ℝ)) R y j = mu j ∧
      regVar (c • (1 : Matrix (Fin p) (Fin p) ℝ)) R j = c := by
  have h0 : (fun k : {k // P k = true} => (c • (1 : Matrix (Fin p) (Fin p) ℝ)) k.1 j) = 0 := by
    funext k
    have : k.1 ≠ j := fun h => by have := k.2; rw [h, hj] at this; cases this
    simp [Matrix.one_apply_ne this]
  unfold regress regVar
  rw [h0]
  simp

/-- Without missing cells and with covariance `c * 1`, the term of a cell does not depend on the other cells. -/
theorem deltaCell_scalar {c : ℝ} (hc : 0 < c) (x : Fin n → Fin p → ℝ) (mu : Fin p → ℝ) (W : CellFlags n p)
    (j : Fin p) (i : Fin n) :
    deltaCell (fun i j => some (x i j)) W (c • 1) (c • 1)⁻¹ mu j i =
      .ok (((((x i j - mu j) ^ 2 / c + Real.log c + Real.log (2 * Real.pi) : ℝ) : WithTop ℝ)) :
        WithTop (WithTop ℝ)) := by
  rw [deltaCell_eq (smul_one_posDef hc) mu (fun _ _ _ => by simp) (by simp)]
  have hj : Function.update (W i) j false j = false := by simp
  have h := (negTwoLogLik_insert (smul_one_posDef (p := p) hc) mu (fun k => x i k)
    (Function.update (W i) j false) hj).2
  rw [Function.update_idem] at h
  rw [(regress_scalar mu hj _ _).1, (regress_scalar mu hj _ (fun k => x i k.1)).2] at h
  simp only [Option.getD_some]
  rw [h]
  congr 3
  ring

/-- The update of `W` for a covariance `c * 1`, when enough cells are within the threshold: a cell is marked
as clean exactly if its squared distance is at most the quantile. -/
theorem updateColumns_scalar {c : ℝ} (hc : 0 < c) (x : Fin n → Fin p → ℝ) (mu q : Fin p → ℝ) {h : ℕ}
    (hh : ∀ j, h ≤ (Finset.univ.filter fun i =>
      (x i j - mu j) ^ 2 / c + Real.log c + Real.log (2 * Real.pi) ≤ q j).card) :
    ∀ (js : List (Fin p)) (W : CellFlags n p), ∃ W',
      updateColumns (fun i j => some (x i j)) (c • 1) (c • 1)⁻¹ mu q h js W = .ok W' ∧
      ∀ i j, j ∈ js → W' i j = decide ((x i j - mu j) ^ 2 / c + Real.log c + Real.log (2 * Real.pi) ≤ q j)
  | [], W => ⟨W, rfl, fun _ _ h => absurd h List.not_mem_nil⟩
  | j :: js, W => by
    classical
    rw [updateColumns]
    unfold updateColumn
    rw [collect_ok fun i => deltaCell_scalar hc x mu W j i]
    simp only [Except.map, Except.bind]
    set W1 : CellFlags n p := fun i k => if k = j then decide (i ∈ goodCells (fun i =>
      ((((x i j - mu j) ^ 2 / c + Real.log c + Real.log (2 * Real.pi) : ℝ) : WithTop ℝ) :
        WithTop (WithTop ℝ))) (q j) h) else W i k with hW1
    have hgood : ∀ i, W1 i j =
        decide ((x i j - mu j) ^ 2 / c + Real.log c + Real.log (2 * Real.pi) ≤ q j) := by
      intro i
      rw [hW1]
      simp only [if_true]
      congr 1
      unfold goodCells
      simp only
      rw [if_neg]
      · rw [List.mem_filter]
        simp only [List.mem_finRange, true_and, decide_eq_true_eq, WithTop.coe_le_coe]
      · rw [not_lt]
        refine (hh j).trans (le_of_eq ?_)
        simp only [WithTop.coe_le_coe]
        rw [Finset.card_def]
        simp [Finset.filter, Fin.univ_def, Multiset.filter_coe]
    obtain ⟨W', e, hW'⟩ := updateColumns_scalar hc x mu q hh js W1
    by_cases hj : j ∈ js
    · refine ⟨W', e, fun i k hk => ?_⟩
      rcases List.mem_cons.1 hk with rfl | hk
      · exact hW' i _ hj
      · exact hW' i k hk
    · obtain ⟨W'', e'', h''⟩ : ∃ W'', updateColumns (fun i j => some (x i j)) (c • 1) (c • 1)⁻¹ mu q h js W1 =
          .ok W'' ∧ ∀ k, k ∉ js → ∀ i, W'' i k = W1 i k := by
        have hx : ∀ j, (Finset.univ.filter fun i : Fin n => (some (x i j) : Option ℝ) ≠ none).card = n := by
          intro j; simp
        obtain ⟨W'', a, -, -, b, -⟩ := updateColumns_spec (X := fun i j => some (x i j))
          (smul_one_posDef hc) mu q (h := h) (fun j => by
            have := (hh j).trans (Finset.card_le_univ _)
            rw [Fintype.card_fin] at this
            rw [hx]; exact this) js (W := W1) (fun _ _ _ => by simp)
        exact ⟨W'', a, b⟩
      rw [e] at e''
      have := Except.ok.inj e''
      subst this
      refine ⟨W', e, fun i k hk => ?_⟩
      rcases List.mem_cons.1 hk with rfl | hk
      · rw [h'' _ hj i]; exact hgood i
      · exact hW' i k hk

theorem negTwoLogLik_scalar {c : ℝ} (hc : 0 < c) (mu x : Fin p → ℝ) (w : Fin p → Bool) :
    Spec.negTwoLogLik (c • 1) mu x w =
      ∑ j : {j // w j = true}, ((x j.1 - mu j.1) ^ 2 / c + Real.log c + Real.log (2 * Real.pi)) := by
  have hA : ((c • (1 : Matrix (Fin p) (Fin p) ℝ)).submatrix (fun j : {j // w j = true} => j.1)
      fun j : {j // w j = true} => j.1) = c • (1 : Matrix {j // w j = true} {j // w j = true} ℝ) := by
    ext a b
    by_cases h : a = b
    · subst h; simp
    · have : a.1 ≠ b.1 := fun h' => h (Subtype.ext h')
      simp [Matrix.one_apply_ne h, Matrix.one_apply_ne this]
  have hinv : (c • (1 : Matrix {j // w j = true} {j // w j = true} ℝ))⁻¹ = c⁻¹ • 1 := by
    refine Matrix.inv_eq_right_inv ?_
    rw [Matrix.smul_mul, Matrix.mul_smul, smul_smul, mul_inv_cancel₀ hc.ne', one_smul, one_mul]
  unfold Spec.negTwoLogLik
  simp only
  rw [hA, hinv, Matrix.det_smul, Matrix.det_one, mul_one, Real.log_pow, Matrix.smul_mulVec, Matrix.one_mulVec,
    Finset.sum_add_distrib, Finset.sum_add_distrib]
  simp only [Finset.sum_const, Finset.card_univ, nsmul_eq_mul, dotProduct, Pi.smul_apply, smul_eq_mul]
  congr 2
  refine Finset.sum_congr rfl fun j _ => ?_
  field_simp

/-- A covariance that is at least the identity: the Gaussian term is at least `log (2 pi)` per cell. -/
theorem negTwoLogLik_ge {S : Matrix (Fin p) (Fin p) ℝ} (hS : S.PosDef)
    (hb : (S - (1 : ℝ) • (1 : Matrix (Fin p) (Fin p) ℝ)).PosSemidef) (mu x : Fin p → ℝ) (w : Fin p → Bool) :
    Fintype.card {j // w j = true} * Real.log (2 * Real.pi) ≤ Spec.negTwoLogLik S mu x w := by
  unfold Spec.negTwoLogLik
  simp only
  set A := S.submatrix (fun j : {j // w j = true} => j.1) (fun j : {j // w j = true} => j.1) with hA
  have hAp : A.PosDef := hS.submatrix Subtype.val_injective
  have hAi : A⁻¹.PosDef := hAp.inv
  have h1 : 0 ≤ (fun j : {j // w j = true} => x j.1 - mu j.1) ⬝ᵥ
      (A⁻¹ *ᵥ fun j : {j // w j = true} => x j.1 - mu j.1) := by
    have := hAi.posSemidef.dotProduct_mulVec_nonneg (fun j : {j // w j = true} => x j.1 - mu j.1)
    simpa using this
  have h2 : 0 ≤ Real.log A.det := by
    have hb' : (A - (1 : Matrix {j // w j = true} {j // w j = true} ℝ)).PosSemidef := by
      have := hb.submatrix (fun j : {j // w j = true} => j.1)
      have h3 : (S - (1 : ℝ) • (1 : Matrix (Fin p) (Fin p) ℝ)).submatrix (fun j : {j // w j = true} => j.1)
          (fun j : {j // w j = true} => j.1) = A - 1 := by
        rw [one_smul, Matrix.submatrix_sub]
        simp only [Pi.sub_apply]
        rw [Matrix.submatrix_one _ Subtype.val_injective]
      rwa [h3] at this
    have hlog := log_det_le_trace hAi
    have htr : (A⁻¹).trace ≤ Fintype.card {j // w j = true} := by
      have h4 : ∀ j, A⁻¹ j j ≤ 1 := by
        intro j
        have := quadForm_inv_le hAp one_pos (by rw [one_smul]; exact hb') (Pi.single j 1)
        rw [quadForm_eq] at this
        simpa using this
      calc (A⁻¹).trace = ∑ j, A⁻¹ j j := rfl
        _ ≤ ∑ j : {j // w j = true}, (1 : ℝ) := Finset.sum_le_sum fun j _ => h4 j
        _ = _ := by simp
    have hdet : Real.log (A⁻¹).det = -Real.log A.det := by
      rw [Matrix.det_nonsing_inv, Ring.inverse_eq_inv', Real.log_inv]
    linarith
  linarith

end

/-- numpy's and scipy's parts for the examples: the spectral theorem, and 6.635 for the 99% quantile of the
chi-square distribution with one degree of freedom. -/
noncomputable def exampleEnv (p : ℕ) : CellEnv p :=
  { eigh := eighSpectral, order := fun _ => 1, chi99 := 6.635 }

theorem pyRound_int (m : ℤ) : pyRound m = m := by
  unfold pyRound
  rw [Int.floor_intCast, sub_self, if_pos (by norm_num)]

/-! ## C44 is false for larger cutoffs -/

/-- Ten rows, two columns; one cell is 4, the others are 0. -/
noncomputable def witness44 : Cells 10 2 := fun i j => some (if i = 0 ∧ j = 0 then 4 else 0)

theorem witness44_check : cellCheck 5 1 witness44 = .ok () := by
  unfold cellCheck
  have h1 : ∀ j, marginalOutliers 5 witness44 j = 0 := by
    intro j
    unfold marginalOutliers
    rw [Finset.card_eq_zero, Finset.filter_eq_empty_iff]
    rintro i - ⟨x, hx, h5⟩
    unfold witness44 at hx
    rw [← Option.some.inj hx] at h5
    split_ifs at h5 <;> norm_num at h5
  have h2 : ∀ j, badCells 5 witness44 j = 0 := by
    intro j
    unfold badCells
    rw [Finset.card_eq_zero, Finset.filter_eq_empty_iff]
    rintro i - (h | ⟨x, hx, h5⟩)
    · unfold witness44 at h; cases h
    · unfold witness44 at hx
      rw [← Option.some.inj hx] at h5
      split_ifs at h5 <;> norm_num at h5
  simp only [h1, h2]
  norm_num

/-- With `h = n` every row is selected. -/
theorem goodCells_full {n : ℕ} (delta : Fin n → WithTop (WithTop ℝ)) (q : ℝ) (i : Fin n) :
    i ∈ goodCells delta q n := by
  unfold goodCells
  simp only
  split_ifs with h
  · rw [List.take_of_length_le (by rw [List.length_mergeSort, List.length_finRange])]
    exact (List.mergeSort_perm _ _).mem_iff.2 (List.mem_finRange i)
  · have hsub : ((List.finRange n).filter
        fun i => decide (delta i ≤ ((q : WithTop ℝ) : WithTop (WithTop ℝ)))).Sublist (List.finRange n) :=
      List.filter_sublist
    have := hsub.eq_of_length_le (by rw [List.length_finRange]; exact not_lt.1 h)
    rw [this]
    exact List.mem_finRange i

theorem deltaCell_isOk {n p : ℕ} (X : Cells n p) (W : CellFlags n p) {S : Matrix (Fin p) (Fin p) ℝ} (hS : S.PosDef)
    (mu : Fin p → ℝ) (j : Fin p) (i : Fin n) : ∃ d, deltaCell X W S S⁻¹ mu j i = .ok d := by
  unfold deltaCell
  cases X i j with
  | none => exact ⟨_, rfl⟩
  | some x =>
    simp only
    split_ifs
    · rw [patInv_eq hS]; exact ⟨_, rfl⟩
    · exact ⟨_, rfl⟩

theorem updateColumns_full {n p : ℕ} (X : Cells n p) {S : Matrix (Fin p) (Fin p) ℝ} (hS : S.PosDef)
    (mu q : Fin p → ℝ) : ∀ (js : List (Fin p)) (W : CellFlags n p),
      ∃ W', updateColumns X S S⁻¹ mu q n js W = .ok W' ∧ ∀ i j, (j ∈ js ∨ W i j = true) → W' i j = true
  | [], W => ⟨W, rfl, fun i j h => h.resolve_left List.not_mem_nil⟩
  | j :: js, W => by
    rw [updateColumns]
    unfold updateColumn
    choose d hd using fun i => deltaCell_isOk X W hS mu j i
    rw [collect_ok hd]
    simp only [Except.map, Except.bind]
    obtain ⟨W', e, h⟩ := updateColumns_full X hS mu q js
      fun i k => if k = j then decide (i ∈ goodCells d (q j) n) else W i k
    refine ⟨W', e, fun i k hk => h i k ?_⟩
    by_cases hkj : k = j
    · right; rw [if_pos hkj]; exact decide_eq_true (goodCells_full _ _ _)
    · rcases hk with hk | hk
      · exact Or.inl ((List.mem_cons.1 hk).resolve_left hkj)
      · right; rw [if_neg hkj]; exact hk

/-- **C44** fails when the cutoff of the check exceeds 3: with `alpha = 1` and a cutoff of 5 a cell of 4 passes
the check, is cleared (line 105), and is marked as clean by the first update of `W` although it is missing. -/
theorem C44_violated : ¬ C44_statement := by
  intro H
  have hS : (1 : Matrix (Fin 2) (Fin 2) ℝ).PosDef := Matrix.PosDef.one
  have hH : cellH 1 10 = 10 := by
    unfold cellH
    have : (1 : ℝ) * ((10 : ℕ) : ℝ) = ((10 : ℤ) : ℝ) := by norm_num
    rw [this, pyRound_int]
    rfl
  obtain ⟨W', e, h⟩ := updateColumns_full (clearBeyond3 witness44) hS 0
    (cellQ (exampleEnv 2) (1 : Matrix (Fin 2) (Fin 2) ℝ)⁻¹) (columnOrder (initialW (clearBeyond3 witness44)))
    (initialW (clearBeyond3 witness44))
  have := (H 10 2 (exampleEnv 2) ⟨5, 0.1, 100, 1⟩ 1 witness44 0 1 one_pos (by norm_num) (by norm_num) le_rfl hS
    witness44_check 0 _ CellReach.zero W' (by rw [hH]; exact e)).1
  refine this 0 0 (h 0 0 (Or.inl (columnOrder_mem _ _))) ?_
  simp only [clearBeyond3, witness44]
  norm_num

/-- Data that meet the hypotheses of `C44_flags_partial`: the same table passes the check with a cutoff of 2.576
and `alpha = 0.75`, and a cell of it is cleared. -/
example : cellCheck 2.576 0.75 witness44 = .ok () ∧ clearBeyond3 witness44 0 0 = none := by
  constructor
  · unfold cellCheck
    have h2 : ∀ j, badCells 2.576 witness44 j ≤ 1 := by
      intro j
      unfold badCells
      refine (Finset.card_le_card (t := {0}) ?_).trans (by simp)
      intro i hi
      rw [Finset.mem_filter] at hi
      rcases hi.2 with h | ⟨x, hx, h5⟩
      · unfold witness44 at h; cases h
      · unfold witness44 at hx
        rw [← Option.some.inj hx] at h5
        split_ifs at h5 with h
        · simp [h.1]
        · norm_num at h5
    have h1 : ∀ j, marginalOutliers 2.576 witness44 j ≤ 1 := by
      intro j
      refine le_trans (Finset.card_le_card ?_) (h2 j)
      intro i hi
      rw [Finset.mem_filter] at hi ⊢
      exact ⟨hi.1, Or.inr hi.2⟩
    have key : ∀ m : ℕ, m ≤ 1 → ¬ (1 - 0.75 < (m : ℝ) / ((10 : ℕ) : ℝ)) := by
      intro m hm
      have : (m : ℝ) ≤ 1 := by exact_mod_cast hm
      push_cast
      rw [not_lt]
      linarith
    rw [if_neg (by rintro ⟨j, hj⟩; exact key _ (h1 j) hj), if_neg (by rintro ⟨j, hj⟩; exact key _ (h2 j) hj),
      if_neg (by norm_num)]
  · simp only [clearBeyond3, witness44]
    norm_num

/-! ## C45 is false for a start below the eigenvalue bound -/

/-- Ten rows, two columns; one cell is 2.4, the others are 0. -/
noncomputable def witness45 : Fin 10 → Fin 2 → ℝ := fun i j => if i = 0 ∧ j = 0 then 2.4 else 0

theorem cellH_45 : cellH 0.75 10 = 8 := by
  unfold cellH
  have h : (0.75 : ℝ) * ((10 : ℕ) : ℝ) = 7.5 := by norm_num
  have hf : ⌊(7.5 : ℝ)⌋ = 7 := by
    rw [Int.floor_eq_iff]
    norm_num
  rw [h]
  unfold pyRound
  rw [hf]
  norm_num
  decide

theorem log_081 : Real.log 0.81 ≤ -0.19 := by
  have := Real.log_le_sub_one_of_pos (show (0 : ℝ) < 0.81 by norm_num)
  linarith

theorem cellQ_45 (j : Fin 2) : cellQ (exampleEnv 2) (((0.81 : ℝ) • (1 : Matrix (Fin 2) (Fin 2) ℝ)))⁻¹ j =
    6.635 + Real.log 0.81 + Real.log (2 * Real.pi) := by
  unfold cellQ
  rw [smul_one_inv (by norm_num)]
  simp [exampleEnv, Real.log_inv]

/-- The threshold for the cells of the example. -/
theorem clean_45 (i : Fin 10) (j : Fin 2) :
    (witness45 i j - (0 : Fin 2 → ℝ) j) ^ 2 / 0.81 + Real.log 0.81 + Real.log (2 * Real.pi) ≤
      cellQ (exampleEnv 2) (((0.81 : ℝ) • (1 : Matrix (Fin 2) (Fin 2) ℝ)))⁻¹ j ↔ ¬ (i = 0 ∧ j = 0) := by
  rw [cellQ_45]
  unfold witness45
  split_ifs with h
  · simp only [h, not_true, iff_false, and_self, not_le, Pi.zero_apply]
    norm_num
  · simp only [h, not_false_eq_true, iff_true, Pi.zero_apply]
    norm_num

/-- **C45** fails when the initial covariance violates the lower bound on the eigenvalues: the first C-step
increases the objective, and the early return combines the initial location and covariance with the flags of
that C-step. -/
theorem C45_violated : ¬ C45_statement := by
  intro H
  set X : Cells 10 2 := fun i j => some (witness45 i j) with hX
  set env := exampleEnv 2 with henv
  set cfg : CellConfig := ⟨2.5, 0.0001, 100, 1⟩ with hcfg
  set cov0 : Matrix (Fin 2) (Fin 2) ℝ := (0.81 : ℝ) • 1 with hcov
  have hc : (0 : ℝ) < 0.81 := by norm_num
  have hS : cov0.PosDef := smul_one_posDef hc
  have hh : Enough X (cellH 0.75 10) := by
    intro j
    rw [cellH_45]
    simp [hX]
  obtain ⟨s, e, hr⟩ := cSteps_run env (cfg := cfg) one_pos (by norm_num [hcfg]) (by norm_num [hcfg]) (by norm_num)
    hh 0 hS
  have h0 := cellStart_inv env hh 0 hS
  -- the flags after the first update
  obtain ⟨W1, w1, w2⟩ := updateColumns_scalar hc witness45 0 (cellQ env cov0⁻¹) (h := 8) (by
    intro j
    refine le_trans ?_ (Finset.card_le_card (s := Finset.univ.erase (0 : Fin 10)) ?_)
    · simp
    · intro i hi
      rw [Finset.mem_filter]
      refine ⟨Finset.mem_univ i, (clean_45 i j).2 ?_⟩
      rintro ⟨rfl, -⟩
      simp at hi) (columnOrder (initialW X)) (initialW X)
  have hflag : W1 0 0 = false := by
    rw [w2 0 0 (columnOrder_mem _ _), decide_eq_false_iff_not, clean_45]
    simp
  -- the first C-step has these flags and increases the objective
  have hstep : ∀ s1, CellReach env cfg.minEig X (cellQ env cov0⁻¹) (cellH 0.75 10) (cellStart env X 0 cov0) 1 s1 →
      s1.W = W1 ∧ Spec.cellObjective X (cellQ env cov0⁻¹) (initialW X) 0 cov0 <
        Spec.cellObjective X (cellQ env cov0⁻¹) s1.W s1.location s1.cov := by
    intro s1 hs1
    have hWeq : s1.W = W1 := by
      cases hs1 with
      | succ hz hi =>
        cases hz
        unfold cellIter at hi
        have hu : updateW X (cellStart env X 0 cov0).cov (cellStart env X 0 cov0).covInv
            (cellStart env X 0 cov0).location (cellQ env cov0⁻¹) (cellH 0.75 10) (cellStart env X 0 cov0).W =
            .ok W1 := by
          rw [cellH_45]; exact w1
        rw [hu] at hi
        simp only [Except.bind] at hi
        split at hi
        · cases hi
        · split at hi
          · cases hi
          · revert hi
            cases penalised X (cellQ env cov0⁻¹) W1 _ _ _ with
            | error e => intro hi; cases hi
            | ok o =>
              intro hi
              exact (congrArg (fun r : CellState 10 2 × ℝ => r.1.W) (Except.ok.inj hi)).symm
    refine ⟨hWeq, ?_⟩
    have hinv := hs1.inv (minEig := cfg.minEig) one_pos (by norm_num) hh h0
    have hge : ∀ i, ∑ j : Fin 2, (if W1 i j = true then Real.log (2 * Real.pi) else
        6.635 + Real.log 0.81 + Real.log (2 * Real.pi)) ≤
        Spec.negTwoLogLik s1.cov s1.location (fun j => (X i j).getD 0) (s1.W i) +
          ∑ j, if s1.W i j = true then 0 else cellQ env cov0⁻¹ j := by
      intro i
      have := negTwoLogLik_ge hinv.1.posDef (hinv.2 one_pos) s1.location (fun j => (X i j).getD 0) (s1.W i)
      rw [hWeq] at this ⊢
      have h3 : (Fintype.card {j // W1 i j = true} : ℝ) * Real.log (2 * Real.pi) =
          ∑ j : Fin 2, if W1 i j = true then Real.log (2 * Real.pi) else 0 := by
        rw [← Finset.sum_filter, Finset.sum_const, nsmul_eq_mul, Fintype.card_subtype]
      rw [h3] at this
      refine le_trans (le_of_eq ?_) (add_le_add this le_rfl)
      rw [← Finset.sum_add_distrib]
      refine Finset.sum_congr rfl fun j _ => ?_
      rw [cellQ_45]
      split_ifs <;> ring
    have hlow : ∑ i : Fin 10, ∑ j : Fin 2, (if W1 i j = true then Real.log (2 * Real.pi) else
        6.635 + Real.log 0.81 + Real.log (2 * Real.pi)) =
        20 * Real.log (2 * Real.pi) + (6.635 + Real.log 0.81) := by
      have hval : ∀ i j, (if W1 i j = true then Real.log (2 * Real.pi) else
          6.635 + Real.log 0.81 + Real.log (2 * Real.pi)) =
          Real.log (2 * Real.pi) + if i = 0 ∧ j = 0 then 6.635 + Real.log 0.81 else 0 := by
        intro i j
        have : W1 i j = decide (¬ (i = 0 ∧ j = 0)) := by
          rw [w2 i j (columnOrder_mem _ _)]
          exact decide_eq_decide.2 (clean_45 i j)
        rw [this]
        by_cases h : i = 0 ∧ j = 0
        · simp [h]; ring
        · simp [h]
      simp only [hval]
      simp only [Fin.sum_univ_succ, Fin.sum_univ_zero]
      simp [Fin.ext_iff]
      ring
    have hup : Spec.cellObjective X (cellQ env cov0⁻¹) (initialW X) 0 cov0 =
        20 * (Real.log 0.81 + Real.log (2 * Real.pi)) + 2.4 ^ 2 / 0.81 := by
      unfold Spec.cellObjective
      have hrow : ∀ i, Spec.negTwoLogLik cov0 0 (fun j => (X i j).getD 0) (initialW X i) +
          ∑ j, (if initialW X i j = true then 0 else cellQ env cov0⁻¹ j) =
          ∑ j : Fin 2, (witness45 i j ^ 2 / 0.81 + Real.log 0.81 + Real.log (2 * Real.pi)) := by
        intro i
        rw [hcov, negTwoLogLik_scalar hc]
        have ht : ∀ j, initialW X i j = true := fun j => by simp [initialW, hX]
        rw [Finset.sum_eq_zero (s := Finset.univ) (f := fun j => if initialW X i j = true then (0 : ℝ) else _)
          (fun j _ => if_pos (ht j)), add_zero]
        rw [← Equiv.sum_comp (Equiv.subtypeUnivEquiv ht)]
        refine Finset.sum_congr rfl fun j _ => ?_
        simp [hX, Equiv.subtypeUnivEquiv]
      rw [Finset.sum_congr rfl fun i _ => hrow i]
      have hval : ∀ i j, witness45 i j ^ 2 / 0.81 + Real.log 0.81 + Real.log (2 * Real.pi) =
          (Real.log 0.81 + Real.log (2 * Real.pi)) + if i = 0 ∧ j = 0 then 2.4 ^ 2 / 0.81 else 0 := by
        intro i j
        unfold witness45
        by_cases h : i = 0 ∧ j = 0
        · simp only [h, and_self, if_true]; ring
        · simp only [h, if_false]; ring
      simp only [hval]
      simp only [Fin.sum_univ_succ, Fin.sum_univ_zero]
      simp [Fin.ext_iff]
      ring
    rw [hup]
    refine lt_of_lt_of_le ?_ (Finset.sum_le_sum fun i _ => hge i)
    rw [hlow]
    have := log_081
    norm_num
    norm_num at this
    linarith
  -- so the early return is taken
  obtain ⟨s1, hs1, hseq⟩ : ∃ s1, CellReach env cfg.minEig X (cellQ env cov0⁻¹) (cellH 0.75 10)
      (cellStart env X 0 cov0) 1 s1 ∧ s = { cellStart env X 0 cov0 with W := s1.W } := by
    rcases hr with ⟨k, hk, -, hkr, hmin⟩ | ⟨s1, h1, -, -, hs⟩
    · exfalso
      obtain ⟨t, conv, e1, -⟩ := cellIter_ok env (minEig := cfg.minEig) one_pos (by norm_num) hh h0
      have ht := CellReach.succ CellReach.zero e1
      have hlt := (hstep t ht).2
      have hle := hmin 0 (Nat.zero_le k) _ CellReach.zero
      rw [cSteps_eq env (by norm_num [hcfg]) (by norm_num [hcfg]) 0.75 X 0 hS] at e
      rw [show cfg.maxSteps.toNat = 99 + 1 from rfl, cellLoop, e1] at e
      simp only [Except.bind] at e
      rw [(ht.inv (minEig := cfg.minEig) one_pos (by norm_num) hh h0).1.objective, h0.objective, objGreater_some,
        if_pos (decide_eq_true (by simp only [cellStart]; exact hlt))] at e
      have hs : s.cov = cov0 := by rw [← Except.ok.inj e]; rfl
      have := (hkr.inv (minEig := cfg.minEig) one_pos (by norm_num) hh h0).2 hk
      rw [hs, hcov] at this
      have h1 := this.diag_nonneg (i := 0)
      norm_num [hcfg] at h1
    · exact ⟨s1, h1, hs⟩
  obtain ⟨k, t, ht, hW, -, hcv, -⟩ := H 10 2 env cfg 0.75 X 0 cov0 one_pos (by norm_num) (by norm_num) (by norm_num)
    hS hh s e
  rcases Nat.eq_zero_or_pos k with h | h
  · subst h
    cases ht
    rw [hseq] at hW
    have h1 : s1.W = initialW X := hW
    rw [(hstep s1 hs1).1] at h1
    rw [h1] at hflag
    simp [initialW, hX] at hflag
  · have := (ht.inv (minEig := cfg.minEig) one_pos (by norm_num) hh h0).2 h
    rw [← hcv, hseq] at this
    have h1 := this.diag_nonneg (i := 0)
    norm_num [hcfg, cellStart, hcov] at h1

/-- A start that meets the hypotheses of `C45_consistent_partial` and `C117_descent`, with a cell that the first
update flags. -/
example : Enough (fun i j => some (witness45 i j)) (cellH 0.75 10) ∧
    ((0.81 : ℝ) • (1 : Matrix (Fin 2) (Fin 2) ℝ)).PosDef ∧
    ((0.81 : ℝ) • (1 : Matrix (Fin 2) (Fin 2) ℝ) - (0.5 : ℝ) • 1).PosSemidef := by
  refine ⟨fun j => by rw [cellH_45]; simp, smul_one_posDef (by norm_num), ?_⟩
  rw [← sub_smul]
  exact Matrix.PosSemidef.one.smul (by norm_num)

/-- **C118** fails for `max_c_steps = 0`. -/
theorem C118_violated : ¬ C118_statement := by
  intro H
  obtain ⟨s, hs⟩ := H 10 2 (exampleEnv 2) ⟨2.5, 0.0001, 0, 1⟩ 0.75 (fun i j => some (witness45 i j)) 0 1 one_pos
    (by norm_num) (by norm_num) (by norm_num) Matrix.PosDef.one (fun j => by rw [cellH_45]; simp) le_rfl (by norm_num)
  rw [C118_unbound (exampleEnv 2) le_rfl (Or.inl rfl) _ _ _ Matrix.PosDef.one] at hs
  cases hs

end Robpy
