import Verif.Model.Covariance
import Verif.Props.LinAlg
import Verif.Props.MCD
import Mathlib.Data.Real.Sign

/-! # Properties C41-C43: Kendall, OGK, and the state of a covariance estimator -/

namespace Spec

/-- Sum over all ordered pairs of rows of the product of the signs of the differences in columns `i` and `j`. -/
noncomputable def signSum {p : ℕ} (X : List (Fin p → ℝ)) (i j : Fin p) : ℝ :=
  (X.map fun x => (X.map fun y => Real.sign (x i - y i) * Real.sign (x j - y j)).sum).sum

/-- Kendall's tau-b of columns `i` and `j`. -/
noncomputable def tauB {p : ℕ} (X : List (Fin p → ℝ)) (i j : Fin p) : ℝ :=
  signSum X i j / Real.sqrt (signSum X i i * signSum X j j)

end Spec

namespace Robpy
open Matrix

/-! ## C41 -/

section
variable {p : ℕ}

/-- The sign vectors of all pairs of rows. -/
noncomputable def signPairs : List (Fin p → ℝ) → List (Fin p → ℝ)
  | [] => []
  | a :: l => l.map (fun b i => npSign (a i - b i)) ++ signPairs l

theorem conMinusDis_eq (X : List (Fin p → ℝ)) (i j : Fin p) :
    conMinusDis ((column X i).zip (column X j)) = ((signPairs X).map fun v => v i * v j).sum := by
  induction X with
  | nil => simp [column, conMinusDis, signPairs]
  | cons a l ih =>
    have hz : (column (a :: l) i).zip (column (a :: l) j) = (a i, a j) :: (column l i).zip (column l j) := rfl
    have hm : (column l i).zip (column l j) = l.map fun b => (b i, b j) := by
      unfold column; rw [List.zip_map']
    rw [hz, conMinusDis, ih, signPairs, List.map_append, List.sum_append, hm, List.map_map, List.map_map]
    rfl

theorem npSign_sq (a b : ℝ) : npSign (a - b) * npSign (a - b) = if a ≠ b then 1 else 0 := by
  unfold npSign
  rcases lt_trichotomy a b with h | h | h
  · rw [if_pos (by linarith), if_pos h.ne]; norm_num
  · subst h; simp
  · rw [if_neg (by linarith), if_pos (by linarith), if_pos h.ne']; norm_num

theorem untied_eq (X : List (Fin p → ℝ)) (i : Fin p) :
    untied (column X i) = ((signPairs X).map fun v => v i * v i).sum := by
  induction X with
  | nil => simp [column, untied, signPairs]
  | cons a l ih =>
    have hc : column (a :: l) i = a i :: column l i := rfl
    rw [hc, untied, ih, signPairs, List.map_append, List.sum_append, List.map_map]
    congr 1
    unfold column
    clear ih hc
    induction l with
    | nil => simp
    | cons b l ih =>
      rw [List.map_cons, List.countP_cons, List.map_cons, List.sum_cons]
      push_cast
      rw [ih, add_comm]
      simp only [Function.comp, npSign_sq]
      by_cases h : a i = b i <;> simp [h]

/-- The Gram matrix of the sign vectors. -/
noncomputable def signGram (X : List (Fin p → ℝ)) : Matrix (Fin p) (Fin p) ℝ :=
  ((signPairs X).map fun v => vecMulVec v v).sum

theorem signGram_apply (X : List (Fin p → ℝ)) (i j : Fin p) :
    signGram X i j = ((signPairs X).map fun v => v i * v j).sum := by
  unfold signGram
  induction signPairs X with
  | nil => simp
  | cons v l ih => simp [Matrix.add_apply, ih, vecMulVec_apply]

theorem signGram_posSemidef (X : List (Fin p → ℝ)) : (signGram X).PosSemidef :=
  posSemidef_sum_vecMulVec _

theorem signGram_symm (X : List (Fin p → ℝ)) (i j : Fin p) : signGram X i j = signGram X j i := by
  rw [signGram_apply, signGram_apply]
  congr 1
  exact List.map_congr_left fun v _ => mul_comm _ _

theorem untied_nonneg (x : List ℝ) : 0 ≤ untied x := by
  induction x with
  | nil => simp [untied]
  | cons a l ih => unfold untied; positivity

theorem untied_pos_iff (x : List ℝ) : 0 < untied x ↔ ∃ a ∈ x, ∃ b ∈ x, a ≠ b := by
  induction x with
  | nil => simp [untied]
  | cons a l ih =>
    unfold untied
    have h0 := untied_nonneg l
    by_cases h : ∃ b ∈ l, a ≠ b
    · obtain ⟨b, hb, hab⟩ := h
      refine ⟨fun _ => ⟨a, by simp, b, by simp [hb], hab⟩, fun _ => ?_⟩
      have : 0 < l.countP fun b => decide (a ≠ b) := List.countP_pos_iff.2 ⟨b, hb, by simpa using hab⟩
      have : (0:ℝ) < (l.countP fun b => decide (a ≠ b) : ℕ) := by exact_mod_cast this
      linarith
    · push Not at h
      have hz : (l.countP fun b => decide (a ≠ b)) = 0 :=
        List.countP_eq_zero.2 fun b hb => by simpa using h b hb
      rw [hz, Nat.cast_zero, zero_add, ih]
      constructor
      · rintro ⟨c, hc, d, hd, hcd⟩
        exact ⟨c, by simp [hc], d, by simp [hd], hcd⟩
      · rintro ⟨c, hc, d, hd, hcd⟩
        exfalso
        have e : ∀ y ∈ a :: l, y = a := by
          intro y hy
          rcases List.mem_cons.1 hy with rfl | hy
          · rfl
          · exact (h y hy).symm
        exact hcd ((e c hc).trans (e d hd).symm)

theorem mapExcept_finRange {α β : Type} {f : α → Except PyErr β} {g : Fin p → α} {bs : List β} (b0 : β)
    (h : mapExcept f ((List.finRange p).map g) = .ok bs) (i : Fin p) : f (g i) = .ok (bs.getD i b0) := by
  have h2 := mapExcept_ok h
  have hl : bs.length = p := by rw [← h2.length_eq]; simp
  have := (List.forall₂_iff_get.1 h2).2 i (by simp) (by simp [hl])
  have hi : (i : ℕ) < bs.length := by rw [hl]; exact i.2
  rw [List.getD_eq_getElem?_getD, List.getElem?_eq_getElem hi]
  simpa using this

theorem mapExcept_all_ok {α β : Type} {f : α → Except PyErr β} (l : List α) (h : ∀ a ∈ l, ∃ b, f a = .ok b) :
    ∃ bs, mapExcept f l = .ok bs := by
  induction l with
  | nil => exact ⟨[], rfl⟩
  | cons a l ih =>
    obtain ⟨b, hb⟩ := h a (by simp)
    obtain ⟨bs, hbs⟩ := ih fun a ha => h a (by simp [ha])
    exact ⟨b :: bs, by unfold mapExcept; rw [hb, hbs]; rfl⟩

theorem kendallTau_eq (X : List (Fin p → ℝ)) (i j : Fin p) :
    kendallTau (column X i) (column X j) =
      if signGram X i i = 0 ∨ signGram X j j = 0 then none
      else some (covarianceToCorrelation (signGram X) i j) := by
  unfold kendallTau covarianceToCorrelation
  rw [untied_eq, untied_eq, conMinusDis_eq, ← signGram_apply, ← signGram_apply, ← signGram_apply, div_div]

theorem signGram_diag_nonneg (X : List (Fin p → ℝ)) (i : Fin p) : 0 ≤ signGram X i i := by
  rw [signGram_apply, ← untied_eq]; exact untied_nonneg _

theorem npSign_eq_sign (a : ℝ) : npSign a = Real.sign a := rfl

theorem signSum_eq (X : List (Fin p → ℝ)) (i j : Fin p) : Spec.signSum X i j = 2 * signGram X i j := by
  rw [signGram_apply]
  unfold Spec.signSum
  induction X with
  | nil => simp [signPairs]
  | cons a l ih =>
    have hsymm : ∀ y : Fin p → ℝ, Real.sign (y i - a i) * Real.sign (y j - a j) =
        Real.sign (a i - y i) * Real.sign (a j - y j) := by
      intro y
      rw [← neg_sub (a i), ← neg_sub (a j), Real.sign_neg, Real.sign_neg, neg_mul_neg]
    simp only [List.map_cons, List.sum_cons, sub_self, Real.sign_zero, mul_zero, zero_add, signPairs,
      List.map_append, List.sum_append, List.map_map, Function.comp_def, npSign_eq_sign]
    rw [List.sum_map_add, ih]
    simp only [hsymm]
    ring

theorem tauB_eq (X : List (Fin p → ℝ)) (i j : Fin p) :
    Spec.tauB X i j = covarianceToCorrelation (signGram X) i j := by
  unfold Spec.tauB covarianceToCorrelation
  have h0 := signGram_diag_nonneg X i
  rw [signSum_eq, signSum_eq, signSum_eq,
    show 2 * signGram X i i * (2 * signGram X j j) = 2 ^ 2 * (signGram X i i * signGram X j j) by ring,
    Real.sqrt_mul (by norm_num), Real.sqrt_sq (by norm_num), Real.sqrt_mul h0, mul_div_mul_left _ _ two_ne_zero]

theorem corr_symm (X : List (Fin p → ℝ)) (i j : Fin p) :
    covarianceToCorrelation (signGram X) i j = covarianceToCorrelation (signGram X) j i := by
  unfold covarianceToCorrelation
  rw [signGram_symm, mul_comm (Real.sqrt _)]

/-- **C41**: a matrix returned by `KendallTau.calculate_covariance` is symmetric and positive semidefinite, has
the squared scale estimates on the diagonal, and the stored correlations form a positive semidefinite matrix with
unit diagonal and entries in [-1, 1], they are the values of Kendall's tau-b, and the matrix is made from them. -/
theorem C41_kendall (scale : List ℝ → Except PyErr ℝ) (X : List (Fin p → ℝ)) (st st' : CovState ℝ (Fin p))
    (cov : Matrix (Fin p) (Fin p) ℝ) (h : kendallCalc scale X st = (.ok (some cov), st')) :
    cov.IsSymm ∧ cov.PosSemidef ∧
    ∃ (s : Fin p → ℝ) (R : Matrix (Fin p) (Fin p) ℝ), (∀ i, scale (X.map fun x => x i) = .ok (s i)) ∧
      st'.correlation_ = some R ∧ R.PosSemidef ∧ (∀ i, R i i = 1) ∧ (∀ i j, -1 ≤ R i j ∧ R i j ≤ 1) ∧
      (∀ i j, i ≠ j → R i j = Spec.tauB X i j) ∧ (∀ i, cov i i = s i ^ 2) ∧ ∀ i j, cov i j = R i j * s i * s j := by
  unfold kendallCalc at h
  rcases hm : mapExcept scale ((List.finRange p).map (column X)) with e | scales
  · rw [hm] at h; simp at h
  rw [hm] at h
  simp only at h
  split_ifs at h with hn
  · simp at h
  obtain ⟨h1, rfl⟩ := Prod.mk.inj h
  have h1 := Option.some.inj (Except.ok.inj h1)
  push Not at hn
  set s : Fin p → ℝ := fun i => scales.getD i 0 with hs
  -- the stored correlation
  set R : Matrix (Fin p) (Fin p) ℝ := fun i j => (if i = j then some (1:ℝ)
      else if j < i then kendallTau (column X i) (column X j)
      else kendallTau (column X j) (column X i)).getD 0 with hR
  have hRij : ∀ i j, i ≠ j → R i j = covarianceToCorrelation (signGram X) i j ∧ 0 < signGram X i i := by
    intro i j hij
    have h0 := hn i j
    rw [if_neg hij] at h0
    simp only [hR, if_neg hij]
    by_cases hlt : j < i
    · rw [if_pos hlt] at h0 ⊢
      rw [kendallTau_eq] at h0 ⊢
      split_ifs at h0 ⊢ with hz
      · exact absurd rfl h0
      · push Not at hz
        exact ⟨rfl, lt_of_le_of_ne (signGram_diag_nonneg X i) hz.1.symm⟩
    · rw [if_neg hlt] at h0 ⊢
      rw [kendallTau_eq] at h0 ⊢
      split_ifs at h0 ⊢ with hz
      · exact absurd rfl h0
      · push Not at hz
        exact ⟨by rw [corr_symm]; rfl, lt_of_le_of_ne (signGram_diag_nonneg X i) hz.2.symm⟩
  have hRii : ∀ i, R i i = 1 := fun i => by simp [hR]
  have hRall : R.PosSemidef ∧ ∀ i j, -1 ≤ R i j ∧ R i j ≤ 1 := by
    by_cases hp : ∃ i j : Fin p, i ≠ j
    · obtain ⟨a, b, hab⟩ := hp
      have hpos : ∀ i, 0 < signGram X i i := by
        intro i
        by_cases hia : i = a
        · exact (hRij i b (hia ▸ hab)).2
        · exact (hRij i a hia).2
      obtain ⟨-, c2, c3, c4⟩ := C34_correlation _ (signGram_posSemidef X) hpos
      have hRe : R = covarianceToCorrelation (signGram X) := by
        ext i j
        by_cases hij : i = j
        · subst hij; rw [hRii, c3]
        · exact (hRij i j hij).1
      rw [hRe]
      exact ⟨c2, c4⟩
    · push Not at hp
      have hRe : R = 1 := by
        ext i j
        obtain rfl := hp i j
        rw [hRii, Matrix.one_apply_eq]
      refine ⟨by rw [hRe]; exact Matrix.PosSemidef.one, fun i j => ?_⟩
      obtain rfl := hp i j
      rw [hRii]; norm_num
  have hRs : ∀ i j, R i j = R j i := fun i j => by simpa using (hRall.1.1.apply i j).symm
  have hc : ∀ i j, cov i j = R i j * s i * s j := by
    intro i j
    rw [← h1]
    simp only
    split_ifs with hij hlt
    · subst hij; rw [hRii]; ring
    · simp only [hR, if_neg hij, if_pos hlt]; rfl
    · simp only [hR, if_neg hij, if_neg hlt]; ring
  have hD : cov = Matrix.diagonal s * R * (Matrix.diagonal s)ᴴ := by
    ext i j
    rw [Matrix.diagonal_conjTranspose, Matrix.mul_diagonal, Matrix.diagonal_mul, hc]
    simp only [Pi.star_apply, star_trivial]
    ring
  refine ⟨Matrix.IsSymm.ext fun i j => by rw [hc, hc, hRs]; ring, by rw [hD]; exact hRall.1.mul_mul_conjTranspose_same _,
    s, R, fun i => mapExcept_finRange 0 hm i, rfl, hRall.1, hRii, hRall.2,
    fun i j hij => by rw [tauB_eq]; exact (hRij i j hij).1, fun i => by rw [hc, hRii]; ring, hc⟩

/-- **C41**: the matrix is returned for all data without constant columns. -/
theorem C41_returns (scale : List ℝ → Except PyErr ℝ) (X : List (Fin p → ℝ)) (st : CovState ℝ (Fin p))
    (hs : ∀ i : Fin p, ∃ v, scale (X.map fun x => x i) = .ok v)
    (hX : ∀ i : Fin p, ∃ x ∈ X, ∃ y ∈ X, x i ≠ y i) :
    ∃ cov st', kendallCalc scale X st = (.ok (some cov), st') := by
  obtain ⟨scales, hm⟩ := mapExcept_all_ok (f := scale) ((List.finRange p).map (column X)) (by
    intro a ha
    obtain ⟨i, -, rfl⟩ := List.mem_map.1 ha
    exact hs i)
  have hpos : ∀ i, signGram X i i ≠ 0 := by
    intro i
    rw [signGram_apply, ← untied_eq]
    refine ((untied_pos_iff _).2 ?_).ne'
    obtain ⟨x, hx, y, hy, hxy⟩ := hX i
    exact ⟨x i, List.mem_map_of_mem hx, y i, List.mem_map_of_mem hy, hxy⟩
  unfold kendallCalc
  rw [hm]
  simp only
  rw [if_neg]
  · exact ⟨_, _, rfl⟩
  · push Not
    intro i j
    split_ifs
    · simp
    · rw [kendallTau_eq, if_neg (by simp [hpos])]; simp
    · rw [kendallTau_eq, if_neg (by simp [hpos])]; simp

/-- **C41**: with two or more columns, one of them constant, the result contains a NaN. -/
theorem C41_constant (scale : List ℝ → Except PyErr ℝ) (X : List (Fin p → ℝ)) (st : CovState ℝ (Fin p))
    (hs : ∀ i : Fin p, ∃ v, scale (X.map fun x => x i) = .ok v) (i j : Fin p) (hij : i ≠ j)
    (hX : ∀ x ∈ X, ∀ y ∈ X, x i = y i) :
    ∃ st', kendallCalc scale X st = (.ok none, st') := by
  obtain ⟨scales, hm⟩ := mapExcept_all_ok (f := scale) ((List.finRange p).map (column X)) (by
    intro a ha
    obtain ⟨i, -, rfl⟩ := List.mem_map.1 ha
    exact hs i)
  have hz : signGram X i i = 0 := by
    rw [signGram_apply, ← untied_eq]
    refine le_antisymm (not_lt.1 fun h => ?_) (untied_nonneg _)
    obtain ⟨a, ha, b, hb, hab⟩ := (untied_pos_iff _).1 h
    obtain ⟨x, hx, rfl⟩ := List.mem_map.1 ha
    obtain ⟨y, hy, rfl⟩ := List.mem_map.1 hb
    exact hab (hX x hx y hy)
  unfold kendallCalc
  rw [hm]
  simp only
  rw [if_pos]
  · exact ⟨_, rfl⟩
  · refine ⟨i, j, ?_⟩
    rw [if_neg hij]
    split_ifs
    · rw [kendallTau_eq, if_pos (Or.inl hz)]
    · rw [kendallTau_eq, if_pos (Or.inr hz)]

/-- `C41_returns` and `C41_kendall` apply to three points in the plane, with any constant scale. -/
example : ∃ cov st', kendallCalc (fun _ => .ok 2) [![0, 1], ![1, 5], ![2, 3]] (CovState.new : CovState ℝ (Fin 2)) =
    (.ok (some cov), st') :=
  C41_returns _ _ _ (fun _ => ⟨2, rfl⟩) fun i =>
    ⟨![0, 1], by simp, ![1, 5], by simp, by fin_cases i <;> norm_num⟩

/-- `C41_constant` applies to data with a constant first column. -/
example : ∃ st', kendallCalc (fun _ => .ok 2) [![0, 1], ![0, 5]] (CovState.new : CovState ℝ (Fin 2)) =
    (.ok none, st') :=
  C41_constant _ _ _ (fun _ => ⟨2, rfl⟩) 0 1 (by decide) (by simp)

/-! ## C42 -/

/-- The matrices collected by the loop, in order, are applied to a positive semidefinite matrix. -/
theorem foldr_congr_posSemidef (DE : List (Matrix (Fin p) (Fin p) ℝ)) (mu : Fin p → ℝ)
    (A : Matrix (Fin p) (Fin p) ℝ) (hA : A.PosSemidef) :
    (DE.foldr (fun mat q => (mat *ᵥ q.1, mat * q.2 * matᵀ)) (mu, A)).2.PosSemidef := by
  induction DE with
  | nil => exact hA
  | cons M l ih =>
    rw [List.foldr_cons]
    have := ih.mul_mul_conjTranspose_same M
    rwa [Matrix.conjTranspose_eq_transpose_of_trivial] at this

theorem foldr_congr_det (DE : List (Matrix (Fin p) (Fin p) ℝ)) (mu : Fin p → ℝ)
    (A : Matrix (Fin p) (Fin p) ℝ) (hA : A.det ≠ 0) (hDE : ∀ M ∈ DE, M.det ≠ 0) :
    (DE.foldr (fun mat q => (mat *ᵥ q.1, mat * q.2 * matᵀ)) (mu, A)).2.det ≠ 0 := by
  induction DE with
  | nil => exact hA
  | cons M l ih =>
    rw [List.foldr_cons]
    have h1 := hDE M (by simp)
    have h2 := ih fun M hM => hDE M (by simp [hM])
    simp only [Matrix.det_mul, Matrix.det_transpose]
    exact mul_ne_zero (mul_ne_zero h1 h2) h1

theorem ogkStep_det {eigh : ∀ A : Matrix (Fin p) (Fin p) ℝ, A.IsSymm → Eigh A} {est : List ℝ → ℝ}
    {Z : List (Fin p → ℝ)} {r : List (Fin p → ℝ) × Matrix (Fin p) (Fin p) ℝ}
    (h : ogkStep eigh est Z = some r) : r.2.det ≠ 0 := by
  unfold ogkStep at h
  simp only at h
  split_ifs at h with hc
  obtain rfl := Option.some.inj h
  push Not at hc
  simp only
  rw [Matrix.det_mul, Matrix.det_diagonal]
  refine mul_ne_zero (Finset.prod_ne_zero_iff.2 fun i _ => hc.1 i) ?_
  unfold ogkE
  generalize eigh _ _ = e
  have h1 : e.V.det ≠ 0 := by
    intro h0
    have := congrArg Matrix.det e.orth
    rw [Matrix.det_mul, h0, mul_zero, Matrix.det_one] at this
    exact zero_ne_one this
  have h2 : e.V.submatrix id Fin.rev = e.V.submatrix id (Fin.revPerm : Equiv.Perm (Fin p)) := rfl
  rw [h2, Matrix.det_permute']
  refine mul_ne_zero ?_ h1
  exact_mod_cast (Units.ne_zero (Equiv.Perm.sign (Fin.revPerm : Equiv.Perm (Fin p))))

theorem ogkLoop_det {eigh : ∀ A : Matrix (Fin p) (Fin p) ℝ, A.IsSymm → Eigh A} {est : List ℝ → ℝ} (k : ℕ)
    {Z : List (Fin p → ℝ)} {r : List (Fin p → ℝ) × List (Matrix (Fin p) (Fin p) ℝ)}
    (h : ogkLoop eigh est k Z = some r) : ∀ M ∈ r.2, M.det ≠ 0 := by
  induction k generalizing Z r with
  | zero => unfold ogkLoop at h; obtain rfl := Option.some.inj h; simp
  | succ k ih =>
    unfold ogkLoop at h
    obtain ⟨r1, h1, h2⟩ := Option.bind_eq_some_iff.1 h
    obtain ⟨q, hq, rfl⟩ := Option.map_eq_some_iff.1 h2
    intro M hM
    rcases List.mem_cons.1 hM with rfl | hM
    · exact ogkStep_det h1
    · exact ih hq M hM

/-- **C42**: the raw OGK covariance is symmetric and positive semidefinite, for every estimator, every number of
iterations and every eigendecomposition. -/
theorem C42_posSemidef (eigh : ∀ A : Matrix (Fin p) (Fin p) ℝ, A.IsSymm → Eigh A) (loc est : List ℝ → ℝ) (k : ℕ)
    (X : List (Fin p → ℝ)) (mu : Fin p → ℝ) (cov : Matrix (Fin p) (Fin p) ℝ)
    (h : ogkRaw eigh loc est k X = some (mu, cov)) : cov.IsSymm ∧ cov.PosSemidef := by
  unfold ogkRaw at h
  obtain ⟨r, -, hr⟩ := Option.map_eq_some_iff.1 h
  have hp : cov.PosSemidef := by
    have := foldr_congr_posSemidef r.2 (fun i => loc (column r.1 i))
      (Matrix.diagonal fun i => est (column r.1 i) ^ 2) (Matrix.PosSemidef.diagonal fun i => sq_nonneg _)
    rwa [hr] at this
  refine ⟨?_, hp⟩
  have := hp.1
  unfold Matrix.IsHermitian at this
  rwa [Matrix.conjTranspose_eq_transpose_of_trivial] at this

/-- **C42**: it is positive definite when the scales of the orthogonalised data are not zero. -/
theorem C42_posDef (eigh : ∀ A : Matrix (Fin p) (Fin p) ℝ, A.IsSymm → Eigh A) (loc est : List ℝ → ℝ) (k : ℕ)
    (X Z : List (Fin p → ℝ)) (DE : List (Matrix (Fin p) (Fin p) ℝ)) (mu : Fin p → ℝ)
    (cov : Matrix (Fin p) (Fin p) ℝ) (h : ogkRaw eigh loc est k X = some (mu, cov))
    (hZ : ogkLoop eigh est k X = some (Z, DE)) (hs : ∀ i, est (Z.map fun z => z i) ≠ 0) : cov.PosDef := by
  refine posDef_of_posSemidef_det (C42_posSemidef eigh loc est k X mu cov h).2 ?_
  unfold ogkRaw at h
  rw [hZ] at h
  have hr := Option.some.inj h
  have := foldr_congr_det DE (fun i => loc (column Z i)) (Matrix.diagonal fun i => est (column Z i) ^ 2) (by
    rw [Matrix.det_diagonal]
    exact Finset.prod_ne_zero_iff.2 fun i _ => pow_ne_zero 2 (hs i)) (ogkLoop_det k hZ)
  simp only at hr
  rwa [hr] at this

/-- A constant positive scale estimator never makes the loop fail, so the hypotheses of `C42_posSemidef` and
`C42_posDef` are met for every data set and every number of iterations. -/
theorem ogkLoop_const (X : List (Fin p → ℝ)) (k : ℕ) :
    ∃ r, ogkLoop (eighSpectral (p := p)) (fun _ => 1) k X = some r := by
  induction k generalizing X with
  | zero => exact ⟨_, rfl⟩
  | succ k ih =>
    have h1 : ∃ r, ogkStep (eighSpectral (p := p)) (fun _ => 1) X = some r := by
      unfold ogkStep
      simp only
      rw [if_neg (by norm_num)]
      exact ⟨_, rfl⟩
    obtain ⟨r, hr⟩ := h1
    obtain ⟨q, hq⟩ := ih r.1
    exact ⟨_, by unfold ogkLoop; rw [hr]; simp only [Option.bind_some]; rw [hq]; rfl⟩

example (X : List (Fin 3 → ℝ)) : ∃ mu cov,
    ogkRaw eighSpectral (fun _ => 0) (fun _ => 1) 2 X = some (mu, cov) ∧ cov.PosDef := by
  obtain ⟨r, hr⟩ := ogkLoop_const X 2
  have h : ∃ q, ogkRaw eighSpectral (fun _ => 0) (fun _ => 1) 2 X = some q := by
    unfold ogkRaw; rw [hr]; exact ⟨_, rfl⟩
  obtain ⟨⟨mu, cov⟩, hq⟩ := h
  exact ⟨mu, cov, hq, C42_posDef _ _ _ 2 X r.1 r.2 mu cov hq hr fun _ => one_ne_zero⟩

end
end Robpy
