import Verif.Lemmas.CellStep
import Verif.Props.CellMCD

/-! # C46 and C119: predictions, conditional variances and imputed data of CellMCD -/

namespace Robpy
open Matrix

section
variable {n p : ℕ}

/-- All coordinates as those different from `j`, and `j`. -/
noncomputable def allButEquiv (j : Fin p) : {k // decide (k ≠ j) = true} ⊕ Unit ≃ Fin p :=
  (insertEquiv (fun k => decide (k ≠ j)) (j := j) (by simp)).trans
    (Equiv.subtypeUnivEquiv fun k => by
      by_cases h : k = j
      · subst h; simp
      · rw [Function.update_of_ne h]; simpa using h)

/-- The reciprocal of a diagonal entry of the precision matrix is the variance given all other coordinates. -/
theorem inv_diag {S : Matrix (Fin p) (Fin p) ℝ} (hS : S.PosDef) (j : Fin p) :
    1 / S⁻¹ j j = regVar S (blockInv S fun k => decide (k ≠ j)) j := by
  have h := (add_coordinate (allButEquiv j) hS 0).2.2.2
  have hj : allButEquiv j (Sum.inr ()) = j := rfl
  rw [hj] at h
  rw [h, one_div, inv_inv]
  unfold regVar
  have hk : ∀ k, allButEquiv j (Sum.inl k) = k.1 := fun _ => rfl
  simp only [Function.comp_def, hk, hj, symm_apply hS _ j]

theorem isConditional_congr {S : Matrix (Fin p) (Fin p) ℝ} {mu x y : Fin p → ℝ} {P : Fin p → Bool} {j : Fin p}
    {a v : ℝ} (hxy : ∀ k, P k = true → x k = y k) (h : Spec.IsConditional S mu x P j a v) :
    Spec.IsConditional S mu y P j a v := by
  obtain ⟨b, h1, h2, h3, h4⟩ := h
  refine ⟨b, h1, h2, ?_, h4⟩
  rw [h3]
  congr 1
  refine Finset.sum_congr rfl fun k _ => ?_
  by_cases hk : P k = true
  · rw [hxy k hk]
  · rw [h1 k (by simpa using hk), zero_mul, zero_mul]

/-- A Gaussian with positive definite covariance has one conditional mean and variance. -/
theorem isConditional_unique {S : Matrix (Fin p) (Fin p) ℝ} (hS : S.PosDef) {mu x : Fin p → ℝ} {P : Fin p → Bool}
    {j : Fin p} {a v a' v' : ℝ} (h : Spec.IsConditional S mu x P j a v) (h' : Spec.IsConditional S mu x P j a' v') :
    a = a' ∧ v = v' := by
  obtain ⟨b, h1, h2, h3, h4⟩ := h
  obtain ⟨b', h1', h2', h3', h4'⟩ := h'
  have hb : b - b' = 0 := by
    by_contra hne
    have hpos := hS.dotProduct_mulVec_pos hne
    have hz : star (b - b') ⬝ᵥ (S *ᵥ (b - b')) = 0 := by
      rw [star_trivial, dotProduct]
      refine Finset.sum_eq_zero fun k _ => ?_
      by_cases hk : P k = true
      · have : (S *ᵥ (b - b')) k = 0 := by
          rw [Matrix.mulVec_sub, Pi.sub_apply]
          show (∑ l, S k l * b l) - (∑ l, S k l * b' l) = 0
          rw [h2 k hk, h2' k hk, sub_self]
        rw [this, mul_zero]
      · have hk' : P k = false := by simpa using hk
        rw [Pi.sub_apply, h1 k hk', h1' k hk', sub_self, zero_mul]
    rw [hz] at hpos
    exact lt_irrefl 0 hpos
  have : b = b' := sub_eq_zero.1 hb
  subst this
  exact ⟨h3.trans h3'.symm, h4.trans h4'.symm⟩

/-- **C46**, the claim for one row: in every pattern the reported values are the conditional mean and variance
given the other clean cells of the row. -/
def C46_statement : Prop :=
  ∀ (p : ℕ) (mu : Fin p → ℝ) (S : Matrix (Fin p) (Fin p) ℝ), S.PosDef →
    ∀ (w : Fin p → Bool) (x : Fin p → Option ℝ), (∀ j, w j = true → x j ≠ none) →
      ∃ r, predictRow mu S S⁻¹ w x = .ok r ∧ ∀ j, ∃ a, (r j).1 = some a ∧
        Spec.IsConditional S mu (fun k => (x k).getD 0) (Function.update w j false) j a (r j).2

/-- **C46** for every row with at least one clean cell.  Missing for the full claim: rows without a clean cell,
where the reported variance is wrong (`C46_violated`); their predictions are right (`C46_all_missing_partial`). -/
theorem C46_conditional_partial (mu : Fin p → ℝ) {S : Matrix (Fin p) (Fin p) ℝ} (hS : S.PosDef)
    {w : Fin p → Bool} {x : Fin p → Option ℝ} (hx : ∀ j, w j = true → x j ≠ none) (hw : ∃ j, w j = true) :
    ∃ r, predictRow mu S S⁻¹ w x = .ok r ∧ ∀ j, ∃ a, (r j).1 = some a ∧
      Spec.IsConditional S mu (fun k => (x k).getD 0) (Function.update w j false) j a (r j).2 := by
  classical
  have hobs : ∀ P : Fin p → Bool, (∀ k, P k = true → w k = true) →
      obsVals x P = some fun k => (x k.1).getD 0 := fun P hP => obsVals_some fun k hk => hx k (hP k hk)
  have hup : ∀ j k, Function.update w j false k = true → w k = true := by
    intro j k hk
    by_cases h : k = j
    · subst h; simp at hk
    · rwa [Function.update_of_ne h] at hk
  unfold predictRow
  by_cases hall : ∀ j, w j = true
  · rw [if_pos hall]
    refine ⟨_, collect_ok (g := fun j => (some (regress mu S (blockInv S fun k => decide (k ≠ j))
      (fun k => (x k.1).getD 0) j), 1 / S⁻¹ j j)) fun j => ?_, fun j => ⟨_, rfl, ?_⟩⟩
    · rw [patInv_eq hS, hobs _ fun k _ => hall k]
      rfl
    · have hP : Function.update w j false = fun k => decide (k ≠ j) := by
        funext k
        by_cases h : k = j
        · subst h; simp
        · rw [Function.update_of_ne h, hall k]; simp [h]
      simp only
      rw [inv_diag hS j, hP]
      exact regress_isConditional hS mu (fun k => (x k).getD 0) _ j
  · rw [if_neg hall, if_neg (by push Not; obtain ⟨j, hj⟩ := hw; exact ⟨j, by simp [hj]⟩), patInv_eq hS]
    simp only [Except.bind]
    refine ⟨_, collect_ok (g := fun j => (some (regress mu S (blockInv S (Function.update w j false))
      (fun k => (x k.1).getD 0) j), regVar S (blockInv S (Function.update w j false)) j)) fun j => ?_,
      fun j => ⟨_, rfl, regress_isConditional hS mu (fun k => (x k).getD 0) _ j⟩⟩
    by_cases hj : w j = true
    · rw [if_pos hj]
      by_cases hcard : Fintype.card {k // w k = true} = 1
      · rw [if_pos hcard]
        have hempty : ¬ ∃ k, Function.update w j false k = true := by
          rintro ⟨k, hk⟩
          have hkj : k ≠ j := by rintro rfl; simp at hk
          obtain ⟨u, hu⟩ := Fintype.card_eq_one_iff.1 hcard
          have h1 := hu ⟨k, hup j k hk⟩
          have h2 := hu ⟨j, hj⟩
          exact hkj (Subtype.mk.inj (h1.trans h2.symm))
        have := regress_empty S mu _ hempty (blockInv S (Function.update w j false))
          (fun k => (x k.1).getD 0) j
        rw [this.1, this.2]
      · rw [if_neg hcard, patInv_eq hS, hobs _ (hup j)]
        rfl
    · have hj' : w j = false := by simpa using hj
      have hsame : Function.update w j false = w := by
        rw [← hj', Function.update_eq_self]
      rw [if_neg hj, hobs w fun _ h => h, hsame]
      rfl

/-- **C46** for a row without a clean cell: the prediction is the location, the mean given nothing. -/
theorem C46_all_missing_partial (hp : 0 < p) (mu : Fin p → ℝ) (S Sinv : Matrix (Fin p) (Fin p) ℝ)
    (x : Fin p → Option ℝ) :
    ∃ r, predictRow mu S Sinv (fun _ => false) x = .ok r ∧ ∀ j, (r j).1 = some (mu j) ∧ (r j).2 = Sinv j j := by
  unfold predictRow
  haveI : Nonempty (Fin p) := ⟨⟨0, hp⟩⟩
  rw [if_neg (by simp), if_pos (by simp)]
  exact ⟨_, rfl, fun j => ⟨rfl, rfl⟩⟩

/-- **C46** fails for a row without a clean cell: for the covariance `2 * 1` the variance of a cell given
nothing is 2, but 1/2 is reported (line 632 takes the diagonal of the inverse). -/
theorem C46_violated : ¬ C46_statement := by
  intro H
  set S : Matrix (Fin 2) (Fin 2) ℝ := (2 : ℝ) • 1 with hSdef
  have hS : S.PosDef := Matrix.PosDef.one.smul (by norm_num)
  have hinv : S⁻¹ = (1 / 2 : ℝ) • 1 := by
    refine Matrix.inv_eq_right_inv ?_
    rw [hSdef, Matrix.smul_mul, Matrix.mul_smul, smul_smul]
    norm_num
  obtain ⟨r, h1, h2⟩ := H 2 0 S hS (fun _ => false) (fun _ => none) (by simp)
  obtain ⟨r', h3, h4⟩ := C46_all_missing_partial (by norm_num) 0 S S⁻¹ fun _ => none
  rw [h1] at h3
  have := Except.ok.inj h3
  subst this
  obtain ⟨a, -, b, hb, -, -, hv⟩ := h2 0
  have hb0 : ∀ k, b k = 0 := fun k => hb k (by by_cases h : k = 0 <;> simp [h, Function.update])
  rw [(h4 0).2, hinv] at hv
  simp only [hb0, zero_mul, Finset.sum_const_zero, hSdef] at hv
  norm_num at hv

/-- A row with one clean, one flagged and one missing cell. -/
example : ∃ r, predictRow 0 (1 : Matrix (Fin 3) (Fin 3) ℝ) 1⁻¹ (fun j => decide (j = 0))
    (fun j => if j = 2 then none else some 1) = .ok r ∧ ∀ j, ∃ a, (r j).1 = some a ∧
      Spec.IsConditional 1 0 (fun k => ((if k = 2 then none else some 1 : Option ℝ)).getD 0)
        (Function.update (fun j => decide (j = 0)) j false) j a (r j).2 :=
  C46_conditional_partial 0 Matrix.PosDef.one (fun j h => by
    have : j = 0 := by simpa using h
    subst this; simp) ⟨0, by simp⟩

end

end Robpy
