import Verif.Model.CellMCD
import Verif.Lemmas.Gauss
import Verif.Spec.Gauss

/-! Lemmas about `Verif.Model.CellMCD`: blocks, patterns, loops. -/

namespace Robpy
open Matrix

theorem collect_ok {α : Type} : ∀ {n : ℕ} {f : Fin n → Except PyErr α} {g : Fin n → α},
    (∀ i, f i = .ok (g i)) → collect f = .ok g
  | 0, f, g, _ => by
    unfold collect; congr 1; funext i; exact i.elim0
  | n + 1, f, g, h => by
    unfold collect
    rw [h 0, collect_ok (f := fun i => f i.succ) (g := fun i => g i.succ) fun i => h i.succ]
    simp only [Except.bind, Except.map]
    congr 1
    exact Fin.cons_self_tail g

theorem collect_inv {α : Type} : ∀ {n : ℕ} {f : Fin n → Except PyErr α} {g : Fin n → α},
    collect f = .ok g → ∀ i, f i = .ok (g i)
  | 0, _, _, _ => fun i => i.elim0
  | n + 1, f, g, h => by
    unfold collect at h
    cases h0 : f 0 with
    | error e => rw [h0] at h; simp [Except.bind] at h
    | ok a =>
      rw [h0] at h
      cases h1 : collect (fun i => f i.succ) with
      | error e => rw [h1] at h; simp [Except.bind, Except.map] at h
      | ok g' =>
        rw [h1] at h
        simp only [Except.bind, Except.map, Except.ok.injEq] at h
        intro i
        refine Fin.cases ?_ (fun i => ?_) i
        · rw [h0, ← h]; rfl
        · have := collect_inv h1 i
          rw [this, ← h]; rfl

theorem mapExcept_eq_map {α β : Type} {f : α → Except PyErr β} {g : α → β} : ∀ {l : List α},
    (∀ a ∈ l, f a = .ok (g a)) → mapExcept f l = .ok (l.map g)
  | [], _ => rfl
  | a :: l, h => by
    rw [mapExcept, h a List.mem_cons_self, mapExcept_eq_map fun b hb => h b (List.mem_cons_of_mem _ hb)]
    rfl

theorem obsVals_some {p : ℕ} {x : Fin p → Option ℝ} {P : Fin p → Bool} (h : ∀ j, P j = true → x j ≠ none) :
    obsVals x P = some fun j => (x j.1).getD 0 := by
  unfold obsVals
  exact if_pos fun j : {j // P j = true} => Option.isSome_iff_ne_none.2 (h j.1 j.2)

theorem obsVals_none {p : ℕ} {x : Fin p → Option ℝ} {P : Fin p → Bool} {j : Fin p} (hj : P j = true)
    (h : x j = none) : obsVals x P = none := by
  unfold obsVals
  rw [if_neg]
  intro hh
  have := hh ⟨j, hj⟩
  rw [h] at this
  simp at this

theorem optSum_some (l : List ℝ) : optSum (l.map some) = some l.sum := by
  unfold optSum
  rw [if_pos (by simp), List.map_map]
  congr 2
  exact List.map_id'' (fun _ => rfl) l

theorem optSum_none {l : List (Option ℝ)} (h : none ∈ l) : optSum l = none := by
  unfold optSum
  rw [if_neg]
  intro hh
  have := List.all_eq_true.1 hh _ h
  simp at this

theorem posEquiv_strictMono {p : ℕ} (P : Fin p → Bool) : StrictMono fun k => (posEquiv P k).1 := by
  intro a b hab
  have := ((Finset.univ.filter fun j => P j = true).orderIsoOfFin rfl).strictMono hab
  exact this

/-- For a positive definite matrix and its inverse, `inverse_submatrix` inverts the block. -/
theorem patInv_eq {p : ℕ} {S : Matrix (Fin p) (Fin p) ℝ} (hS : S.PosDef) (P : Fin p → Bool) :
    patInv S S⁻¹ P = .ok (S.submatrix (fun j : {j // P j = true} => j.1) fun j => j.1)⁻¹ := by
  have hm := posEquiv_strictMono P
  have hdet : (S.submatrix (fun k => (posEquiv P k).1) fun k => (posEquiv P k).1).det ≠ 0 :=
    (hS.submatrix hm.injective).det_pos.ne'
  obtain ⟨R, hR, h1, -⟩ := C32_inverse_partial _ p S S⁻¹ _ hm.injective
    (Matrix.mul_nonsing_inv _ hS.det_pos.ne'.isUnit) hdet (Or.inr hm)
  unfold patInv
  rw [hR]
  simp only [Except.map]
  congr 1
  symm
  refine Matrix.inv_eq_right_inv ?_
  have h2 := congrArg (fun M => M.submatrix (posEquiv P).symm (posEquiv P).symm) h1
  rw [← Matrix.submatrix_mul_equiv _ _ _ (posEquiv P).symm _, Matrix.submatrix_one_equiv,
    Matrix.submatrix_submatrix] at h2
  have h3 : (fun k => ((posEquiv P) k).1) ∘ (posEquiv P).symm = fun j : {j // P j = true} => j.1 := by
    funext j; simp
  rwa [h3] at h2

/-! ## The objective -/

theorem mem_uniqueRows {n p : ℕ} {W : CellFlags n p} {w : Fin p → Bool} :
    w ∈ uniqueRows W ↔ ∃ i, W i = w := by
  unfold uniqueRows
  rw [(List.mergeSort_perm _ _).mem_iff, List.mem_dedup, List.mem_ofFn]

theorem nodup_uniqueRows {n p : ℕ} (W : CellFlags n p) : (uniqueRows W).Nodup := by
  unfold uniqueRows
  exact (List.mergeSort_perm _ _).nodup_iff.2 (List.nodup_dedup _)

theorem sum_filter_finRange {n : ℕ} (P : Fin n → Prop) [DecidablePred P] (f : Fin n → ℝ) :
    (((List.finRange n).filter fun i => decide (P i)).map f).sum = ∑ i, if P i then f i else 0 := by
  rw [← Finset.sum_filter, Finset.sum_eq_multiset_sum]
  rw [show (Finset.univ.filter P).val = Multiset.ofList ((List.finRange n).filter fun i => decide (P i)) from by
    simp [Finset.filter, Fin.univ_def, Multiset.filter_coe]]
  rw [Multiset.map_coe, Multiset.sum_coe]

/-- Summing pattern by pattern over a list that contains every pattern once. -/
theorem sum_patterns {n p : ℕ} (W : CellFlags n p) (f : Fin n → ℝ) :
    ((uniqueRows W).map fun w => ∑ i, if W i = w then f i else 0).sum = ∑ i, f i := by
  have h1 : ((uniqueRows W).map fun w => ∑ i, if W i = w then f i else 0).sum =
      ∑ w ∈ (uniqueRows W).toFinset, ∑ i, if W i = w then f i else 0 :=
    (List.sum_toFinset _ (nodup_uniqueRows W)).symm
  rw [h1, Finset.sum_comm]
  refine Finset.sum_congr rfl fun i _ => ?_
  rw [Finset.sum_ite_eq, if_pos (List.mem_toFinset.2 (mem_uniqueRows.2 ⟨i, rfl⟩))]

theorem rowTerm_eq {p : ℕ} (S : Matrix (Fin p) (Fin p) ℝ) (mu : Fin p → ℝ) (x : Fin p → Option ℝ)
    (w : Fin p → Bool) :
    quadForm (S.submatrix (fun j : {j // w j = true} => j.1) fun j => j.1)⁻¹
        (fun j => (x j.1).getD 0 - mu j.1) +
      Real.log (S.submatrix (fun j : {j // w j = true} => j.1) fun j => j.1).det +
      Real.log (2 * Real.pi) * Fintype.card {j // w j = true} =
    Spec.negTwoLogLik S mu (fun j => (x j).getD 0) w := by
  rw [quadForm_eq]
  unfold Spec.negTwoLogLik
  ring

theorem patternTerm_eq {n p : ℕ} {X : Cells n p} {W : CellFlags n p} (hW : Spec.NoMissing X W)
    (mu : Fin p → ℝ) {S : Matrix (Fin p) (Fin p) ℝ} (hS : S.PosDef) {w : Fin p → Bool} :
    patternTerm X W mu S S⁻¹ w = .ok (some (∑ i, if W i = w then
      Spec.negTwoLogLik S mu (fun j => (X i j).getD 0) (W i) else 0)) := by
  unfold patternTerm
  rw [patInv_eq hS]
  simp only [Except.map]
  congr 1
  rw [← sum_filter_finRange (fun i => W i = w), ← optSum_some, List.map_map]
  congr 1
  refine List.map_congr_left fun i hi => ?_
  have hi' : W i = w := by simpa using (List.mem_filter.1 hi).2
  rw [obsVals_some fun j hj => hW i j (by rw [hi']; exact hj), Option.map_some, rowTerm_eq, Function.comp_apply, hi']

theorem objectiveFunction_eq {n p : ℕ} {X : Cells n p} {W : CellFlags n p} (hW : Spec.NoMissing X W)
    (mu : Fin p → ℝ) {S : Matrix (Fin p) (Fin p) ℝ} (hS : S.PosDef) :
    objectiveFunction X W mu S S⁻¹ =
      .ok (some (∑ i, Spec.negTwoLogLik S mu (fun j => (X i j).getD 0) (W i))) := by
  unfold objectiveFunction
  rw [mapExcept_eq_map fun w _ => patternTerm_eq hW mu hS]
  simp only [Except.map]
  congr 1
  rw [← sum_patterns W fun i => Spec.negTwoLogLik S mu (fun j => (X i j).getD 0) (W i), ← optSum_some,
    List.map_map]
  rfl

theorem flagPenalty_eq {n p : ℕ} (q : Fin p → ℝ) (W : CellFlags n p) :
    flagPenalty q W = ∑ i, ∑ j, if W i j = true then 0 else q j := by
  unfold flagPenalty
  rw [Finset.sum_comm]
  refine Finset.sum_congr rfl fun j _ => ?_
  rw [Finset.mul_sum]
  refine Finset.sum_congr rfl fun i _ => ?_
  split_ifs <;> ring

theorem penalised_eq {n p : ℕ} {X : Cells n p} {W : CellFlags n p} (hW : Spec.NoMissing X W) (q : Fin p → ℝ)
    (mu : Fin p → ℝ) {S : Matrix (Fin p) (Fin p) ℝ} (hS : S.PosDef) :
    penalised X q W mu S S⁻¹ = .ok (some (Spec.cellObjective X q W mu S)) := by
  unfold penalised
  rw [objectiveFunction_eq hW mu hS]
  simp only [Except.map, Option.map_some]
  rw [flagPenalty_eq, ← Finset.sum_add_distrib]
  rfl

end Robpy
