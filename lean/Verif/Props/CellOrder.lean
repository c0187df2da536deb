import Verif.Props.CellFit
import Verif.Props.CellMCDWitness
import Verif.Lemmas.CellMCD
import Verif.Lemmas.LinAlg
import Verif.Lemmas.Median

/-! # C203: the order of the rows and `CellMCD` -/

namespace Robpy
open Matrix

variable {n p : ℕ}

/-! ## Loops over the rows -/

theorem collect_error_mem {α : Type} : ∀ {n : ℕ} {f : Fin n → Except PyErr α} {e : PyErr}, collect f = .error e → ∃ i, f i = .error e
  | 0, _, _, h => by cases h
  | n + 1, f, e, h => by
    unfold collect at h
    cases h0 : f 0 with
    | error e' =>
      rw [h0] at h
      simp only [Except.bind, Except.error.injEq] at h
      exact ⟨0, by rw [h0, h]⟩
    | ok a =>
      rw [h0] at h
      cases h1 : collect (fun i => f i.succ) with
      | error e' =>
        rw [h1] at h
        simp only [Except.bind, Except.map, Except.error.injEq] at h
        obtain ⟨i, hi⟩ := collect_error_mem h1
        exact ⟨i.succ, by rw [hi, h]⟩
      | ok g =>
        rw [h1] at h
        simp [Except.bind, Except.map] at h

/-- A loop over reordered rows, when only one kind of error is possible. -/
theorem collect_perm {α : Type} (σ : Equiv.Perm (Fin n)) {f : Fin n → Except PyErr α} {e0 : PyErr}
    (he : ∀ i e, f i = .error e → e = e0) : collect (fun i => f (σ i)) = (collect f).map fun g i => g (σ i) := by
  rcases h : collect f with e | g
  · obtain ⟨i, hi⟩ := collect_error_mem h
    rcases h' : collect (fun i => f (σ i)) with e' | g'
    · obtain ⟨k, hk⟩ := collect_error_mem h'
      rw [he _ _ hi, he _ _ hk]
      rfl
    · have := collect_inv h' (σ.symm i)
      simp only [Equiv.apply_symm_apply] at this
      rw [hi] at this
      cases this
  · exact collect_ok fun i => collect_inv h (σ i)

theorem npInv_error {m : Type} [Fintype m] [DecidableEq m] {A : Matrix m m ℝ} {e : PyErr} (h : npInv A = .error e) : e = .linAlgError := by
  unfold npInv at h
  split_ifs at h
  exact (Except.error.inj h).symm

theorem map_error {α β : Type} {x : Except PyErr α} {f : α → β} {e : PyErr} (h : x.map f = .error e) : x = .error e := by
  rcases x with e' | a
  · simpa [Except.map] using h
  · cases h

theorem patInv_error {A Ainv : Matrix (Fin p) (Fin p) ℝ} {P : Fin p → Bool} {e : PyErr} (h : patInv A Ainv P = .error e) :
    e = .linAlgError := by
  unfold patInv at h
  have h := map_error h
  unfold inverseSubmatrix at h
  have hle : (Finset.univ.filter fun j => P j = true).card ≤ p := by
    simpa using Finset.card_filter_le (Finset.univ : Finset (Fin p)) fun j => P j = true
  split_ifs at h with h1 h2 h3
  · exact npInv_error (map_error h)
  · exact npInv_error h
  · omega

theorem deltaCell_error {X : Cells n p} {W : CellFlags n p} {S Si : Matrix (Fin p) (Fin p) ℝ} {mu : Fin p → ℝ} {j : Fin p} {i : Fin n}
    {e : PyErr} (h : deltaCell X W S Si mu j i = .error e) : e = .linAlgError := by
  unfold deltaCell at h
  rcases hx : X i j with _ | x
  · simp only [hx] at h
    cases h
  · simp only [hx] at h
    by_cases h1 : ∃ k, Function.update (W i) j false k = true
    · rw [if_pos h1] at h
      exact patInv_error (map_error h)
    · rw [if_neg h1] at h
      cases h

theorem imputeRow_error {mu : Fin p → ℝ} {S Si : Matrix (Fin p) (Fin p) ℝ} {w : Fin p → Bool} {x : Fin p → Option ℝ} {e : PyErr}
    (h : imputeRow mu S Si w x = .error e) : e = .linAlgError := by
  unfold imputeRow at h
  rcases hx : obsVals x w with _ | y
  · simp only [hx] at h
    exact (Except.error.inj h).symm
  · simp only [hx] at h
    by_cases h1 : ∀ j, w j = true
    · rw [if_pos h1] at h
      cases h
    rw [if_neg h1] at h
    by_cases h2 : ∀ j, w j = false
    · rw [if_pos h2] at h
      cases h
    rw [if_neg h2] at h
    exact npInv_error (map_error h)

theorem predictRow_error {mu : Fin p → ℝ} {S Si : Matrix (Fin p) (Fin p) ℝ} {w : Fin p → Bool} {x : Fin p → Option ℝ} {e : PyErr}
    (h : predictRow mu S Si w x = .error e) : e = .linAlgError := by
  unfold predictRow at h
  by_cases h1 : ∀ j, w j = true
  · rw [if_pos h1] at h
    obtain ⟨j, hj⟩ := collect_error_mem h
    exact patInv_error (map_error hj)
  rw [if_neg h1] at h
  by_cases h2 : ∀ j, w j = false
  · rw [if_pos h2] at h
    cases h
  rw [if_neg h2] at h
  rcases hR : patInv S Si w with e' | R
  · rw [hR] at h
    simp only [Except.bind, Except.error.injEq] at h
    rw [← h]
    exact patInv_error hR
  · rw [hR] at h
    simp only [Except.bind] at h
    obtain ⟨j, hj⟩ := collect_error_mem h
    by_cases h3 : w j = true
    · rw [if_pos h3] at hj
      by_cases h4 : Fintype.card {k // w k = true} = 1
      · rw [if_pos h4] at hj
        cases hj
      · rw [if_neg h4] at hj
        exact patInv_error (map_error hj)
    · rw [if_neg h3] at hj
      cases hj

/-! ## Selection of the clean cells of a column -/

theorem filter_sorted_any {α K : Type} [LinearOrder K] {L : List α} {f : α → K} (h : L.Pairwise fun i j => f i ≤ f j) (t : K) :
    L.filter (fun i => decide (f i ≤ t)) = L.take (L.countP fun i => decide (f i ≤ t)) := by
  induction L with
  | nil => rfl
  | cons a L ih =>
    obtain ⟨h1, h2⟩ := List.pairwise_cons.1 h
    by_cases ha : f a ≤ t
    · rw [List.filter_cons_of_pos (by simpa using ha), List.countP_cons_of_pos (by simpa using ha), List.take_succ_cons, ih h2]
    · have hn : ∀ i ∈ L, ¬ f i ≤ t := fun i hi hle => ha ((h1 i hi).trans hle)
      have hc : L.countP (fun i => decide (f i ≤ t)) = 0 := by
        rw [List.countP_eq_zero]
        intro i hi
        simpa using hn i hi
      rw [List.filter_cons_of_neg (by simpa using ha), List.countP_cons_of_neg (by simpa using ha), hc, List.take_zero, List.filter_eq_nil_iff]
      intro i hi
      simpa using hn i hi

namespace Spec

/-- The number of cells with a criterion of at most `t`. -/
noncomputable def atMost (delta : Fin n → WithTop (WithTop ℝ)) (t : WithTop (WithTop ℝ)) : ℕ :=
  (List.finRange n).countP fun i => decide (delta i ≤ t)

/-- The clean cells of a column are determined by the criterion: enough cells are below the threshold, or all are needed, or there are
exactly `h` cells below some value (the h-th and the next value are different). -/
def columnDecided (delta : Fin n → WithTop (WithTop ℝ)) (q : ℝ) (h : ℕ) : Prop :=
  h ≤ atMost delta ((q : WithTop ℝ) : WithTop (WithTop ℝ)) ∨ n ≤ h ∨ ∃ t, atMost delta t = h

end Spec

theorem countP_reorder (σ : Equiv.Perm (Fin n)) (P : Fin n → Bool) :
    (List.finRange n).countP (fun i => P (σ i)) = (List.finRange n).countP P := by
  have h : ((List.finRange n).map σ).Perm (List.finRange n) := by
    refine (List.perm_ext_iff_of_nodup ((List.nodup_finRange n).map σ.injective) (List.nodup_finRange n)).2 fun i => ?_
    simp only [List.mem_map, List.mem_finRange, true_and, iff_true]
    exact ⟨σ.symm i, by simp⟩
  rw [← h.countP_eq P, List.countP_map]
  rfl

theorem atMost_reorder (σ : Equiv.Perm (Fin n)) (delta : Fin n → WithTop (WithTop ℝ)) (t : WithTop (WithTop ℝ)) :
    Spec.atMost (fun i => delta (σ i)) t = Spec.atMost delta t := countP_reorder σ fun i => decide (delta i ≤ t)

theorem mem_sorted_take {delta : Fin n → WithTop (WithTop ℝ)} {h : ℕ} {t : WithTop (WithTop ℝ)} (ht : Spec.atMost delta t = h) (i : Fin n) :
    i ∈ ((List.finRange n).mergeSort fun a b => decide (delta a ≤ delta b)).take h ↔ delta i ≤ t := by
  set L := (List.finRange n).mergeSort fun a b => decide (delta a ≤ delta b) with hL
  have hp : L.Perm (List.finRange n) := List.mergeSort_perm _ _
  have hs : L.Pairwise fun a b => delta a ≤ delta b := by
    have := List.pairwise_mergeSort (le := fun a b : Fin n => decide (delta a ≤ delta b))
      (by intro a b c hab hbc; simp only [decide_eq_true_eq] at hab hbc ⊢; exact hab.trans hbc)
      (by intro a b; simp only [Bool.or_eq_true, decide_eq_true_eq]; exact le_total _ _) (List.finRange n)
    exact this.imp fun h => by simpa using h
  have hf := filter_sorted_any hs t
  rw [hp.countP_eq] at hf
  unfold Spec.atMost at ht
  rw [ht] at hf
  rw [← hf, List.mem_filter]
  simp [hp.mem_iff]

theorem mem_goodCells_reorder (σ : Equiv.Perm (Fin n)) {delta : Fin n → WithTop (WithTop ℝ)} {q : ℝ} {h : ℕ}
    (hd : Spec.columnDecided delta q h) (i : Fin n) : i ∈ goodCells (fun i => delta (σ i)) q h ↔ σ i ∈ goodCells delta q h := by
  have hc := atMost_reorder σ delta ((q : WithTop ℝ) : WithTop (WithTop ℝ))
  unfold goodCells
  simp only [← List.countP_eq_length_filter]
  change _ ↔ σ i ∈ if Spec.atMost delta _ < h then _ else _
  change i ∈ (if Spec.atMost (fun i => delta (σ i)) _ < h then _ else _) ↔ _
  rw [hc]
  by_cases hlt : Spec.atMost delta ((q : WithTop ℝ) : WithTop (WithTop ℝ)) < h
  · rw [if_pos hlt, if_pos hlt]
    rcases hd with hd | hd | ⟨t, ht⟩
    · omega
    · rw [List.take_of_length_le (by simpa using hd), List.take_of_length_le (by simpa using hd)]
      simp
    · rw [mem_sorted_take ht, mem_sorted_take ((atMost_reorder σ delta t).trans ht)]
  · rw [if_neg hlt, if_neg hlt]
    simp

/-! ## One update of the flags -/

/-- The rows of a matrix of cells, flags or numbers in another order. -/
def Spec.rowsBy {α : Type} (σ : Equiv.Perm (Fin n)) (X : Fin n → α) : Fin n → α := fun i => X (σ i)

/-- In each column that is updated, in turn, the clean cells are determined by the criterion (`Spec.columnDecided`). -/
noncomputable def Spec.updateDecided (X : Cells n p) (S Si : Matrix (Fin p) (Fin p) ℝ) (mu q : Fin p → ℝ) (h : ℕ) :
    List (Fin p) → CellFlags n p → Prop
  | [], _ => True
  | j :: js, W =>
    (∀ delta, (∀ i, deltaCell X W S Si mu j i = .ok (delta i)) → Spec.columnDecided delta (q j) h) ∧
      ∀ W', updateColumn X S Si mu q h W j = .ok W' → Spec.updateDecided X S Si mu q h js W'

theorem updateColumn_reorder (σ : Equiv.Perm (Fin n)) (X : Cells n p) (S Si : Matrix (Fin p) (Fin p) ℝ) (mu q : Fin p → ℝ) (h : ℕ)
    (W : CellFlags n p) (j : Fin p)
    (hd : ∀ delta, (∀ i, deltaCell X W S Si mu j i = .ok (delta i)) → Spec.columnDecided delta (q j) h) :
    updateColumn (Spec.rowsBy σ X) S Si mu q h (Spec.rowsBy σ W) j = (updateColumn X S Si mu q h W j).map (Spec.rowsBy σ) := by
  unfold updateColumn
  have hc : (collect fun i => deltaCell (Spec.rowsBy σ X) (Spec.rowsBy σ W) S Si mu j i) =
      (collect fun i => deltaCell X W S Si mu j i).map fun g i => g (σ i) :=
    collect_perm σ (f := fun i => deltaCell X W S Si mu j i) fun i e h => deltaCell_error h
  rw [hc]
  rcases hg : (collect fun i => deltaCell X W S Si mu j i) with e | delta
  · rfl
  · have hdec := hd delta (collect_inv hg)
    simp only [Except.map, Except.ok.injEq]
    funext i k
    simp only [Spec.rowsBy, mem_goodCells_reorder σ hdec]

theorem updateColumns_reorder (σ : Equiv.Perm (Fin n)) (X : Cells n p) (S Si : Matrix (Fin p) (Fin p) ℝ) (mu q : Fin p → ℝ) (h : ℕ)
    (js : List (Fin p)) (W : CellFlags n p) (hd : Spec.updateDecided X S Si mu q h js W) :
    updateColumns (Spec.rowsBy σ X) S Si mu q h js (Spec.rowsBy σ W) = (updateColumns X S Si mu q h js W).map (Spec.rowsBy σ) := by
  induction js generalizing W with
  | nil => rfl
  | cons j js ih =>
    obtain ⟨h1, h2⟩ := hd
    unfold updateColumns
    rw [updateColumn_reorder σ X S Si mu q h W j h1]
    rcases hW : updateColumn X S Si mu q h W j with e | W'
    · rfl
    · exact ih W' (h2 W' hW)

theorem columnOrder_reorder (σ : Equiv.Perm (Fin n)) (W : CellFlags n p) : columnOrder (Spec.rowsBy σ W) = columnOrder W := by
  have hc : ∀ j, (Finset.univ.filter fun i => Spec.rowsBy σ W i j = true).card = (Finset.univ.filter fun i => W i j = true).card := by
    intro j
    refine Finset.card_bij (fun i _ => σ i) (fun i hi => ?_) (fun a _ b _ h => σ.injective h) fun b hb => ⟨σ.symm b, ?_, by simp⟩
    · exact Finset.mem_filter.2 ⟨Finset.mem_univ _, (Finset.mem_filter.1 hi).2⟩
    · refine Finset.mem_filter.2 ⟨Finset.mem_univ _, ?_⟩
      have := (Finset.mem_filter.1 hb).2
      simpa only [Spec.rowsBy, Equiv.apply_symm_apply] using this
  unfold columnOrder
  simp only [hc]

/-! ## Objective and estimation step -/

theorem ofFn_reorder {α : Type} (σ : Equiv.Perm (Fin n)) (f : Fin n → α) : (List.ofFn (Spec.rowsBy σ f)).Perm (List.ofFn f) := by
  have h : ((List.finRange n).map σ).Perm (List.finRange n) := by
    refine (List.perm_ext_iff_of_nodup ((List.nodup_finRange n).map σ.injective) (List.nodup_finRange n)).2 fun i => ?_
    simp only [List.mem_map, List.mem_finRange, true_and, iff_true]
    exact ⟨σ.symm i, by simp⟩
  rw [List.ofFn_eq_map, List.ofFn_eq_map]
  have := h.map f
  rwa [List.map_map] at this

theorem uniqueRows_reorder (σ : Equiv.Perm (Fin n)) (W : CellFlags n p) : uniqueRows (Spec.rowsBy σ W) = uniqueRows W := by
  unfold uniqueRows
  set le := fun a b : Fin p → Bool => decide (List.ofFn a ≤ List.ofFn b) with hle
  have htr : ∀ a b c : Fin p → Bool, le a b = true → le b c = true → le a c = true := by
    intro a b c hab hbc
    simp only [hle, decide_eq_true_eq] at hab hbc ⊢
    exact hab.trans hbc
  have htot : ∀ a b : Fin p → Bool, (le a b || le b a) = true := by
    intro a b
    simp only [hle, Bool.or_eq_true, decide_eq_true_eq]
    exact le_total _ _
  have hp : (((List.ofFn (Spec.rowsBy σ W)).dedup.mergeSort le)).Perm ((List.ofFn W).dedup.mergeSort le) :=
    (List.mergeSort_perm _ _).trans ((ofFn_reorder σ W).dedup.trans (List.mergeSort_perm _ _).symm)
  refine hp.eq_of_pairwise (le := fun a b => le a b = true) ?_ (List.pairwise_mergeSort htr htot _) (List.pairwise_mergeSort htr htot _)
  intro a b _ _ hab hba
  simp only [hle, decide_eq_true_eq] at hab hba
  exact List.ofFn_injective (le_antisymm hab hba)

theorem optSum_perm {l m : List (Option ℝ)} (h : l.Perm m) : optSum l = optSum m := by
  unfold optSum
  rw [h.all_eq, (h.map _).sum_eq]

theorem patternTerm_reorder (σ : Equiv.Perm (Fin n)) (X : Cells n p) (W : CellFlags n p) (loc : Fin p → ℝ)
    (S Si : Matrix (Fin p) (Fin p) ℝ) (w : Fin p → Bool) :
    patternTerm (Spec.rowsBy σ X) (Spec.rowsBy σ W) loc S Si w = patternTerm X W loc S Si w := by
  unfold patternTerm
  congr 1
  funext R
  refine optSum_perm ?_
  have h : ((List.finRange n).map σ).Perm (List.finRange n) := by
    refine (List.perm_ext_iff_of_nodup ((List.nodup_finRange n).map σ.injective) (List.nodup_finRange n)).2 fun i => ?_
    simp only [List.mem_map, List.mem_finRange, true_and, iff_true]
    exact ⟨σ.symm i, by simp⟩
  have h2 := ((h.filter fun i => decide (W i = w)).map fun i => (obsVals (X i) w).map fun x =>
        quadForm R (fun j => x j - loc j.1) + Real.log (S.submatrix (fun j : {j // w j = true} => j.1) fun j => j.1).det +
          Real.log (2 * Real.pi) * Fintype.card {j // w j = true})
  rw [List.filter_map, List.map_map] at h2
  exact h2

theorem penalised_reorder (σ : Equiv.Perm (Fin n)) (X : Cells n p) (q : Fin p → ℝ) (W : CellFlags n p) (loc : Fin p → ℝ)
    (S Si : Matrix (Fin p) (Fin p) ℝ) :
    penalised (Spec.rowsBy σ X) q (Spec.rowsBy σ W) loc S Si = penalised X q W loc S Si := by
  have hf : flagPenalty q (Spec.rowsBy σ W) = flagPenalty q W := by
    unfold flagPenalty
    refine Finset.sum_congr rfl fun j _ => ?_
    congr 1
    exact Equiv.sum_comp σ fun i => (1 - if W i j = true then (1 : ℝ) else 0)
  have ho : objectiveFunction (Spec.rowsBy σ X) (Spec.rowsBy σ W) loc S Si = objectiveFunction X W loc S Si := by
    unfold objectiveFunction
    rw [uniqueRows_reorder, funext (patternTerm_reorder σ X W loc S Si)]
  unfold penalised
  rw [hf, ho]

theorem emStep_reorder (σ : Equiv.Perm (Fin n)) (X : Cells n p) (W : CellFlags n p) (mu : Fin p → ℝ) (S Si : Matrix (Fin p) (Fin p) ℝ) :
    emStep (Spec.rowsBy σ X) (Spec.rowsBy σ W) mu S Si = emStep X W mu S Si := by
  unfold emStep
  have hc : (collect fun i => imputeRow mu S Si (Spec.rowsBy σ W i) (Spec.rowsBy σ X i)) =
      (collect fun i => imputeRow mu S Si (W i) (X i)).map fun g i => g (σ i) :=
    collect_perm σ (f := fun i => imputeRow mu S Si (W i) (X i)) fun i e h => imputeRow_error h
  rw [hc]
  rcases (collect fun i => imputeRow mu S Si (W i) (X i)) with e | r
  · rfl
  · have hp := ofFn_reorder σ fun i => (r i).1
    have hs : ∑ i, (r (σ i)).2 = ∑ i, (r i).2 := Equiv.sum_comp σ fun i => (r i).2
    simp only [Except.map, Except.ok.injEq]
    unfold Spec.rowsBy at hp
    rw [meanRow_perm hp, npCov_perm hp, hs]

/-! ## The loop -/

/-- The state with the flags in the order of the reordered rows. -/
def Spec.stateBy (σ : Equiv.Perm (Fin n)) (s : CellState n p) : CellState n p := { s with W := Spec.rowsBy σ s.W }

theorem cellIter_reorder (σ : Equiv.Perm (Fin n)) (env : CellEnv p) (minEig : ℝ) (X : Cells n p) (q : Fin p → ℝ) (h : ℕ)
    (s : CellState n p) (hd : Spec.updateDecided X s.cov s.covInv s.location q h (columnOrder s.W) s.W) :
    cellIter env minEig (Spec.rowsBy σ X) q h (Spec.stateBy σ s) =
      (cellIter env minEig X q h s).map fun r => (Spec.stateBy σ r.1, r.2) := by
  unfold cellIter updateW Spec.stateBy
  simp only
  rw [columnOrder_reorder, updateColumns_reorder σ X _ _ _ _ _ _ _ hd]
  rcases updateColumns X s.cov s.covInv s.location q h (columnOrder s.W) s.W with e | W
  · rfl
  simp only [Except.map, Except.bind]
  rw [emStep_reorder]
  rcases emStep X W s.location s.cov s.covInv with e | r
  · rfl
  simp only
  rcases npInv (truncatedCovariance env.eigh env.order r.2 minEig) with e | Ci
  · rfl
  simp only
  rw [penalised_reorder]
  rcases penalised X q W r.1 (truncatedCovariance env.eigh env.order r.2 minEig) Ci with e | o <;> rfl

/-- In every C-step that is made the clean cells of every column are determined by the criterion. -/
noncomputable def Spec.loopDecided (env : CellEnv p) (minEig crit : ℝ) (X : Cells n p) (q : Fin p → ℝ) (h : ℕ) :
    ℕ → CellState n p → Prop
  | 0, _ => True
  | k + 1, s => Spec.updateDecided X s.cov s.covInv s.location q h (columnOrder s.W) s.W ∧
      ∀ r, cellIter env minEig X q h s = .ok r → Spec.loopDecided env minEig crit X q h k r.1

theorem cellLoop_reorder (σ : Equiv.Perm (Fin n)) (env : CellEnv p) (minEig crit : ℝ) (X : Cells n p) (q : Fin p → ℝ) (h k : ℕ)
    (s : CellState n p) (hd : Spec.loopDecided env minEig crit X q h k s) :
    cellLoop env minEig crit (Spec.rowsBy σ X) q h k (Spec.stateBy σ s) = (cellLoop env minEig crit X q h k s).map (Spec.stateBy σ) := by
  induction k generalizing s with
  | zero => rfl
  | succ k ih =>
    obtain ⟨h1, h2⟩ := hd
    unfold cellLoop
    rw [cellIter_reorder σ env minEig X q h s h1]
    rcases hr : cellIter env minEig X q h s with e | r
    · rfl
    simp only [Except.map, Except.bind]
    have ho : objGreater (Spec.stateBy σ r.1).objective (Spec.stateBy σ s).objective = objGreater r.1.objective s.objective := rfl
    rw [ho]
    by_cases hg : objGreater r.1.objective s.objective = true
    · rw [if_pos hg, if_pos hg]; rfl
    rw [if_neg hg, if_neg hg]
    by_cases hc : crit < r.2
    · rw [if_pos hc, if_pos hc]
      exact ih r.1 (h2 r hr)
    · rw [if_neg hc, if_neg hc]

/-- The C-steps from the given start are decided by the criterion. -/
noncomputable def Spec.stepsDecided (env : CellEnv p) (cfg : CellConfig) (alpha : ℝ) (X : Cells n p) (loc0 : Fin p → ℝ)
    (cov0 covInv0 : Matrix (Fin p) (Fin p) ℝ) : Prop :=
  ∀ obj, penalised X (cellQ env covInv0) (initialW X) loc0 cov0 covInv0 = .ok obj →
    Spec.loopDecided env cfg.minEig cfg.crit X (cellQ env covInv0) (cellH alpha n) cfg.maxSteps.toNat
      { W := initialW X, location := loc0, cov := cov0, covInv := covInv0, objective := obj }

/-- **C203**, the C-steps: from the same start they give the same location and covariance for every order of the rows and the
correspondingly reordered flags, or the same error. -/
theorem C203_steps (σ : Equiv.Perm (Fin n)) (env : CellEnv p) (cfg : CellConfig) (alpha : ℝ) (X : Cells n p) (loc0 : Fin p → ℝ)
    (cov0 covInv0 : Matrix (Fin p) (Fin p) ℝ) (hd : Spec.stepsDecided env cfg alpha X loc0 cov0 covInv0) :
    cStepsUntilConvergence env cfg alpha (Spec.rowsBy σ X) loc0 cov0 covInv0 =
      (cStepsUntilConvergence env cfg alpha X loc0 cov0 covInv0).map (Spec.stateBy σ) := by
  unfold cStepsUntilConvergence
  by_cases h1 : cfg.maxSteps < -1
  · rw [if_pos h1, if_pos h1]; rfl
  rw [if_neg h1, if_neg h1]
  have hp : penalised (Spec.rowsBy σ X) (cellQ env covInv0) (initialW (Spec.rowsBy σ X)) loc0 cov0 covInv0 =
      penalised X (cellQ env covInv0) (initialW X) loc0 cov0 covInv0 := penalised_reorder σ X _ (initialW X) loc0 cov0 covInv0
  rw [hp]
  rcases hobj : penalised X (cellQ env covInv0) (initialW X) loc0 cov0 covInv0 with e | obj
  · rfl
  simp only [Except.bind]
  by_cases h2 : cfg.maxSteps = -1
  · rw [if_pos h2, if_pos h2]; rfl
  rw [if_neg h2, if_neg h2]
  by_cases h3 : cfg.maxSteps = 0 ∨ 1 ≤ cfg.crit
  · rw [if_pos h3, if_pos h3]; rfl
  rw [if_neg h3, if_neg h3]
  exact cellLoop_reorder σ env cfg.minEig cfg.crit X _ _ _ _ (hd obj hobj)

/-! ## The fit -/

/-- The reported arrays with one entry per row in the order of the reordered rows. -/
def Spec.resultBy (σ : Equiv.Perm (Fin n)) (r : CellResult n p) : CellResult n p :=
  { W := Spec.rowsBy σ r.W
    location := r.location
    covariance := r.covariance
    predictions := Spec.rowsBy σ r.predictions
    stds := Spec.rowsBy σ r.stds
    imputed := Spec.rowsBy σ r.imputed }

/-- The scaler does not look at the order of its observations. -/
def Spec.scaleOrderFree (ext : CellExt p) : Prop := ∀ l m : List (Option ℝ), l.Perm m → ext.est m = ext.est l

/-- The start and the C-steps of a fit: `InitialDDCW` gives the same start for both orders and the C-steps are decided. -/
noncomputable def Spec.fitDecided (σ : Equiv.Perm (Fin n)) (env : CellEnv p) (ext : CellExt p) (cfg : CellConfig) (alpha : ℝ)
    (X : Cells n p) : Prop :=
  ∀ ls, (∀ j, ext.est (List.ofFn fun i => X i j) = .ok (ls j)) →
    ext.ddcw alpha cfg.minEig (Spec.rowsBy σ (scaleCells ls X)) = ext.ddcw alpha cfg.minEig (scaleCells ls X) ∧
    ∀ init, ext.ddcw alpha cfg.minEig (scaleCells ls X) = .ok init →
      Spec.stepsDecided env cfg alpha (clearBeyond3 (scaleCells ls X)) init.1 init.2.1 init.2.2

theorem card_reorder (σ : Equiv.Perm (Fin n)) (P : Fin n → Prop) [DecidablePred P] :
    (Finset.univ.filter fun i => P (σ i)).card = (Finset.univ.filter P).card := by
  refine Finset.card_bij (fun i _ => σ i) (fun i hi => ?_) (fun a _ b _ h => σ.injective h) fun b hb => ⟨σ.symm b, ?_, by simp⟩
  · exact Finset.mem_filter.2 ⟨Finset.mem_univ _, (Finset.mem_filter.1 hi).2⟩
  · refine Finset.mem_filter.2 ⟨Finset.mem_univ _, ?_⟩
    have := (Finset.mem_filter.1 hb).2
    simpa only [Equiv.apply_symm_apply] using this

theorem cellCheck_reorder (σ : Equiv.Perm (Fin n)) (cutoff alpha : ℝ) (X : Cells n p) :
    cellCheck cutoff alpha (Spec.rowsBy σ X) = cellCheck cutoff alpha X := by
  have h1 : ∀ j, marginalOutliers cutoff (Spec.rowsBy σ X) j = marginalOutliers cutoff X j := by
    intro j
    unfold marginalOutliers
    rw [← card_reorder σ fun i => ∃ x, X i j = some x ∧ cutoff < |x|]
    congr
  have h2 : ∀ j, badCells cutoff (Spec.rowsBy σ X) j = badCells cutoff X j := by
    intro j
    unfold badCells
    rw [← card_reorder σ fun i => X i j = none ∨ ∃ x, X i j = some x ∧ cutoff < |x|]
    congr
  unfold cellCheck
  simp only [h1, h2]

theorem makePredictions_reorder (σ : Equiv.Perm (Fin n)) (X : Cells n p) (S Si : Matrix (Fin p) (Fin p) ℝ) (mu : Fin p → ℝ)
    (W : CellFlags n p) :
    makePredictions (Spec.rowsBy σ X) S Si mu (Spec.rowsBy σ W) = (makePredictions X S Si mu W).map (Spec.rowsBy σ) :=
  collect_perm σ (f := fun i => predictRow mu S Si (W i) (X i)) fun i e h => predictRow_error h

theorem cellFitFrom_reorder (σ : Equiv.Perm (Fin n)) (env : CellEnv p) (ext : CellExt p) (cfg : CellConfig) (alpha : ℝ) (X : Cells n p)
    (hext : Spec.scaleOrderFree ext) (hd : Spec.fitDecided σ env ext cfg alpha X) :
    cellFitFrom env ext cfg alpha (Spec.rowsBy σ X) = (cellFitFrom env ext cfg alpha X).map (Spec.resultBy σ) := by
  have hcol : ∀ j, (List.ofFn fun i => Spec.rowsBy σ X i j).Perm (List.ofFn fun i => X i j) := fun j =>
    ofFn_reorder σ fun i => X i j
  have hm : (∃ j, ∃ s, madRaw ((List.ofFn fun i => Spec.rowsBy σ X i j).filterMap id) = some s ∧ s < 1e-8) ↔
      ∃ j, ∃ s, madRaw ((List.ofFn fun i => X i j).filterMap id) = some s ∧ s < 1e-8 := by
    refine exists_congr fun j => ?_
    rw [madRaw_perm ((hcol j).filterMap id)]
  have he : (fun j => ext.est (List.ofFn fun i => Spec.rowsBy σ X i j)) = fun j => ext.est (List.ofFn fun i => X i j) :=
    funext fun j => (hext _ _ (hcol j)).symm
  unfold cellFitFrom
  by_cases h0 : ∃ j, ∃ s, madRaw ((List.ofFn fun i => X i j).filterMap id) = some s ∧ s < 1e-8
  · rw [if_pos h0, if_pos (hm.2 h0)]; rfl
  rw [if_neg h0, if_neg fun h => h0 (hm.1 h), he]
  rcases hls : (collect fun j => ext.est (List.ofFn fun i => X i j)) with e | ls
  · rfl
  obtain ⟨hddcw, hsteps⟩ := hd ls (collect_inv hls)
  have hs : scaleCells ls (Spec.rowsBy σ X) = Spec.rowsBy σ (scaleCells ls X) := rfl
  have hc : clearBeyond3 (Spec.rowsBy σ (scaleCells ls X)) = Spec.rowsBy σ (clearBeyond3 (scaleCells ls X)) := rfl
  simp only [Except.bind]
  rw [hs, cellCheck_reorder, hddcw, hc]
  rcases cellCheck cfg.cutoff alpha (scaleCells ls X) with e | _
  · rfl
  simp only
  rcases hi : ext.ddcw alpha cfg.minEig (scaleCells ls X) with e | init
  · rfl
  simp only
  rw [C203_steps σ env cfg alpha _ _ _ _ (hsteps init hi)]
  rcases cStepsUntilConvergence env cfg alpha (clearBeyond3 (scaleCells ls X)) init.1 init.2.1 init.2.2 with e | s
  · rfl
  simp only [Except.map, Spec.stateBy]
  have hp := makePredictions_reorder σ (clearBeyond3 (scaleCells ls X)) s.cov s.covInv s.location s.W
  rw [hp]
  rcases makePredictions (clearBeyond3 (scaleCells ls X)) s.cov s.covInv s.location s.W with e | pr <;> rfl

/-- **C203**: `CellMCD.fit` on the rows in another order raises the same error, or gives the same location and covariance and the
correspondingly reordered flags, predictions, deviations and imputed rows, provided the start is the same and no C-step is decided by a
tie. -/
theorem C203_fit (σ : Equiv.Perm (Fin n)) (env : CellEnv p) (ext : CellExt p) (cfg : CellConfig) (obj : CellObj p) (X : Cells n p)
    (hext : Spec.scaleOrderFree ext) (hd : ∀ a, cellAlpha obj.alpha n = .ok a → Spec.fitDecided σ env ext cfg a X) :
    (cellFit env ext cfg obj (Spec.rowsBy σ X)).1 = (cellFit env ext cfg obj X).1.map (Spec.resultBy σ) ∧
      (cellFit env ext cfg obj (Spec.rowsBy σ X)).2.alpha = (cellFit env ext cfg obj X).2.alpha := by
  unfold cellFit
  rcases ha : cellAlpha obj.alpha n with e | a
  · exact ⟨rfl, rfl⟩
  simp only
  rw [cellFitFrom_reorder σ env ext cfg a X hext (hd a ha)]
  rcases cellFitFrom env ext cfg a X with e | r <;> exact ⟨rfl, rfl⟩

/-! ## All cells needed: alpha = 1 -/

theorem updateDecided_full (X : Cells n p) (S Si : Matrix (Fin p) (Fin p) ℝ) (mu q : Fin p → ℝ) {h : ℕ} (hn : n ≤ h) (js : List (Fin p))
    (W : CellFlags n p) : Spec.updateDecided X S Si mu q h js W := by
  induction js generalizing W with
  | nil => trivial
  | cons j js ih => exact ⟨fun _ _ => .inr (.inl hn), fun W' _ => ih W'⟩

theorem loopDecided_full (env : CellEnv p) (minEig crit : ℝ) (X : Cells n p) (q : Fin p → ℝ) {h : ℕ} (hn : n ≤ h) (k : ℕ)
    (s : CellState n p) : Spec.loopDecided env minEig crit X q h k s := by
  induction k generalizing s with
  | zero => trivial
  | succ k ih => exact ⟨updateDecided_full X _ _ _ _ hn _ _, fun r _ => ih r.1⟩

/-- **C203** for `alpha = 1`: no cell can be flagged and ties do not matter. -/
theorem C203_alpha_one (σ : Equiv.Perm (Fin n)) (env : CellEnv p) (cfg : CellConfig) (X : Cells n p) (loc0 : Fin p → ℝ)
    (cov0 covInv0 : Matrix (Fin p) (Fin p) ℝ) :
    cStepsUntilConvergence env cfg 1 (Spec.rowsBy σ X) loc0 cov0 covInv0 =
      (cStepsUntilConvergence env cfg 1 X loc0 cov0 covInv0).map (Spec.stateBy σ) := by
  refine C203_steps σ env cfg 1 X loc0 cov0 covInv0 fun obj _ => loopDecided_full _ _ _ _ _ ?_ _ _
  unfold cellH
  rw [one_mul]
  have := pyRound_int (n : ℤ)
  push_cast at this
  rw [this]
  simp

/-! ## A tie -/

/-- The values -1 and 1, equally far from 0. -/
noncomputable def c203Tie : Cells 2 1 := ![![some (-1)], ![some 1]]

theorem goodCells_tie {d : WithTop (WithTop ℝ)} {q : ℝ} (hq : ¬ d ≤ ((q : WithTop ℝ) : WithTop (WithTop ℝ))) :
    goodCells (n := 2) (fun _ => d) q 1 = [0] := by
  have e : List.finRange 2 = [0, 1] := rfl
  have h2 : (List.finRange 2).mergeSort (fun _ _ => decide (d ≤ d)) = List.finRange 2 :=
    List.mergeSort_of_pairwise (by rw [e]; simp)
  unfold goodCells
  simp only [decide_eq_false hq]
  rw [if_pos (by simp), h2, e]
  rfl

theorem c203_update {X : Cells 2 1} (hX : ∀ i, X i 0 = some (-1) ∨ X i 0 = some 1) (W : CellFlags 2 1) :
    updateW X 1 1 0 (fun _ => -100) 1 W = .ok fun i _ => decide (i = 0) := by
  have hd : ∀ i, deltaCell X W 1 1 0 0 i = .ok (((1 + Real.log (2 * Real.pi) : ℝ) : WithTop ℝ) : WithTop (WithTop ℝ)) := by
    intro i
    unfold deltaCell
    rcases hX i with h | h <;> simp only [h] <;> rw [if_neg (by rintro ⟨k, hk⟩; fin_cases k; simp at hk)] <;> simp
  have hlog : 0 ≤ Real.log (2 * Real.pi) := Real.log_nonneg (by nlinarith [Real.pi_gt_three])
  have hq : ¬ (((1 + Real.log (2 * Real.pi) : ℝ) : WithTop ℝ) : WithTop (WithTop ℝ)) ≤ (((-100 : ℝ) : WithTop ℝ) : WithTop (WithTop ℝ)) := by
    rw [WithTop.coe_le_coe, WithTop.coe_le_coe]
    linarith
  have ho : columnOrder W = [0] := by
    unfold columnOrder
    have e : List.finRange 1 = [0] := rfl
    rw [e, List.mergeSort_singleton]
  unfold updateW
  rw [ho]
  unfold updateColumns updateColumn
  rw [collect_ok hd]
  simp only [Except.map, Except.bind, updateColumns, goodCells_tie hq, Except.ok.injEq]
  funext i k
  have : k = 0 := Subsingleton.elim _ _
  simp [this]

/-- Why the condition on ties is needed: if one of the two cells is to be clean, the first one is chosen, in both orders of the rows. -/
theorem C203_tie : updateW (Spec.rowsBy (Equiv.swap 0 1) c203Tie) 1 1 0 (fun _ => -100) 1 (initialW (Spec.rowsBy (Equiv.swap 0 1) c203Tie)) ≠
    (updateW c203Tie 1 1 0 (fun _ => -100) 1 (initialW c203Tie)).map (Spec.rowsBy (Equiv.swap 0 1)) := by
  rw [c203_update (fun i => by fin_cases i <;> simp [c203Tie, Spec.rowsBy]),
    c203_update (fun i => by fin_cases i <;> simp [c203Tie])]
  intro h
  have := congrFun (congrFun (Except.ok.inj h) 0) 0
  simp [Spec.rowsBy] at this

/-! ## Examples -/

/-- One column with the values 0, 1 and 5. -/
noncomputable def c203Cells : Cells 3 1 := ![![some 0], ![some 1], ![some 5]]

/-- Two of three cells are to be clean and none is below the threshold: the two smallest are determined. -/
example : Spec.updateDecided c203Cells 1 1 0 (fun _ => -100) 2 [0] (initialW c203Cells) := by
  refine ⟨fun delta hdelta => .inr (.inr ⟨(((1 + Real.log (2 * Real.pi) : ℝ) : WithTop ℝ) : WithTop (WithTop ℝ)), ?_⟩), fun _ _ => trivial⟩
  have key : ∀ (i : Fin 3) (x : ℝ), c203Cells i 0 = some x → delta i = (((x ^ 2 + Real.log (2 * Real.pi) : ℝ) : WithTop ℝ) : WithTop (WithTop ℝ)) := by
    intro i x hx
    have h := hdelta i
    unfold deltaCell at h
    simp only [hx] at h
    rw [if_neg (by rintro ⟨k, hk⟩; fin_cases k; simp at hk)] at h
    have := Except.ok.inj h
    rw [← this]
    simp
  have h0 := key 0 0 rfl
  have h1 := key 1 1 rfl
  have h2 := key 2 5 rfl
  have e : List.finRange 3 = [0, 1, 2] := rfl
  unfold Spec.atMost
  rw [e]
  simp only [List.countP_cons, List.countP_nil, h0, h1, h2, WithTop.coe_le_coe, add_le_add_iff_right]
  norm_num

/-- C203 for a fit with `alpha = 1`, ten rows in reverse order, a fixed scaler and start. -/
example (env : CellEnv 2) (cfg : CellConfig) (X : Cells 10 2) :
    let ext : CellExt 2 := { est := fun _ => .ok (0, 1), ddcw := fun _ _ _ => .ok (0, 1, 1) }
    (cellFit env ext cfg ⟨1, none⟩ (Spec.rowsBy Fin.revPerm X)).1 = (cellFit env ext cfg ⟨1, none⟩ X).1.map (Spec.resultBy Fin.revPerm) := by
  intro ext
  refine (C203_fit Fin.revPerm env ext cfg ⟨1, none⟩ X (fun _ _ _ => rfl) fun a ha ls _ => ⟨rfl, fun init _ obj _ => ?_⟩).1
  have ha1 : a = 1 := by
    unfold cellAlpha at ha
    rw [if_pos (by norm_num)] at ha
    rw [← Except.ok.inj ha]
    norm_num
  subst ha1
  refine loopDecided_full _ _ _ _ _ ?_ _ _
  unfold cellH
  have := pyRound_int (10 : ℤ)
  push_cast at this
  norm_num [this]

end Robpy
