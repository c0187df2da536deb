import Verif.Lemmas.CellMCD

/-! Lemmas about `Verif.Model.CellMCD`: the chain rule for the Gaussian terms, conditional means and
variances, the update of one column of the flag matrix. -/

namespace Robpy
open Matrix

section
variable {p : ℕ}

/-- The positions of a pattern with one more position. -/
noncomputable def insertEquiv (w : Fin p → Bool) {j : Fin p} (hj : w j = false) :
    {k // w k = true} ⊕ Unit ≃ {k // Function.update w j true k = true} :=
  Equiv.ofBijective
    (Sum.elim (fun k => ⟨k.1, by
        rw [Function.update_of_ne]
        · exact k.2
        · intro h; have := k.2; rw [h, hj] at this; simp at this⟩)
      fun _ => ⟨j, by rw [Function.update_self]⟩) (by
    constructor
    · rintro (⟨a, ha⟩ | a) (⟨b, hb⟩ | b) h
      · simp only [Sum.elim_inl, Subtype.mk.injEq] at h; subst h; rfl
      · simp only [Sum.elim_inl, Sum.elim_inr, Subtype.mk.injEq] at h
        rw [h, hj] at ha; simp at ha
      · simp only [Sum.elim_inl, Sum.elim_inr, Subtype.mk.injEq] at h
        rw [← h, hj] at hb; simp at hb
      · rfl
    · rintro ⟨k, hk⟩
      by_cases h : k = j
      · subst h; exact ⟨Sum.inr (), rfl⟩
      · exact ⟨Sum.inl ⟨k, by rwa [Function.update_of_ne h] at hk⟩, rfl⟩)

theorem insertEquiv_inl (w : Fin p → Bool) {j : Fin p} (hj : w j = false) (k : {k // w k = true}) :
    (insertEquiv w hj (Sum.inl k)).1 = k.1 := rfl

theorem insertEquiv_inr (w : Fin p → Bool) {j : Fin p} (hj : w j = false) (u : Unit) :
    (insertEquiv w hj (Sum.inr u)).1 = j := rfl

/-- The inverse of the block of a pattern. -/
noncomputable abbrev blockInv (S : Matrix (Fin p) (Fin p) ℝ) (w : Fin p → Bool) :
    Matrix {j // w j = true} {j // w j = true} ℝ := (S.submatrix (fun j => j.1) fun j => j.1)⁻¹

theorem symm_apply {S : Matrix (Fin p) (Fin p) ℝ} (hS : S.PosDef) (i j : Fin p) : S i j = S j i := by
  have := congrFun (congrFun (symm_of_posDef hS) j) i
  exact this

/-- Chain rule: adding coordinate `j` to a pattern adds the term of its conditional density. -/
theorem negTwoLogLik_insert {S : Matrix (Fin p) (Fin p) ℝ} (hS : S.PosDef) (mu x : Fin p → ℝ)
    (w : Fin p → Bool) {j : Fin p} (hj : w j = false) :
    0 < regVar S (blockInv S w) j ∧
    Spec.negTwoLogLik S mu x (Function.update w j true) =
      Spec.negTwoLogLik S mu x w +
        ((x j - regress mu S (blockInv S w) (fun k => x k.1) j) ^ 2 / regVar S (blockInv S w) j +
          Real.log (regVar S (blockInv S w) j) + Real.log (2 * Real.pi)) := by
  set w1 := Function.update w j true with hw1
  set e := insertEquiv w hj with he
  set T := S.submatrix (fun k : {k // w1 k = true} => k.1) (fun k : {k // w1 k = true} => k.1) with hT
  have hTp : T.PosDef := hS.submatrix Subtype.val_injective
  have key := add_coordinate e hTp (fun k => x k.1 - mu k.1)
  simp only at key
  obtain ⟨k1, k2, k3, -⟩ := key
  have hTl : T.submatrix (e ∘ Sum.inl) (e ∘ Sum.inl) =
      S.submatrix (fun k : {k // w k = true} => k.1) fun k => k.1 := rfl
  have hTb : (fun k : {k // w k = true} => T (e (Sum.inl k)) (e (Sum.inr ()))) = fun k => S k.1 j := rfl
  have hTj : T (e (Sum.inr ())) (e (Sum.inr ())) = S j j := rfl
  rw [hTl, hTb, hTj] at k1 k2
  rw [hTl, hTb, hTj] at k3
  have hrv : regVar S (blockInv S w) j = S j j - ((fun k : {k // w k = true} => S k.1 j) ᵥ*
      (blockInv S w)) ⬝ᵥ fun k => S k.1 j := by
    unfold regVar
    have : (fun k : {k // w k = true} => S j k.1) = fun k => S k.1 j := by
      funext k; exact symm_apply hS _ _
    rw [this]
  rw [← hrv] at k1 k2 k3
  refine ⟨k1, ?_⟩
  have hzl : (fun k : {k // w1 k = true} => x k.1 - mu k.1) ∘ e ∘ Sum.inl =
      fun k : {k // w k = true} => x k.1 - mu k.1 := rfl
  have hzj : x (e (Sum.inr ())).1 - mu (e (Sum.inr ())).1 = x j - mu j := rfl
  rw [hzl, hzj, quadForm_eq, quadForm_eq] at k2
  have hcard : Fintype.card {k // w1 k = true} = Fintype.card {k // w k = true} + 1 := by
    rw [← Fintype.card_congr e, Fintype.card_sum, Fintype.card_unit]
  unfold Spec.negTwoLogLik
  simp only
  rw [k2, k3, hcard]
  unfold regress
  push_cast
  ring

theorem sum_pattern (P : Fin p → Bool) (f : Fin p → ℝ) (g : {k // P k = true} → ℝ) :
    ∑ k, f k * (if h : P k = true then g ⟨k, h⟩ else 0) = ∑ k : {k // P k = true}, f k.1 * g k := by
  rw [← Fintype.sum_subtype_add_sum_subtype (fun k => P k = true)]
  have h2 : ∑ k : {k // ¬ P k = true}, f k.1 * (if h : P k.1 = true then g ⟨k.1, h⟩ else 0) = 0 :=
    Finset.sum_eq_zero fun k _ => by rw [dif_neg k.2, mul_zero]
  rw [h2, add_zero]
  exact Finset.sum_congr rfl fun k _ => by rw [dif_pos k.2]

/-- The numbers computed by the code are the conditional mean and variance. -/
theorem regress_isConditional {S : Matrix (Fin p) (Fin p) ℝ} (hS : S.PosDef) (mu x : Fin p → ℝ)
    (P : Fin p → Bool) (j : Fin p) :
    Spec.IsConditional S mu x P j (regress mu S (blockInv S P) (fun k => x k.1) j)
      (regVar S (blockInv S P) j) := by
  set A := S.submatrix (fun k : {k // P k = true} => k.1) (fun k : {k // P k = true} => k.1) with hA
  have hAp : A.PosDef := hS.submatrix Subtype.val_injective
  set s : {k // P k = true} → ℝ := fun k => S k.1 j with hs
  refine ⟨fun k => if h : P k = true then (A⁻¹ *ᵥ s) ⟨k, h⟩ else 0, ?_, ?_, ?_, ?_⟩
  · intro k hk
    exact dif_neg (by rw [hk]; simp)
  · intro k hk
    rw [sum_pattern P (fun l => S k l)]
    have : (A *ᵥ (A⁻¹ *ᵥ s)) ⟨k, hk⟩ = s ⟨k, hk⟩ := by
      rw [Matrix.mulVec_mulVec, Matrix.mul_nonsing_inv _ hAp.det_pos.ne'.isUnit, Matrix.one_mulVec]
    exact this
  · unfold regress
    congr 1
    have := sum_pattern P (fun k => x k - mu k) (A⁻¹ *ᵥ s)
    simp only [mul_comm (dite _ _ _)]
    rw [this, ← Matrix.dotProduct_mulVec]
    rfl
  · unfold regVar
    congr 1
    have := sum_pattern P (fun k => S k j) (A⁻¹ *ᵥ s)
    simp only [mul_comm (dite _ _ _)]
    rw [this, ← Matrix.dotProduct_mulVec]
    refine Finset.sum_congr rfl fun k _ => ?_
    simp only
    rw [symm_apply hS]

/-- Without any given coordinate the conditional mean and variance are the marginal ones. -/
theorem regress_empty (S : Matrix (Fin p) (Fin p) ℝ) (mu : Fin p → ℝ) (P : Fin p → Bool)
    (hP : ¬ ∃ k, P k = true) (R : Matrix {k // P k = true} {k // P k = true} ℝ) (y : {k // P k = true} → ℝ)
    (j : Fin p) : regress mu S R y j = mu j ∧ regVar S R j = S j j := by
  haveI : IsEmpty {k // P k = true} := ⟨fun k => hP ⟨k.1, k.2⟩⟩
  unfold regress regVar
  simp [dotProduct]

end

/-- For a present cell, `delta` is the increase of the Gaussian terms when the cell is set to 1. -/
theorem deltaCell_eq {n p : ℕ} {X : Cells n p} {W : CellFlags n p} {S : Matrix (Fin p) (Fin p) ℝ}
    (hS : S.PosDef) (mu : Fin p → ℝ) (hW : Spec.NoMissing X W) {j : Fin p} {i : Fin n} (hx : X i j ≠ none) :
    deltaCell X W S S⁻¹ mu j i = .ok (((
      Spec.negTwoLogLik S mu (fun k => (X i k).getD 0) (Function.update (W i) j true) -
      Spec.negTwoLogLik S mu (fun k => (X i k).getD 0) (Function.update (W i) j false) : ℝ) : WithTop ℝ) :
        WithTop (WithTop ℝ)) := by
  obtain ⟨x, hx⟩ := Option.ne_none_iff_exists'.1 hx
  set w0 := Function.update (W i) j false with hw0
  have hj : w0 j = false := by rw [hw0, Function.update_self]
  have hup : Function.update (W i) j true = Function.update w0 j true := by rw [hw0, Function.update_idem]
  obtain ⟨h1, h2⟩ := negTwoLogLik_insert hS mu (fun k => (X i k).getD 0) w0 hj
  have hobs : obsVals (X i) w0 = some fun k => (X i k.1).getD 0 := by
    refine obsVals_some fun k hk => hW i k ?_
    by_cases h : k = j
    · rw [h, hj] at hk; simp at hk
    · rwa [hw0, Function.update_of_ne h] at hk
  have hxj : (X i j).getD 0 = x := by rw [hx]; rfl
  rw [hup, h2, hxj, add_sub_cancel_left]
  unfold deltaCell
  rw [hx]
  simp only
  rw [← hw0]
  split_ifs with hne
  · rw [patInv_eq hS, hobs]
    rfl
  · obtain ⟨e1, e2⟩ := regress_empty S mu w0 hne (blockInv S w0) (fun k => (X i k.1).getD 0) j
    rw [e1, e2]

theorem deltaCell_missing {n p : ℕ} {X : Cells n p} {W : CellFlags n p} {S Sinv : Matrix (Fin p) (Fin p) ℝ}
    {mu : Fin p → ℝ} {j : Fin p} {i : Fin n} (hx : X i j = none) :
    deltaCell X W S Sinv mu j i = .ok ((⊤ : WithTop ℝ) : WithTop (WithTop ℝ)) := by
  unfold deltaCell
  rw [hx]

/-! ## The choice of the cells of one column -/

/-- The values of one column: `d` at the rows marked by `fin`, `inf` elsewhere. -/
noncomputable def colDelta {n : ℕ} (fin : Fin n → Bool) (d : Fin n → ℝ) (i : Fin n) : WithTop (WithTop ℝ) :=
  if fin i = true then ((d i : WithTop ℝ) : WithTop (WithTop ℝ)) else ((⊤ : WithTop ℝ) : WithTop (WithTop ℝ))

theorem colDelta_le {n : ℕ} {fin : Fin n → Bool} {d : Fin n → ℝ} {i : Fin n} {q : ℝ} :
    colDelta fin d i ≤ ((q : WithTop ℝ) : WithTop (WithTop ℝ)) ↔ fin i = true ∧ d i ≤ q := by
  unfold colDelta
  split_ifs with h
  · simp [h]
  · simp [h]

theorem colDelta_mono {n : ℕ} {fin : Fin n → Bool} {d : Fin n → ℝ} {i k : Fin n} (hi : fin i = true)
    (hk : fin k = true) : colDelta fin d i ≤ colDelta fin d k ↔ d i ≤ d k := by
  unfold colDelta
  rw [if_pos hi, if_pos hk]
  simp

/-- What the sorted branch selects: `h` rows, all finite, such that every finite row that is left out has a
value at least as large as every selected one. -/
theorem sortedTake {n : ℕ} (fin : Fin n → Bool) (d : Fin n → ℝ) {h : ℕ}
    (hh : h ≤ (Finset.univ.filter fun i => fin i = true).card) :
    let l := ((List.finRange n).mergeSort fun a b => decide (colDelta fin d a ≤ colDelta fin d b)).take h
    l.length = h ∧ l.Nodup ∧ (∀ i ∈ l, fin i = true) ∧ ∀ i ∈ l, ∀ k, k ∉ l → fin k = true → d i ≤ d k := by
  intro l
  set s := (List.finRange n).mergeSort fun a b => decide (colDelta fin d a ≤ colDelta fin d b) with hs
  have hperm : s.Perm (List.finRange n) := List.mergeSort_perm _ _
  have hnd : s.Nodup := hperm.nodup_iff.2 (List.nodup_finRange n)
  have hsort : s.Pairwise fun a b => colDelta fin d a ≤ colDelta fin d b := by
    have := List.pairwise_mergeSort (le := fun a b => decide (colDelta fin d a ≤ colDelta fin d b))
      (fun a b c h1 h2 => by
        rw [decide_eq_true_eq] at *; exact le_trans h1 h2)
      (fun a b => by
        rw [Bool.or_eq_true, decide_eq_true_eq, decide_eq_true_eq]; exact le_total _ _) (List.finRange n)
    exact this.imp fun h => by simpa using h
  have hle : h ≤ n := hh.trans (by simpa using Finset.card_filter_le (Finset.univ : Finset (Fin n)) _)
  have hlen : s.length = n := by rw [hperm.length_eq, List.length_finRange]
  have hl : l.length = h := by
    show (s.take h).length = h
    rw [List.length_take, hlen, min_eq_left hle]
  have hsplit : ∀ i ∈ l, ∀ k, k ∉ l → colDelta fin d i ≤ colDelta fin d k := by
    intro i hi k hk
    have hks : k ∈ s := hperm.mem_iff.2 (List.mem_finRange k)
    rw [← List.take_append_drop h s] at hks hsort
    have hkd : k ∈ s.drop h := by
      rcases List.mem_append.1 hks with h1 | h1
      · exact absurd h1 hk
      · exact h1
    exact (List.pairwise_append.1 hsort).2.2 i hi k hkd
  have hlnd : l.Nodup := hnd.sublist (List.take_sublist _ _)
  have hfin : ∀ i ∈ l, fin i = true := by
    intro i hi
    by_contra hne
    -- every finite row is selected, together with `i`
    have hall : ∀ k, fin k = true → k ∈ l := by
      intro k hk
      by_contra hkl
      have := hsplit i hi k hkl
      unfold colDelta at this
      rw [if_neg hne, if_pos hk] at this
      simp at this
    have hsub : insert i (Finset.univ.filter fun k => fin k = true) ⊆ l.toFinset := by
      intro k hk
      rw [Finset.mem_insert, Finset.mem_filter] at hk
      rw [List.mem_toFinset]
      rcases hk with rfl | ⟨-, hk⟩
      · exact hi
      · exact hall k hk
    have hcard := Finset.card_le_card hsub
    rw [Finset.card_insert_of_notMem (by simpa using hne), List.toFinset_card_of_nodup hlnd, hl] at hcard
    omega
  refine ⟨hl, hlnd, hfin, fun i hi k hk hfk => (colDelta_mono (hfin i hi) hfk).1 (hsplit i hi k hk)⟩

/-- The new column: no missing cell, at least `h` cells, and no other admissible column has a smaller sum of
`d` over the selected and `q` over the other cells. -/
theorem goodCells_optimal {n : ℕ} (fin : Fin n → Bool) (d : Fin n → ℝ) (q : ℝ) {h : ℕ}
    (hh : h ≤ (Finset.univ.filter fun i => fin i = true).card) :
    (∀ i ∈ goodCells (colDelta fin d) q h, fin i = true) ∧
    h ≤ (Finset.univ.filter fun i => i ∈ goodCells (colDelta fin d) q h).card ∧
    ∀ T : Fin n → Bool, (∀ i, T i = true → fin i = true) → h ≤ (Finset.univ.filter fun i => T i = true).card →
      ∑ i, (if i ∈ goodCells (colDelta fin d) q h then d i else q) ≤ ∑ i, if T i = true then d i else q := by
  set good := (List.finRange n).filter fun i =>
    decide (colDelta fin d i ≤ ((q : WithTop ℝ) : WithTop (WithTop ℝ))) with hgood
  have hmem : ∀ i, i ∈ good ↔ fin i = true ∧ d i ≤ q := fun i => by
    rw [hgood, List.mem_filter, decide_eq_true_eq, colDelta_le]
    simp
  have hgnd : good.Nodup := (List.nodup_finRange n).filter _
  have hdef : goodCells (colDelta fin d) q h = if good.length < h then
      ((List.finRange n).mergeSort fun a b => decide (colDelta fin d a ≤ colDelta fin d b)).take h else good := rfl
  by_cases hlt : good.length < h
  · rw [if_pos hlt] at hdef
    obtain ⟨hl, hnd, hf, hd⟩ := sortedTake fin d hh
    rw [← hdef] at hl hnd hf hd
    set G := goodCells (colDelta fin d) q h
    have hcardG : (Finset.univ.filter fun i => i ∈ G).card = h := by
      have : (Finset.univ.filter fun i => i ∈ G) = G.toFinset := by
        ext i; rw [Finset.mem_filter, List.mem_toFinset]; simp
      rw [this, List.toFinset_card_of_nodup hnd, hl]
    refine ⟨hf, hcardG.ge, fun T hT hTc => ?_⟩
    -- some selected row has a value above `q`
    have hex : ∃ i ∈ G, q < d i := by
      by_contra hcon
      push Not at hcon
      have hsub : G.toFinset ⊆ good.toFinset := by
        intro i hi
        rw [List.mem_toFinset] at hi ⊢
        exact (hmem i).2 ⟨hf i hi, hcon i hi⟩
      have := Finset.card_le_card hsub
      rw [List.toFinset_card_of_nodup hnd, List.toFinset_card_of_nodup hgnd, hl] at this
      omega
    obtain ⟨m, hmG, hmax⟩ := Finset.exists_max_image G.toFinset d
      (by obtain ⟨i, hi, -⟩ := hex; exact ⟨i, List.mem_toFinset.2 hi⟩)
    rw [List.mem_toFinset] at hmG
    have hmq : q < d m := by
      obtain ⟨i, hi, hlt⟩ := hex
      exact lt_of_lt_of_le hlt (hmax i (List.mem_toFinset.2 hi))
    -- compare the difference term by term
    have hterm : ∀ i, (if i ∈ G then d i else q) - (if T i = true then d i else q) ≤
        (d m - q) * ((if i ∈ G then 1 else 0) - if T i = true then 1 else 0) := by
      intro i
      by_cases h1 : i ∈ G <;> by_cases h2 : T i = true
      · rw [if_pos h1, if_pos h2, if_pos h1, if_pos h2]; simp
      · rw [if_pos h1, if_neg h2, if_pos h1, if_neg h2]
        have := hmax i (List.mem_toFinset.2 h1)
        linarith
      · rw [if_neg h1, if_pos h2, if_neg h1, if_pos h2]
        have := hd m hmG i h1 (hT i h2)
        linarith
      · rw [if_neg h1, if_neg h2, if_neg h1, if_neg h2]; simp
    have hsum := Finset.sum_le_sum fun i (_ : i ∈ Finset.univ) => hterm i
    rw [Finset.sum_sub_distrib, ← Finset.mul_sum, Finset.sum_sub_distrib, Finset.sum_boole, Finset.sum_boole,
      hcardG] at hsum
    have hc : (h : ℝ) ≤ ((Finset.univ.filter fun i => T i = true).card : ℝ) := by exact_mod_cast hTc
    have : (d m - q) * ((h : ℝ) - ((Finset.univ.filter fun i => T i = true).card : ℝ)) ≤ 0 :=
      mul_nonpos_of_nonneg_of_nonpos (by linarith) (by linarith)
    linarith
  · rw [if_neg hlt] at hdef
    rw [hdef]
    refine ⟨fun i hi => ((hmem i).1 hi).1, ?_, fun T hT _ => ?_⟩
    · have : (Finset.univ.filter fun i => i ∈ good) = good.toFinset := by
        ext i; rw [Finset.mem_filter, List.mem_toFinset]; simp
      rw [this, List.toFinset_card_of_nodup hgnd]
      omega
    · refine Finset.sum_le_sum fun i _ => ?_
      by_cases h1 : i ∈ good <;> by_cases h2 : T i = true
      · rw [if_pos h1, if_pos h2]
      · rw [if_pos h1, if_neg h2]; exact ((hmem i).1 h1).2
      · rw [if_neg h1, if_pos h2]
        by_contra hcon
        exact h1 ((hmem i).2 ⟨hT i h2, (not_le.1 hcon).le⟩)
      · rw [if_neg h1, if_neg h2]

end Robpy
