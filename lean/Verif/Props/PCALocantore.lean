import Verif.Props.PCAFit
import Verif.Props.LinAlg
import Verif.Lemmas.Median
import Mathlib.Data.Fin.Tuple.Sort

/-! The contract of `eigh` can be met; concrete runs of `PCALocantore`. -/

namespace Robpy
open Matrix

variable {p : ℕ}

theorem symLower_isSymm (A : Matrix (Fin p) (Fin p) ℝ) : (symLower A).IsSymm := by
  ext i j
  simp only [symLower, Matrix.transpose_apply]
  rcases lt_trichotomy i j with h | h | h
  · rw [if_pos h.le, if_neg (not_le.2 h)]
  · rw [h]
  · rw [if_neg (not_le.2 h), if_pos h.le]

theorem symLower_diagonal (d : Fin p → ℝ) : symLower (Matrix.diagonal d) = Matrix.diagonal d := by
  ext i j
  simp only [symLower]
  split_ifs with h
  · rfl
  · rw [Matrix.diagonal_apply_ne' _ (by rintro rfl; exact h le_rfl), Matrix.diagonal_apply_ne _ (by rintro rfl; exact h le_rfl)]

/-- The contract of `eigh` can be met for every matrix: the spectral theorem and sorting. -/
noncomputable def eighSorted (A : Matrix (Fin p) (Fin p) ℝ) : EighAsc A :=
  let E := eighSpectral (symLower A) (symLower_isSymm A)
  { w := E.w ∘ Tuple.sort E.w
    V := E.V.submatrix id (Tuple.sort E.w)
    orth := by
      rw [Matrix.transpose_submatrix, ← Matrix.submatrix_mul _ _ _ id _ Function.bijective_id, E.orth]
      ext i j
      simp [Matrix.one_apply]
    decomp := by
      rw [← Matrix.submatrix_diagonal_equiv, Matrix.submatrix_mul_equiv, Matrix.transpose_submatrix, Matrix.submatrix_mul_equiv]
      simp only [Matrix.submatrix_id_id]
      exact E.decomp
    mono := Tuple.monotone_sort E.w }

/-- An `eigh` which returns the unit vectors for a diagonal matrix with increasing entries. -/
noncomputable def eighDiag (A : Matrix (Fin p) (Fin p) ℝ) : EighAsc A :=
  open Classical in
  if h : ∃ d, Monotone d ∧ symLower A = Matrix.diagonal d then
    { w := h.choose, V := 1, orth := by simp, decomp := by simpa using h.choose_spec.2, mono := h.choose_spec.1 }
  else eighSorted A

theorem eighDiag_eq {A : Matrix (Fin p) (Fin p) ℝ} {d : Fin p → ℝ} (hd : Monotone d) (hA : A = Matrix.diagonal d) :
    (eighDiag A).V = 1 ∧ (eighDiag A).w = d := by
  subst hA
  have h : ∃ e, Monotone e ∧ symLower (Matrix.diagonal d) = Matrix.diagonal e := ⟨d, hd, symLower_diagonal d⟩
  unfold eighDiag
  rw [dif_pos h]
  refine ⟨rfl, ?_⟩
  have := (symLower_diagonal d).symm.trans h.choose_spec.2
  exact (Matrix.diagonal_injective this).symm

/-- If the mean is 0, no observation is 0 and the unit vectors towards the observations cancel, `l1median` returns 0. -/
theorem l1_zero {eps : ℝ} (heps : 0 < eps) (X : List (Fin p → ℝ)) (hX : X ≠ []) (h0 : meanRow X = 0) (hm : (0 : Fin p → ℝ) ∉ X)
    (hs : ∀ j, (X.map fun x => x j * (1 / rowDist x 0) / l1WeightSum X 0).sum = 0) (n : ℕ) :
    l1median eps X (n + 1) = some (.ok 0) := by
  have hn : l1Next X (some 0) = some 0 := by
    rw [l1Next_of_not_mem hm]
    congr 1
    funext j
    exact hs j
  unfold l1median
  rw [if_neg hX, h0, runLoop]
  simp [l1Step, hn, heps]

/-! ## Boxes -/

/-- The four corners of a box. -/
def box (a b : ℝ) : List (Fin 2 → ℝ) := [![a, b], ![a, -b], ![-a, b], ![-a, -b]]

theorem rowDist_zero_two (u v : ℝ) : rowDist ![u, v] 0 = Real.sqrt (u * u + v * v) := by
  simp [rowDist, Fin.sum_univ_two]

theorem median_sym4 (a : ℝ) (ha : 0 < a) (l : List ℝ) (hl : l.Perm [-a, -a, a, a]) : npMedian l = some 0 ∧ madRaw l = some a := by
  have h1 : npMedian l = some 0 := by
    rw [npMedian_eq_some_iff]
    refine ⟨-a, a, ?_, ?_, by ring⟩
    · have := hl.length_eq
      simp only [Spec.IsKthSmallest, hl.countP_eq, this]
      have h2 : ¬ a < -a := by linarith
      have h3 : ¬ a ≤ -a := by linarith
      simp [List.countP_cons, h2, h3]
    · have := hl.length_eq
      simp only [Spec.IsKthSmallest, hl.countP_eq, this]
      have h2 : -a < a := by linarith
      have h3 : -a ≤ a := by linarith
      simp [List.countP_cons, h2, h3]
  refine ⟨h1, ?_⟩
  unfold madRaw
  rw [h1]
  simp only [sub_zero]
  have hp : (l.map fun x => |x|).Perm [a, a, a, a] := by
    have := hl.map fun x => |x|
    simpa [abs_of_pos ha] using this
  rw [npMedian_eq_some_iff]
  refine ⟨a, a, ?_, ?_, by ring⟩ <;>
  · have := hp.length_eq
    simp only [Spec.IsKthSmallest, hp.countP_eq, this]
    simp [List.countP_cons]

theorem box_l1 {eps a b : ℝ} (heps : 0 < eps) (ha : 0 < a) (n : ℕ) : l1median eps (box a b) (n + 1) = some (.ok 0) := by
  refine l1_zero heps _ (by simp [box]) ?_ ?_ ?_ n
  · funext j
    fin_cases j <;> simp [meanRow, mean, box]
  · simp only [box, List.mem_cons, List.not_mem_nil, or_false, not_or]
    refine ⟨?_, ?_, ?_, ?_⟩ <;> intro h <;> have := congrFun h 0 <;> simp at this <;> linarith
  · intro j
    fin_cases j <;> simp [box, rowDist_zero_two] <;> ring

theorem box_cov {a b : ℝ} (ha : 0 < a) : spatialSignCov (box a b) 0 =
    Matrix.diagonal ![a ^ 2 / (a ^ 2 + b ^ 2), b ^ 2 / (a ^ 2 + b ^ 2)] := by
  have hpos : 0 < a ^ 2 + b ^ 2 := by positivity
  have hs : Real.sqrt (a * a + b * b) ^ 2 = a ^ 2 + b ^ 2 := by rw [Real.sq_sqrt (by nlinarith)]; ring
  have hne : Real.sqrt (a * a + b * b) ≠ 0 := by
    intro h; rw [h] at hs; simp at hs; linarith
  have h4 : a * (Real.sqrt (a * a + b * b))⁻¹ * (a * (Real.sqrt (a * a + b * b))⁻¹) = a ^ 2 / (a ^ 2 + b ^ 2) := by
    rw [← hs]; field_simp
  have h5 : b * (Real.sqrt (a * a + b * b))⁻¹ * (b * (Real.sqrt (a * a + b * b))⁻¹) = b ^ 2 / (a ^ 2 + b ^ 2) := by
    rw [← hs]; field_simp
  ext i j
  fin_cases i <;> fin_cases j <;> simp [spatialSignCov, box, rowDist_zero_two, h4, h5] <;> ring

theorem colsOf_one_two : (colsOf (1 : Matrix (Fin 2) (Fin 2) ℝ)).reverse = [![0, 1], ![1, 0]] := by
  have h1 : (fun j => (1 : Matrix (Fin 2) (Fin 2) ℝ) j 0) = ![1, 0] := by funext j; fin_cases j <;> rfl
  have h2 : (fun j => (1 : Matrix (Fin 2) (Fin 2) ℝ) j 1) = ![0, 1] := by funext j; fin_cases j <;> rfl
  simp [colsOf, List.finRange_succ, h1, h2]

theorem box_mads {a b c : ℝ} (ha : 0 < a) (hb : 0 < b) :
    madVariances c (box a b) 0 [![0, 1], ![1, 0]] = [(c * b) ^ 2, (c * a) ^ 2] := by
  have h1 := (median_sym4 b hb [b, -b, b, -b] (by
    refine (List.Perm.swap _ _ _).trans (List.Perm.cons _ ?_)
    refine (List.perm_middle (l₁ := [b, b]) (l₂ := [])).trans ?_
    rfl)).2
  have h2 := (median_sym4 a ha [a, a, -a, -a] ((List.perm_append_comm (l₁ := [a, a]) (l₂ := [-a, -a])))).2
  simp [madVariances, box, Fin.sum_univ_two, h1, h2]

/-- PCALocantore on the corners of a box. -/
theorem box_fit {eps a b c thr : ℝ} (heps : 0 < eps) (ha : 0 < a) (hab : a ≤ b) (st : PCAState 2) (n : ℕ) :
    locantoreFit eps c thr eighDiag st (box a b) (n + 1) = some
      ((pickK st.nComponents thr [(c * b) ^ 2, (c * a) ^ 2]).map fun k =>
        { nComponents := some k, location_ := some (some 0), components_ := some ([![0, 1], ![1, 0]].take k),
          explainedVariance_ := some ([(c * b) ^ 2, (c * a) ^ 2].take k) }) := by
  have hV : (eighDiag (spatialSignCov (box a b) 0)).V = 1 := by
    refine (eighDiag_eq (d := ![a ^ 2 / (a ^ 2 + b ^ 2), b ^ 2 / (a ^ 2 + b ^ 2)]) ?_ (box_cov ha)).1
    intro i j hij
    have hpos : 0 < a ^ 2 + b ^ 2 := by positivity
    fin_cases i <;> fin_cases j <;> simp at hij ⊢
    gcongr
  have hmem : (0 : Fin 2 → ℝ) ∉ box a b := by
    simp only [box, List.mem_cons, List.not_mem_nil, or_false, not_or]
    refine ⟨?_, ?_, ?_, ?_⟩ <;> intro h <;> have := congrFun h 0 <;> simp at this <;> linarith
  unfold locantoreFit
  rw [box_l1 heps ha]
  simp only [Run.andThen, Option.some.injEq]
  unfold locantoreWith
  have hne : box a b ≠ [] := by simp [box]
  rw [if_neg (by simp [hmem, hne])]
  simp only [hV, colsOf_one_two, box_mads ha (ha.trans_le hab)]

/-! ## C94 -/

/-- **C94**, full statement for PCALocantore created with `n_components=None`: fitting on `B` after fitting on `A` gives the same as
fitting a new object on `B`. -/
def C94_statement : Prop :=
  ∀ (p : ℕ) (eps c thr : ℝ) (eigh : ∀ A : Matrix (Fin p) (Fin p) ℝ, EighAsc A) (st st1 : PCAState p)
    (A B : List (Fin p → ℝ)) (fuel fuel' : ℕ), 0 < eps → 0 < c → thr ≤ 1 → st.nComponents = none →
    locantoreFit eps c thr eigh st A fuel = some (.ok st1) →
    locantoreFit eps c thr eigh st1 B fuel' = locantoreFit eps c thr eigh st B fuel'

/-- **C94** is violated by the code: the number of components found for the first data set is used for the second. -/
theorem C94_violated : ¬ C94_statement := by
  intro h
  have hA := box_fit (eps := 1) (a := 1) (b := 10) (c := 1) (thr := 4 / 5) one_pos one_pos (by norm_num)
    ⟨none, none, none, none⟩ 0
  have hk1 : chooseK (4 / 5 : ℝ) [(1 * 10) ^ 2, (1 * 1) ^ 2] = .ok 1 := by
    norm_num [chooseK, cumsum, argmaxBool, ratioReaches, List.range_succ, Except.map, List.findIdx_cons]
    rw [if_neg (by simp)]
  have hk2 : chooseK (4 / 5 : ℝ) [(1 * 10) ^ 2, (1 * 9) ^ 2] = .ok 2 := by
    norm_num [chooseK, cumsum, argmaxBool, ratioReaches, List.range_succ, Except.map, List.findIdx_cons]
    rw [if_neg (by simp)]
  simp only [pickK, hk1, Except.map] at hA
  have := h 2 1 1 (4 / 5) eighDiag _ _ (box 1 10) (box 9 10) 1 1 one_pos one_pos (by norm_num) rfl hA
  rw [box_fit one_pos (by norm_num) (by norm_num), box_fit one_pos (by norm_num) (by norm_num)] at this
  simp only [pickK, hk2, Except.map] at this
  simp at this

/-- The hypotheses of `C92_locantore`, `C93_locantore_partial`, `C94_locantore_partial` and `C96_locantore` are met. -/
example : ∃ st', locantoreFit 1 1 (4 / 5) eighDiag ⟨some 1, none, none, none⟩ (box 1 2) 1 = some (.ok st') ∧
    st'.components_ = some [![0, 1]] ∧ st'.explainedVariance_ = some [4] := by
  rw [box_fit one_pos one_pos (by norm_num)]
  simp only [pickK, Except.map]
  exact ⟨_, rfl, by simp, by norm_num⟩

/-! ## C95 -/

/-- **C95**, full statement: the explained variances do not increase, for both estimators. -/
def C95_statement : Prop :=
  (∀ (p r : ℕ) (D : RobpcaDeps) (alpha thr : ℝ) (fin : Bool) (L : Matrix (Fin p) (Fin r) ℝ) (st st' : PCAState p)
    (X : List (Fin p → ℝ)), robpcaFit D alpha thr fin L st X = .ok st' →
    ∃ ev, st'.explainedVariance_ = some ev ∧ ev.Pairwise (· ≥ ·)) ∧
  ∀ (p : ℕ) (eps c thr : ℝ) (eigh : ∀ A : Matrix (Fin p) (Fin p) ℝ, EighAsc A) (st st' : PCAState p)
    (X : List (Fin p → ℝ)) (fuel : ℕ), 0 < eps → 0 < c →
    locantoreFit eps c thr eigh st X fuel = some (.ok st') → ∃ ev, st'.explainedVariance_ = some ev ∧ ev.Pairwise (· ≥ ·)

/-- A box and two points on the second axis close to the centre. -/
def hexagon : List (Fin 2 → ℝ) := [![0, 1], ![0, -1], ![10, 9], ![10, -9], ![-10, 9], ![-10, -9]]

theorem hexagon_l1 (n : ℕ) : l1median 1 hexagon (n + 1) = some (.ok 0) := by
  refine l1_zero one_pos _ (by simp [hexagon]) ?_ ?_ ?_ n
  · funext j
    fin_cases j <;> simp [meanRow, mean, hexagon]
  · simp only [hexagon, List.mem_cons, List.not_mem_nil, or_false, not_or]
    refine ⟨?_, ?_, ?_, ?_, ?_, ?_⟩ <;> intro h <;> have := congrFun h 1 <;> simp at this
  · intro j
    fin_cases j <;> simp [hexagon, rowDist_zero_two] <;> ring

theorem hexagon_cov : spatialSignCov hexagon 0 = Matrix.diagonal ![(400 / 181) / 6, (686 / 181) / 6] := by
  have hs : Real.sqrt (10 * 10 + 9 * 9) ^ 2 = 181 := by rw [Real.sq_sqrt (by norm_num)]; norm_num
  have h4 : (10 : ℝ) * (Real.sqrt (10 * 10 + 9 * 9))⁻¹ * (10 * (Real.sqrt (10 * 10 + 9 * 9))⁻¹) = 100 / 181 := by
    rw [← hs]; field_simp; norm_num
  have h5 : (9 : ℝ) * (Real.sqrt (10 * 10 + 9 * 9))⁻¹ * (9 * (Real.sqrt (10 * 10 + 9 * 9))⁻¹) = 81 / 181 := by
    rw [← hs]; field_simp; norm_num
  ext i j
  fin_cases i <;> fin_cases j <;> simp [spatialSignCov, hexagon, rowDist_zero_two, h4, h5] <;> ring

theorem median_six {x y : ℝ} (l m : List ℝ) (h1 : npMedian l = some 0) (hm : (l.map fun x => |x|) = m)
    (h2 : npMedian m = some ((x + y) / 2)) : madRaw l = some ((x + y) / 2) := by
  unfold madRaw
  rw [h1]
  simp only [sub_zero, hm, h2]

theorem hexagon_mads : madVariances 1 hexagon 0 [![0, 1], ![1, 0]] = [81, 100] := by
  have h1 : madRaw [(1:ℝ), -1, 9, -9, 9, -9] = some ((9 + 9) / 2) := by
    refine median_six _ [1, 1, 9, 9, 9, 9] ?_ (by norm_num) ?_
    · exact npMedian_eq_some_iff.2 ⟨-1, 1, by norm_num [Spec.IsKthSmallest, List.countP_cons],
        by norm_num [Spec.IsKthSmallest, List.countP_cons], by norm_num⟩
    · exact npMedian_eq_some_iff.2 ⟨9, 9, by norm_num [Spec.IsKthSmallest, List.countP_cons],
        by norm_num [Spec.IsKthSmallest, List.countP_cons], by norm_num⟩
  have h2 : madRaw [(0:ℝ), 0, 10, 10, -10, -10] = some ((10 + 10) / 2) := by
    refine median_six _ [0, 0, 10, 10, 10, 10] ?_ (by norm_num) ?_
    · exact npMedian_eq_some_iff.2 ⟨0, 0, by norm_num [Spec.IsKthSmallest, List.countP_cons],
        by norm_num [Spec.IsKthSmallest, List.countP_cons], by norm_num⟩
    · exact npMedian_eq_some_iff.2 ⟨10, 10, by norm_num [Spec.IsKthSmallest, List.countP_cons],
        by norm_num [Spec.IsKthSmallest, List.countP_cons], by norm_num⟩
  simp only [madVariances, hexagon, List.map_cons, List.map_nil, Fin.sum_univ_two, Pi.zero_apply, sub_zero,
    Matrix.cons_val_zero, Matrix.cons_val_one, mul_zero, mul_one, zero_add, add_zero, h1, h2, Option.getD_some]
  norm_num

/-- **C95** is violated by the code: PCALocantore orders the components by the spatial sign covariance but reports squared MADs. -/
theorem C95_violated : ¬ C95_statement := by
  intro h
  have hV : (eighDiag (spatialSignCov hexagon 0)).V = 1 := by
    refine (eighDiag_eq (d := ![(400 / 181) / 6, (686 / 181) / 6]) ?_ hexagon_cov).1
    intro i j hij
    fin_cases i <;> fin_cases j <;> simp at hij ⊢
    norm_num
  have hmem : (0 : Fin 2 → ℝ) ∉ hexagon := by
    simp only [hexagon, List.mem_cons, List.not_mem_nil, or_false, not_or]
    refine ⟨?_, ?_, ?_, ?_, ?_, ?_⟩ <;> intro h <;> have := congrFun h 1 <;> simp at this
  have hfit : locantoreFit 1 1 (4 / 5) eighDiag ⟨some 2, none, none, none⟩ hexagon 1 = some (.ok
      { nComponents := some 2, location_ := some (some 0), components_ := some [![0, 1], ![1, 0]],
        explainedVariance_ := some [81, 100] }) := by
    unfold locantoreFit
    rw [hexagon_l1]
    simp only [Run.andThen, Option.some.injEq]
    unfold locantoreWith
    have hne : hexagon ≠ [] := by simp [hexagon]
    rw [if_neg (by simp [hmem, hne])]
    simp only [hV, colsOf_one_two, hexagon_mads, pickK, Except.map]
    rfl
  obtain ⟨ev, h1, h2⟩ := h.2 2 1 1 (4 / 5) eighDiag _ _ hexagon 1 one_pos one_pos hfit
  obtain rfl := Option.some.inj h1
  norm_num at h2

end Robpy
