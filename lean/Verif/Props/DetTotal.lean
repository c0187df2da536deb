import Verif.Props.DetMCD
import Verif.Props.MCDPost
import Verif.Props.Covariance

/-! # DetMCD on data in general position (C132)

When no hyperplane contains more than `p` rows, and there are at least `4p - 3` rows, DetMCD returns a result exactly
when no row consists of the medians of the columns. -/

namespace Robpy
open Matrix

variable {p : ℕ}

/-- Specification: no hyperplane contains more than `p` rows. -/
def Spec.RowsInGeneralPosition (X : List (Fin p → ℝ)) : Prop :=
  ∀ v : Fin p → ℝ, v ≠ 0 → ∀ c : ℝ, (X.countP fun x => decide (x ⬝ᵥ v = c)) ≤ p

/-- Contract of what `DetMCD` takes from scipy: `scipy.linalg.sqrtm` returns a square root of a positive semidefinite
matrix, the normal quantile function is strictly increasing on (0, 1), the consistency constant of `Tau` is positive. -/
structure DetContract (env : DetEnv p) : Prop where
  sqrtm : ∀ A : Matrix (Fin p) (Fin p) ℝ, A.PosSemidef → env.sqrtm A * env.sqrtm A = A
  ppf : StrictMonoOn env.ppf (Set.Ioo 0 1)
  tau : 0 < env.tauCorr

/-! ## General position under changes of coordinates -/

theorem gp_vecMul {Z : List (Fin p → ℝ)} (h : Spec.RowsInGeneralPosition Z) {E : Matrix (Fin p) (Fin p) ℝ} (hE : E.det ≠ 0) :
    Spec.RowsInGeneralPosition (Z.map fun z => z ᵥ* E) := by
  intro v hv c
  rw [List.countP_map]
  have h0 : E *ᵥ v ≠ 0 := fun h0 => hv (Matrix.eq_zero_of_mulVec_eq_zero hE h0)
  have := h (E *ᵥ v) h0 c
  simpa [Function.comp_def, Matrix.dotProduct_mulVec] using this

theorem gp_std {Z : List (Fin p → ℝ)} (h : Spec.RowsInGeneralPosition Z) (m : Fin p → ℝ) {s : Fin p → ℝ}
    (hs : ∀ j, s j ≠ 0) : Spec.RowsInGeneralPosition (Z.map fun z j => (z j - m j) / s j) := by
  intro v hv c
  rw [List.countP_map]
  have h0 : (fun j => v j / s j) ≠ 0 := by
    intro h0
    refine hv (funext fun j => ?_)
    have := congrFun h0 j
    simpa [hs j] using this
  refine le_trans (le_of_eq ?_) (h (fun j => v j / s j) h0 (c + m ⬝ᵥ fun j => v j / s j))
  refine List.countP_congr fun z _ => ?_
  simp only [Function.comp, decide_eq_true_eq]
  have e : (fun j => (z j - m j) / s j) ⬝ᵥ v = (z ⬝ᵥ fun j => v j / s j) - m ⬝ᵥ fun j => v j / s j := by
    unfold dotProduct
    rw [← Finset.sum_sub_distrib]
    exact Finset.sum_congr rfl fun j _ => by ring
  rw [e, sub_eq_iff_eq_add]

theorem column_eq_dot (Z : List (Fin p → ℝ)) (j : Fin p) : column Z j = Z.map fun z => z ⬝ᵥ Pi.single j 1 := by
  unfold column
  simp

theorem single_ne (j : Fin p) : (Pi.single j (1 : ℝ) : Fin p → ℝ) ≠ 0 := by
  intro h
  simpa using congrFun h j

/-! ## The scales are positive -/

theorem countP_sum_ite (x : ℝ) (l : List ℝ) :
    (l.map fun z => if x = z then 1 else 0).sum = l.countP fun y => decide (y = x) := by
  induction l with
  | nil => rfl
  | cons a l ih =>
    rw [List.map_cons, List.sum_cons, ih, List.countP_cons]
    by_cases h : x = a
    · subst h; simp [add_comm]
    · have h' : a ≠ x := fun e => h e.symm
      simp [h, h']

/-- Twice the number of pairs of equal values plus the number of values is the sum of the multiplicities. -/
theorem zero_dists (l : List ℝ) :
    2 * (Spec.pairDists l).countP (fun d => decide (d ≤ 0)) + l.length =
      (l.map fun x => l.countP fun y => decide (y = x)).sum := by
  induction l with
  | nil => rfl
  | cons x l ih =>
    have e1 : (l.map fun y => |x - y|).countP (fun d => decide (d ≤ 0)) = l.countP fun y => decide (y = x) := by
      rw [List.countP_map]
      refine List.countP_congr fun y _ => ?_
      simp only [Function.comp, decide_eq_true_eq]
      constructor
      · intro h; exact (sub_eq_zero.1 (abs_nonpos_iff.1 h)).symm
      · intro h; rw [h]; simp
    have e2 : (l.map fun z => (x :: l).countP fun y => decide (y = z)) =
        l.map fun z => (l.countP fun y => decide (y = z)) + if x = z then 1 else 0 := by
      refine List.map_congr_left fun z _ => ?_
      rw [List.countP_cons]
      simp
    rw [Spec.pairDists, List.countP_append, e1, List.map_cons, List.sum_cons, e2, List.sum_map_add, countP_sum_ite,
      List.countP_cons, ← ih, List.length_cons]
    simp
    ring

theorem sum_map_le_nat {α : Type} (l : List α) (f : α → ℕ) (b : ℕ) (h : ∀ a ∈ l, f a ≤ b) : (l.map f).sum ≤ l.length * b := by
  induction l with
  | nil => simp
  | cons a l ih =>
    rw [List.map_cons, List.sum_cons, List.length_cons, Nat.succ_mul]
    have := ih fun x hx => h x (List.mem_cons_of_mem _ hx)
    have := h a List.mem_cons_self
    omega

/-- If no value occurs more than `p` times among at least `4p - 3` values, the scale Qn is positive. -/
theorem qnNum_pos {l : List ℝ} (hp : 2 ≤ p) (hn : 4 * p ≤ l.length + 3)
    (h : ∀ c, (l.countP fun y => decide (y = c)) ≤ p) : 0 < qnNum l := by
  obtain ⟨c, v, hc, hv, hq⟩ := qnNum_spec (x := l) (by omega)
  rw [hq]
  refine mul_pos hc ?_
  by_contra hv0
  push Not at hv0
  have h1 : (l.length / 2 + 1).choose 2 ≤ (Spec.pairDists l).countP fun d => decide (d ≤ 0) := by
    refine hv.2.trans (List.countP_mono_left fun d _ hd => ?_)
    simp only [decide_eq_true_eq] at hd ⊢
    exact hd.trans hv0
  have h2 := zero_dists l
  have h3 := sum_map_le_nat l (fun x => l.countP fun y => decide (y = x)) p fun a _ => h a
  have h4 : 2 * (l.length / 2 + 1).choose 2 = (l.length / 2 + 1) * (l.length / 2) := by
    rw [Nat.choose_two_right]
    simp only [Nat.add_sub_cancel]
    have : 2 ∣ (l.length / 2 + 1) * (l.length / 2) := by
      rw [mul_comm]; exact (Nat.even_mul_succ_self _).two_dvd
    omega
  obtain ⟨a, rfl⟩ : ∃ a, p = a + 1 := ⟨p - 1, by omega⟩
  have h5 : l.length * (a + 1) = l.length * a + l.length := by ring
  have h6 : (l.length / 2 + 1) * (l.length / 2) ≤ l.length * a := by omega
  generalize hN : l.length = N at *
  rcases Nat.even_or_odd' N with ⟨q, rfl | rfl⟩
  · have : 2 * q / 2 = q := by omega
    rw [this] at h6
    have : 2 * a + 1 ≤ q := by omega
    nlinarith
  · have : (2 * q + 1) / 2 = q := by omega
    rw [this] at h6
    have : 2 * a ≤ q := by omega
    nlinarith

theorem tauRho_pos {c2 x : ℝ} (hc : c2 ≠ 0) (hx : x ≠ 0) : 0 < tauRho c2 x := by
  unfold tauRho
  split_ifs <;> positivity

theorem tauRho_nonneg' (c2 x : ℝ) : 0 ≤ tauRho c2 x := by
  unfold tauRho
  split_ifs <;> positivity

/-- If no value occurs in half of the sample, the scale Tau is positive. -/
theorem tauNum_pos {corr : ℝ} (hcorr : 0 < corr) {l : List ℝ} (hl : l ≠ [])
    (h : ∀ c, 2 * (l.countP fun y => decide (y = c)) < l.length) : 0 < tauNum corr l := by
  have hn : (0 : ℝ) < l.length := by
    have := List.length_pos_iff.2 hl
    exact_mod_cast this
  obtain ⟨s, hs⟩ := madRaw_isSome hl
  obtain ⟨m, hm, hms⟩ := madRaw_spec hs
  have hs0 : 0 < s := by
    refine lt_of_le_of_ne (madRaw_nonneg hs) fun h0 => ?_
    subst h0
    have h1 := (npMedian_half hms).1
    rw [List.length_map, List.countP_map] at h1
    have h2 : l.countP ((fun x => decide (x ≤ 0)) ∘ fun x => |x - m|) = l.countP fun y => decide (y = m) := by
      refine List.countP_congr fun y _ => ?_
      simp only [Function.comp, decide_eq_true_eq, abs_nonpos_iff, sub_eq_zero]
    have := h m
    omega
  unfold tauNum tauCalculate
  rw [hs]
  simp only
  unfold tauCorrect
  refine div_pos (mul_pos hs0 (Real.sqrt_pos.2 (mul_pos (by positivity) ?_))) (Real.sqrt_pos.2 hcorr)
  rcases tauLocation 4.5 l with _ | c
  · simp only [List.map_const', List.sum_replicate, nsmul_eq_mul]
    positivity
  · simp only [if_neg hs0.ne']
    obtain ⟨y, hy, hyc⟩ : ∃ y ∈ l, y ≠ c := by
      by_contra hall
      push Not at hall
      have : (l.countP fun y => decide (y = c)) = l.length := List.countP_eq_length.2 fun y hy => by simpa using hall y hy
      have := h c
      have := List.length_pos_iff.2 hl
      omega
    refine lt_of_lt_of_le (tauRho_pos (c2 := 3) (by norm_num) (x := (y - c) / s)
      (div_ne_zero (sub_ne_zero.2 hyc) hs0.ne')) ?_
    refine List.single_le_sum (fun z hz => ?_) _ (List.mem_map.2 ⟨y, hy, rfl⟩)
    obtain ⟨w, -, rfl⟩ := List.mem_map.1 hz
    exact tauRho_nonneg' _ _

/-- What DetMCD needs of its data: in every direction the scale Qn is positive and no hyperplane contains half of the rows. -/
def RegularRows (Z : List (Fin p → ℝ)) : Prop :=
  ∀ v : Fin p → ℝ, v ≠ 0 → 0 < qnNum (Z.map fun z => z ⬝ᵥ v) ∧
    ∀ c : ℝ, 2 * (Z.countP fun z => decide (z ⬝ᵥ v = c)) < Z.length

/-- Rows in general position are regular. -/
theorem gp_regular {Z : List (Fin p → ℝ)} (h : Spec.RowsInGeneralPosition Z) (hp : 2 ≤ p) (hn : 4 * p ≤ Z.length + 3) :
    RegularRows Z := by
  intro v hv
  refine ⟨?_, fun c => ?_⟩
  · refine qnNum_pos hp (by rwa [List.length_map]) fun c => ?_
    rw [List.countP_map]
    exact h v hv c
  · have := h v hv c
    omega

theorem regular_length {Z : List (Fin p → ℝ)} (h : RegularRows Z) (hp : 2 ≤ p) : 3 ≤ Z.length := by
  have h1 := (h _ (single_ne ⟨0, by omega⟩)).2
  rcases Z with _ | ⟨z, Z⟩
  · simpa using h1 0
  · have h2 := h1 (z ⬝ᵥ Pi.single ⟨0, by omega⟩ 1)
    rw [List.countP_cons_of_pos (by simp)] at h2
    omega

theorem regular_vecMul {Z : List (Fin p → ℝ)} (h : RegularRows Z) {E : Matrix (Fin p) (Fin p) ℝ} (hE : E.det ≠ 0) :
    RegularRows (Z.map fun z => z ᵥ* E) := by
  intro v hv
  have h0 : E *ᵥ v ≠ 0 := fun h0 => hv (Matrix.eq_zero_of_mulVec_eq_zero hE h0)
  have h1 := h (E *ᵥ v) h0
  simp only [dotProduct_mulVec] at h1
  refine ⟨?_, fun c => ?_⟩
  · rw [List.map_map]; exact h1.1
  · rw [List.countP_map, List.length_map]; exact h1.2 c

theorem regular_std {Z : List (Fin p → ℝ)} (h : RegularRows Z) (hp : 2 ≤ p) (m : Fin p → ℝ) {s : Fin p → ℝ}
    (hs : ∀ j, s j ≠ 0) : RegularRows (Z.map fun z j => (z j - m j) / s j) := by
  intro v hv
  have h0 : (fun j => v j / s j) ≠ 0 := by
    intro h0
    refine hv (funext fun j => ?_)
    have := congrFun h0 j
    simpa [hs j] using this
  have e : ∀ z : Fin p → ℝ, (fun j => (z j - m j) / s j) ⬝ᵥ v = (z ⬝ᵥ fun j => v j / s j) - m ⬝ᵥ fun j => v j / s j := by
    intro z
    unfold dotProduct
    rw [← Finset.sum_sub_distrib]
    exact Finset.sum_congr rfl fun j _ => by ring
  obtain ⟨h1, h2⟩ := h _ h0
  refine ⟨?_, fun c => ?_⟩
  · have e2 : (Z.map fun z j => (z j - m j) / s j).map (fun z => z ⬝ᵥ v) =
        (Z.map fun z => z ⬝ᵥ fun j => v j / s j).map fun x => 1 * x + -(m ⬝ᵥ fun j => v j / s j) := by
      rw [List.map_map, List.map_map]
      refine List.map_congr_left fun z _ => ?_
      simp only [Function.comp]
      rw [e]
      ring
    rw [e2, qnNum_affine (by rw [List.length_map]; have := regular_length h hp; omega)]
    simpa using h1
  · rw [List.countP_map, List.length_map]
    refine lt_of_le_of_lt (le_of_eq ?_) (h2 (c + m ⬝ᵥ fun j => v j / s j))
    congr 1
    refine List.countP_congr fun z _ => ?_
    simp only [Function.comp, decide_eq_true_eq]
    rw [e]
    constructor <;> intro h <;> linarith

section regular
variable {Z : List (Fin p → ℝ)} (h : RegularRows Z)
include h

theorem regular_qn_column (j : Fin p) : 0 < qnNum (column Z j) := by
  rw [column_eq_dot]
  exact (h _ (single_ne j)).1

theorem regular_detScale (hp : 2 ≤ p) {corr : ℝ} (hcorr : 0 < corr) (j : Fin p) : 0 < detScale corr Z.length (column Z j) := by
  unfold detScale
  split_ifs
  · exact regular_qn_column h j
  · refine tauNum_pos hcorr (fun h0 => ?_) fun c => ?_
    · have := congrArg List.length h0
      have h3 := regular_length h hp
      rw [column_length, List.length_nil] at this
      omega
    · rw [column_length, column_eq_dot, List.countP_map]
      exact (h _ (single_ne j)).2 c

/-- Every column has two different values. -/
theorem regular_two_values (hp : 2 ≤ p) (j : Fin p) : ∃ z ∈ Z, ∃ w ∈ Z, z j < w j := by
  have hne : Z ≠ [] := by rintro rfl; have := regular_length h hp; simp at this
  obtain ⟨z, hz⟩ := List.exists_mem_of_ne_nil _ hne
  obtain ⟨w, hw, hwz⟩ : ∃ w ∈ Z, w j ≠ z j := by
    by_contra hall
    push Not at hall
    have h1 := (h _ (single_ne j)).2 (z j)
    have : (Z.countP fun x => decide (x ⬝ᵥ Pi.single j 1 = z j)) = Z.length :=
      List.countP_eq_length.2 fun y hy => by simpa using hall y hy
    omega
  rcases lt_or_gt_of_ne hwz with h1 | h1
  · exact ⟨w, hw, z, hz, h1⟩
  · exact ⟨z, hz, w, hw, h1⟩

end regular

/-! ## The six scatter matrices -/

theorem tanh_lt_tanh {a b : ℝ} (h : a < b) : Real.tanh a < Real.tanh b := by
  rw [Real.tanh_eq_sinh_div_cosh, Real.tanh_eq_sinh_div_cosh, div_lt_div_iff₀ (Real.cosh_pos a) (Real.cosh_pos b)]
  have := Real.sinh_pos_iff.2 (sub_pos.2 h)
  rw [Real.sinh_sub] at this
  linarith

theorem orth_det {V : Matrix (Fin p) (Fin p) ℝ} (h : Vᵀ * V = 1) : V.det ≠ 0 := by
  intro h0
  have := congrArg Matrix.det h
  rw [Matrix.det_mul, h0, mul_zero, Matrix.det_one] at this
  exact zero_ne_one this

theorem rev_orth {V : Matrix (Fin p) (Fin p) ℝ} (h : Vᵀ * V = 1) :
    (V.submatrix id Fin.rev)ᵀ * V.submatrix id Fin.rev = 1 := by
  have : (V.submatrix id Fin.rev)ᵀ * V.submatrix id Fin.rev = (Vᵀ * V).submatrix Fin.rev Fin.rev := by
    rw [Matrix.transpose_submatrix]
    rw [← Matrix.submatrix_mul Vᵀ V Fin.rev id Fin.rev Function.bijective_id]
  rw [this, h]
  exact Matrix.submatrix_one _ Fin.rev_injective

theorem regular_ogkStep {Z : List (Fin p → ℝ)} (h : RegularRows Z) (hp : 2 ≤ p)
    (eigh : ∀ A : Matrix (Fin p) (Fin p) ℝ, A.IsSymm → Eigh A) :
    ∃ r, ogkStep eigh qnNum Z = some r ∧ RegularRows r.1 := by
  have hs : ∀ j, qnNum (column Z j) ≠ 0 := fun j => (regular_qn_column h j).ne'
  have hY : RegularRows (Z.map fun z j => z j / qnNum (column Z j)) := by
    have := regular_std h hp (fun _ => 0) hs
    simpa using this
  unfold ogkStep
  simp only
  rw [if_neg]
  · exact ⟨_, rfl, regular_vecMul hY (orth_det (rev_orth (eigh _ _).orth))⟩
  · rintro (⟨i, hi⟩ | ⟨i, j, hij, h0⟩)
    · exact hs i hi
    · have hv : (Pi.single i 1 + Pi.single j 1 : Fin p → ℝ) ≠ 0 := by
        intro e
        have := congrFun e i
        simp [Pi.single_apply, hij.ne'] at this
      have := (hY _ hv).1
      have e : ((Z.map fun z j => z j / qnNum (column Z j)).map fun y => y i + y j) =
          (Z.map fun z j => z j / qnNum (column Z j)).map fun z => z ⬝ᵥ (Pi.single i 1 + Pi.single j 1) := by
        refine List.map_congr_left fun y _ => ?_
        rw [dotProduct_add]
        simp
      rw [e] at h0
      nlinarith [sq_nonneg (qnNum ((Z.map fun z j => z j / qnNum (column Z j)).map fun y => y i - y j))]

theorem regular_ogkRaw {Z : List (Fin p → ℝ)} (h : RegularRows Z) (hp : 2 ≤ p)
    (eigh : ∀ A : Matrix (Fin p) (Fin p) ℝ, A.IsSymm → Eigh A) (loc : List ℝ → ℝ) (k : ℕ) :
    ∃ r, ogkRaw eigh loc qnNum k Z = some r := by
  have key : ∀ (k : ℕ) (Z : List (Fin p → ℝ)), RegularRows Z →
      ∃ r, ogkLoop eigh qnNum k Z = some r := by
    intro k
    induction k with
    | zero => intro Z _; exact ⟨_, rfl⟩
    | succ k ih =>
      intro Z hZ
      obtain ⟨r, h1, h2⟩ := regular_ogkStep hZ hp eigh
      obtain ⟨q, hq⟩ := ih r.1 h2
      unfold ogkLoop
      rw [h1]
      simp only [Option.bind_some, hq, Option.map_some]
      exact ⟨_, rfl⟩
  obtain ⟨r, hr⟩ := key k Z h
  unfold ogkRaw
  rw [hr]
  exact ⟨_, rfl⟩

/-- A column with two different values has a positive variance. -/
theorem npCov_diag_ne {Y : List (Fin p → ℝ)} {j : Fin p} (h : ∃ y ∈ Y, ∃ w ∈ Y, y j < w j) : npCov Y j j ≠ 0 := by
  obtain ⟨y, hy, w, hw, hlt⟩ := h
  have h2 : 2 ≤ Y.length := by
    rcases Y with _ | ⟨a, _ | ⟨b, Y⟩⟩
    · simp at hy
    · simp only [List.mem_singleton] at hy hw
      subst hy; subst hw
      exact absurd hlt (lt_irrefl _)
    · simp
  intro h0
  unfold npCov at h0
  have hden : ((Y.length : ℝ) - 1) ≠ 0 := by
    have : (2 : ℝ) ≤ Y.length := by exact_mod_cast h2
    linarith
  rw [div_eq_zero_iff] at h0
  have h0 := h0.resolve_right hden
  have hnn : ∀ t ∈ Y.map (fun x => (x j - meanRow Y j) * (x j - meanRow Y j)), 0 ≤ t := fun t ht => by
    obtain ⟨x, -, rfl⟩ := List.mem_map.1 ht
    exact mul_self_nonneg _
  have hz : ∀ x ∈ Y, x j = meanRow Y j := fun x hx => by
    have h1 := List.single_le_sum hnn _ (List.mem_map.2 ⟨x, hx, rfl⟩)
    rw [h0] at h1
    have := le_antisymm h1 (mul_self_nonneg _)
    exact sub_eq_zero.1 (mul_self_eq_zero.1 this)
  rw [hz y hy, hz w hw] at hlt
  exact lt_irrefl _ hlt

theorem corrcoefRows_some {Y : List (Fin p → ℝ)} (h : ∀ j, ∃ y ∈ Y, ∃ w ∈ Y, y j < w j) : ∃ S, corrcoefRows Y = some S := by
  unfold corrcoefRows
  rw [if_neg]
  · exact ⟨_, rfl⟩
  · rintro ⟨j, hj⟩
    exact npCov_diag_ne (h j) hj

theorem avgRank_lt {l : List ℝ} {a b : ℝ} (hb : b ∈ l) (h : a < b) : avgRank l a < avgRank l b := by
  unfold avgRank
  have h1 : (l.countP fun x => decide (x < a)) + (l.countP fun x => decide (x = a)) ≤ l.countP fun x => decide (x < b) := by
    clear hb
    induction l with
    | nil => simp
    | cons x l ih =>
      simp only [List.countP_cons, decide_eq_true_eq]
      split_ifs <;> first | omega | (exfalso; linarith)
  have h2 : 0 < l.countP fun x => decide (x = b) := List.countP_pos_iff.2 ⟨b, hb, by simp⟩
  have h1' : ((l.countP fun x => decide (x < a) : ℕ) : ℝ) + (l.countP fun x => decide (x = a) : ℕ) ≤
      (l.countP fun x => decide (x < b) : ℕ) := by exact_mod_cast h1
  have h2' : (1 : ℝ) ≤ (l.countP fun x => decide (x = b) : ℕ) := by exact_mod_cast h2
  have h3 : (0 : ℝ) ≤ (l.countP fun x => decide (x = a) : ℕ) := Nat.cast_nonneg _
  linarith

theorem avgRank_range {l : List ℝ} {a : ℝ} (ha : a ∈ l) : 1 ≤ avgRank l a ∧ avgRank l a ≤ l.length := by
  unfold avgRank
  have h1 : (l.countP fun x => decide (x < a)) + (l.countP fun x => decide (x = a)) ≤ l.length := by
    clear ha
    induction l with
    | nil => simp
    | cons x l ih =>
      simp only [List.countP_cons, decide_eq_true_eq, List.length_cons]
      split_ifs <;> first | omega | (exfalso; linarith)
  have h2 : 0 < l.countP fun x => decide (x = a) := List.countP_pos_iff.2 ⟨a, ha, by simp⟩
  have h1' : ((l.countP fun x => decide (x < a) : ℕ) : ℝ) + (l.countP fun x => decide (x = a) : ℕ) ≤
      l.length := by exact_mod_cast h1
  have h2' : (1 : ℝ) ≤ (l.countP fun x => decide (x = a) : ℕ) := by exact_mod_cast h2
  have h3 : (0 : ℝ) ≤ (l.countP fun x => decide (x < a) : ℕ) := Nat.cast_nonneg _
  constructor <;> linarith

/-- The covariance of more than `p` rows of data in general position is not singular. -/
theorem gp_npCov {X R : List (Fin p → ℝ)} (h : Spec.RowsInGeneralPosition X) (hR : R.Subperm X) (hl : p < R.length) :
    (npCov R).det ≠ 0 := by
  intro h0
  obtain ⟨v, hv, hv0⟩ := Matrix.exists_mulVec_eq_zero_iff.2 h0
  have hq : v ⬝ᵥ npCov R *ᵥ v = 0 := by rw [hv0, dotProduct_zero]
  rw [npCov_mulVec, dotProduct_smul, smul_eq_mul, mul_eq_zero] at hq
  have hs : v ⬝ᵥ (R.map fun x => ((x - meanRow R) ⬝ᵥ v) • (x - meanRow R)).sum =
      (R.map fun x => ((x - meanRow R) ⬝ᵥ v) ^ 2).sum := by
    generalize meanRow R = m
    clear hl hR h0 hv0 hq
    induction R with
    | nil => simp
    | cons x R ih =>
      rw [List.map_cons, List.sum_cons, dotProduct_add, ih, List.map_cons, List.sum_cons, dotProduct_smul,
        dotProduct_comm v, smul_eq_mul, sq]
  rcases hq with hq | hq
  · rw [inv_eq_zero] at hq
    have h1 : (R.length : ℝ) = 1 := by linarith
    have h1' : R.length = 1 := by exact_mod_cast h1
    have hp0 : p = 0 := by omega
    subst hp0
    exact hv (funext fun i => i.elim0)
  · rw [hs] at hq
    have hz : ∀ x ∈ R, x ⬝ᵥ v = meanRow R ⬝ᵥ v := fun x hx => by
      have hnn : ∀ t ∈ R.map (fun x => ((x - meanRow R) ⬝ᵥ v) ^ 2), 0 ≤ t := fun t ht => by
        obtain ⟨x, -, rfl⟩ := List.mem_map.1 ht
        exact sq_nonneg _
      have h1 := List.single_le_sum hnn _ (List.mem_map.2 ⟨x, hx, rfl⟩)
      rw [hq] at h1
      have := pow_eq_zero_iff (two_ne_zero) |>.1 (le_antisymm h1 (sq_nonneg _))
      rw [sub_dotProduct] at this
      linarith
    have h1 := h v hv (meanRow R ⬝ᵥ v)
    have h2 : (R.countP fun x => decide (x ⬝ᵥ v = meanRow R ⬝ᵥ v)) = R.length :=
      List.countP_eq_length.2 fun y hy => by simpa using hz y hy
    have h3 := hR.countP_le fun x => decide (x ⬝ᵥ v = meanRow R ⬝ᵥ v)
    omega

theorem detScatters_regular (env : DetEnv p) (hc : DetContract env) {Z : List (Fin p → ℝ)} (h : RegularRows Z)
    (hp : 2 ≤ p) (h0 : ∀ z ∈ Z, z ≠ 0) : ∃ Ss, detScatters env Z = .ok Ss := by
  have htwo := regular_two_values h hp
  have hn := regular_length h hp
  obtain ⟨S1, h1⟩ : ∃ S, corrcoefRows (Z.map fun z j => Real.tanh (z j)) = some S := by
    refine corrcoefRows_some fun j => ?_
    obtain ⟨z, hz, w, hw, hlt⟩ := htwo j
    exact ⟨_, List.mem_map.2 ⟨z, hz, rfl⟩, _, List.mem_map.2 ⟨w, hw, rfl⟩, tanh_lt_tanh hlt⟩
  have hmem : ∀ {z : Fin p → ℝ} (j : Fin p), z ∈ Z → z j ∈ column Z j := fun j hz => List.mem_map.2 ⟨_, hz, rfl⟩
  obtain ⟨S2, h2⟩ : ∃ S, corrcoefRows (rankRows Z) = some S := by
    refine corrcoefRows_some fun j => ?_
    obtain ⟨z, hz, w, hw, hlt⟩ := htwo j
    exact ⟨_, List.mem_map.2 ⟨z, hz, rfl⟩, _, List.mem_map.2 ⟨w, hw, rfl⟩, avgRank_lt (hmem j hw) hlt⟩
  obtain ⟨S3, h3⟩ : ∃ S, corrcoefRows (scoreRows env.ppf Z) = some S := by
    refine corrcoefRows_some fun j => ?_
    obtain ⟨z, hz, w, hw, hlt⟩ := htwo j
    unfold scoreRows rankRows
    rw [List.map_map]
    refine ⟨_, List.mem_map.2 ⟨z, hz, rfl⟩, _, List.mem_map.2 ⟨w, hw, rfl⟩, ?_⟩
    simp only [Function.comp]
    have hden : (0 : ℝ) < Z.length + 1 / 3 := by positivity
    have hr : ∀ y ∈ Z, (avgRank (column Z j) (y j) - 1 / 3) / (Z.length + 1 / 3) ∈ Set.Ioo (0 : ℝ) 1 := fun y hy => by
      obtain ⟨r1, r2⟩ := avgRank_range (hmem j hy)
      rw [column_length] at r2
      refine ⟨div_pos (by linarith) hden, (div_lt_one hden).2 (by linarith)⟩
    refine hc.ppf (hr z hz) (hr w hw) ?_
    have := avgRank_lt (hmem j hw) hlt
    exact div_lt_div_of_pos_right (by linarith) hden
  obtain ⟨S4, h4⟩ : ∃ S, spatialSigns Z = some S := by
    unfold spatialSigns
    rw [if_neg]
    · exact ⟨_, rfl⟩
    · rintro ⟨z, hz, hz0⟩
      refine h0 z hz (funext fun j => ?_)
      unfold rowNorm at hz0
      rw [Real.sqrt_eq_zero (Finset.sum_nonneg fun j _ => mul_self_nonneg _),
        Finset.sum_eq_zero_iff_of_nonneg fun j _ => mul_self_nonneg _] at hz0
      exact mul_self_eq_zero.1 (hz0 j (Finset.mem_univ j))
  obtain ⟨S5, h5⟩ : ∃ S, halfCov env.srt Z = some S := by
    unfold halfCov
    simp only
    rw [if_neg]
    · exact ⟨_, rfl⟩
    · rw [(take_argsort _ _ _).2.2, List.length_map]
      omega
  obtain ⟨⟨mu, S6⟩, h6⟩ := regular_ogkRaw h hp env.eigh medNum 2
  unfold detScatters
  rw [if_neg (by omega), h1, h2, h3, h4, h5, h6]
  exact ⟨_, rfl⟩

/-! ## The starting values -/

theorem detCov_posDef (env : DetEnv p) {Z : List (Fin p → ℝ)} (h : RegularRows Z) (S : Matrix (Fin p) (Fin p) ℝ) : (detCov env Z S).PosDef := by
  have horth : (detE env S)ᵀ * detE env S = 1 := rev_orth (env.eigh (lowerSym S) (lowerSym_isSymm S)).orth
  have hE := orth_det horth
  have hq : ∀ j, 0 < qnNum (column (Z.map fun z => z ᵥ* detE env S) j) ^ 2 := fun j => by
    have := regular_qn_column (regular_vecMul h hE) j
    positivity
  have hpsd : (detCov env Z S).PosSemidef := by
    unfold detCov
    simp only
    have := (Matrix.PosSemidef.diagonal fun j => (hq j).le).mul_mul_conjTranspose_same (detE env S)
    rwa [Matrix.conjTranspose_eq_transpose_of_trivial] at this
  refine posDef_of_posSemidef_det hpsd ?_
  unfold detCov
  simp only
  rw [Matrix.det_mul, Matrix.det_mul, Matrix.det_transpose, Matrix.det_diagonal]
  exact mul_ne_zero (mul_ne_zero hE (Finset.prod_pos fun j _ => hq j).ne') hE

theorem detInits_regular (env : DetEnv p) (hc : DetContract env) {X : List (Fin p → ℝ)} (h : RegularRows X)
    (hp : 2 ≤ p) (h0 : ∀ x ∈ X, ¬ Spec.IsMedianRow X x) :
    ∃ inits, detInits env X = .ok inits ∧ inits ≠ [] := by
  have hn := regular_length h hp
  have hs := fun j => (regular_detScale h hp hc.tau j).ne'
  have hZ : detZ env.tauCorr X =
      .ok (X.map fun x j => (x j - medNum (column X j)) / detScale env.tauCorr X.length (column X j)) := by
    unfold detZ
    rw [if_neg]
    push Not
    exact ⟨by omega, hs⟩
  have hgp := regular_std h hp (fun j => medNum (column X j)) hs
  have hl : (X.map fun x j => (x j - medNum (column X j)) / detScale env.tauCorr X.length (column X j)).length =
      X.length := List.length_map _
  have hz0 : ∀ z ∈ X.map fun x j => (x j - medNum (column X j)) / detScale env.tauCorr X.length (column X j), z ≠ 0 := by
    intro z hz e
    obtain ⟨x, hx, rfl⟩ := List.mem_map.1 hz
    refine h0 x hx fun j => ?_
    have := congrFun e j
    simp only [Pi.zero_apply, div_eq_zero_iff, hs j, or_false, sub_eq_zero] at this
    obtain ⟨m, hm⟩ := npMedian_isSome (xs := column X j) (by
      intro e
      have := congrArg List.length e
      rw [column_length, List.length_nil] at this
      omega)
    rw [this]
    unfold medNum
    rw [hm]
    exact hm
  generalize hZg : (X.map fun x j => (x j - medNum (column X j)) / detScale env.tauCorr X.length (column X j)) = Z at *
  obtain ⟨Ss, hSs⟩ := detScatters_regular env hc hgp hp hz0
  have h6 : Ss.length = 6 := by
    unfold detScatters at hSs
    split_ifs at hSs
    split at hSs
    · rw [← Except.ok.inj hSs]; rfl
    · simp at hSs
  have hst : ∀ S ∈ Ss, ∃ st, detStart env Z S = .ok st := by
    intro S _
    have hpd := detCov_posDef env hgp S
    have hroot : (env.sqrtm (detCov env Z S)).det ≠ 0 := by
      intro e
      have := congrArg Matrix.det (hc.sqrtm _ hpd.posSemidef)
      rw [Matrix.det_mul, e, mul_zero] at this
      exact hpd.det_pos.ne this
    unfold detStart
    simp only
    rw [npInv_eq _ hroot]
    exact ⟨_, rfl⟩
  obtain ⟨starts, hstarts⟩ := mapExcept_all_ok Ss hst
  have hix : ∀ st ∈ starts, ∃ idx, detIndices env Z st = .ok idx := by
    intro st hmem
    obtain ⟨S, -, hS⟩ := mapExcept_mem hstarts st hmem
    have hpd := detCov_posDef env hgp S
    have h2 : st.2 = detCov env Z S := by
      unfold detStart at hS
      simp only at hS
      rcases hi : npInv (env.sqrtm (detCov env Z S)) with e | inv
      · rw [hi] at hS; simp [Except.map] at hS
      · rw [hi] at hS
        exact congrArg Prod.snd (Except.ok.inj hS).symm
    unfold detIndices
    rw [sqMahalanobis_eq (by rw [h2]; exact hpd.det_pos.ne')]
    exact ⟨_, rfl⟩
  obtain ⟨inits, hin⟩ := mapExcept_all_ok starts hix
  refine ⟨inits, ?_, ?_⟩
  · unfold detInits
    rw [hZ]
    simp only [Except.bind]
    rw [hSs]
    simp only
    rw [hstarts]
    exact hin
  · rintro rfl
    have l1 := (mapExcept_ok hstarts).length_eq
    have l2 := (mapExcept_ok hin).length_eq
    rw [List.length_nil] at l2
    omega

/-! ## C-steps and post processing -/

theorem gp_takeAt {X : List (Fin p → ℝ)} (h : Spec.RowsInGeneralPosition X) {idx : List ℕ} (hn : idx.Nodup)
    (hlt : ∀ i ∈ idx, i < X.length) (hl : p < idx.length) : (npCov (takeAt X idx)).det ≠ 0 :=
  gp_npCov h (takeAt_subperm X idx hn hlt) (by rw [takeAt_length X idx hlt]; exact hl)

theorem convergeAll_regular {srt : ArgSort ℝ} {alpha : Alpha ℝ} {tol : ℝ} (htol : 0 < tol) {X : List (Fin p → ℝ)}
    (fuel : ℕ) (l : List (HSubset ℝ (Fin p))) (best : HSubset ℝ (Fin p))
    (hl : ∀ s ∈ l, Stepped srt alpha X s ∧ s.determinant ≠ 0) :
    ∃ r, convergeAll srt alpha tol X (fuel + 1) l best = some (.ok r) := by
  induction l generalizing best with
  | nil => exact ⟨_, rfl⟩
  | cons s l ih =>
    unfold convergeAll
    obtain ⟨h1, h2⟩ := hl s List.mem_cons_self
    rw [converge_stepped htol h1, if_neg h2]
    simp only [Run.andThen]
    exact ih _ fun t ht => hl t (List.mem_cons_of_mem _ ht)

/-- The median of the distances is positive: no point is repeated in half of the rows. -/
theorem gp_median_pos {X : List (Fin p → ℝ)} (h : Spec.RowsInGeneralPosition X) (hp : 0 < p) (hn : 2 * p < X.length)
    {S : Matrix (Fin p) (Fin p) ℝ} (hS : S.PosDef) (loc : Fin p → ℝ) :
    ∃ md, npMedian (X.map fun x => quadForm S⁻¹ (x - loc)) = some md ∧ 0 < md := by
  obtain ⟨md, hmd⟩ := npMedian_isSome (xs := X.map fun x => quadForm S⁻¹ (x - loc)) (by
    intro e
    have := congrArg List.length e
    simp at this
    rw [this] at hn
    simp at hn)
  refine ⟨md, hmd, ?_⟩
  by_contra hle
  push Not at hle
  have h1 := (npMedian_half hmd).1
  rw [List.length_map, List.countP_map] at h1
  have h2 := h _ (single_ne ⟨0, hp⟩) (loc ⟨0, hp⟩)
  have h3 : X.countP ((fun x => decide (x ≤ md)) ∘ fun x => quadForm S⁻¹ (x - loc)) ≤
      X.countP fun x => decide (x ⬝ᵥ Pi.single ⟨0, hp⟩ 1 = loc ⟨0, hp⟩) := by
    refine List.countP_mono_left fun x _ hx => ?_
    simp only [Function.comp, decide_eq_true_eq, dotProduct_single, mul_one] at hx ⊢
    by_contra hne
    have hpos : 0 < quadForm S⁻¹ (x - loc) := by
      rw [quadForm_eq]
      have := hS.inv.dotProduct_mulVec_pos (x := x - loc) (fun e => hne (by
        have := congrFun e ⟨0, hp⟩
        simpa [sub_eq_zero] using this))
      simpa using this
    linarith
  omega

theorem postProcess_gp {cfg : MCDConfig ℝ} {X : List (Fin p → ℝ)} (h : Spec.RowsInGeneralPosition X) (hp : 2 ≤ p)
    (hn : 2 * p < X.length) (hcorr : cfg.correct = true → 0 < cfg.chi50)
    (hrew : cfg.reweighting = true → cfg.correct = true ∧ cfg.chi50 < cfg.chi975 ∧ 0 < cfg.gammaFactor)
    {s : HSubset ℝ (Fin p)} (hs : s.scale.PosDef) :
    ∃ fit, postProcess cfg X s = .ok fit ∧ fit.covariance.PosDef := by
  have hX : X ≠ [] := by rintro rfl; simp at hn
  obtain ⟨md, hmd, hmd0⟩ := gp_median_pos h (by omega) hn hs s.location
  have hcc : correctCovariance cfg.chi50 X s = .ok ((md / cfg.chi50) • s.scale) := by
    unfold correctCovariance
    rw [sqMahalanobis_eq hs.det_pos.ne']
    simp only [Except.map]
    rw [hmd]
    rfl
  have hpd : cfg.correct = true → ((md / cfg.chi50) • s.scale).PosDef := fun hc =>
    hs.smul (div_pos hmd0 (hcorr hc))
  unfold postProcess
  by_cases hc : cfg.correct = true
  · rw [if_pos hc, hcc]
    simp only [Except.bind]
    by_cases hr : cfg.reweighting = true
    · obtain ⟨-, hchi, hg⟩ := hrew hr
      rw [if_pos hr]
      unfold reweight
      have hd := sqMahalanobis_eq (X := X) (loc := s.location) (hpd hc).det_pos.ne'
      have hmed := C79_correction cfg.chi50 (hcorr hc).ne' X hX ⟨⟨0, by omega⟩⟩ s _ hcc _ hd
      rw [hd]
      simp only [Except.bind]
      have hhalf := (npMedian_half hmed).1
      rw [List.length_map, List.countP_map] at hhalf
      rw [List.map_map, maskRows_map]
      set rows := X.filter ((fun v => decide (v < cfg.chi975)) ∘
        fun x => quadForm ((md / cfg.chi50) • s.scale)⁻¹ (x - s.location)) with hrows
      have hlen : p < rows.length := by
        rw [hrows, ← List.countP_eq_length_filter]
        have : X.countP ((fun x => decide (x ≤ cfg.chi50)) ∘
              fun x => quadForm ((md / cfg.chi50) • s.scale)⁻¹ (x - s.location)) ≤
            X.countP ((fun v => decide (v < cfg.chi975)) ∘
              fun x => quadForm ((md / cfg.chi50) • s.scale)⁻¹ (x - s.location)) := by
          refine List.countP_mono_left fun x _ hx => ?_
          simp only [Function.comp, decide_eq_true_eq] at hx ⊢
          exact lt_of_le_of_lt hx hchi
        omega
      rw [if_neg (by omega)]
      refine ⟨_, rfl, ?_⟩
      simp only [if_pos hc]
      exact (posDef_of_posSemidef_det (npCov_posSemidef rows)
        (gp_npCov h List.filter_sublist.subperm hlen)).smul hg
    · rw [if_neg hr]
      exact ⟨_, rfl, hpd hc⟩
  · have hr : ¬ cfg.reweighting = true := fun hr => hc (hrew hr).1
    rw [if_neg hc]
    simp only [Except.bind]
    rw [if_neg hr]
    exact ⟨_, rfl, hs⟩

/-- **C132**, what does hold: for data in general position (no hyperplane contains more than `p ≥ 2` rows) with at
least `4p - 3` rows, every documented `alpha`, positive tolerance, and reweighting only together with the correction
(the default), DetMCD returns a result - a positive definite matrix - exactly when no row consists of the medians of the
columns.  Missing: rows that do, see `C132_violated`. -/
theorem C132_partial (env : DetEnv p) (hc : DetContract env) (cfg : MCDConfig ℝ) (htol : 0 < cfg.tol)
    {X : List (Fin p → ℝ)} (halpha : Spec.DocumentedAlpha cfg.alpha X.length)
    (hall : alphaIsAll cfg.alpha X.length = false) (hcorr : cfg.correct = true → 0 < cfg.chi50)
    (hrew : cfg.reweighting = true → cfg.correct = true ∧ cfg.chi50 < cfg.chi975 ∧ 0 < cfg.gammaFactor)
    (h : Spec.RowsInGeneralPosition X) (hp : 2 ≤ p) (hn : 4 * p ≤ X.length + 3) (fuel : ℕ) :
    (∃ fit, detFit env cfg X (fuel + 1) = some (.ok fit) ∧ fit.covariance.PosDef) ↔
      ∀ x ∈ X, ¬ Spec.IsMedianRow X x := by
  constructor
  · rintro ⟨fit, hfit, -⟩ x hx hm
    obtain ⟨e, he⟩ := C132_median_row env cfg hall hx hm (fuel + 1)
    rw [he] at hfit
    simp at hfit
  intro h0
  have hcard : Fintype.card (Fin p) ≠ 1 := by rw [Fintype.card_fin]; omega
  have h2p : 2 * p < X.length := by omega
  obtain ⟨inits, hin, hne⟩ := detInits_regular env hc (gp_regular h hp hn) hp h0
  obtain ⟨-, hidx⟩ := detInits_ok hin
  obtain ⟨⟨k, hk, hk2⟩, -⟩ := C37_partial cfg.alpha X.length (Fintype.card (Fin p)) halpha
  have hstep : ∀ idx ∈ inits, ∃ s, (getSubset X idx 0).bind (cStep env.srt cfg.alpha X) = .ok s := by
    intro idx hi
    obtain ⟨n1, n2, n3⟩ := hidx idx hi
    rw [getSubset_eq hcard]
    simp only [Except.bind]
    rw [cStep_eq (gp_takeAt h n1 n2 (by omega)) hk, getSubset_eq hcard]
    exact ⟨_, rfl⟩
  obtain ⟨ss, hss⟩ := mapExcept_all_ok inits hstep
  have hstepped : ∀ s ∈ ss, Stepped env.srt cfg.alpha X s ∧ s.scale.PosDef := by
    intro s hs
    obtain ⟨idx, hi, he⟩ := mapExcept_mem hss s hs
    rw [getSubset_eq hcard] at he
    simp only [Except.bind] at he
    have hst : Stepped env.srt cfg.alpha X s := ⟨_, he⟩
    refine ⟨hst, ?_⟩
    have hlen := cStep_length he hk
    have hsub := hst.isSubset
    rw [hsub.scale]
    exact posDef_of_posSemidef_det (npCov_posSemidef _) (gp_takeAt h hsub.nodup hsub.lt (by omega))
  have hssne : ss ≠ [] := by
    rintro rfl
    have := (mapExcept_ok hss).length_eq
    simp at this
    exact hne this
  obtain ⟨s0, rest, rfl⟩ := List.exists_cons_of_ne_nil hssne
  have hreg : ∀ s ∈ s0 :: rest, Stepped env.srt cfg.alpha X s ∧ s.determinant ≠ 0 := fun s hs => by
    obtain ⟨a, b⟩ := hstepped s hs
    exact ⟨a, by rw [← a.scale_det]; exact b.det_pos.ne'⟩
  obtain ⟨r, hr⟩ := convergeAll_regular htol fuel (s0 :: rest) s0 hreg
  have hr' : convergeFrom env.srt cfg.alpha cfg.tol X (fuel + 1) (s0 :: rest) = some (.ok r) := hr
  have hmem := (convergeFrom_stepped htol _ _ _ (fun s hs => (hreg s hs).1) hr').1
  obtain ⟨fit, hfit, hpd⟩ := postProcess_gp h hp h2p hcorr hrew (hstepped r hmem).2
  refine ⟨fit, ?_, hpd⟩
  unfold detFit
  rw [hall]
  simp only [Bool.false_eq_true, if_false]
  rw [hin]
  simp only [Run.andThen]
  unfold detMCD
  rw [hall]
  simp only [Bool.false_eq_true, if_false]
  rw [hss]
  simp only [Run.andThen]
  rw [hr']
  simp only
  rw [hfit]

end Robpy
