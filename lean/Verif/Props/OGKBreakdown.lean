import Verif.Props.ColumnOrder
import Verif.Props.Implosion
import Verif.Props.DetTotal
import Verif.Props.TauOneStep
import Mathlib.Topology.Order.Compact
import Mathlib.Topology.Algebra.Order.Group
import Mathlib.Topology.Instances.Real.Lemmas

/-! C168: the raw OGK estimates under contamination. -/

namespace Robpy
open Matrix

section
variable {p : ℕ}

/-- The squared scale of every projection of the rows is between `A` and `B` times the squared length of the
direction. -/
def Spec.scaleBounds (est : List ℝ → ℝ) (A B : ℝ) (X : List (Fin p → ℝ)) : Prop :=
  ∀ u : Fin p → ℝ, A * (u ⬝ᵥ u) ≤ est (X.map fun x => x ⬝ᵥ u) ^ 2 ∧ est (X.map fun x => x ⬝ᵥ u) ^ 2 ≤ B * (u ⬝ᵥ u)

/-- The squared location of every projection of the rows is at most `L` times the squared length of the
direction. -/
def Spec.locBound (loc : List ℝ → ℝ) (L : ℝ) (X : List (Fin p → ℝ)) : Prop :=
  ∀ u : Fin p → ℝ, loc (X.map fun x => x ⬝ᵥ u) ^ 2 ≤ L * (u ⬝ᵥ u)

theorem dotProduct_single_one (x : Fin p → ℝ) (i : Fin p) : x ⬝ᵥ Pi.single i 1 = x i := by
  simp

theorem orth_dot {E : Matrix (Fin p) (Fin p) ℝ} (hE : Eᵀ * E = 1) (u : Fin p → ℝ) :
    (E *ᵥ u) ⬝ᵥ (E *ᵥ u) = u ⬝ᵥ u := by
  rw [Matrix.dotProduct_mulVec, ← Matrix.mulVec_transpose, Matrix.mulVec_mulVec, hE, Matrix.one_mulVec]

theorem diag_dot_le {s : Fin p → ℝ} {A B : ℝ} (hA : ∀ i, A ≤ s i ^ 2) (hB : ∀ i, s i ^ 2 ≤ B) (v : Fin p → ℝ) :
    A * (v ⬝ᵥ v) ≤ (fun i => s i * v i) ⬝ᵥ (fun i => s i * v i) ∧
      (fun i => s i * v i) ⬝ᵥ (fun i => s i * v i) ≤ B * (v ⬝ᵥ v) := by
  simp only [dotProduct, Finset.mul_sum]
  constructor
  · refine Finset.sum_le_sum fun i _ => ?_
    nlinarith [mul_le_mul_of_nonneg_right (hA i) (mul_self_nonneg (v i))]
  · refine Finset.sum_le_sum fun i _ => ?_
    nlinarith [mul_le_mul_of_nonneg_right (hB i) (mul_self_nonneg (v i))]

/-- One pass of the orthogonalisation on data whose projections have bounded scales. -/
theorem ogkStep_bounds (eigh : ∀ A : Matrix (Fin p) (Fin p) ℝ, A.IsSymm → Eigh A) (loc est : List ℝ → ℝ) {A B L : ℝ}
    (hA : 0 < A) (hB : 0 < B) (hL : 0 ≤ L) (Z : List (Fin p → ℝ)) (hZ : Spec.scaleBounds est A B Z)
    (hl : Spec.locBound loc L Z) :
    ∃ Y M, ogkStep eigh est Z = some (Y, M) ∧ Spec.scaleBounds est (A / B) (B / A) Y ∧ Spec.locBound loc (L / A) Y ∧
      (∀ v : Fin p → ℝ, A * (v ⬝ᵥ v) ≤ (Mᵀ *ᵥ v) ⬝ᵥ (Mᵀ *ᵥ v) ∧ (Mᵀ *ᵥ v) ⬝ᵥ (Mᵀ *ᵥ v) ≤ B * (v ⬝ᵥ v)) ∧
      ∀ v : Fin p → ℝ, (M *ᵥ v) ⬝ᵥ (M *ᵥ v) ≤ B * (v ⬝ᵥ v) := by
  set s : Fin p → ℝ := fun i => est (column Z i) with hsd
  have hs : ∀ i, A ≤ s i ^ 2 ∧ s i ^ 2 ≤ B := by
    intro i
    have := hZ (Pi.single i 1)
    simp only [dotProduct_single_one, Pi.single_eq_same, mul_one] at this
    exact this
  have hs0 : ∀ i, s i ≠ 0 := by
    intro i h
    have := (hs i).1
    rw [h] at this
    norm_num at this
    linarith
  set Y := Z.map fun z j => z j / s j with hYd
  have hproj : ∀ u : Fin p → ℝ, (Y.map fun y => y ⬝ᵥ u) = Z.map fun z => z ⬝ᵥ fun i => (s i)⁻¹ * u i := by
    intro u
    rw [hYd, List.map_map]
    refine List.map_congr_left fun z _ => ?_
    simp only [Function.comp, dotProduct]
    refine Finset.sum_congr rfl fun i _ => ?_
    rw [div_eq_mul_inv]; ring
  have hinv : ∀ u : Fin p → ℝ, 1 / B * (u ⬝ᵥ u) ≤ (fun i => (s i)⁻¹ * u i) ⬝ᵥ (fun i => (s i)⁻¹ * u i) ∧
      (fun i => (s i)⁻¹ * u i) ⬝ᵥ (fun i => (s i)⁻¹ * u i) ≤ 1 / A * (u ⬝ᵥ u) := by
    intro u
    refine diag_dot_le (s := fun i => (s i)⁻¹) (fun i => ?_) (fun i => ?_) u
    · rw [inv_pow, ← one_div]
      exact one_div_le_one_div_of_le (lt_of_lt_of_le hA (hs i).1) (hs i).2
    · rw [inv_pow, ← one_div]
      exact one_div_le_one_div_of_le hA (hs i).1
  have hYb : Spec.scaleBounds est (A / B) (B / A) Y := by
    intro u
    rw [hproj u]
    obtain ⟨h1, h2⟩ := hZ fun i => (s i)⁻¹ * u i
    obtain ⟨h3, h4⟩ := hinv u
    refine ⟨le_trans ?_ h1, h2.trans ?_⟩
    · have := mul_le_mul_of_nonneg_left h3 hA.le
      calc A / B * (u ⬝ᵥ u) = A * (1 / B * (u ⬝ᵥ u)) := by ring
        _ ≤ _ := this
    · have := mul_le_mul_of_nonneg_left h4 hB.le
      calc _ ≤ B * (1 / A * (u ⬝ᵥ u)) := this
        _ = _ := by ring
  have hYl : Spec.locBound loc (L / A) Y := by
    intro u
    rw [hproj u]
    refine (hl fun i => (s i)⁻¹ * u i).trans ?_
    have := mul_le_mul_of_nonneg_left (hinv u).2 hL
    calc _ ≤ L * (1 / A * (u ⬝ᵥ u)) := this
      _ = _ := by ring
  set sum : Fin p → Fin p → ℝ := fun i j => est (Y.map fun y => y i + y j) with hsumd
  set diff : Fin p → Fin p → ℝ := fun i j => est (Y.map fun y => y i - y j) with hdiffd
  have hpos : ∀ i j, j < i → sum i j ^ 2 + diff i j ^ 2 ≠ 0 := by
    intro i j hij
    have h1 := (hYb (Pi.single i 1 + Pi.single j 1)).1
    have e1 : (Y.map fun y => y ⬝ᵥ (Pi.single i 1 + Pi.single j 1)) = Y.map fun y => y i + y j := by
      refine List.map_congr_left fun y _ => ?_
      rw [dotProduct_add, dotProduct_single_one, dotProduct_single_one]
    have e2 : (Pi.single i (1:ℝ) + Pi.single j 1 : Fin p → ℝ) ⬝ᵥ (Pi.single i 1 + Pi.single j 1) = 2 := by
      rw [dotProduct_add, dotProduct_single_one, dotProduct_single_one]
      simp [hij.ne, hij.ne']
      norm_num
    rw [e1, e2] at h1
    have h2 : 0 < A / B := div_pos hA hB
    have h3 : sum i j ^ 2 = est (Y.map fun y => y i + y j) ^ 2 := rfl
    have := sq_nonneg (diff i j)
    intro h
    nlinarith
  set cor : Fin p → Fin p → ℝ := fun i j =>
    (sum i j ^ 2 - diff i j ^ 2) / (sum i j ^ 2 + diff i j ^ 2) with hcord
  have hE' : ogkE eigh cor * (ogkE eigh cor)ᵀ = 1 := eighRev_orth _
  have hE : (ogkE eigh cor)ᵀ * ogkE eigh cor = 1 := mul_eq_one_comm.1 hE'
  set E := ogkE eigh cor with hEd
  have hrot : ∀ u : Fin p → ℝ, ((Y.map fun y => y ᵥ* E).map fun y => y ⬝ᵥ u) = Y.map fun y => y ⬝ᵥ (E *ᵥ u) := by
    intro u
    rw [List.map_map]
    refine List.map_congr_left fun y _ => ?_
    simp only [Function.comp]
    rw [← Matrix.dotProduct_mulVec]
  have hdiag : ∀ v : Fin p → ℝ, Matrix.diagonal s *ᵥ v = fun i => s i * v i := by
    intro v; funext i; rw [Matrix.mulVec_diagonal]
  refine ⟨Y.map fun y => y ᵥ* E, Matrix.diagonal s * E, ?_, ?_, ?_, ?_, ?_⟩
  · unfold ogkStep
    simp only
    rw [if_neg]
    rintro (⟨i, hi⟩ | ⟨i, j, hij, h⟩)
    · exact hs0 i hi
    · exact hpos i j hij h
  · intro u
    rw [hrot u]
    have := hYb (E *ᵥ u)
    rwa [orth_dot hE] at this
  · intro u
    rw [hrot u]
    have := hYl (E *ᵥ u)
    rwa [orth_dot hE] at this
  · intro v
    rw [Matrix.transpose_mul, Matrix.diagonal_transpose, ← Matrix.mulVec_mulVec,
      orth_dot (E := Eᵀ) (by rwa [Matrix.transpose_transpose]), hdiag]
    exact diag_dot_le (fun i => (hs i).1) (fun i => (hs i).2) v
  · intro v
    rw [← Matrix.mulVec_mulVec, hdiag]
    refine (diag_dot_le (fun i => (hs i).1) (fun i => (hs i).2) _).2.trans ?_
    rw [orth_dot hE]

/-- Lower bound of the quadratic form after `k` passes. -/
noncomputable def Spec.ogkLow : ℕ → ℝ → ℝ → ℝ
  | 0, A, _ => A
  | k + 1, A, B => A * Spec.ogkLow k (A / B) (B / A)

/-- Upper bound of the quadratic form after `k` passes. -/
noncomputable def Spec.ogkHigh : ℕ → ℝ → ℝ → ℝ
  | 0, _, B => B
  | k + 1, A, B => B * Spec.ogkHigh k (A / B) (B / A)

/-- Upper bound of the squared length of the location after `k` passes on `p` columns. -/
noncomputable def Spec.ogkLocHigh (p : ℕ) : ℕ → ℝ → ℝ → ℝ → ℝ
  | 0, _, _, L => p * L
  | k + 1, A, B, L => B * Spec.ogkLocHigh p k (A / B) (B / A) (L / A)

theorem ogkLow_pos : ∀ (k : ℕ) {A B : ℝ}, 0 < A → 0 < B → 0 < Spec.ogkLow k A B
  | 0, _, _, hA, _ => hA
  | k + 1, _, _, hA, hB => mul_pos hA (ogkLow_pos k (div_pos hA hB) (div_pos hB hA))

/-- **C168** for any scale and location estimators: when the projections of the data have bounded scales and
locations, the orthogonalisation goes through and its results have bounds which do not depend on the data
otherwise. -/
theorem C168_raw (eigh : ∀ A : Matrix (Fin p) (Fin p) ℝ, A.IsSymm → Eigh A) (loc est : List ℝ → ℝ) :
    ∀ (k : ℕ) {A B L : ℝ}, 0 < A → 0 < B → 0 ≤ L → ∀ X : List (Fin p → ℝ), Spec.scaleBounds est A B X →
      Spec.locBound loc L X → ∃ mu cov, ogkRaw eigh loc est k X = some (mu, cov) ∧
        mu ⬝ᵥ mu ≤ Spec.ogkLocHigh p k A B L ∧
        ∀ v : Fin p → ℝ, Spec.ogkLow k A B * (v ⬝ᵥ v) ≤ v ⬝ᵥ (cov *ᵥ v) ∧
          v ⬝ᵥ (cov *ᵥ v) ≤ Spec.ogkHigh k A B * (v ⬝ᵥ v)
  | 0, A, B, L, hA, hB, hL, X, hX, hl => by
    refine ⟨fun i => loc (column X i), Matrix.diagonal fun i => est (column X i) ^ 2, rfl, ?_, ?_⟩
    · unfold Spec.ogkLocHigh
      have : ∀ i ∈ (Finset.univ : Finset (Fin p)), loc (column X i) * loc (column X i) ≤ L := by
        intro i _
        have := hl (Pi.single i 1)
        simp only [dotProduct_single_one, Pi.single_eq_same, mul_one] at this
        rw [← pow_two]
        exact this
      have := Finset.sum_le_card_nsmul _ _ _ this
      simpa [dotProduct] using this
    · intro v
      have h : ∀ i, A ≤ est (column X i) ^ 2 ∧ est (column X i) ^ 2 ≤ B := by
        intro i
        have := hX (Pi.single i 1)
        simp only [dotProduct_single_one, Pi.single_eq_same, mul_one] at this
        exact this
      have e : v ⬝ᵥ ((Matrix.diagonal fun i => est (column X i) ^ 2) *ᵥ v) =
          (fun i => est (column X i) * v i) ⬝ᵥ (fun i => est (column X i) * v i) := by
        simp only [dotProduct, Matrix.mulVec_diagonal]
        exact Finset.sum_congr rfl fun i _ => by ring
      rw [e]
      exact diag_dot_le (fun i => (h i).1) (fun i => (h i).2) v
  | k + 1, A, B, L, hA, hB, hL, X, hX, hl => by
    obtain ⟨Y, M, hst, hY, hYl, hM, hM'⟩ := ogkStep_bounds eigh loc est hA hB hL X hX hl
    obtain ⟨mu, cov, hr, hmu, hcov⟩ := C168_raw eigh loc est k (div_pos hA hB) (div_pos hB hA) (div_nonneg hL hA.le) Y hY hYl
    have hhi : 0 ≤ Spec.ogkHigh k (A / B) (B / A) ∨ p = 0 := by
      rcases Nat.eq_zero_or_pos p with h | h
      · exact .inr h
      · refine .inl ?_
        have := hcov (Pi.single ⟨0, h⟩ 1)
        have h1 := ogkLow_pos k (div_pos hA hB) (div_pos hB hA)
        have e : (Pi.single (⟨0, h⟩ : Fin p) (1:ℝ) : Fin p → ℝ) ⬝ᵥ Pi.single ⟨0, h⟩ 1 = 1 := by simp
        rw [e] at this
        linarith [this.1, this.2]
    refine ⟨M *ᵥ mu, M * cov * Mᵀ, ?_, ?_, ?_⟩
    · rw [ogkRaw_succ, hst, Option.bind_some]
      simp only [hr, Option.map_some]
    · refine (hM' mu).trans ?_
      exact mul_le_mul_of_nonneg_left hmu hB.le
    · intro v
      have e : v ⬝ᵥ ((M * cov * Mᵀ) *ᵥ v) = (Mᵀ *ᵥ v) ⬝ᵥ (cov *ᵥ (Mᵀ *ᵥ v)) := by
        rw [Matrix.mul_assoc, ← Matrix.mulVec_mulVec, ← Matrix.mulVec_mulVec, Matrix.dotProduct_mulVec,
          ← Matrix.mulVec_transpose]
      rw [e]
      obtain ⟨h1, h2⟩ := hcov (Mᵀ *ᵥ v)
      obtain ⟨h3, h4⟩ := hM v
      refine ⟨le_trans ?_ h1, h2.trans ?_⟩
      · have := mul_le_mul_of_nonneg_left h3 (ogkLow_pos k (div_pos hA hB) (div_pos hB hA)).le
        calc _ = Spec.ogkLow k (A / B) (B / A) * (A * (v ⬝ᵥ v)) := by rw [Spec.ogkLow]; ring
          _ ≤ _ := this
      · rcases hhi with hhi | h0
        · have := mul_le_mul_of_nonneg_left h4 hhi
          calc _ ≤ Spec.ogkHigh k (A / B) (B / A) * (B * (v ⬝ᵥ v)) := this
            _ = _ := by rw [Spec.ogkHigh]; ring
        · subst h0
          simp

/-! ### Median and MAD of the projections of contaminated rows -/

theorem sphere_compact : IsCompact {u : Fin p → ℝ | u ⬝ᵥ u = 1} := by
  refine (isCompact_Icc (a := fun _ : Fin p => (-1:ℝ)) (b := fun _ => 1)).of_isClosed_subset ?_ ?_
  · refine isClosed_eq ?_ continuous_const
    unfold dotProduct
    fun_prop
  · intro u hu
    have h : ∀ i, u i ^ 2 ≤ 1 := by
      intro i
      have h1 : u i * u i ≤ ∑ j, u j * u j :=
        Finset.single_le_sum (f := fun j => u j * u j) (fun j _ => mul_self_nonneg _) (Finset.mem_univ i)
      have h2 : ∑ j, u j * u j = 1 := hu
      nlinarith
    constructor
    · intro i; nlinarith [h i]
    · intro i; nlinarith [h i]

/-- The sum of the distances between the projections of the rows. -/
def spread (S : List (Fin p → ℝ)) (u : Fin p → ℝ) : ℝ := (S.map fun x => (S.map fun y => |x ⬝ᵥ u - y ⬝ᵥ u|).sum).sum

theorem continuous_list_sum {α : Type} (l : List α) (f : α → (Fin p → ℝ) → ℝ) (hf : ∀ a, Continuous (f a)) :
    Continuous fun u => (l.map fun a => f a u).sum := by
  induction l with
  | nil => simpa using continuous_const
  | cons a l ih =>
    simp only [List.map_cons, List.sum_cons]
    exact (hf a).add ih

theorem spread_continuous (S : List (Fin p → ℝ)) : Continuous (spread S) := by
  unfold spread
  refine continuous_list_sum S _ fun x => continuous_list_sum S _ fun y => ?_
  unfold dotProduct
  fun_prop

theorem spread_le {S : List (Fin p → ℝ)} {u : Fin p → ℝ} {m w : ℝ} (h : ∀ x ∈ S, |x ⬝ᵥ u - m| ≤ w) :
    spread S u ≤ (S.length : ℝ) * (S.length * (2 * w)) := by
  unfold spread
  have h1 : ∀ x ∈ S, (S.map fun y => |x ⬝ᵥ u - y ⬝ᵥ u|).sum ≤ S.length * (2 * w) := by
    intro x hx
    have := List.sum_le_card_nsmul (S.map fun y => |x ⬝ᵥ u - y ⬝ᵥ u|) (2 * w) (by
      intro z hz
      obtain ⟨y, hy, rfl⟩ := List.mem_map.1 hz
      have e1 := abs_le.1 (h x hx)
      have e2 := abs_le.1 (h y hy)
      rw [abs_le]
      constructor <;> linarith)
    simpa using this
  have := List.sum_le_card_nsmul (S.map fun x => (S.map fun y => |x ⬝ᵥ u - y ⬝ᵥ u|).sum) (S.length * (2 * w)) (by
    intro z hz
    obtain ⟨x, hx, rfl⟩ := List.mem_map.1 hz
    exact h1 x hx)
  simpa using this

theorem spread_pos {S : List (Fin p → ℝ)} {u : Fin p → ℝ} {x y : Fin p → ℝ} (hx : x ∈ S) (hy : y ∈ S)
    (h : x ⬝ᵥ u ≠ y ⬝ᵥ u) : 0 < spread S u := by
  have h1 : |x ⬝ᵥ u - y ⬝ᵥ u| ≤ (S.map fun y => |x ⬝ᵥ u - y ⬝ᵥ u|).sum :=
    List.single_le_sum (by
      intro z hz
      obtain ⟨y, -, rfl⟩ := List.mem_map.1 hz
      exact abs_nonneg _) _ (List.mem_map.2 ⟨y, hy, rfl⟩)
  have h2 : (S.map fun y => |x ⬝ᵥ u - y ⬝ᵥ u|).sum ≤ spread S u :=
    List.single_le_sum (by
      intro z hz
      obtain ⟨x, -, rfl⟩ := List.mem_map.1 hz
      refine List.sum_nonneg ?_
      intro z hz
      obtain ⟨y, -, rfl⟩ := List.mem_map.1 hz
      exact abs_nonneg _) _ (List.mem_map.2 ⟨x, hx, rfl⟩)
  have := abs_pos.2 (sub_ne_zero.2 h)
  linarith

theorem spread_bound {S : List (Fin p → ℝ)} (h : ∀ u : Fin p → ℝ, u ⬝ᵥ u = 1 → 0 < spread S u) :
    ∃ ε > 0, ∀ u : Fin p → ℝ, u ⬝ᵥ u = 1 → ε ≤ spread S u := by
  by_cases hne : {u : Fin p → ℝ | u ⬝ᵥ u = 1}.Nonempty
  · obtain ⟨u0, hu0, hmin⟩ := sphere_compact.exists_isMinOn hne (spread_continuous S).continuousOn
    exact ⟨spread S u0, h u0 hu0, fun u hu => hmin hu⟩
  · exact ⟨1, one_pos, fun u hu => absurd ⟨u, hu⟩ hne⟩

theorem spread_bound_list (Q : List (List (Fin p → ℝ)))
    (h : ∀ S ∈ Q, ∀ u : Fin p → ℝ, u ⬝ᵥ u = 1 → 0 < spread S u) :
    ∃ ε > 0, ∀ S ∈ Q, ∀ u : Fin p → ℝ, u ⬝ᵥ u = 1 → ε ≤ spread S u := by
  induction Q with
  | nil => exact ⟨1, one_pos, by simp⟩
  | cons S Q ih =>
    obtain ⟨e1, h1, h1'⟩ := spread_bound (h S List.mem_cons_self)
    obtain ⟨e2, h2, h2'⟩ := ih fun T hT => h T (List.mem_cons_of_mem _ hT)
    refine ⟨min e1 e2, lt_min h1 h2, ?_⟩
    intro T hT u hu
    rcases List.mem_cons.1 hT with rfl | hT
    · exact (min_le_left _ _).trans (h1' u hu)
    · exact (min_le_right _ _).trans (h2' T hT u hu)

/-- Rows in general position: a uniform width such that no slab of it contains more than `p` rows. -/
theorem slab_bound {G : List (Fin p → ℝ)} (hG : Spec.RowsInGeneralPosition G) :
    ∃ δ > 0, ∀ (u : Fin p → ℝ) (m : ℝ), u ⬝ᵥ u = 1 → G.countP (fun x => decide (|x ⬝ᵥ u - m| < δ)) ≤ p := by
  obtain ⟨ε, hε, h⟩ := spread_bound_list (G.sublists.filter fun S => decide (S.length = p + 1)) (by
    intro S hS u hu
    obtain ⟨h1, h2⟩ := List.mem_filter.1 hS
    have h1 := List.mem_sublists.1 h1
    have h2 : S.length = p + 1 := by simpa using h2
    have hu0 : u ≠ 0 := by rintro rfl; simp at hu
    obtain ⟨x, hx⟩ : ∃ x, x ∈ S := List.exists_mem_of_length_pos (by omega)
    by_contra hcon
    have hall : ∀ y ∈ S, y ⬝ᵥ u = x ⬝ᵥ u := by
      intro y hy
      by_contra hne
      exact hcon (spread_pos hy hx hne)
    have h3 : S.countP (fun y => decide (y ⬝ᵥ u = x ⬝ᵥ u)) = S.length :=
      List.countP_eq_length.2 fun y hy => by simpa using hall y hy
    have h4 := h1.countP_le (p := fun y => decide (y ⬝ᵥ u = x ⬝ᵥ u))
    have := hG u hu0 (x ⬝ᵥ u)
    omega)
  have hp : (0:ℝ) < ((p + 1 : ℕ) : ℝ) := by exact_mod_cast Nat.succ_pos p
  refine ⟨ε / (4 * ((p + 1 : ℕ) : ℝ) ^ 2), by positivity, ?_⟩
  intro u m hu
  by_contra hcon
  push Not at hcon
  rw [List.countP_eq_length_filter] at hcon
  set F := G.filter fun x => decide (|x ⬝ᵥ u - m| < ε / (4 * ((p + 1 : ℕ) : ℝ) ^ 2)) with hF
  have h1 : (F.take (p + 1)).Sublist G := (List.take_sublist _ _).trans List.filter_sublist
  have h2 : (F.take (p + 1)).length = p + 1 := by rw [List.length_take]; omega
  have h3 := h (F.take (p + 1)) (List.mem_filter.2 ⟨List.mem_sublists.2 h1, by simpa using h2⟩) u hu
  have h4 := spread_le (S := F.take (p + 1)) (u := u) (m := m) (w := ε / (4 * ((p + 1 : ℕ) : ℝ) ^ 2)) (by
    intro x hx
    have := (List.mem_filter.1 (List.mem_of_mem_take hx)).2
    exact (by simpa using this : |x ⬝ᵥ u - m| < _).le)
  rw [h2] at h4
  have e : ((p + 1 : ℕ) : ℝ) * (((p + 1 : ℕ) : ℝ) * (2 * (ε / (4 * ((p + 1 : ℕ) : ℝ) ^ 2)))) = ε / 2 := by
    field_simp
    norm_num
  rw [e] at h4
  linarith

/-- The MAD from below: no interval of half-width `δ` contains as many observations as the median needs. -/
theorem madRaw_ge {X B G : List ℝ} (hX : X.Perm (B ++ G)) (q : ℕ) (hm : B.length + q ≤ X.length / 2) (hne : X ≠ [])
    {δ : ℝ} (hG : ∀ m, G.countP (fun y => decide (|y - m| < δ)) ≤ q) : ∃ s, madRaw X = some s ∧ δ / 2 ≤ s := by
  obtain ⟨s, hs⟩ := madRaw_isSome hne
  refine ⟨s, hs, ?_⟩
  obtain ⟨m, -, h2⟩ := madRaw_spec hs
  obtain ⟨a, b, ha, hb, he⟩ := npMedian_eq_some_iff.1 h2
  have h0 : 0 ≤ a := by
    have := isKth_mem ha
    obtain ⟨x, -, rfl⟩ := List.mem_map.1 this
    exact abs_nonneg _
  have h3 : δ ≤ b := by
    by_contra hlt
    push Not at hlt
    have h4 := hb.2
    rw [List.length_map] at h4
    have h5 : (X.map fun x => |x - m|).countP (fun x => decide (x ≤ b)) ≤ B.length + q := by
      rw [(hX.map _).countP_eq, List.map_append, List.countP_append]
      have h6 : (B.map fun x => |x - m|).countP (fun x => decide (x ≤ b)) ≤ B.length := by
        simpa using List.countP_le_length (p := fun x => decide (x ≤ b)) (l := B.map fun x => |x - m|)
      have h7 : (G.map fun x => |x - m|).countP (fun x => decide (x ≤ b)) ≤ G.countP (fun y => decide (|y - m| < δ)) := by
        rw [List.countP_map]
        apply List.countP_mono_left
        intro x _ hx
        simp only [Function.comp, decide_eq_true_eq] at hx ⊢
        exact lt_of_le_of_lt hx hlt
      have := hG m
      omega
    omega
  rw [he]
  linarith

theorem dot_sq_le (x u : Fin p → ℝ) : (x ⬝ᵥ u) ^ 2 ≤ (x ⬝ᵥ x) * (u ⬝ᵥ u) := by
  simp only [dotProduct]
  have := Finset.sum_mul_sq_le_sq_mul_sq Finset.univ x u
  simpa [pow_two] using this

theorem rows_bounded (G : List (Fin p → ℝ)) : ∃ R > 0, ∀ x ∈ G, x ⬝ᵥ x ≤ R ^ 2 := by
  induction G with
  | nil => exact ⟨1, one_pos, by simp⟩
  | cons x G ih =>
    obtain ⟨R, hR, h⟩ := ih
    have h0 : 0 ≤ x ⬝ᵥ x := by simp only [dotProduct]; exact Finset.sum_nonneg fun i _ => mul_self_nonneg _
    refine ⟨R + (x ⬝ᵥ x + 1), by positivity, ?_⟩
    intro y hy
    rcases List.mem_cons.1 hy with rfl | hy
    · nlinarith
    · nlinarith [h y hy]

theorem dot_self_nonneg (x : Fin p → ℝ) : 0 ≤ x ⬝ᵥ x := by
  simp only [dotProduct]; exact Finset.sum_nonneg fun i _ => mul_self_nonneg _

theorem dot_self_pos {x : Fin p → ℝ} (h : x ≠ 0) : 0 < x ⬝ᵥ x :=
  lt_of_le_of_ne (dot_self_nonneg x) fun e => h (dotProduct_self_eq_zero.1 e.symm)

/-- The median and the MAD of the projections when fewer than half of the rows are outliers and the others are
in general position: bounds which do not depend on the outliers. -/
theorem directions_bounded (hp : 0 < p) (G : List (Fin p → ℝ)) (hG : Spec.RowsInGeneralPosition G) :
    ∃ A B L : ℝ, 0 < A ∧ 0 < B ∧ 0 ≤ L ∧ ∀ X O : List (Fin p → ℝ), X.Perm (O ++ G) →
      O.length + p ≤ X.length / 2 →
      Spec.scaleBounds (fun l => (madRaw l).getD 0) A B X ∧ Spec.locBound (fun l => (npMedian l).getD 0) L X := by
  obtain ⟨δ, hδ, hslab⟩ := slab_bound hG
  obtain ⟨R, hR, hrows⟩ := rows_bounded G
  refine ⟨(δ / 2) ^ 2, (2 * R) ^ 2, R ^ 2, by positivity, by positivity, by positivity, ?_⟩
  intro X O hX hO
  have hlen : X.length = O.length + G.length := by simpa using hX.length_eq
  have hne : X ≠ [] := by rintro rfl; simp at hO; omega
  have hproj : ∀ u : Fin p → ℝ, (X.map fun x => x ⬝ᵥ u).Perm ((O.map fun x => x ⬝ᵥ u) ++ G.map fun x => x ⬝ᵥ u) := by
    intro u; rw [← List.map_append]; exact hX.map _
  have hne' : ∀ u : Fin p → ℝ, (X.map fun x => x ⬝ᵥ u) ≠ [] := fun u => by simpa using hne
  have hup : ∀ u : Fin p → ℝ, ∃ m s, npMedian (X.map fun x => x ⬝ᵥ u) = some m ∧ madRaw (X.map fun x => x ⬝ᵥ u) = some s ∧
      m ^ 2 ≤ R ^ 2 * (u ⬝ᵥ u) ∧ 0 ≤ s ∧ s ^ 2 ≤ (2 * R) ^ 2 * (u ⬝ᵥ u) := by
    intro u
    set n := Real.sqrt (u ⬝ᵥ u) with hn
    have hn2 : n ^ 2 = u ⬝ᵥ u := Real.sq_sqrt (dot_self_nonneg u)
    have hn0 : 0 ≤ n := Real.sqrt_nonneg _
    have hc : (X.map fun x => x ⬝ᵥ u).length <
        2 * (X.map fun x => x ⬝ᵥ u).countP (fun x => decide (-(R * n) ≤ x ∧ x ≤ R * n)) := by
      have h1 : (G.map fun x => x ⬝ᵥ u).countP (fun x => decide (-(R * n) ≤ x ∧ x ≤ R * n)) = G.length := by
        rw [← List.length_map (f := fun x => x ⬝ᵥ u) (as := G)]
        refine List.countP_eq_length.2 fun z hz => ?_
        obtain ⟨x, hx, rfl⟩ := List.mem_map.1 hz
        rw [decide_eq_true_eq, ← abs_le]
        refine abs_le_of_sq_le_sq ?_ (by positivity)
        rw [mul_pow, hn2]
        exact (dot_sq_le x u).trans (mul_le_mul_of_nonneg_right (hrows x hx) (dot_self_nonneg u))
      rw [(hproj u).countP_eq, List.countP_append, h1, List.length_map, hlen]
      omega
    obtain ⟨m, s, e1, e2, e3, e4, e5⟩ := C12_breakdown _ _ _ hc
    refine ⟨m, s, e1, e2, ?_, e4, ?_⟩
    · rw [← hn2, ← mul_pow]
      exact sq_le_sq' e3.1 e3.2
    · rw [← hn2, ← mul_pow]
      exact pow_le_pow_left₀ e4 (by linarith) 2
  constructor
  · intro u
    obtain ⟨m, s, e1, e2, e3, e4, e5⟩ := hup u
    simp only [e2, Option.getD_some]
    refine ⟨?_, e5⟩
    by_cases hu : u = 0
    · subst hu; simpa using sq_nonneg s
    set n := Real.sqrt (u ⬝ᵥ u) with hn
    have hn2 : n ^ 2 = u ⬝ᵥ u := Real.sq_sqrt (dot_self_nonneg u)
    have hn0 : 0 < n := Real.sqrt_pos.2 (dot_self_pos hu)
    obtain ⟨s', f1, f2⟩ := madRaw_ge (hproj u) p (by simpa using hO) (hne' u) (δ := δ * n) (by
      intro m
      rw [List.countP_map]
      have hunit : (n⁻¹ • u) ⬝ᵥ (n⁻¹ • u) = 1 := by
        rw [smul_dotProduct, dotProduct_smul, ← hn2, smul_eq_mul, smul_eq_mul]
        field_simp
      refine le_trans ?_ (hslab (n⁻¹ • u) (n⁻¹ * m) hunit)
      apply List.countP_mono_left
      intro x _ hx
      simp only [Function.comp, decide_eq_true_eq] at hx ⊢
      rw [dotProduct_smul, smul_eq_mul, ← mul_sub, abs_mul, abs_of_pos (inv_pos.2 hn0), inv_mul_lt_iff₀ hn0]
      linarith)
    rw [e2] at f1
    obtain rfl := Option.some.inj f1
    rw [← hn2, ← mul_pow]
    exact pow_le_pow_left₀ (by positivity) (by linarith) 2
  · intro u
    obtain ⟨m, s, e1, e2, e3, e4, e5⟩ := hup u
    simp only [e1, Option.getD_some]
    exact e3

/-- **C168** for the defaults of `OGK`. -/
theorem C168_defaults (eigh : ∀ A : Matrix (Fin p) (Fin p) ℝ, A.IsSymm → Eigh A) (k : ℕ) (hp : 0 < p)
    (G : List (Fin p → ℝ)) (hG : Spec.RowsInGeneralPosition G) :
    ∃ c C M : ℝ, 0 < c ∧ ∀ X O : List (Fin p → ℝ), X.Perm (O ++ G) → O.length + p ≤ X.length / 2 →
      ∃ mu cov, ogkRaw eigh (fun l => (npMedian l).getD 0) (fun l => (madRaw l).getD 0) k X = some (mu, cov) ∧
        mu ⬝ᵥ mu ≤ M ∧ ∀ v : Fin p → ℝ, c * (v ⬝ᵥ v) ≤ v ⬝ᵥ (cov *ᵥ v) ∧ v ⬝ᵥ (cov *ᵥ v) ≤ C * (v ⬝ᵥ v) := by
  obtain ⟨A, B, L, hA, hB, hL, h⟩ := directions_bounded hp G hG
  refine ⟨Spec.ogkLow k A B, Spec.ogkHigh k A B, Spec.ogkLocHigh p k A B L, ogkLow_pos k hA hB, ?_⟩
  intro X O hX h1
  obtain ⟨hs, hl⟩ := h X O hX h1
  exact C168_raw eigh _ _ k hA hB hL X hs hl

/-! ### Reweighting and the whole fit -/

theorem quad_sub (A : Matrix (Fin p) (Fin p) ℝ) (hA : A.IsSymm) (w z : Fin p → ℝ) (t : ℝ) :
    (w + t • z) ⬝ᵥ (A *ᵥ (w + t • z)) = (z ⬝ᵥ (A *ᵥ z)) * (t * t) + (2 * (w ⬝ᵥ (A *ᵥ z))) * t + w ⬝ᵥ (A *ᵥ w) := by
  have hc : z ⬝ᵥ (A *ᵥ w) = w ⬝ᵥ (A *ᵥ z) := by
    rw [Matrix.dotProduct_mulVec, ← Matrix.mulVec_transpose, hA.eq, dotProduct_comm]
  rw [Matrix.mulVec_add, Matrix.mulVec_smul, add_dotProduct, dotProduct_add, dotProduct_add, smul_dotProduct,
    smul_dotProduct, dotProduct_smul, dotProduct_smul, hc]
  simp only [smul_eq_mul]
  ring

/-- The quadratic form of the inverse of a matrix whose form is bounded. -/
theorem quadForm_inv_bounds {A : Matrix (Fin p) (Fin p) ℝ} (hA : A.IsSymm) {c C : ℝ} (hc : 0 < c)
    (h : ∀ v : Fin p → ℝ, c * (v ⬝ᵥ v) ≤ v ⬝ᵥ (A *ᵥ v) ∧ v ⬝ᵥ (A *ᵥ v) ≤ C * (v ⬝ᵥ v)) :
    A.det ≠ 0 ∧ ∀ w : Fin p → ℝ, quadForm A⁻¹ w ≤ (w ⬝ᵥ w) / c ∧ w ⬝ᵥ w ≤ C * quadForm A⁻¹ w := by
  have hdet : A.det ≠ 0 := by
    intro h0
    obtain ⟨v, hv, hv0⟩ := Matrix.exists_mulVec_eq_zero_iff.2 h0
    have := (h v).1
    rw [hv0, dotProduct_zero] at this
    have := mul_pos hc (dot_self_pos hv)
    linarith
  refine ⟨hdet, fun w => ?_⟩
  set z := A⁻¹ *ᵥ w with hz
  have hw : A *ᵥ z = w := by
    rw [hz, Matrix.mulVec_mulVec, Matrix.mul_nonsing_inv _ (isUnit_iff_ne_zero.2 hdet), Matrix.one_mulVec]
  have hq : quadForm A⁻¹ w = z ⬝ᵥ (A *ᵥ z) := by
    unfold quadForm
    rw [← Matrix.dotProduct_mulVec, ← hz, hw, dotProduct_comm]
  set q := z ⬝ᵥ (A *ᵥ z) with hqd
  have hq0 : 0 ≤ q := le_trans (mul_nonneg hc.le (dot_self_nonneg z)) (h z).1
  rw [hq]
  constructor
  · rw [le_div_iff₀ hc]
    have h1 : q ^ 2 ≤ (z ⬝ᵥ z) * (w ⬝ᵥ w) := by
      have := dot_sq_le z w
      rwa [hqd, hw]
    have h2 := (h z).1
    rcases hq0.eq_or_lt with e | e
    · rw [← e]; simpa using dot_self_nonneg w
    · have h3 : c * q ^ 2 ≤ q * (w ⬝ᵥ w) := by
        have := mul_le_mul_of_nonneg_right h2 (dot_self_nonneg w)
        nlinarith
      have h4 : q * (q * c) ≤ q * (w ⬝ᵥ w) := by nlinarith
      exact le_of_mul_le_mul_left h4 e
  · have h1 : ∀ t : ℝ, 0 ≤ q * (t * t) + (2 * (w ⬝ᵥ w)) * t + w ⬝ᵥ (A *ᵥ w) := by
      intro t
      have := quad_sub A hA w z t
      rw [hw] at this
      rw [hqd, hw, ← this]
      exact le_trans (mul_nonneg hc.le (dot_self_nonneg _)) (h _).1
    have h2 := discrim_le_zero h1
    unfold discrim at h2
    have h3 := (h w).2
    rcases (dot_self_nonneg w).eq_or_lt with e | e
    · have hw0 : w = 0 := dotProduct_self_eq_zero.1 e.symm
      have hz0 : z = 0 := by rw [hz, hw0, Matrix.mulVec_zero]
      rw [hqd, ← e, hz0]
      simp
    · have h4 : (w ⬝ᵥ w) * (w ⬝ᵥ w) ≤ (w ⬝ᵥ w) * (C * q) := by
        have := mul_le_mul_of_nonneg_left h3 hq0
        nlinarith
      exact le_of_mul_le_mul_left h4 e

theorem meanRow_dot_mean (R : List (Fin p → ℝ)) (v : Fin p → ℝ) : meanRow R ⬝ᵥ v = mean (R.map fun x => x ⬝ᵥ v) := by
  unfold meanRow mean
  simp only [List.length_map]
  have : ∀ R : List (Fin p → ℝ), (R.map fun x => x ⬝ᵥ v).sum = ∑ j, (R.map fun x => x j).sum * v j := by
    intro R
    induction R with
    | nil => simp
    | cons x R ih =>
      simp only [List.map_cons, List.sum_cons, ih, add_mul, Finset.sum_add_distrib]
      rfl
  rw [this R, Finset.sum_div]
  exact Finset.sum_congr rfl fun j _ => by ring

theorem npCov_form (R : List (Fin p → ℝ)) (v : Fin p → ℝ) :
    v ⬝ᵥ (npCov R *ᵥ v) = (R.map fun x => (x ⬝ᵥ v - meanRow R ⬝ᵥ v) ^ 2).sum / ((R.length : ℝ) - 1) := by
  have key : ∀ (m : Fin p → ℝ) (R : List (Fin p → ℝ)), (R.map fun x => (x ⬝ᵥ v - m ⬝ᵥ v) ^ 2).sum =
      ∑ i, v i * ∑ j, (R.map fun x => (x i - m i) * (x j - m j)).sum * v j := by
    intro m R
    induction R with
    | nil => simp
    | cons x R ih =>
      simp only [List.map_cons, List.sum_cons, ih, add_mul, Finset.sum_add_distrib, mul_add]
      congr 1
      have : x ⬝ᵥ v - m ⬝ᵥ v = ∑ i, (x i - m i) * v i := by
        rw [← sub_dotProduct]; rfl
      rw [this, pow_two, Finset.sum_mul]
      refine Finset.sum_congr rfl fun i _ => ?_
      rw [Finset.mul_sum, Finset.mul_sum]
      exact Finset.sum_congr rfl fun j _ => by ring
  rw [key, Finset.sum_div]
  simp only [dotProduct, Matrix.mulVec, npCov]
  refine Finset.sum_congr rfl fun i _ => ?_
  rw [mul_div_assoc, Finset.sum_div]
  congr 1
  exact Finset.sum_congr rfl fun j _ => by ring

/-- Rows of bounded length: the length of the mean. -/
theorem meanRow_bounded {R : List (Fin p → ℝ)} {Q : ℝ} (hQ : 0 ≤ Q) (hne : R ≠ []) (h : ∀ x ∈ R, x ⬝ᵥ x ≤ Q ^ 2)
    (v : Fin p → ℝ) : |meanRow R ⬝ᵥ v| ≤ Q * Real.sqrt (v ⬝ᵥ v) := by
  have hl : (0:ℝ) < R.length := by exact_mod_cast List.length_pos_iff.2 hne
  rw [meanRow_dot_mean]
  unfold mean
  rw [abs_div, List.length_map, abs_of_pos hl, div_le_iff₀ hl]
  have hx : ∀ x ∈ R, |x ⬝ᵥ v| ≤ Q * Real.sqrt (v ⬝ᵥ v) := by
    intro x hx
    refine abs_le_of_sq_le_sq ?_ (mul_nonneg hQ (Real.sqrt_nonneg _))
    rw [mul_pow, Real.sq_sqrt (dot_self_nonneg v)]
    exact (dot_sq_le x v).trans (mul_le_mul_of_nonneg_right (h x hx) (dot_self_nonneg v))
  have : ∀ l : List (Fin p → ℝ), (∀ x ∈ l, |x ⬝ᵥ v| ≤ Q * Real.sqrt (v ⬝ᵥ v)) →
      |(l.map fun x => x ⬝ᵥ v).sum| ≤ Q * Real.sqrt (v ⬝ᵥ v) * l.length := by
    intro l hl
    induction l with
    | nil => simp
    | cons x l ih =>
      simp only [List.map_cons, List.sum_cons, List.length_cons, Nat.cast_add, Nat.cast_one]
      have h1 := ih fun y hy => hl y (List.mem_cons_of_mem _ hy)
      have h2 := hl x List.mem_cons_self
      have := abs_add_le (x ⬝ᵥ v) (l.map fun x => x ⬝ᵥ v).sum
      linarith
  exact this R hx

/-- Rows of bounded length: the covariance from above. -/
theorem npCov_form_le {R : List (Fin p → ℝ)} {Q : ℝ} (hQ : 0 ≤ Q) (h2 : 2 ≤ R.length) (h : ∀ x ∈ R, x ⬝ᵥ x ≤ Q ^ 2)
    (v : Fin p → ℝ) : v ⬝ᵥ (npCov R *ᵥ v) ≤ 8 * Q ^ 2 * (v ⬝ᵥ v) := by
  have hne : R ≠ [] := by rintro rfl; simp at h2
  have hl : (2:ℝ) ≤ R.length := by exact_mod_cast h2
  rw [npCov_form, div_le_iff₀ (by linarith)]
  have h1 := meanRow_bounded hQ hne h v
  have := List.sum_le_card_nsmul (R.map fun x => (x ⬝ᵥ v - meanRow R ⬝ᵥ v) ^ 2) (4 * Q ^ 2 * (v ⬝ᵥ v)) (by
    intro z hz
    obtain ⟨x, hx, rfl⟩ := List.mem_map.1 hz
    have e1 : |x ⬝ᵥ v| ≤ Q * Real.sqrt (v ⬝ᵥ v) := by
      refine abs_le_of_sq_le_sq ?_ (mul_nonneg hQ (Real.sqrt_nonneg _))
      rw [mul_pow, Real.sq_sqrt (dot_self_nonneg v)]
      exact (dot_sq_le x v).trans (mul_le_mul_of_nonneg_right (h x hx) (dot_self_nonneg v))
    have e2 : |x ⬝ᵥ v - meanRow R ⬝ᵥ v| ≤ 2 * (Q * Real.sqrt (v ⬝ᵥ v)) := by
      have := abs_sub (x ⬝ᵥ v) (meanRow R ⬝ᵥ v)
      linarith
    have e3 := pow_le_pow_left₀ (abs_nonneg _) e2 2
    rw [sq_abs, mul_pow, mul_pow, Real.sq_sqrt (dot_self_nonneg v)] at e3
    linarith)
  rw [List.length_map, nsmul_eq_mul] at this
  refine this.trans ?_
  have h0 : 0 ≤ Q ^ 2 * (v ⬝ᵥ v) := mul_nonneg (sq_nonneg _) (dot_self_nonneg v)
  nlinarith

/-- The covariance from below: every slab misses a row. -/
theorem npCov_form_ge {R : List (Fin p → ℝ)} {δ : ℝ} (hδ : 0 < δ) (h2 : 2 ≤ R.length) {N : ℕ} (hN : R.length ≤ N)
    (h : ∀ (u : Fin p → ℝ) (m : ℝ), u ⬝ᵥ u = 1 → ∃ x ∈ R, δ ≤ |x ⬝ᵥ u - m|) (v : Fin p → ℝ) :
    δ ^ 2 / N * (v ⬝ᵥ v) ≤ v ⬝ᵥ (npCov R *ᵥ v) := by
  by_cases hv : v = 0
  · subst hv; simp
  have hl : (2:ℝ) ≤ R.length := by exact_mod_cast h2
  have hNl : (R.length : ℝ) ≤ N := by exact_mod_cast hN
  set n := Real.sqrt (v ⬝ᵥ v) with hn
  have hn2 : n ^ 2 = v ⬝ᵥ v := Real.sq_sqrt (dot_self_nonneg v)
  have hn0 : 0 < n := Real.sqrt_pos.2 (dot_self_pos hv)
  have hunit : (n⁻¹ • v) ⬝ᵥ (n⁻¹ • v) = 1 := by
    rw [smul_dotProduct, dotProduct_smul, ← hn2, smul_eq_mul, smul_eq_mul]
    field_simp
  obtain ⟨x, hx, hd⟩ := h (n⁻¹ • v) (n⁻¹ * (meanRow R ⬝ᵥ v)) hunit
  rw [dotProduct_smul, smul_eq_mul, ← mul_sub, abs_mul, abs_of_pos (inv_pos.2 hn0), le_inv_mul_iff₀ hn0] at hd
  have e1 : (x ⬝ᵥ v - meanRow R ⬝ᵥ v) ^ 2 ≤ (R.map fun x => (x ⬝ᵥ v - meanRow R ⬝ᵥ v) ^ 2).sum :=
    List.single_le_sum (by
      intro z hz
      obtain ⟨y, -, rfl⟩ := List.mem_map.1 hz
      exact sq_nonneg _) _ (List.mem_map.2 ⟨x, hx, rfl⟩)
  have e2 : δ ^ 2 * n ^ 2 ≤ (x ⬝ᵥ v - meanRow R ⬝ᵥ v) ^ 2 := by
    rw [← mul_pow, ← sq_abs (x ⬝ᵥ v - _)]
    exact pow_le_pow_left₀ (by positivity) (by linarith) 2
  rw [npCov_form, ← hn2, le_div_iff₀ (by linarith)]
  refine le_trans ?_ (e2.trans e1)
  rw [div_mul_eq_mul_div, div_mul_eq_mul_div, div_le_iff₀ (by linarith)]
  have : 0 ≤ δ ^ 2 * n ^ 2 := by positivity
  nlinarith

/-- A result of `fit`: the attributes `covariance_` and `location_` within the given bounds. -/
def Spec.boundedFit (c C M : ℝ) (r : Except PyErr Unit × CovState ℝ (Fin p)) : Prop :=
  r.1 = .ok () ∧ ∃ mu cov, r.2.location_ = some mu ∧ r.2.covariance_ = some cov ∧ mu ⬝ᵥ mu ≤ M ∧
    ∀ v : Fin p → ℝ, c * (v ⬝ᵥ v) ≤ v ⬝ᵥ (cov *ᵥ v) ∧ v ⬝ᵥ (cov *ᵥ v) ≤ C * (v ⬝ᵥ v)

/-- The rows kept by the reweighting, for estimates within bounds. -/
theorem ogkReweight_bounds (hp : 2 ≤ p) (G : List (Fin p → ℝ)) (hG : Spec.RowsInGeneralPosition G) {c C M ratio : ℝ}
    (hc : 0 < c) (hr : 1 < ratio) :
    ∃ c' C' M' : ℝ, 0 < c' ∧ ∀ X O : List (Fin p → ℝ), X.Perm (O ++ G) → O.length + p + 1 ≤ X.length / 2 →
      ∀ (mu : Fin p → ℝ) (cov : Matrix (Fin p) (Fin p) ℝ), cov.IsSymm → mu ⬝ᵥ mu ≤ M →
      (∀ v : Fin p → ℝ, c * (v ⬝ᵥ v) ≤ v ⬝ᵥ (cov *ᵥ v) ∧ v ⬝ᵥ (cov *ᵥ v) ≤ C * (v ⬝ᵥ v)) →
      ∃ mu' cov', ogkReweight ratio X mu cov = .ok (mu', some cov') ∧ mu' ⬝ᵥ mu' ≤ M' ∧
        ∀ v : Fin p → ℝ, c' * (v ⬝ᵥ v) ≤ v ⬝ᵥ (cov' *ᵥ v) ∧ v ⬝ᵥ (cov' *ᵥ v) ≤ C' * (v ⬝ᵥ v) := by
  obtain ⟨δ, hδ, hslab⟩ := slab_bound hG
  obtain ⟨R, hR, hrows⟩ := rows_bounded G
  have hsq : ∀ a b : Fin p → ℝ, (a + b) ⬝ᵥ (a + b) ≤ 2 * (a ⬝ᵥ a) + 2 * (b ⬝ᵥ b) := by
    intro a b
    have := dot_self_nonneg (a - b)
    simp only [sub_dotProduct, dotProduct_sub, add_dotProduct, dotProduct_add] at this ⊢
    linarith
  -- bounds of the distances of the good rows, of the median and of the kept rows
  set T := (2 * R ^ 2 + 2 * M) / c with hT
  set Q2 := 2 * (|C| * (ratio ^ 2 * |T|)) + 2 * |M| with hQ2
  have hQ2n : 0 ≤ Q2 := by positivity
  refine ⟨δ ^ 2 / (2 * G.length + 1 : ℕ), 8 * (Real.sqrt Q2) ^ 2, p * Q2, by positivity, ?_⟩
  intro X O hX hO mu cov hsym hmu hcov
  have hlen : X.length = O.length + G.length := by simpa using hX.length_eq
  obtain ⟨hdet, hinv⟩ := quadForm_inv_bounds hsym hc hcov
  set f : (Fin p → ℝ) → ℝ := fun x => Real.sqrt (quadForm cov⁻¹ (x - mu)) with hf
  have hf0 : ∀ x, 0 ≤ f x := fun x => Real.sqrt_nonneg _
  have hne : X ≠ [] := by rintro rfl; simp at hO
  obtain ⟨med, hmed⟩ := npMedian_isSome (xs := X.map f) (by simpa using hne)
  have hm : mahalanobis X mu cov = .ok (X.map f) := by
    unfold mahalanobis
    rw [sqMahalanobis_eq hdet]
    simp only [Except.map, List.map_map, hf]
    rfl
  -- good rows have small distances
  have hgood : ∀ x ∈ G, f x ^ 2 ≤ T := by
    intro x hx
    have h0 := (hinv (x - mu)).1
    have h1 : (x - mu) ⬝ᵥ (x - mu) ≤ 2 * R ^ 2 + 2 * M := by
      have := hsq x (-mu)
      rw [← sub_eq_add_neg] at this
      have h2 : (-mu) ⬝ᵥ (-mu) = mu ⬝ᵥ mu := by simp
      have := hrows x hx
      linarith
    rw [hT, hf]
    simp only
    rcases le_or_gt 0 (quadForm cov⁻¹ (x - mu)) with h | h
    · rw [Real.sq_sqrt h]
      exact h0.trans (div_le_div_of_nonneg_right h1 hc.le)
    · rw [Real.sqrt_eq_zero_of_nonpos h.le]
      have := div_le_div_of_nonneg_right ((dot_self_nonneg (x - mu)).trans h1) hc.le
      simpa using this
  obtain ⟨x0, hx0⟩ : ∃ x, x ∈ G := List.exists_mem_of_length_pos (by omega)
  have hT0 : 0 ≤ T := (sq_nonneg _).trans (hgood x0 hx0)
  have hmedT : med ^ 2 ≤ T := by
    have hb := npMedian_between hmed 0 (Real.sqrt T) (by
      have h1 : (G.map f).countP (fun x => decide (0 ≤ x ∧ x ≤ Real.sqrt T)) = G.length := by
        rw [← List.length_map (f := f) (as := G)]
        refine List.countP_eq_length.2 fun z hz => ?_
        obtain ⟨x, hx, rfl⟩ := List.mem_map.1 hz
        rw [decide_eq_true_eq]
        exact ⟨hf0 x, Real.le_sqrt_of_sq_le (hgood x hx)⟩
      rw [(hX.map f).countP_eq, List.map_append, List.countP_append, h1, List.length_map, hlen]
      omega)
    have := pow_le_pow_left₀ hb.1 hb.2 2
    rwa [Real.sq_sqrt hT0] at this
  -- the median of the distances is not zero
  have hfz : ∀ x, f x = 0 → x = mu := by
    intro x hx
    have h1 : quadForm cov⁻¹ (x - mu) ≤ 0 := Real.sqrt_eq_zero'.1 hx
    have h2 := (hinv (x - mu)).2
    have hC : 0 ≤ C := by
      have h3 := hcov (Pi.single ⟨0, by omega⟩ 1)
      have e : (Pi.single (⟨0, by omega⟩ : Fin p) (1:ℝ) : Fin p → ℝ) ⬝ᵥ Pi.single ⟨0, by omega⟩ 1 = 1 := by simp
      rw [e] at h3
      linarith [h3.1, h3.2]
    have h3 : (x - mu) ⬝ᵥ (x - mu) = 0 := le_antisymm (h2.trans (mul_nonpos_of_nonneg_of_nonpos hC h1)) (dot_self_nonneg _)
    exact sub_eq_zero.1 (dotProduct_self_eq_zero.1 h3)
  have hmed0 : 0 < med := by
    have h0 := (npMedian_bounds hmed 0 ((X.map f).sum) (by
      intro z hz
      refine ⟨?_, List.single_le_sum ?_ _ hz⟩
      · obtain ⟨x, -, rfl⟩ := List.mem_map.1 hz
        exact hf0 x
      · intro w hw
        obtain ⟨x, -, rfl⟩ := List.mem_map.1 hw
        exact hf0 x)).1
    refine lt_of_le_of_ne h0 fun e => ?_
    have h1 := (npMedian_half hmed).1
    rw [(hX.map f).countP_eq, List.map_append, List.countP_append, List.length_map] at h1
    have h2 : (O.map f).countP (fun x => decide (x ≤ med)) ≤ O.length := by
      simpa using List.countP_le_length (p := fun x => decide (x ≤ med)) (l := O.map f)
    have h3 : (G.map f).countP (fun x => decide (x ≤ med)) ≤ p := by
      rw [List.countP_map]
      refine le_trans (List.countP_mono_left ?_) (hG (Pi.single ⟨0, by omega⟩ 1) (by
        intro h
        have := congrFun h ⟨0, by omega⟩
        simp at this) (mu ⟨0, by omega⟩))
      intro x _ hx
      simp only [Function.comp, decide_eq_true_eq] at hx ⊢
      rw [dotProduct_single_one, hfz x (le_antisymm (hx.trans e.symm.le) (hf0 x))]
    omega
  have hcut : med < ratio * med := by nlinarith
  set rows := X.filter fun x => decide (f x < ratio * med) with hrowsd
  -- many good rows are kept
  have hkept : p + 1 ≤ (G.filter fun x => decide (f x < ratio * med)).length := by
    rw [← List.countP_eq_length_filter]
    have h1 := (npMedian_half hmed).1
    rw [(hX.map f).countP_eq, List.map_append, List.countP_append, List.length_map] at h1
    have h2 : (O.map f).countP (fun x => decide (x ≤ med)) ≤ O.length := by
      simpa using List.countP_le_length (p := fun x => decide (x ≤ med)) (l := O.map f)
    have h3 : (G.map f).countP (fun x => decide (x ≤ med)) ≤ G.countP fun x => decide (f x < ratio * med) := by
      rw [List.countP_map]
      apply List.countP_mono_left
      intro x _ hx
      simp only [Function.comp, decide_eq_true_eq] at hx ⊢
      exact lt_of_le_of_lt hx hcut
    omega
  have hperm : rows.Perm ((O.filter fun x => decide (f x < ratio * med)) ++ G.filter fun x => decide (f x < ratio * med)) := by
    rw [hrowsd, ← List.filter_append]
    exact hX.filter _
  have hrl : p + 1 ≤ rows.length := by
    rw [hperm.length_eq, List.length_append]; omega
  have hrN : rows.length ≤ 2 * G.length + 1 := by
    have : rows.length ≤ X.length := List.length_filter_le _ _
    omega
  have hCn : 0 ≤ C := by
    have h3 := hcov (Pi.single ⟨0, by omega⟩ 1)
    have e : (Pi.single (⟨0, by omega⟩ : Fin p) (1:ℝ) : Fin p → ℝ) ⬝ᵥ Pi.single ⟨0, by omega⟩ 1 = 1 := by simp
    rw [e] at h3
    linarith [h3.1, h3.2]
  have hrb : ∀ x ∈ rows, x ⬝ᵥ x ≤ (Real.sqrt Q2) ^ 2 := by
    intro x hx
    rw [Real.sq_sqrt hQ2n]
    have h1 : f x < ratio * med := by simpa using (List.mem_filter.1 hx).2
    have h2 : f x ^ 2 ≤ ratio ^ 2 * T := by
      have := pow_le_pow_left₀ (hf0 x) h1.le 2
      rw [mul_pow] at this
      exact this.trans (mul_le_mul_of_nonneg_left hmedT (sq_nonneg _))
    have h3 : quadForm cov⁻¹ (x - mu) ≤ f x ^ 2 := by
      rw [hf]
      simp only
      rcases le_or_gt 0 (quadForm cov⁻¹ (x - mu)) with h | h
      · rw [Real.sq_sqrt h]
      · exact h.le.trans (sq_nonneg _)
    have h4 := (hinv (x - mu)).2
    have h5 : C * quadForm cov⁻¹ (x - mu) ≤ C * (ratio ^ 2 * T) := mul_le_mul_of_nonneg_left (h3.trans h2) hCn
    have h6 := hsq (x - mu) mu
    rw [sub_add_cancel] at h6
    rw [hQ2, abs_of_nonneg hCn, abs_of_nonneg hT0]
    linarith [le_abs_self M]
  refine ⟨meanRow rows, npCov rows, ?_, ?_, ?_⟩
  · unfold ogkReweight
    rw [hm]
    simp only [Except.map, hmed, Option.getD_some]
    have e : maskRows ((X.map f).map fun v => decide (v < ratio * med)) X = rows := by
      rw [List.map_map]
      exact maskRows_map _ X
    rw [e, if_neg (by omega)]
  · have h1 : ∀ i ∈ (Finset.univ : Finset (Fin p)), meanRow rows i * meanRow rows i ≤ Q2 := by
      intro i _
      have h2 := meanRow_bounded (Real.sqrt_nonneg Q2) (List.ne_nil_of_length_pos (by omega)) hrb (Pi.single i 1)
      rw [dotProduct_single_one, dotProduct_single_one, Pi.single_eq_same, Real.sqrt_one, mul_one] at h2
      have h3 := pow_le_pow_left₀ (abs_nonneg _) h2 2
      rw [sq_abs, Real.sq_sqrt hQ2n, pow_two] at h3
      exact h3
    have := Finset.sum_le_card_nsmul _ _ _ h1
    simpa [dotProduct] using this
  · intro v
    refine ⟨npCov_form_ge hδ (by omega) hrN ?_ v, npCov_form_le (Real.sqrt_nonneg _) (by omega) hrb v⟩
    intro u m hu
    by_contra hcon
    push Not at hcon
    have h1 := hslab u m hu
    have h2 : (G.filter fun x => decide (f x < ratio * med)).countP (fun x => decide (|x ⬝ᵥ u - m| < δ)) =
        (G.filter fun x => decide (f x < ratio * med)).length := by
      refine List.countP_eq_length.2 fun x hx => ?_
      rw [decide_eq_true_eq]
      exact hcon x (hperm.mem_iff.2 (List.mem_append_right _ hx))
    have h3 := (List.filter_sublist (l := G) (p := fun x => decide (f x < ratio * med))).countP_le
      (p := fun x => decide (|x ⬝ᵥ u - m| < δ))
    omega

/-- **C168**: `OGK().fit`, with or without the reweighting, on contaminated data: it succeeds, and the attributes
have bounds which do not depend on the outliers. -/
theorem C168_fit (hp : 2 ≤ p) (G : List (Fin p → ℝ)) (hG : Spec.RowsInGeneralPosition G) (k : ℕ) (reweighting : Bool)
    {ratio : ℝ} (hr : 1 < ratio) :
    ∃ c C M : ℝ, 0 < c ∧ ∀ (eigh : ∀ A : Matrix (Fin p) (Fin p) ℝ, A.IsSymm → Eigh A) (assumeCentered : Bool)
      (st : CovState ℝ (Fin p)) (X O : List (Fin p → ℝ)), X.Perm (O ++ G) → O.length + p + 1 ≤ X.length / 2 →
      Spec.boundedFit c C M (covFit assumeCentered
        (ogkCalc eigh (fun l => (npMedian l).getD 0) (fun l => (madRaw l).getD 0) k reweighting ratio) st
        (X.map fun x j => some (x j))) := by
  obtain ⟨A, B, L, hA, hB, hL, h⟩ := directions_bounded (by omega) G hG
  obtain ⟨c', C', M', hc', h'⟩ := ogkReweight_bounds hp G hG (c := Spec.ogkLow k A B) (C := Spec.ogkHigh k A B)
    (M := Spec.ogkLocHigh p k A B L) (ogkLow_pos k hA hB) hr
  obtain ⟨δ, hδ, hslab⟩ := slab_bound hG
  -- the rest of the fit, given the result of `calculate_covariance`
  have hfit : ∀ (calcCov : CalcCov ℝ (Fin p)) (c C M : ℝ), 0 < c → ∀ (assumeCentered : Bool) (st : CovState ℝ (Fin p))
      (X O : List (Fin p → ℝ)), X.Perm (O ++ G) → O.length + p + 1 ≤ X.length / 2 →
      (∀ st, ∃ mu cov, calcCov X st = (.ok (some cov), { st with location_ := some mu }) ∧ cov.IsSymm ∧ mu ⬝ᵥ mu ≤ M ∧
        ∀ v : Fin p → ℝ, c * (v ⬝ᵥ v) ≤ v ⬝ᵥ (cov *ᵥ v) ∧ v ⬝ᵥ (cov *ᵥ v) ≤ C * (v ⬝ᵥ v)) →
      Spec.boundedFit c C M (covFit assumeCentered calcCov st (X.map fun x j => some (x j))) := by
    intro calcCov c C M hc ac st X O hX hO hcalc
    have hlen : X.length = O.length + G.length := by simpa using hX.length_eq
    have hne : X ≠ [] := by rintro rfl; simp at hO
    have e : ((X.map fun x j => some (x j)).map fun (r : Fin p → Option ℝ) j => (r j).getD 0) = X := by
      rw [List.map_map]; exact List.map_id X
    unfold covFit
    rw [if_neg (by
      rintro (h | ⟨r, hr, j, hj⟩)
      · exact hne (by simpa using h)
      · obtain ⟨x, -, rfl⟩ := List.mem_map.1 hr
        cases hj), e]
    unfold covFitValid
    simp only
    obtain ⟨mu, cov, h1, h2, h3, h4⟩ := hcalc { st with location_ := some (if ac then fun _ => 0 else meanRow X) }
    rw [h1]
    simp only [Option.getD_some]
    rw [sqMahalanobis_eq (quadForm_inv_bounds h2 hc h4).1]
    simp only
    rw [if_neg (by rw [Fintype.card_fin]; omega)]
    have hcl : (npCov X).det ≠ 0 := by
      intro h0
      obtain ⟨v, hv, hv0⟩ := Matrix.exists_mulVec_eq_zero_iff.2 h0
      have h5 := npCov_form_ge (R := X) hδ (by omega) le_rfl (by
        intro u m hu
        by_contra hcon
        push Not at hcon
        have h6 : G.countP (fun x => decide (|x ⬝ᵥ u - m| < δ)) = G.length := by
          refine List.countP_eq_length.2 fun x hx => ?_
          rw [decide_eq_true_eq]
          exact hcon x (hX.mem_iff.2 (List.mem_append_right _ hx))
        have := hslab u m hu
        omega) v
      rw [hv0, dotProduct_zero] at h5
      have h6 : (0:ℝ) < X.length := by exact_mod_cast List.length_pos_iff.2 hne
      have := mul_pos (div_pos (pow_pos hδ 2) h6) (dot_self_pos hv)
      linarith
    rw [sqMahalanobis_eq hcl]
    exact ⟨rfl, mu, cov, rfl, rfl, h3, h4⟩
  cases reweighting
  · refine ⟨Spec.ogkLow k A B, Spec.ogkHigh k A B, Spec.ogkLocHigh p k A B L, ogkLow_pos k hA hB, ?_⟩
    intro eigh ac st X O hX hO
    refine hfit _ _ _ _ (ogkLow_pos k hA hB) ac st X O hX hO fun st => ?_
    obtain ⟨hs, hl⟩ := h X O hX (by omega)
    obtain ⟨mu, cov, e, h1, h2⟩ := C168_raw eigh _ _ k hA hB hL X hs hl
    refine ⟨mu, cov, ?_, (C42_posSemidef eigh _ _ k X mu cov e).1, h1, h2⟩
    unfold ogkCalc
    rw [e]
    simp
  · refine ⟨c', C', M', hc', ?_⟩
    intro eigh ac st X O hX hO
    refine hfit _ _ _ _ hc' ac st X O hX hO fun st => ?_
    obtain ⟨hs, hl⟩ := h X O hX (by omega)
    obtain ⟨mu, cov, e, h1, h2⟩ := C168_raw eigh _ _ k hA hB hL X hs hl
    obtain ⟨mu', cov', e', h1', h2'⟩ := h' X O hX hO mu cov (C42_posSemidef eigh _ _ k X mu cov e).1 h1 h2
    refine ⟨mu', cov', ?_, ?_, h1', h2'⟩
    · unfold ogkCalc
      rw [e]
      simp [e']
    · unfold ogkReweight at e'
      rcases hd : mahalanobis X mu cov with er | d
      · rw [hd] at e'; cases e'
      · rw [hd] at e'
        simp only [Except.map, Except.ok.injEq, Prod.mk.injEq] at e'
        obtain ⟨-, e'⟩ := e'
        by_cases hcond : (maskRows (d.map fun v => decide (v < ratio * (npMedian d).getD 0)) X).length < 2 ∨ p = 1
        · rw [if_pos hcond] at e'; cases e'
        · rw [if_neg hcond] at e'
          rw [← Option.some.inj e']
          exact npCov_isSymm _

end

/-! ### The hypotheses can be met -/

/-- Points of a parabola are in general position. -/
theorem parabola_gp (ts : List ℝ) (h : ts.Nodup) : Spec.RowsInGeneralPosition (ts.map fun t => ![t, t ^ 2]) := by
  intro v hv k
  by_contra hcon
  push Not at hcon
  rw [List.countP_map, List.countP_eq_length_filter] at hcon
  have hn := h.filter ((fun x : Fin 2 → ℝ => decide (x ⬝ᵥ v = k)) ∘ fun t : ℝ => ![t, t ^ 2])
  have hm : ∀ t ∈ ts.filter ((fun x : Fin 2 → ℝ => decide (x ⬝ᵥ v = k)) ∘ fun t : ℝ => ![t, t ^ 2]),
      t * v 0 + t ^ 2 * v 1 = k := by
    intro t ht
    have := (List.mem_filter.1 ht).2
    simpa [dotProduct, Fin.sum_univ_two] using this
  rcases hF : ts.filter ((fun x : Fin 2 → ℝ => decide (x ⬝ᵥ v = k)) ∘ fun t : ℝ => ![t, t ^ 2]) with _ | ⟨a, _ | ⟨b, _ | ⟨c, l⟩⟩⟩
  · rw [hF] at hcon; simp at hcon
  · rw [hF] at hcon; simp at hcon
  · rw [hF] at hcon; simp at hcon
  · rw [hF] at hn hm
    have ha := hm a (by simp)
    have hb := hm b (by simp)
    have hc := hm c (by simp)
    simp only [List.nodup_cons, List.mem_cons, not_or] at hn
    have hab := sub_ne_zero.2 hn.1.1
    have hac := sub_ne_zero.2 hn.1.2.1
    have hbc := sub_ne_zero.2 hn.2.1.1
    have e1 : v 0 + (a + b) * v 1 = 0 := by
      refine (mul_eq_zero.1 (?_ : (a - b) * (v 0 + (a + b) * v 1) = 0)).resolve_left hab
      linear_combination ha - hb
    have e2 : v 0 + (a + c) * v 1 = 0 := by
      refine (mul_eq_zero.1 (?_ : (a - c) * (v 0 + (a + c) * v 1) = 0)).resolve_left hac
      linear_combination ha - hc
    have e3 : v 1 = 0 := by
      refine (mul_eq_zero.1 (?_ : (b - c) * v 1 = 0)).resolve_left hbc
      linear_combination e1 - e2
    have e4 : v 0 = 0 := by rw [e3] at e1; linarith
    apply hv
    funext i
    fin_cases i
    · exact e4
    · exact e3

/-- Seven points of a parabola and one arbitrary row: one set of bounds for every position of that row, with the
default two passes and with the reweighting. -/
example (ratio : ℝ) (hr : 1 < ratio) : ∃ c C M : ℝ, 0 < c ∧ ∀ (eigh : ∀ A : Matrix (Fin 2) (Fin 2) ℝ, A.IsSymm → Eigh A)
    (st : CovState ℝ (Fin 2)) (x : Fin 2 → ℝ),
    Spec.boundedFit c C M (covFit false
      (ogkCalc eigh (fun l => (npMedian l).getD 0) (fun l => (madRaw l).getD 0) 2 true ratio) st
      ((x :: ([0, 1, 2, 3, 4, 5, 6].map fun t : ℝ => ![t, t ^ 2])).map fun x j => some (x j))) := by
  obtain ⟨c, C, M, hc, h⟩ := C168_fit (le_refl 2) ([0, 1, 2, 3, 4, 5, 6].map fun t : ℝ => ![t, t ^ 2])
    (parabola_gp _ (by norm_num)) 2 true hr
  exact ⟨c, C, M, hc, fun eigh st x => h eigh false st _ [x] (List.Perm.refl _) (by simp)⟩

end Robpy
