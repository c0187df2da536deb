import Verif.Props.OGKBreakdown
import Verif.Props.LTSBreakdown
import Verif.Props.MCD2
import Verif.Props.MCDPost
import Verif.Props.Covariance

/-!
# C172: FastMCD does not break down under contamination

A data set consists of good rows in general position and of outliers, which may be anywhere.  If one of the initial
subsets drawn by FastMCD has only good rows, the location and the covariance matrix reported stay within bounds that
depend on the good rows only; the covariance matrix neither explodes nor implodes, and `fit` does not fail.
-/

namespace Robpy
open Matrix _root_.Spec
variable {p : ℕ}

/-! ### Determinant and quadratic form -/

theorem eigenvalue_form {A : Matrix (Fin p) (Fin p) ℝ} (hA : A.IsHermitian) (i : Fin p) :
    ∃ u : Fin p → ℝ, u ⬝ᵥ u = 1 ∧ u ⬝ᵥ (A *ᵥ u) = hA.eigenvalues i := by
  refine ⟨(hA.eigenvectorBasis i).ofLp, ?_, ?_⟩
  · have h := hA.eigenvectorBasis.orthonormal.1 i
    have h2 : ‖hA.eigenvectorBasis i‖ ^ 2 = 1 := by rw [h]; norm_num
    rw [EuclideanSpace.norm_sq_eq] at h2
    simpa [dotProduct, pow_two] using h2
  · rw [hA.mulVec_eigenvectorBasis, dotProduct_smul]
    have h := hA.eigenvectorBasis.orthonormal.1 i
    have h2 : ‖hA.eigenvectorBasis i‖ ^ 2 = 1 := by rw [h]; norm_num
    rw [EuclideanSpace.norm_sq_eq] at h2
    have h3 : (hA.eigenvectorBasis i).ofLp ⬝ᵥ (hA.eigenvectorBasis i).ofLp = 1 := by
      simpa [dotProduct, pow_two] using h2
    rw [h3]; simp

/-- The quadratic form in the basis of eigenvectors. -/
theorem form_eigen {A : Matrix (Fin p) (Fin p) ℝ} (hA : A.IsHermitian) (v : Fin p → ℝ) :
    ∃ w : Fin p → ℝ, w ⬝ᵥ w = v ⬝ᵥ v ∧ v ⬝ᵥ (A *ᵥ v) = ∑ i, hA.eigenvalues i * w i ^ 2 := by
  have hsp := hA.spectral_theorem
  set U : Matrix (Fin p) (Fin p) ℝ := (hA.eigenvectorUnitary : Matrix (Fin p) (Fin p) ℝ) with hU
  have hUU : U * Uᵀ = 1 := by
    have := Unitary.coe_mul_star_self hA.eigenvectorUnitary
    simpa [star_eq_conjTranspose, conjTranspose_eq_transpose_of_trivial] using this
  have hsp' : A = U * diagonal hA.eigenvalues * Uᵀ := by
    rw [Unitary.conjStarAlgAut_apply] at hsp
    simpa [star_eq_conjTranspose, conjTranspose_eq_transpose_of_trivial, Function.comp_def] using hsp
  refine ⟨Uᵀ *ᵥ v, ?_, ?_⟩
  · rw [dotProduct_mulVec, vecMul_transpose, mulVec_mulVec, hUU, one_mulVec]
  · conv_lhs => rw [hsp']
    rw [← mulVec_mulVec, ← mulVec_mulVec, dotProduct_mulVec, ← mulVec_transpose]
    simp only [dotProduct, mulVec_diagonal]
    exact Finset.sum_congr rfl fun i _ => by ring

/-- A bound of the form bounds the determinant. -/
theorem det_le_of_form {A : Matrix (Fin p) (Fin p) ℝ} (hA : A.PosSemidef) {C : ℝ}
    (h : ∀ v : Fin p → ℝ, v ⬝ᵥ (A *ᵥ v) ≤ C * (v ⬝ᵥ v)) : A.det ≤ C ^ p := by
  rw [hA.1.det_eq_prod_eigenvalues]
  refine (Finset.prod_le_prod (fun i _ => ?_) fun i _ => ?_).trans (b := ∏ _i : Fin p, C) (le_of_eq (by simp))
  · exact hA.eigenvalues_nonneg i
  · obtain ⟨u, hu, he⟩ := eigenvalue_form hA.1 i
    have := h u
    rw [he, hu, mul_one] at this
    exact this

/-- If the form is bounded from below, a bound of the determinant bounds the form from above. -/
theorem form_le_of_det {A : Matrix (Fin p) (Fin p) ℝ} (hA : A.IsHermitian) {c : ℝ} (hc : 0 < c)
    (h : ∀ v : Fin p → ℝ, c * (v ⬝ᵥ v) ≤ v ⬝ᵥ (A *ᵥ v)) (v : Fin p → ℝ) :
    v ⬝ᵥ (A *ᵥ v) ≤ A.det / c ^ (p - 1) * (v ⬝ᵥ v) := by
  have hev : ∀ i, c ≤ hA.eigenvalues i := by
    intro i
    obtain ⟨u, hu, he⟩ := eigenvalue_form hA i
    have := h u
    rw [he, hu, mul_one] at this
    exact this
  have hdet : ∀ i, hA.eigenvalues i ≤ A.det / c ^ (p - 1) := by
    intro i
    rw [le_div_iff₀ (pow_pos hc _), hA.det_eq_prod_eigenvalues]
    have h1 : (∏ j, (hA.eigenvalues j : ℝ)) = hA.eigenvalues i * ∏ j ∈ Finset.univ.erase i, hA.eigenvalues j :=
      (Finset.mul_prod_erase _ _ (Finset.mem_univ i)).symm
    have h2 : c ^ (p - 1) ≤ ∏ j ∈ Finset.univ.erase i, hA.eigenvalues j := by
      have h3 := Finset.prod_le_prod (s := Finset.univ.erase i) (f := fun _ => c) (g := hA.eigenvalues)
        (fun _ _ => hc.le) fun j _ => hev j
      simpa using h3
    have h4 := mul_le_mul_of_nonneg_left h2 (hc.le.trans (hev i))
    rw [← h1] at h4
    simpa using h4
  obtain ⟨w, hw, he⟩ := form_eigen hA v
  rw [he, ← hw]
  simp only [dotProduct, Finset.mul_sum]
  exact Finset.sum_le_sum fun i _ => by
    have := mul_le_mul_of_nonneg_right (hdet i) (sq_nonneg (w i))
    nlinarith

/-! ### Subsets with enough good rows -/

theorem sum_sq_dot_le (a b : Fin p → ℝ) : (a + b) ⬝ᵥ (a + b) ≤ 2 * (a ⬝ᵥ a) + 2 * (b ⬝ᵥ b) := by
  have := dot_self_nonneg (a - b)
  simp only [sub_dotProduct, dotProduct_sub, add_dotProduct, dotProduct_add] at this ⊢
  linarith

theorem diff_sq_dot_le (a b : Fin p → ℝ) : (a - b) ⬝ᵥ (a - b) ≤ 2 * (a ⬝ᵥ a) + 2 * (b ⬝ᵥ b) := by
  have := sum_sq_dot_le a (-b)
  rw [← sub_eq_add_neg] at this
  simpa using this

variable {G O S : List (Fin p → ℝ)} {δ R : ℝ}

/-- Among more than `|O| + p` rows there is one outside every slab. -/
theorem subset_slab (hslab : ∀ (u : Fin p → ℝ) (m : ℝ), u ⬝ᵥ u = 1 → G.countP (fun x => decide (|x ⬝ᵥ u - m| < δ)) ≤ p)
    (hS : S.Subperm (O ++ G)) (hl : O.length + p + 1 ≤ S.length) (u : Fin p → ℝ) (m : ℝ) (hu : u ⬝ᵥ u = 1) :
    ∃ x ∈ S, δ ≤ |x ⬝ᵥ u - m| := by
  by_contra hcon
  push Not at hcon
  have h1 : S.countP (fun x => decide (|x ⬝ᵥ u - m| < δ)) = S.length :=
    List.countP_eq_length.2 fun x hx => by rw [decide_eq_true_eq]; exact hcon x hx
  have h2 := hS.countP_le (fun x => decide (|x ⬝ᵥ u - m| < δ))
  rw [List.countP_append] at h2
  have h3 := List.countP_le_length (p := fun x => decide (|x ⬝ᵥ u - m| < δ)) (l := O)
  have h4 := hslab u m hu
  omega

theorem subset_form_ge (hδ : 0 < δ)
    (hslab : ∀ (u : Fin p → ℝ) (m : ℝ), u ⬝ᵥ u = 1 → G.countP (fun x => decide (|x ⬝ᵥ u - m| < δ)) ≤ p)
    (hp : 1 ≤ p) (hS : S.Subperm (O ++ G)) (hl : O.length + p + 1 ≤ S.length) {N : ℕ} (hN : S.length ≤ N) (v : Fin p → ℝ) :
    δ ^ 2 / N * (v ⬝ᵥ v) ≤ v ⬝ᵥ (npCov S *ᵥ v) :=
  npCov_form_ge hδ (by omega) hN (fun u m hu => subset_slab hslab hS hl u m hu) v

theorem subset_good (hrows : ∀ x ∈ G, x ⬝ᵥ x ≤ R ^ 2) (hS : S.Subperm (O ++ G)) (hl : O.length < S.length) :
    ∃ x ∈ S, x ⬝ᵥ x ≤ R ^ 2 := by
  by_contra hcon
  push Not at hcon
  have h1 : S.countP (fun x => decide (R ^ 2 < x ⬝ᵥ x)) = S.length :=
    List.countP_eq_length.2 fun x hx => by rw [decide_eq_true_eq]; exact hcon x hx
  have h2 := hS.countP_le (fun x => decide (R ^ 2 < x ⬝ᵥ x))
  rw [List.countP_append] at h2
  have h3 := List.countP_le_length (p := fun x => decide (R ^ 2 < x ⬝ᵥ x)) (l := O)
  have h4 : G.countP (fun x => decide (R ^ 2 < x ⬝ᵥ x)) = 0 :=
    List.countP_eq_zero.2 fun x hx => by rw [decide_eq_true_eq]; exact not_lt.2 (hrows x hx)
  omega

/-- Every row is as close to the mean as the covariance matrix allows. -/
theorem row_near_mean {C : ℝ} {N : ℕ} (hN : S.length ≤ N) (h2 : 2 ≤ S.length)
    (hC : ∀ v : Fin p → ℝ, v ⬝ᵥ (npCov S *ᵥ v) ≤ C * (v ⬝ᵥ v)) (hC0 : 0 ≤ C) {x : Fin p → ℝ} (hx : x ∈ S) :
    (x - meanRow S) ⬝ᵥ (x - meanRow S) ≤ N * C := by
  have hl : (2:ℝ) ≤ S.length := by exact_mod_cast h2
  have hNl : (S.length : ℝ) ≤ N := by exact_mod_cast hN
  obtain ⟨w, hw⟩ : ∃ w, w = x - meanRow S := ⟨_, rfl⟩
  have h1 := hC w
  rw [npCov_form, div_le_iff₀ (by linarith)] at h1
  have h3 : (x ⬝ᵥ w - meanRow S ⬝ᵥ w) ^ 2 ≤ (S.map fun x => (x ⬝ᵥ w - meanRow S ⬝ᵥ w) ^ 2).sum :=
    List.single_le_sum (by intro z hz; obtain ⟨y, -, rfl⟩ := List.mem_map.1 hz; positivity) _
      (List.mem_map.2 ⟨x, hx, rfl⟩)
  rw [← sub_dotProduct, ← hw] at h3
  rw [← hw]
  have h0 := dot_self_nonneg w
  rcases h0.eq_or_lt with h0 | h0
  · rw [← h0]; positivity
  · have h4 : (w ⬝ᵥ w) * (w ⬝ᵥ w) ≤ (N * C) * (w ⬝ᵥ w) := by
      have : C * (w ⬝ᵥ w) * ((S.length : ℝ) - 1) ≤ C * (w ⬝ᵥ w) * N :=
        mul_le_mul_of_nonneg_left (by linarith) (mul_nonneg hC0 h0.le)
      nlinarith
    exact le_of_mul_le_mul_right h4 h0

/-- Estimates within bounds. -/
def Spec.withinBounds (c C M : ℝ) (mu : Fin p → ℝ) (cov : Matrix (Fin p) (Fin p) ℝ) : Prop :=
  mu ⬝ᵥ mu ≤ M ∧ ∀ v : Fin p → ℝ, c * (v ⬝ᵥ v) ≤ v ⬝ᵥ (cov *ᵥ v) ∧ v ⬝ᵥ (cov *ᵥ v) ≤ C * (v ⬝ᵥ v)

theorem withinBounds_C_nonneg {c C M : ℝ} {mu : Fin p → ℝ} {cov : Matrix (Fin p) (Fin p) ℝ} (hp : 1 ≤ p) (hc : 0 ≤ c)
    (h : Spec.withinBounds c C M mu cov) : c ≤ C := by
  have h3 := h.2 (Pi.single ⟨0, by omega⟩ 1)
  have e : (Pi.single (⟨0, by omega⟩ : Fin p) (1:ℝ) : Fin p → ℝ) ⬝ᵥ Pi.single ⟨0, by omega⟩ 1 = 1 := by simp
  rw [e] at h3
  linarith [h3.1, h3.2]

/-- Bounds of the good rows: no slab of half width `δ` has more than `p` of them, and their norm is at most `R`. -/
def Spec.goodRows (δ R : ℝ) (G : List (Fin p → ℝ)) : Prop :=
  (∀ (u : Fin p → ℝ) (m : ℝ), u ⬝ᵥ u = 1 → G.countP (fun x => decide (|x ⬝ᵥ u - m| < δ)) ≤ p) ∧ ∀ x ∈ G, x ⬝ᵥ x ≤ R ^ 2

theorem goodRows_exists {G : List (Fin p → ℝ)} (hG : Spec.RowsInGeneralPosition G) : ∃ δ R : ℝ, 0 < δ ∧ Spec.goodRows δ R G := by
  obtain ⟨δ, hδ, hslab⟩ := slab_bound hG
  obtain ⟨R, -, hrows⟩ := rows_bounded G
  exact ⟨δ, R, hδ, hslab, hrows⟩

theorem goodRows_subperm {G G' : List (Fin p → ℝ)} (h : Spec.goodRows δ R G) (hs : G'.Subperm G) : Spec.goodRows δ R G' :=
  ⟨fun u m hu => (hs.countP_le _).trans (h.1 u m hu), fun x hx => h.2 x (hs.subset hx)⟩

/-- A subset with enough good rows and a bounded determinant has bounded mean and covariance matrix. -/
theorem subset_bounds (hp : 1 ≤ p) (hδ : 0 < δ) (R : ℝ) (N : ℕ) (D : ℝ) :
    ∃ c C M : ℝ, 0 < c ∧ ∀ G O S : List (Fin p → ℝ), Spec.goodRows δ R G → S.Subperm (O ++ G) →
      O.length + p + 1 ≤ S.length → S.length ≤ N →
      (npCov S).det ≤ D → Spec.withinBounds c C M (meanRow S) (npCov S) := by
  rcases Nat.eq_zero_or_pos N with rfl | hN
  · exact ⟨1, 0, 0, one_pos, fun G O S _ _ h1 h2 => by omega⟩
  have hN' : (0:ℝ) < N := by exact_mod_cast hN
  have hc : 0 < δ ^ 2 / N := by positivity
  set c := δ ^ 2 / N with hcd
  set C := |D| / c ^ (p - 1) with hCd
  have hC0 : 0 ≤ C := by positivity
  refine ⟨c, C, 2 * (N * C) + 2 * R ^ 2, hc, ?_⟩
  rintro G O S ⟨hslab, hrows⟩ hS hl hSN hD
  have hge := fun v => subset_form_ge hδ hslab hp hS hl hSN v
  have hle : ∀ v : Fin p → ℝ, v ⬝ᵥ (npCov S *ᵥ v) ≤ C * (v ⬝ᵥ v) := by
    intro v
    refine (form_le_of_det (npCov_posSemidef S).1 hc hge v).trans (mul_le_mul_of_nonneg_right ?_ (dot_self_nonneg v))
    exact div_le_div_of_nonneg_right (hD.trans (le_abs_self D)) (by positivity)
  refine ⟨?_, fun v => ⟨hge v, hle v⟩⟩
  obtain ⟨x, hx, hxR⟩ := subset_good hrows hS (by omega)
  have h1 := row_near_mean hSN (by omega) hle hC0 hx
  have h2 := diff_sq_dot_le x (x - meanRow S)
  rw [sub_sub_cancel] at h2
  linarith

/-! ### C-steps -/

/-- The rows selected by a C-step, for estimates within bounds. -/
theorem cStep_rows (hp : 1 ≤ p) (R : ℝ) (N : ℕ) {c : ℝ} (C M : ℝ) (hc : 0 < c) :
    ∃ Q : ℝ, 0 ≤ Q ∧ ∀ (srt : ArgSort ℝ) (X O G : List (Fin p → ℝ)) (h : ℕ) (mu : Fin p → ℝ) (cov : Matrix (Fin p) (Fin p) ℝ),
      (∀ x ∈ G, x ⬝ᵥ x ≤ R ^ 2) → X.Perm (O ++ G) → h ≤ G.length → h ≤ N → cov.IsSymm → Spec.withinBounds c C M mu cov →
      ∀ x ∈ takeAt X ((srt.toFun (X.map fun x => quadForm cov⁻¹ (x - mu))).take h), x ⬝ᵥ x ≤ Q ^ 2 := by
  set T := (2 * R ^ 2 + 2 * |M|) / c with hT
  have hT0 : 0 ≤ T := by positivity
  refine ⟨Real.sqrt (2 * (|C| * (N * T)) + 2 * |M|), Real.sqrt_nonneg _, ?_⟩
  intro srt X O G h mu cov hrows hX hh hN hsym hb x hx
  rw [Real.sq_sqrt (by positivity)]
  have hCn : 0 ≤ C := hc.le.trans (withinBounds_C_nonneg hp hc.le hb)
  obtain ⟨hdet, hinv⟩ := quadForm_inv_bounds hsym hc hb.2
  set f : (Fin p → ℝ) → ℝ := fun x => quadForm cov⁻¹ (x - mu) with hf
  have hf0 : ∀ x, 0 ≤ f x := by
    intro x
    have h1 := (hinv (x - mu)).2
    have h2 := dot_self_nonneg (x - mu)
    have hCp : 0 < C := lt_of_lt_of_le hc (withinBounds_C_nonneg hp hc.le hb)
    exact nonneg_of_mul_nonneg_right (h2.trans h1) hCp
  have hgood : ∀ x ∈ G, f x ≤ T := by
    intro x hx
    refine ((hinv (x - mu)).1).trans (div_le_div_of_nonneg_right ?_ hc.le)
    have h1 := diff_sq_dot_le x mu
    have h2 := hrows x hx
    linarith [hb.1, le_abs_self M]
  -- the sum of the selected distances
  have hsum : ((takeAt X ((srt.toFun (X.map f)).take h)).map f).sum ≤ h * T := by
    have hJ : ((G.take h).map f).length = h := by simp [hh]
    have h1 := sum_take_le_subperm (J := (G.take h).map f) (srt.sorted (X.map f)) (by
      refine List.Subperm.trans (l₂ := X.map f) ?_ (srt.takeAt_perm (X.map f)).symm.subperm
      obtain ⟨l, hp, hs⟩ := ((List.take_sublist h G).trans (List.sublist_append_right O G)).subperm.trans hX.symm.subperm
      exact ⟨l.map _, hp.map _, hs.map _⟩)
    rw [hJ, ← takeAt_take _ _ (srt.lt _), takeAt_map] at h1
    refine h1.trans ?_
    have := List.sum_le_card_nsmul ((G.take h).map f) T (by
      intro z hz
      obtain ⟨d, hd, rfl⟩ := List.mem_map.1 hz
      exact hgood d (List.mem_of_mem_take hd))
    rwa [hJ, nsmul_eq_mul] at this
  have hfx : f x ≤ N * T := by
    have h1 : f x ≤ ((takeAt X ((srt.toFun (X.map f)).take h)).map f).sum :=
      List.single_le_sum (by intro z hz; obtain ⟨y, -, rfl⟩ := List.mem_map.1 hz; exact hf0 y) _ (List.mem_map.2 ⟨x, hx, rfl⟩)
    have h2 : (h : ℝ) ≤ N := by exact_mod_cast hN
    exact h1.trans (hsum.trans (mul_le_mul_of_nonneg_right h2 hT0))
  have h1 := (hinv (x - mu)).2
  have h2 : C * f x ≤ C * (N * T) := mul_le_mul_of_nonneg_left hfx hCn
  have h3 := sum_sq_dot_le (x - mu) mu
  rw [sub_add_cancel] at h3
  rw [abs_of_nonneg hCn]
  linarith [hb.1, le_abs_self M]

/-- The determinant after at least one C-step from estimates within bounds. -/
theorem steps_det (hp : 1 ≤ p) (R : ℝ) (N : ℕ) {c : ℝ} (C M : ℝ) (hc : 0 < c) :
    ∃ D : ℝ, ∀ (srt : ArgSort ℝ) (alpha : Alpha ℝ) (X O G : List (Fin p → ℝ)) (h k : ℕ) (s t : HSubset ℝ (Fin p)),
      (∀ x ∈ G, x ⬝ᵥ x ≤ R ^ 2) → X.Perm (O ++ G) → 2 ≤ h → h ≤ G.length → h ≤ N →
      mcdGetH alpha X.length p = .ok h → s.scale.IsSymm → Spec.withinBounds c C M s.location s.scale → 1 ≤ k →
      multiCSteps srt alpha X k s = .ok t → t.determinant ≤ D := by
  obtain ⟨Q, hQ, hb⟩ := cStep_rows hp R N C M hc
  refine ⟨(8 * Q ^ 2) ^ p, ?_⟩
  intro srt alpha X O G h k s t hrows hX h2 hh hN hk hsym hs hk1 hst
  obtain ⟨k, rfl⟩ : ∃ k', k = k' + 1 := ⟨k - 1, by omega⟩
  unfold multiCSteps at hst
  rcases hc1 : cStep srt alpha X s with e | s1
  · rw [hc1] at hst; simp [Except.bind] at hst
  rw [hc1] at hst
  simp only [Except.bind] at hst
  refine (C35_chain srt alpha X s s1 hc1 k t hst).1.trans ?_
  obtain ⟨-, -, h', hh', hg⟩ := cStep_ok hc1
  rw [Fintype.card_fin, hk] at hh'
  obtain rfl := Except.ok.inj hh'
  have hlen : X.length = O.length + G.length := by simpa using hX.length_eq
  have hl := cStep_length hc1 (by rw [Fintype.card_fin]; exact hk)
  have hsub := cStep_isSubset hc1
  rw [hsub.determinant]
  have hrw := hb srt X O G h s.location s.scale hrows hX hh hN hsym hs
  obtain ⟨-, rfl⟩ := getSubset_ok hg
  simp only at hl hsub ⊢
  refine det_le_of_form (npCov_posSemidef _) fun v => npCov_form_le hQ ?_ hrw v
  rw [takeAt_length _ _ hsub.lt, hl]
  omega

/-- A subset obtained by a C-step has enough good rows. -/
theorem stepped_rows {srt : ArgSort ℝ} {alpha : Alpha ℝ} {X O G : List (Fin p → ℝ)} {h : ℕ} {s : HSubset ℝ (Fin p)}
    (hX : X.Perm (O ++ G)) (hh : h ≤ G.length) (hk : mcdGetH alpha X.length p = .ok h) (hs : Stepped srt alpha X s) :
    (takeAt X s.indices).Subperm (O ++ G) ∧ (takeAt X s.indices).length = h ∧ s.location = meanRow (takeAt X s.indices) ∧
      s.scale = npCov (takeAt X s.indices) ∧ s.determinant = (npCov (takeAt X s.indices)).det := by
  have h1 := hs.isSubset
  obtain ⟨-, k, hk', hl⟩ := hs.getH
  rw [Fintype.card_fin, hk] at hk'
  obtain rfl := Except.ok.inj hk'
  have hlen : X.length = O.length + G.length := by simpa using hX.length_eq
  refine ⟨(takeAt_subperm X _ h1.nodup h1.lt).trans hX.subperm, ?_, h1.location, h1.scale, h1.determinant⟩
  rw [takeAt_length _ _ h1.lt, hl]
  omega

/-! ### The search -/

/-- The random draws of FastMCD: for every part of the data its initial subsets.  The generator is threaded through the
parts in order. -/
noncomputable def Spec.mcdDraws {Γ : Type} (rng : Rng Γ) (n0 : ℕ) : List (List (Fin p → ℝ)) → Γ →
    List (List (Fin p → ℝ) × List (Robpy.HSubset ℝ (Fin p)))
  | [], _ => []
  | data :: ps, g =>
    match initialSubsets rng data (data.length + 1) n0 g with
    | some (.ok r) => (data, r.1) :: Spec.mcdDraws rng n0 ps r.2
    | _ => []

/-- A part of the data from which the search can start: `G` are the good rows of all the data, `o` the number of outliers
in the part is so small that every subset of the part's own `h` rows has more than `p` good rows, and one of the draws has only
good rows. -/
def Spec.cleanStart (alpha : Alpha ℝ) (G : List (Fin p → ℝ)) (part : List (Fin p → ℝ) × List (Robpy.HSubset ℝ (Fin p))) : Prop :=
  ∃ (O' G' : List (Fin p → ℝ)) (h : ℕ), part.1.Perm (O' ++ G') ∧ G'.Subperm G ∧
    mcdGetH alpha part.1.length p = .ok h ∧ O'.length + p + 1 ≤ h ∧ h ≤ G'.length ∧
    ∃ s ∈ part.2, (takeAt part.1 s.indices).Subperm G'

theorem mapExcept_exists {α β : Type} {f : α → Except PyErr β} {l : List α} {r : List β} (h : mapExcept f l = .ok r) {a : α}
    (ha : a ∈ l) : ∃ b ∈ r, f a = .ok b := mapExcept_mem' h a ha

/-- A clean draw leads to a candidate within bounds. -/
theorem partition_candidate (hp : 2 ≤ p) (hδ : 0 < δ) (R : ℝ) (N : ℕ) :
    ∃ c C M : ℝ, 0 < c ∧ ∀ {Γ : Type} (srt : ArgSort ℝ) (rng : Rng Γ) (cfg : MCDConfig ℝ) (n0 : ℕ)
      (ps : List (List (Fin p → ℝ))) (G : List (Fin p → ℝ)) (g : Γ) (r : List (HSubset ℝ (Fin p)) × Γ),
      Spec.goodRows δ R G → (∀ P ∈ ps, P.length ≤ N) → 1 ≤ cfg.nInitialCSteps → 1 ≤ cfg.nBestSubsets →
      partitionsBest srt rng cfg n0 ps g = some (.ok r) →
      (∃ part ∈ Spec.mcdDraws rng n0 ps g, Spec.cleanStart cfg.alpha G part) →
      ∃ k ∈ r.1, k.scale.IsSymm ∧ Spec.withinBounds c C M k.location k.scale := by
  -- bounds of the draw, of the determinant after the C-steps, of the best candidate
  obtain ⟨c0, C0, M0, hc0, hb0⟩ : ∃ c C M : ℝ, 0 < c ∧ ∀ G S : List (Fin p → ℝ), Spec.goodRows δ R G → S.Subperm G →
      p + 1 ≤ S.length → S.length ≤ N → Spec.withinBounds c C M (meanRow S) (npCov S) := by
    obtain ⟨c, C, M, hc, hb⟩ := subset_bounds (p := p) (by omega) hδ R N ((8 * |R| ^ 2) ^ p)
    refine ⟨c, C, M, hc, fun G S hG hS hl hN => ?_⟩
    refine hb G [] S hG (by simpa using hS) (by simpa using hl) hN (det_le_of_form (npCov_posSemidef _) fun v => ?_)
    exact npCov_form_le (abs_nonneg R) (by omega) (fun x hx => by rw [sq_abs]; exact hG.2 x (hS.subset hx)) v
  obtain ⟨D, hD⟩ := steps_det (p := p) (by omega) R N C0 M0 hc0
  obtain ⟨c, C, M, hc, hb⟩ := subset_bounds (p := p) (by omega) hδ R N D
  refine ⟨c, C, M, hc, ?_⟩
  intro Γ srt rng cfg n0 ps G g r hG hN hsteps hnb hr hclean
  induction ps generalizing g r with
  | nil => obtain ⟨part, h, -⟩ := hclean; simp [Spec.mcdDraws] at h
  | cons P ps ih =>
    unfold partitionsBest at hr
    obtain ⟨r1, hr1, hr2⟩ := Run.andThen_ok hr
    obtain ⟨rs, hrs, he⟩ := Run.andThen_ok hr2
    obtain rfl := Except.ok.inj (Option.some.inj he)
    unfold partitionBest at hr1
    obtain ⟨st, hst, hr3⟩ := Run.andThen_ok hr1
    have hr3 := Option.some.inj hr3
    rcases hm : mapExcept (multiCSteps srt cfg.alpha P cfg.nInitialCSteps) st.1 with e | cands
    · rw [hm] at hr3; simp [Except.map] at hr3
    rw [hm] at hr3
    obtain rfl := Except.ok.inj hr3
    obtain ⟨part, hpart, hcs⟩ := hclean
    unfold Spec.mcdDraws at hpart
    rw [hst] at hpart
    rcases List.mem_cons.1 hpart with rfl | hpart
    · obtain ⟨O', G', h, hP, hG', hh, hO, hhG, s, hs, hsub⟩ := hcs
      simp only at hP hh hs hsub
      have hgr := goodRows_subperm hG hG'
      have hlenP : P.length = O'.length + G'.length := by simpa using hP.length_eq
      have hPN := hN P (by simp)
      -- the draw
      have hout := initialSubsets_outcome rng P (by rw [Fintype.card_fin]; omega) (P.length + 1) (by omega) n0 g
      rcases hout with ⟨st', hst', -, hall⟩ | hout
      swap
      · rw [hst] at hout; cases hout
      rw [hst] at hst'
      obtain rfl := Except.ok.inj (Option.some.inj hst')
      obtain ⟨hsS, -, hsl⟩ := hall s hs
      rw [Fintype.card_fin] at hsl
      have hw0 : Spec.withinBounds c0 C0 M0 s.location s.scale := by
        rw [hsS.location, hsS.scale]
        refine hb0 G' _ hgr hsub ?_ ?_
        · rw [takeAt_length _ _ hsS.lt]; exact hsl
        · have := (takeAt_subperm P _ hsS.nodup hsS.lt).length_le
          omega
      obtain ⟨t, ht, hst1⟩ := mapExcept_mem' hm s hs
      have htD := hD srt cfg.alpha P O' G' h _ s t hgr.2 hP (by omega) hhG (by omega) hh (by rw [hsS.scale]; exact npCov_isSymm _)
        hw0 hsteps hst1
      -- the best candidate of the part
      obtain ⟨rest, hpm, hlen, hle, -⟩ := C38_nBest cfg.nBestSubsets cands
      have hex : ∃ k ∈ nBest cfg.nBestSubsets cands, k.determinant ≤ D := by
        rcases List.mem_append.1 (hpm.mem_iff.2 ht) with h1 | h1
        · exact ⟨t, h1, htD⟩
        · have hne : nBest cfg.nBestSubsets cands ≠ [] := by
            intro h0
            rw [h0] at hlen
            have : 0 < cands.length := List.length_pos_of_mem ht
            simp at hlen
            omega
          obtain ⟨k, hk⟩ := List.exists_mem_of_ne_nil _ hne
          exact ⟨k, hk, (hle k hk t h1).trans htD⟩
      obtain ⟨k, hk, hkD⟩ := hex
      obtain ⟨a, -, ha⟩ := mapExcept_mem hm k (mem_nBest hk)
      obtain ⟨e1, e2, e3, e4, e5⟩ := stepped_rows hP hhG hh (multiCSteps_stepped (by omega) ha)
      refine ⟨k, by simp [hk], by rw [e4]; exact npCov_isSymm _, ?_⟩
      rw [e3, e4]
      exact hb G' O' _ hgr e1 (by omega) (by omega) (by rw [← e5]; exact hkD)
    · obtain ⟨k, hk, h1⟩ := ih st.2 rs (fun P hP => hN P (by simp [hP])) hrs ⟨part, hpart, hcs⟩
      exact ⟨k, by simp [hk], h1⟩

/-- **C172**, the search: the subset FastMCD ends with, whatever the number of parts, if one part has a clean draw. -/
theorem C172_search (hp : 2 ≤ p) (G : List (Fin p → ℝ)) (hG : Spec.RowsInGeneralPosition G) :
    ∃ c C M : ℝ, 0 < c ∧ ∀ {Γ : Type} (srt : ArgSort ℝ) (rng : Rng Γ) (cfg : MCDConfig ℝ) (X O : List (Fin p → ℝ))
      (fuel h : ℕ) (g : Γ) (ps : List (List (Fin p → ℝ))) (s : HSubset ℝ (Fin p)), X.Perm (O ++ G) →
      mcdGetH cfg.alpha X.length p = .ok h → O.length + p + 1 ≤ h → h ≤ G.length →
      1 ≤ cfg.nInitialCSteps → 1 ≤ cfg.nBestSubsets → 0 < cfg.tol →
      partitionData cfg.nPartitions X = .ok ps →
      (∃ part ∈ Spec.mcdDraws rng (cfg.nInitialSubsets / ps.length) ps g, Spec.cleanStart cfg.alpha G part) →
      fastSearch srt rng cfg X fuel g = some (.ok s) →
      IsSubset X s ∧ s.scale.IsSymm ∧ Spec.withinBounds c C M s.location s.scale := by
  obtain ⟨δ, R, hδ, hg⟩ := goodRows_exists hG
  obtain ⟨c1, C1, M1, hc1, hb1⟩ := partition_candidate hp hδ R (2 * G.length)
  obtain ⟨D, hD⟩ := steps_det (p := p) (by omega) R (2 * G.length) C1 M1 hc1
  obtain ⟨c, C, M, hc, hb⟩ := subset_bounds (p := p) (by omega) hδ R (2 * G.length) D
  refine ⟨c, C, M, hc, ?_⟩
  intro Γ srt rng cfg X O fuel h g ps s hX hh hO hhG hsteps hnb htol hps hclean hs
  have hlen : X.length = O.length + G.length := by simpa using hX.length_eq
  unfold fastSearch at hs
  rw [hps] at hs
  obtain ⟨ps', hps', h2⟩ := Run.andThen_ok hs
  obtain rfl := Except.ok.inj (Option.some.inj hps')
  obtain ⟨r, hr, h3⟩ := Run.andThen_ok h2
  obtain ⟨ss, h4, h5⟩ := Run.andThen_ok h3
  have h4 := Option.some.inj h4
  have hPN : ∀ P ∈ ps, P.length ≤ 2 * G.length := by
    intro P hP
    have hfl : ps.flatten = X := by
      obtain ⟨parts, e, hf, -⟩ := C78_parts cfg.nPartitions X (by
        intro h0; rw [h0, C78_zero] at hps; cases hps)
      rw [hps] at e
      rw [Except.ok.inj e]; exact hf
    have := (List.sublist_flatten_of_mem hP).length_le
    rw [hfl] at this
    omega
  obtain ⟨k, hk, hks, hkb⟩ := hb1 srt rng cfg _ ps G g r hg hPN hsteps hnb hr hclean
  obtain ⟨t, ht, hkt⟩ := mapExcept_mem' h4 k hk
  have htD := hD srt cfg.alpha X O G h _ k t hg.2 hX (by omega) hhG (by omega) hh hks hkb hsteps hkt
  have hstep : ∀ t ∈ ss, Stepped srt cfg.alpha X t := fun t ht => by
    obtain ⟨a, -, ha⟩ := mapExcept_mem h4 t ht
    exact multiCSteps_stepped (by omega) ha
  obtain ⟨hmem, hmin⟩ := convergeFrom_stepped htol fuel _ s (fun t ht => hstep t (mem_nBest ht)) h5
  have hsD : s.determinant ≤ D := by
    obtain ⟨rest, hpm, -, hle, -⟩ := C38_nBest cfg.nBestSubsets ss
    rcases List.mem_append.1 (hpm.mem_iff.2 ht) with h | h
    · exact (hmin t h).trans htD
    · exact (hle s hmem t h).trans htD
  have hst := hstep s (mem_nBest hmem)
  obtain ⟨e1, e2, e3, e4, e5⟩ := stepped_rows hX hhG hh hst
  refine ⟨hst.isSubset, by rw [e4]; exact npCov_isSymm _, ?_⟩
  rw [e3, e4]
  exact hb G O _ hg e1 (by omega) (by omega) (by rw [← e5]; exact hsD)

/-! ### Without parts the search succeeds -/

theorem det_ne_zero_of_form {A : Matrix (Fin p) (Fin p) ℝ} {c : ℝ} (hc : 0 < c)
    (h : ∀ v : Fin p → ℝ, c * (v ⬝ᵥ v) ≤ v ⬝ᵥ (A *ᵥ v)) : A.det ≠ 0 := by
  intro h0
  obtain ⟨v, hv, hv0⟩ := Matrix.exists_mulVec_eq_zero_iff.2 h0
  have := h v
  rw [hv0, dotProduct_zero] at this
  have := mul_pos hc (dot_self_pos hv)
  linarith

theorem subset_det_ne_zero (hp : 1 ≤ p) (hG : Spec.RowsInGeneralPosition G) (hS : S.Subperm (O ++ G))
    (hl : O.length + p + 1 ≤ S.length) : (npCov S).det ≠ 0 := by
  obtain ⟨δ, R, hδ, hg⟩ := goodRows_exists hG
  have h0 : (0:ℝ) < S.length := by
    have : 0 < S.length := by omega
    exact_mod_cast this
  exact det_ne_zero_of_form (by positivity) fun v => subset_form_ge hδ hg.1 hp hS hl le_rfl v

theorem initialSubsets_ok {Γ : Type} (rng : Rng Γ) (hp : 2 ≤ p) (X : List (Fin p → ℝ)) (hd : (npCov X).det ≠ 0)
    (hl : p + 1 ≤ X.length) (k : ℕ) (g : Γ) : ∃ r, initialSubsets rng X (X.length + 1) k g = some (.ok r) := by
  induction k generalizing g with
  | zero => exact ⟨([], g), rfl⟩
  | succ k ih =>
    rcases C40_initial_subset rng X g (by rw [Fintype.card_fin]; omega) (X.length + 1) (by omega) with ⟨r, hr, -⟩ | ⟨-, h | h⟩
    · obtain ⟨rs, hrs⟩ := ih r.2
      exact ⟨(r.1 :: rs.1, rs.2), by simp [initialSubsets, hr, Run.andThen, hrs]⟩
    · rw [Fintype.card_fin] at h; omega
    · exact absurd h hd

theorem multiCSteps_total {srt : ArgSort ℝ} {alpha : Alpha ℝ} {X : List (Fin p → ℝ)} (hp : p ≠ 1) {h : ℕ}
    (hh : mcdGetH alpha X.length p = .ok h) (hst : ∀ s, Stepped srt alpha X s → s.scale.det ≠ 0) (k : ℕ)
    {s : HSubset ℝ (Fin p)} (hs : s.scale.det ≠ 0) : ∃ t, multiCSteps srt alpha X k s = .ok t := by
  induction k generalizing s with
  | zero => exact ⟨s, rfl⟩
  | succ k ih =>
    have h1 := cStep_eq (srt := srt) (s := s) hs (by rw [Fintype.card_fin]; exact hh)
    rw [getSubset_eq (by rw [Fintype.card_fin]; exact hp)] at h1
    unfold multiCSteps
    rw [h1]
    exact ih (hst _ ⟨s, h1⟩)

theorem convergeAll_total {srt : ArgSort ℝ} {alpha : Alpha ℝ} {tol : ℝ} (htol : 0 < tol) {X : List (Fin p → ℝ)} (fuel : ℕ)
    (hst : ∀ s, Stepped srt alpha X s → s.scale.det ≠ 0) (l : List (HSubset ℝ (Fin p)))
    (hl : ∀ s ∈ l, Stepped srt alpha X s) (best : HSubset ℝ (Fin p)) :
    ∃ r, convergeAll srt alpha tol X (fuel + 1) l best = some (.ok r) := by
  induction l generalizing best with
  | nil => exact ⟨best, rfl⟩
  | cons s l ih =>
    unfold convergeAll
    have h1 := hl s (by simp)
    rw [converge_stepped htol h1, if_neg (by rw [← h1.scale_det]; exact hst s h1)]
    exact ih (fun t ht => hl t (by simp [ht])) _

/-- **C172**: without parts the search does not fail. -/
theorem C172_search_total (hp : 2 ≤ p) (hG : Spec.RowsInGeneralPosition G) {Γ : Type} (srt : ArgSort ℝ) (rng : Rng Γ)
    (cfg : MCDConfig ℝ) (X O : List (Fin p → ℝ)) (fuel h : ℕ) (g : Γ) (hX : X.Perm (O ++ G))
    (hh : mcdGetH cfg.alpha X.length p = .ok h) (hO : O.length + p + 1 ≤ h) (hhG : h ≤ G.length)
    (hini : 1 ≤ cfg.nInitialSubsets) (hsteps : 1 ≤ cfg.nInitialCSteps) (hnb : 1 ≤ cfg.nBestSubsets) (htol : 0 < cfg.tol)
    (hpart : numPartitions cfg.nPartitions X.length = 1) :
    ∃ s, fastSearch srt rng cfg X (fuel + 1) g = some (.ok s) := by
  have hlen : X.length = O.length + G.length := by simpa using hX.length_eq
  have hst : ∀ s, Stepped srt cfg.alpha X s → s.scale.det ≠ 0 := by
    intro s hs
    obtain ⟨e1, e2, e3, e4, e5⟩ := stepped_rows hX hhG hh hs
    rw [e4]
    exact subset_det_ne_zero (by omega) hG e1 (by omega)
  have hpd : partitionData cfg.nPartitions X = .ok [X] := by
    unfold partitionData
    rw [hpart]
    simp [splitSizes, splitBy, Nat.mod_one]
  obtain ⟨r, hr⟩ := initialSubsets_ok rng hp X (subset_det_ne_zero (by omega) hG hX.subperm (by omega)) (by omega)
    cfg.nInitialSubsets g
  have hall : r.1.length = cfg.nInitialSubsets ∧ ∀ s ∈ r.1, s.scale.det ≠ 0 := by
    rcases initialSubsets_outcome rng X (by rw [Fintype.card_fin]; omega) (X.length + 1) (by omega) cfg.nInitialSubsets g with
      ⟨r', hr', hl, hall⟩ | hout
    · rw [hr] at hr'
      obtain rfl := Except.ok.inj (Option.some.inj hr')
      exact ⟨hl, fun s hs => by rw [(hall s hs).1.scale, ← (hall s hs).1.determinant]; exact (hall s hs).2.1⟩
    · rw [hr] at hout; cases hout
  have hmulti : ∀ l : List (HSubset ℝ (Fin p)), (∀ s ∈ l, s.scale.det ≠ 0) →
      ∃ bs, mapExcept (multiCSteps srt cfg.alpha X cfg.nInitialCSteps) l = .ok bs := fun l hl =>
    mapExcept_all_ok l fun s hs => multiCSteps_total (by omega) hh hst _ (hl s hs)
  obtain ⟨cands, hcands⟩ := hmulti r.1 hall.2
  have hstepc : ∀ t ∈ cands, Stepped srt cfg.alpha X t := fun t ht => by
    obtain ⟨a, -, ha⟩ := mapExcept_mem hcands t ht
    exact multiCSteps_stepped (by omega) ha
  obtain ⟨ss, hss⟩ := hmulti (nBest cfg.nBestSubsets cands) fun s hs => hst s (hstepc s (mem_nBest hs))
  have hsteps' : ∀ t ∈ ss, Stepped srt cfg.alpha X t := fun t ht => by
    obtain ⟨a, -, ha⟩ := mapExcept_mem hss t ht
    exact multiCSteps_stepped (by omega) ha
  have hne : nBest cfg.nBestSubsets ss ≠ [] := by
    have l1 := (mapExcept_ok hcands).length_eq
    have l2 := (mapExcept_ok hss).length_eq
    obtain ⟨-, -, l3, -⟩ := C38_nBest cfg.nBestSubsets cands
    obtain ⟨-, -, l4, -⟩ := C38_nBest cfg.nBestSubsets ss
    intro h0
    rw [h0] at l4
    simp only [List.length_nil] at l4
    omega
  obtain ⟨s0, l, hl⟩ := List.exists_cons_of_ne_nil hne
  have hlst : ∀ t ∈ s0 :: l, Stepped srt cfg.alpha X t := fun t ht => hsteps' t (mem_nBest (hl ▸ ht))
  obtain ⟨b, hb⟩ := convergeAll_total htol fuel hst (s0 :: l) hlst s0
  refine ⟨b, ?_⟩
  unfold fastSearch
  rw [hpd]
  simp only [Run.andThen, List.length_singleton, Nat.div_one]
  unfold partitionsBest partitionBest
  rw [hr]
  simp only [Run.andThen, hcands, Except.map, partitionsBest, List.append_nil, hss, hl, convergeFrom]
  exact hb

/-! ### Correction and reweighting -/

/-- The consistency correction, for estimates within bounds. -/
theorem correct_bounds (hp : 1 ≤ p) (hδ : 0 < δ) (R : ℝ) {c C M chi50 : ℝ} (hc : 0 < c) (hchi : 0 < chi50) :
    ∃ c' C' : ℝ, 0 < c' ∧ ∀ (X O G : List (Fin p → ℝ)) (s : HSubset ℝ (Fin p)), Spec.goodRows δ R G → X.Perm (O ++ G) →
      O.length + p + 1 ≤ X.length / 2 → s.scale.IsSymm → Spec.withinBounds c C M s.location s.scale →
      ∃ S, correctCovariance chi50 X s = .ok S ∧ S.IsSymm ∧ Spec.withinBounds c' C' M s.location S := by
  set T := (2 * R ^ 2 + 2 * |M|) / c with hT
  have hT0 : 0 ≤ T := by positivity
  refine ⟨δ ^ 2 / (|C| + 1) / chi50 * c, T / chi50 * |C|, by positivity, ?_⟩
  intro X O G s hg hX hO hsym hb
  have hlen : X.length = O.length + G.length := by simpa using hX.length_eq
  have hcC := withinBounds_C_nonneg hp hc.le hb
  have hC0 : 0 < C := lt_of_lt_of_le hc hcC
  obtain ⟨hdet, hinv⟩ := quadForm_inv_bounds hsym hc hb.2
  set f : (Fin p → ℝ) → ℝ := fun x => quadForm s.scale⁻¹ (x - s.location) with hf
  have hf0 : ∀ x, 0 ≤ f x := fun x =>
    nonneg_of_mul_nonneg_right ((dot_self_nonneg (x - s.location)).trans (hinv (x - s.location)).2) hC0
  have hne : X ≠ [] := by rintro rfl; simp at hO
  obtain ⟨med, hmed⟩ := npMedian_isSome (xs := X.map f) (by simpa using hne)
  have hgood : ∀ x ∈ G, f x ≤ T := by
    intro x hx
    refine ((hinv (x - s.location)).1).trans (div_le_div_of_nonneg_right ?_ hc.le)
    have h1 := diff_sq_dot_le x s.location
    have h2 := hg.2 x hx
    linarith [hb.1, le_abs_self M]
  have hmedT : med ≤ T := by
    refine (npMedian_between hmed 0 T ?_).2
    have h1 : (G.map f).countP (fun x => decide (0 ≤ x ∧ x ≤ T)) = G.length := by
      rw [← List.length_map (f := f) (as := G)]
      refine List.countP_eq_length.2 fun z hz => ?_
      obtain ⟨x, hx, rfl⟩ := List.mem_map.1 hz
      rw [decide_eq_true_eq]
      exact ⟨hf0 x, hgood x hx⟩
    rw [(hX.map f).countP_eq, List.map_append, List.countP_append, h1, List.length_map, hlen]
    omega
  have hmed0 : δ ^ 2 / (|C| + 1) ≤ med := by
    have h1 := (npMedian_half hmed).1
    rw [List.countP_map, List.length_map, List.countP_eq_length_filter] at h1
    obtain ⟨x, hx, hxδ⟩ := subset_slab (O := O) (S := X.filter ((fun x => decide (x ≤ med)) ∘ f)) hg.1
      (List.filter_sublist.subperm.trans hX.subperm) (by omega) (Pi.single ⟨0, by omega⟩ 1)
      (s.location ⬝ᵥ Pi.single ⟨0, by omega⟩ 1) (by simp)
    have h2 : f x ≤ med := by simpa using (List.mem_filter.1 hx).2
    rw [← sub_dotProduct] at hxδ
    have h3 := dot_sq_le (x - s.location) (Pi.single (⟨0, by omega⟩ : Fin p) (1:ℝ))
    have e : (Pi.single (⟨0, by omega⟩ : Fin p) (1:ℝ) : Fin p → ℝ) ⬝ᵥ Pi.single ⟨0, by omega⟩ 1 = 1 := by simp
    rw [e, mul_one] at h3
    have h4 : δ ^ 2 ≤ (x - s.location) ⬝ᵥ (x - s.location) := by
      have := pow_le_pow_left₀ hδ.le hxδ 2
      rw [sq_abs] at this
      exact this.trans h3
    have h5 := (hinv (x - s.location)).2
    rw [div_le_iff₀ (by positivity), abs_of_pos hC0]
    have h6 : C * f x ≤ C * med := mul_le_mul_of_nonneg_left h2 hC0.le
    have h7 : 0 ≤ med := (hf0 x).trans h2
    calc δ ^ 2 ≤ C * f x := h4.trans h5
      _ ≤ C * med := h6
      _ ≤ med * (C + 1) := by linarith
  refine ⟨(med / chi50) • s.scale, ?_, hsym.smul _, hb.1, fun v => ?_⟩
  · unfold correctCovariance
    rw [sqMahalanobis_eq hdet]
    simp only [Except.map]
    rw [hmed, Option.getD_some]
  · rw [smul_mulVec, dotProduct_smul, smul_eq_mul]
    have hm0 : 0 ≤ med := le_trans (by positivity) hmed0
    have hv := dot_self_nonneg v
    constructor
    · rw [mul_assoc]
      exact mul_le_mul (div_le_div_of_nonneg_right hmed0 hchi.le) (hb.2 v).1 (mul_nonneg hc.le hv) (by positivity)
    · rw [mul_assoc, abs_of_pos hC0]
      exact mul_le_mul (div_le_div_of_nonneg_right hmedT hchi.le) (hb.2 v).2 ((mul_nonneg hc.le hv).trans (hb.2 v).1)
        (by positivity)

/-- The mean of bounded rows. -/
theorem meanRow_sq_bounded {R' : List (Fin p → ℝ)} {Q2 : ℝ} (hQ : 0 ≤ Q2) (hne : R' ≠ [])
    (h : ∀ x ∈ R', x ⬝ᵥ x ≤ (Real.sqrt Q2) ^ 2) : meanRow R' ⬝ᵥ meanRow R' ≤ p * Q2 := by
  have h1 : ∀ i ∈ (Finset.univ : Finset (Fin p)), meanRow R' i * meanRow R' i ≤ Q2 := by
    intro i _
    have h2 := meanRow_bounded (Real.sqrt_nonneg Q2) hne h (Pi.single i 1)
    rw [dotProduct_single_one, dotProduct_single_one, Pi.single_eq_same, Real.sqrt_one, mul_one] at h2
    have h3 := pow_le_pow_left₀ (abs_nonneg _) h2 2
    rw [sq_abs, Real.sq_sqrt hQ, pow_two] at h3
    exact h3
  have := Finset.sum_le_card_nsmul _ _ _ h1
  simpa [dotProduct] using this

/-- The post processing, for a search that ends within bounds. -/
theorem postProcess_bounds (hp : 1 ≤ p) (hδ : 0 < δ) (R : ℝ) (N : ℕ) {c C M : ℝ} (cfg : MCDConfig ℝ) (hc : 0 < c)
    (hcr : cfg.correct = true ∨ cfg.reweighting = false) (hchi : 0 < cfg.chi50) (hchi2 : cfg.chi50 < cfg.chi975)
    (hgam : 0 < cfg.gammaFactor) :
    ∃ c' C' M' : ℝ, 0 < c' ∧ ∀ (X O G : List (Fin p → ℝ)) (s : HSubset ℝ (Fin p)), Spec.goodRows δ R G → X.Perm (O ++ G) →
      O.length + p + 1 ≤ X.length / 2 → X.length ≤ N → s.scale.IsSymm → Spec.withinBounds c C M s.location s.scale →
      ∃ fit, postProcess cfg X s = .ok fit ∧ fit.covariance.IsSymm ∧ Spec.withinBounds c' C' M' fit.location fit.covariance := by
  by_cases hcorr : cfg.correct = true
  swap
  · have hr := hcr.resolve_left hcorr
    refine ⟨c, C, M, hc, fun X O G s _ _ _ _ hsym hb => ⟨⟨s.location, s.scale, some s, none⟩, ?_, hsym, hb⟩⟩
    unfold postProcess
    rw [if_neg hcorr]
    simp [Except.bind, hr]
  obtain ⟨c1, C1, hc1, h1⟩ := correct_bounds (C := C) (M := M) hp hδ R hc hchi
  by_cases hr : cfg.reweighting = true
  swap
  · refine ⟨c1, C1, M, hc1, fun X O G s hg hX hO _ hsym hb => ?_⟩
    obtain ⟨S, hS, hSs, hSb⟩ := h1 X O G s hg hX hO hsym hb
    refine ⟨⟨s.location, S, some s, none⟩, ?_, hSs, hSb⟩
    unfold postProcess
    rw [if_pos hcorr, hS]
    simp [Except.bind, hr]
  have hchi975 : 0 < cfg.chi975 := hchi.trans hchi2
  obtain ⟨Q2, hQ2⟩ : ∃ q, q = 2 * (|C1| * cfg.chi975) + 2 * |M| := ⟨_, rfl⟩
  have hQ2n : 0 ≤ Q2 := by rw [hQ2]; positivity
  refine ⟨cfg.gammaFactor * (δ ^ 2 / (N + 1 : ℕ)), cfg.gammaFactor * (8 * (Real.sqrt Q2) ^ 2), p * Q2, by positivity, ?_⟩
  intro X O G s hg hX hO hN hsym hb
  have hne : X ≠ [] := by rintro rfl; simp at hO
  obtain ⟨S, hS, hSs, hSb⟩ := h1 X O G s hg hX hO hsym hb
  have hC1 : 0 < C1 := lt_of_lt_of_le hc1 (withinBounds_C_nonneg hp hc1.le hSb)
  obtain ⟨hdet, hinv⟩ := quadForm_inv_bounds hSs hc1 hSb.2
  have hd := sqMahalanobis_eq (X := X) (loc := s.location) hdet
  have hmed := C79_correction cfg.chi50 hchi.ne' X hne ⟨⟨0, by omega⟩⟩ s S hS _ hd
  set f : (Fin p → ℝ) → ℝ := fun x => quadForm S⁻¹ (x - s.location) with hf
  set rows := X.filter fun x => decide (f x < cfg.chi975) with hrowsd
  have hsub : rows.Subperm (O ++ G) := List.filter_sublist.subperm.trans hX.subperm
  have hkept : O.length + p + 1 ≤ rows.length := by
    have h2 := (npMedian_half hmed).1
    rw [List.countP_map, List.length_map] at h2
    have h3 : X.countP ((fun x => decide (x ≤ cfg.chi50)) ∘ f) ≤ rows.length := by
      rw [hrowsd, ← List.countP_eq_length_filter]
      apply List.countP_mono_left
      intro x _ hx
      simp only [Function.comp, decide_eq_true_eq] at hx ⊢
      exact lt_of_le_of_lt hx hchi2
    omega
  have hrb : ∀ x ∈ rows, x ⬝ᵥ x ≤ (Real.sqrt Q2) ^ 2 := by
    intro x hx
    rw [Real.sq_sqrt hQ2n, hQ2]
    have h2 : f x < cfg.chi975 := by simpa using (List.mem_filter.1 hx).2
    have h3 := (hinv (x - s.location)).2
    have h4 : C1 * f x ≤ C1 * cfg.chi975 := mul_le_mul_of_nonneg_left h2.le hC1.le
    have h5 := sum_sq_dot_le (x - s.location) s.location
    rw [sub_add_cancel] at h5
    rw [abs_of_pos hC1]
    linarith [hSb.1, le_abs_self M]
  have hrN : rows.length ≤ N + 1 := by
    have : rows.length ≤ X.length := List.length_filter_le _ _
    omega
  refine ⟨⟨meanRow rows, cfg.gammaFactor • npCov rows, some s, some (X.map fun x => decide (f x < cfg.chi975))⟩, ?_, ?_, ?_, ?_⟩
  · unfold postProcess
    rw [if_pos hcorr, hS]
    simp only [Except.bind, hr, if_true]
    unfold reweight
    rw [hd]
    simp only [Except.bind]
    have e : maskRows ((X.map f).map fun v => decide (v < cfg.chi975)) X = rows := by
      rw [List.map_map]
      exact maskRows_map _ X
    rw [e, if_neg (by omega), if_pos hcorr, List.map_map]
    rfl
  · exact (npCov_isSymm _).smul _
  · exact meanRow_sq_bounded hQ2n (List.ne_nil_of_length_pos (by omega)) hrb
  · intro v
    rw [smul_mulVec, dotProduct_smul, smul_eq_mul, mul_assoc, mul_assoc]
    exact ⟨mul_le_mul_of_nonneg_left (subset_form_ge hδ hg.1 hp hsub hkept hrN v) hgam.le,
      mul_le_mul_of_nonneg_left (npCov_form_le (Real.sqrt_nonneg _) (by omega) hrb v) hgam.le⟩

/-! ### The fit -/

/-- `fit`, given the result of `calculate_covariance`. -/
theorem covFit_bounded (hp : 2 ≤ p) (hG : Spec.RowsInGeneralPosition G) {calcCov : CalcCov ℝ (Fin p)} {c C M : ℝ} (hc : 0 < c)
    (assumeCentered : Bool) (st : CovState ℝ (Fin p)) {X : List (Fin p → ℝ)} (hX : X.Perm (O ++ G)) (hO : p + 1 ≤ G.length)
    (hcalc : ∀ st, ∃ mu cov, calcCov X st = (.ok (some cov), { st with location_ := some mu }) ∧ cov.IsSymm ∧
      Spec.withinBounds c C M mu cov) :
    Spec.boundedFit c C M (covFit assumeCentered calcCov st (X.map fun x j => some (x j))) := by
  have hlen : X.length = O.length + G.length := by simpa using hX.length_eq
  have hne : X ≠ [] := by rintro rfl; simp at hlen; omega
  have e : ((X.map fun x j => some (x j)).map fun (r : Fin p → Option ℝ) j => (r j).getD 0) = X := by
    rw [List.map_map]; exact List.map_id X
  unfold covFit
  rw [if_neg (by
    rintro (h | ⟨r, hr, j, hj⟩)
    · exact hne (by simpa using h)
    · obtain ⟨x, -, rfl⟩ := List.mem_map.1 hr
      cases hj), e]
  unfold covFitValid
  simp only
  obtain ⟨mu, cov, h1, h2, h3, h4⟩ := hcalc { st with location_ := some (if assumeCentered then fun _ => 0 else meanRow X) }
  rw [h1]
  simp only [Option.getD_some]
  rw [sqMahalanobis_eq (quadForm_inv_bounds h2 hc h4).1]
  simp only
  rw [if_neg (by rw [Fintype.card_fin]; omega)]
  rw [sqMahalanobis_eq (subset_det_ne_zero (by omega) hG hX.subperm (by omega))]
  exact ⟨rfl, mu, cov, rfl, rfl, h3, h4⟩

/-- **C172**: `FastMCD(...).fit` on contaminated data.  If one of the parts the search works on has a clean draw, a fit that
succeeds is within bounds that depend on the good rows and the settings only; without parts the fit succeeds. -/
theorem C172_fit (hp : 2 ≤ p) (G : List (Fin p → ℝ)) (hG : Spec.RowsInGeneralPosition G) (cfg : MCDConfig ℝ)
    (hcr : cfg.correct = true ∨ cfg.reweighting = false) (hchi : 0 < cfg.chi50) (hchi2 : cfg.chi50 < cfg.chi975)
    (hgam : 0 < cfg.gammaFactor) (hini : 1 ≤ cfg.nInitialSubsets) (hsteps : 1 ≤ cfg.nInitialCSteps)
    (hnb : 1 ≤ cfg.nBestSubsets) (htol : 0 < cfg.tol) :
    ∃ c C M : ℝ, 0 < c ∧ ∀ {Γ : Type} (srt : ArgSort ℝ) (rng : Rng Γ) (assumeCentered : Bool) (st : CovState ℝ (Fin p))
      (X O : List (Fin p → ℝ)) (fuel h : ℕ) (g : Γ) (ps : List (List (Fin p → ℝ))), X.Perm (O ++ G) →
      alphaIsAll cfg.alpha X.length = false → mcdGetH cfg.alpha X.length p = .ok h →
      O.length + p + 1 ≤ X.length / 2 → O.length + p + 1 ≤ h → h ≤ G.length →
      partitionData cfg.nPartitions X = .ok ps →
      (∃ part ∈ Spec.mcdDraws rng (cfg.nInitialSubsets / ps.length) ps g, Spec.cleanStart cfg.alpha G part) →
      ((covFit assumeCentered (fastMCDCalc srt rng cfg (fuel + 1) g) st (X.map fun x j => some (x j))).1 = .ok () ∨
        numPartitions cfg.nPartitions X.length = 1) →
      Spec.boundedFit c C M
        (covFit assumeCentered (fastMCDCalc srt rng cfg (fuel + 1) g) st (X.map fun x j => some (x j))) := by
  obtain ⟨δ, R, hδ, hg⟩ := goodRows_exists hG
  obtain ⟨c1, C1, M1, hc1, hb1⟩ := C172_search hp G hG
  obtain ⟨c, C, M, hc, hb⟩ := postProcess_bounds (C := C1) (M := M1) (p := p) (by omega) hδ R (2 * G.length) cfg hc1 hcr hchi hchi2 hgam
  refine ⟨c, C, M, hc, ?_⟩
  intro Γ srt rng ac st X O fuel h g ps hX hall hh hO hOh hhG hps hclean hor
  have hlen : X.length = O.length + G.length := by simpa using hX.length_eq
  have hne : X ≠ [] := by rintro rfl; simp at hO
  have hsearch : ∃ s, fastSearch srt rng cfg X (fuel + 1) g = some (.ok s) := by
    rcases hor with hor | hor
    · by_contra hcon
      have e : ((X.map fun x j => some (x j)).map fun (r : Fin p → Option ℝ) j => (r j).getD 0) = X := by
        rw [List.map_map]; exact List.map_id X
      unfold covFit at hor
      rw [if_neg (by
        rintro (h | ⟨r, hr, j, hj⟩)
        · exact hne (by simpa using h)
        · obtain ⟨x, -, rfl⟩ := List.mem_map.1 hr
          cases hj), e] at hor
      unfold covFitValid fastMCDCalc fastMCD at hor
      rw [hall] at hor
      simp only [Bool.false_eq_true, if_false] at hor
      rcases hf : fastSearch srt rng cfg X (fuel + 1) g with _ | (er | s)
      · rw [hf] at hor; simp [Run.andThen] at hor
      · rw [hf] at hor; simp [Run.andThen] at hor
      · exact hcon ⟨s, hf⟩
    · exact C172_search_total hp hG srt rng cfg X O fuel h g hX hh hOh hhG hini hsteps hnb htol hor
  obtain ⟨s, hs⟩ := hsearch
  obtain ⟨-, hsym, hsb⟩ := hb1 srt rng cfg X O (fuel + 1) h g ps s hX hh hOh hhG hsteps hnb htol hps hclean hs
  obtain ⟨fit, hfit, hfs, hfb⟩ := hb X O G s hg hX hO (by omega) hsym hsb
  refine covFit_bounded hp hG hc ac st hX (by omega) fun st => ⟨fit.location, fit.covariance, ?_, hfs, hfb⟩
  unfold fastMCDCalc fastMCD
  rw [hall]
  simp only [Bool.false_eq_true, if_false]
  rw [hs]
  simp only [Run.andThen]
  rw [hfit]
  simp only
  rw [if_neg (by rw [Fintype.card_fin]; omega)]

/-- **C172** for the default `alpha` and at most 600 rows: fewer than half of the rows, less `p`, may be outliers. -/
theorem C172_default (hp : 2 ≤ p) (G : List (Fin p → ℝ)) (hG : Spec.RowsInGeneralPosition G) (cfg : MCDConfig ℝ)
    (halpha : cfg.alpha = .none) (hpart : cfg.nPartitions = none)
    (hcr : cfg.correct = true ∨ cfg.reweighting = false) (hchi : 0 < cfg.chi50) (hchi2 : cfg.chi50 < cfg.chi975)
    (hgam : 0 < cfg.gammaFactor) (hsteps : 1 ≤ cfg.nInitialCSteps)
    (hnb : 1 ≤ cfg.nBestSubsets) (htol : 0 < cfg.tol) :
    ∃ c C M : ℝ, 0 < c ∧ ∀ {Γ : Type} (srt : ArgSort ℝ) (rng : Rng Γ) (assumeCentered : Bool) (st : CovState ℝ (Fin p))
      (X O : List (Fin p → ℝ)) (fuel : ℕ) (g : Γ) (r : List (HSubset ℝ (Fin p)) × Γ), X.Perm (O ++ G) → X.length ≤ 600 →
      O.length + p + 1 ≤ X.length / 2 →
      initialSubsets rng X (X.length + 1) cfg.nInitialSubsets g = some (.ok r) →
      (∃ s ∈ r.1, (takeAt X s.indices).Subperm G) →
      Spec.boundedFit c C M
        (covFit assumeCentered (fastMCDCalc srt rng cfg (fuel + 1) g) st (X.map fun x j => some (x j))) := by
  by_cases hini : 1 ≤ cfg.nInitialSubsets
  swap
  · refine ⟨1, 0, 0, one_pos, ?_⟩
    intro Γ srt rng ac st X O fuel g r _ _ _ hr ⟨s, hs, _⟩
    rw [show cfg.nInitialSubsets = 0 by omega] at hr
    obtain rfl := Except.ok.inj (Option.some.inj hr)
    simp at hs
  obtain ⟨c, C, M, hc, hb⟩ := C172_fit hp G hG cfg hcr hchi hchi2 hgam hini hsteps hnb htol
  refine ⟨c, C, M, hc, ?_⟩
  intro Γ srt rng ac st X O fuel g r hX hn hO hr hs
  have hlen : X.length = O.length + G.length := by simpa using hX.length_eq
  have hnum : numPartitions cfg.nPartitions X.length = 1 := by rw [hpart]; simp [numPartitions]; omega
  have hpd : partitionData cfg.nPartitions X = .ok [X] := by
    unfold partitionData
    rw [hnum]
    simp [splitSizes, splitBy, Nat.mod_one]
  have hh : mcdGetH cfg.alpha X.length p = .ok ((X.length + p + 1) / 2) := by rw [halpha]; rfl
  refine hb srt rng ac st X O fuel _ g [X] hX (by rw [halpha]; rfl) hh hO (by omega) (by omega) hpd ?_ (Or.inr hnum)
  refine ⟨(X, r.1), ?_, O, G, _, hX, List.Subperm.refl G, hh, by omega, by omega, hs⟩
  simp [Spec.mcdDraws, hr]

/-! ### C173: the fit succeeds -/

/-- **C173**: FastMCD with the default `alpha` and the default partitioning returns estimates whenever the outliers are a
minority and the other rows are in general position. -/
def C173_statement : Prop :=
  ∀ (p : ℕ) (Γ : Type) (srt : ArgSort ℝ) (rng : Rng Γ) (cfg : MCDConfig ℝ) (X O G : List (Fin p → ℝ)) (fuel : ℕ) (g : Γ), 2 ≤ p →
    Spec.RowsInGeneralPosition G → X.Perm (O ++ G) → O.length + p + 1 ≤ X.length / 2 → cfg.alpha = .none →
    cfg.nPartitions = none → 5 ≤ cfg.nInitialSubsets → 1 ≤ cfg.nInitialCSteps → 1 ≤ cfg.nBestSubsets → 0 < cfg.tol →
    0 < cfg.chi50 → cfg.chi50 < cfg.chi975 → 0 < cfg.gammaFactor → cfg.correct = true →
    ∃ fit, fastMCD srt rng cfg X (fuel + 1) g = some (.ok fit)

/-- `C173_statement` holds for at most 600 rows. -/
theorem C173_partial {Γ : Type} (srt : ArgSort ℝ) (rng : Rng Γ) (cfg : MCDConfig ℝ) (X O G : List (Fin p → ℝ)) (fuel : ℕ) (g : Γ)
    (hp : 2 ≤ p) (hG : Spec.RowsInGeneralPosition G) (hX : X.Perm (O ++ G)) (hO : O.length + p + 1 ≤ X.length / 2)
    (halpha : cfg.alpha = .none) (hpart : cfg.nPartitions = none) (hini : 1 ≤ cfg.nInitialSubsets)
    (hsteps : 1 ≤ cfg.nInitialCSteps) (hnb : 1 ≤ cfg.nBestSubsets) (htol : 0 < cfg.tol) (hchi : 0 < cfg.chi50)
    (hchi2 : cfg.chi50 < cfg.chi975) (hgam : 0 < cfg.gammaFactor) (hcorr : cfg.correct = true) (hn : X.length ≤ 600) :
    ∃ fit, fastMCD srt rng cfg X (fuel + 1) g = some (.ok fit) := by
  have hlen : X.length = O.length + G.length := by simpa using hX.length_eq
  have hnum : numPartitions cfg.nPartitions X.length = 1 := by rw [hpart]; simp [numPartitions]; omega
  have hh : mcdGetH cfg.alpha X.length p = .ok ((X.length + p + 1) / 2) := by rw [halpha]; rfl
  obtain ⟨s, hs⟩ := C172_search_total hp hG srt rng cfg X O fuel _ g hX hh (by omega) (by omega) hini hsteps hnb htol hnum
  obtain ⟨δ, R, hδ, hg⟩ := goodRows_exists hG
  have hpd : partitionData cfg.nPartitions X = .ok [X] := by
    unfold partitionData
    rw [hnum]
    simp [splitSizes, splitBy, Nat.mod_one]
  -- the subset found has more than `p` good rows
  have hst : Stepped srt cfg.alpha X s := by
    have hs' := hs
    unfold fastSearch at hs'
    rw [hpd] at hs'
    obtain ⟨ps', -, h2⟩ := Run.andThen_ok hs'
    obtain ⟨r, hr, h3⟩ := Run.andThen_ok h2
    obtain ⟨ss, h4, h5⟩ := Run.andThen_ok h3
    have hstep : ∀ t ∈ ss, Stepped srt cfg.alpha X t := fun t ht => by
      obtain ⟨a, -, ha⟩ := mapExcept_mem (Option.some.inj h4) t ht
      exact multiCSteps_stepped (by omega) ha
    exact hstep s (mem_nBest (convergeFrom_stepped htol _ _ s (fun t ht => hstep t (mem_nBest ht)) h5).1)
  obtain ⟨e1, e2, e3, e4, e5⟩ := stepped_rows hX (by omega) hh hst
  obtain ⟨c, C, M, hc, hb⟩ := subset_bounds (p := p) (by omega) hδ R X.length s.determinant
  have hsb := hb G O _ hg e1 (by omega) (by omega) e5.ge
  rw [← e3, ← e4] at hsb
  obtain ⟨_, _, _, _, h⟩ := postProcess_bounds (C := C) (M := M) (p := p) (by omega) hδ R X.length cfg hc (Or.inl hcorr) hchi hchi2 hgam
  obtain ⟨fit, hfit, -⟩ := h X O G s hg hX hO le_rfl (by rw [e4]; exact npCov_isSymm _) hsb
  refine ⟨fit, ?_⟩
  unfold fastMCD
  rw [halpha]
  simp only [alphaIsAll, Bool.false_eq_true, if_false]
  rw [hs]
  simp only [Run.andThen]
  rw [hfit]

theorem npCov_const {R' : List (Fin p → ℝ)} {x : Fin p → ℝ} (h : ∀ y ∈ R', y = x) (hp : 1 ≤ p) : (npCov R').det = 0 := by
  obtain ⟨n, rfl⟩ : ∃ n, R' = List.replicate n x := ⟨_, List.eq_replicate_of_mem h⟩
  have h0 : npCov (List.replicate n x) = 0 := by
    rcases Nat.eq_zero_or_pos n with h0 | h0
    · ext i j; simp [npCov, h0]
    have hl : ((n : ℕ) : ℝ) ≠ 0 := by exact_mod_cast h0.ne'
    have hm : meanRow (List.replicate n x) = x := by
      funext j
      simp only [meanRow, mean, List.map_replicate, List.sum_replicate, List.length_replicate, nsmul_eq_mul]
      field_simp
    ext i j
    simp [npCov, hm]
  rw [h0]
  haveI : Nonempty (Fin p) := ⟨⟨0, by omega⟩⟩
  exact Matrix.det_zero

/-- **C173**: if the rows of the first part are all equal, FastMCD raises ValueError, whatever the other rows and the random
draws. -/
theorem C173_constant_part {Γ : Type} (srt : ArgSort ℝ) (rng : Rng Γ) (cfg : MCDConfig ℝ) (X P : List (Fin p → ℝ))
    (ps : List (List (Fin p → ℝ))) (x : Fin p → ℝ) (fuel : ℕ) (g : Γ) (hp : 2 ≤ p)
    (hall : alphaIsAll cfg.alpha X.length = false) (hps : partitionData cfg.nPartitions X = .ok (P :: ps))
    (hini : ps.length + 1 ≤ cfg.nInitialSubsets) (hP : ∀ y ∈ P, y = x) :
    fastMCD srt rng cfg X fuel g = some (.error .valueError) := by
  unfold fastMCD fastSearch
  rw [hall, hps]
  simp only [Bool.false_eq_true, if_false, Run.andThen]
  obtain ⟨k, hk⟩ : ∃ k, cfg.nInitialSubsets / (P :: ps).length = k + 1 := by
    have : 0 < cfg.nInitialSubsets / (P :: ps).length := Nat.div_pos (by simpa using hini) (by simp)
    exact ⟨_, (Nat.succ_pred_eq_of_pos this).symm⟩
  rw [hk]
  unfold partitionsBest partitionBest initialSubsets
  rcases C40_initial_subset rng P g (by rw [Fintype.card_fin]; omega) (P.length + 1) (by omega) with ⟨r, hr, h1, h2, -⟩ | ⟨hr, -⟩
  · refine absurd ?_ h2
    rw [h1.determinant]
    exact npCov_const (fun y hy => hP y (mem_takeAt hy)) (by omega)
  · rw [hr]
    rfl

/-- 605 rows: the first 121 are equal, the others lie on a parabola. -/
noncomputable def c173Good : List (Fin 2 → ℝ) := ((List.range 484).map fun k : ℕ => (k : ℝ)).map fun t => ![t, t ^ 2]

theorem c173_gp : Spec.RowsInGeneralPosition c173Good :=
  parabola_gp _ (List.nodup_range.map Nat.cast_injective)

/-- A configuration with the default settings; the quantiles are replaced by numbers in the right order. -/
noncomputable def c173Cfg : MCDConfig ℝ where
  alpha := .none
  nInitialSubsets := 500
  nInitialCSteps := 2
  nBestSubsets := 10
  nPartitions := none
  tol := 1 / 10 ^ 8
  correct := true
  reweighting := true
  chi50 := 1.386
  chi975 := 7.378
  gammaFactor := 1

/-- **C173** is violated: on more than 600 rows the data are cut into five parts in the order of the rows, and a fifth of equal
outliers at the beginning makes the fit fail. -/
theorem C173_violated : ¬ C173_statement := by
  intro h
  have hl : c173Good.length = 484 := by simp [c173Good]
  obtain ⟨O, hO⟩ : ∃ O : List (Fin 2 → ℝ), O = List.replicate 121 ![1000, 0] := ⟨_, rfl⟩
  have hOl : O.length = 121 := by rw [hO]; simp
  obtain ⟨fit, hfit⟩ := h 2 Unit (argsortStable ℝ) rngFirst c173Cfg (O ++ c173Good) O c173Good 0 () le_rfl c173_gp (List.Perm.refl _)
    (by simp [hOl, hl]) rfl rfl (by norm_num [c173Cfg]) (by norm_num [c173Cfg]) (by norm_num [c173Cfg]) (by norm_num [c173Cfg])
    (by norm_num [c173Cfg]) (by norm_num [c173Cfg]) (by norm_num [c173Cfg]) rfl
  have hn : (O ++ c173Good).length = 605 := by rw [List.length_append, hOl, hl]
  have hps : ∃ ps, partitionData c173Cfg.nPartitions (O ++ c173Good) = .ok (O :: ps) ∧ ps.length = 4 := by
    unfold partitionData
    rw [hn]
    have hnum : numPartitions c173Cfg.nPartitions 605 = 5 := rfl
    rw [hnum, if_neg (by norm_num)]
    have hsz : splitSizes 605 5 = [121, 121, 121, 121, 121] := by decide
    rw [hsz]
    refine ⟨splitBy [121, 121, 121, 121] ((O ++ c173Good).drop 121), ?_, rfl⟩
    simp only [splitBy]
    rw [List.take_left' hOl]
  obtain ⟨ps, hps, hpl⟩ := hps
  have := C173_constant_part (argsortStable ℝ) rngFirst c173Cfg (O ++ c173Good) O ps ![1000, 0] 1 () le_rfl rfl hps
    (by rw [hpl]; norm_num [c173Cfg]) (fun y hy => List.eq_of_mem_replicate (hO ▸ hy))
  rw [this] at hfit
  cases hfit

/-! ### The hypotheses can be met -/

/-- Eight points on a parabola; two further rows may be anything. -/
noncomputable def c172Good : List (Fin 2 → ℝ) := ([0, 1, 2, 3, 4, 5, 6, 7] : List ℝ).map fun t => ![t, t ^ 2]

theorem c172_gp : Spec.RowsInGeneralPosition c172Good := parabola_gp _ (by norm_num)

/-- One draw is enough: the first three rows. -/
theorem c172_draw (a b : Fin 2 → ℝ) : ∃ r : List (HSubset ℝ (Fin 2)) × Unit,
    initialSubsets rngFirst (c172Good ++ [a, b]) ((c172Good ++ [a, b]).length + 1) 1 () = some (.ok r) ∧
      ∃ s ∈ r.1, (takeAt (c172Good ++ [a, b]) s.indices).Subperm c172Good := by
  have htake : takeAt (c172Good ++ [a, b]) (List.range 3) = c172Good.take 3 := by
    simp [c172Good, takeAt, List.range_succ]
  have hdet : (npCov (takeAt (c172Good ++ [a, b]) (List.range 3))).det ≠ 0 := by
    rw [htake]
    exact gp_npCov c172_gp (List.take_sublist _ _).subperm (by simp [c172Good])
  have hini : initialSubset rngFirst (c172Good ++ [a, b]) ((c172Good ++ [a, b]).length + 1) () =
      some (.ok (⟨List.range 3, meanRow (takeAt (c172Good ++ [a, b]) (List.range 3)),
        npCov (takeAt (c172Good ++ [a, b]) (List.range 3)), (npCov (takeAt (c172Good ++ [a, b]) (List.range 3))).det, 0⟩, ())) := by
    unfold initialSubset
    rw [if_neg (by simp [c172Good])]
    simp only [runLoop, growStep, rngFirst, Fintype.card_fin]
    rw [getSubset_eq (by simp)]
    simp [Except.bind, hdet]
  refine ⟨_, by simp only [initialSubsets]; rw [hini]; rfl, _, List.mem_singleton.2 rfl, ?_⟩
  rw [htake]
  exact (List.take_sublist _ _).subperm

/-- `C172_default` for these rows. -/
example : ∃ c C M : ℝ, 0 < c ∧ ∀ a b : Fin 2 → ℝ, Spec.boundedFit c C M
    (covFit false (fastMCDCalc (argsortStable ℝ) rngFirst { c173Cfg with nInitialSubsets := 1 } 1 ()) ⟨none, none, none, none, none⟩
      ((c172Good ++ [a, b]).map fun x j => some (x j))) := by
  obtain ⟨c, C, M, hc, h⟩ := C172_default le_rfl c172Good c172_gp { c173Cfg with nInitialSubsets := 1 } rfl rfl (Or.inl rfl)
    (by norm_num [c173Cfg]) (by norm_num [c173Cfg]) (by norm_num [c173Cfg]) (by norm_num [c173Cfg]) (by norm_num [c173Cfg])
    (by norm_num [c173Cfg])
  refine ⟨c, C, M, hc, fun a b => ?_⟩
  obtain ⟨r, hr, hs⟩ := c172_draw a b
  exact h (argsortStable ℝ) rngFirst false _ (c172Good ++ [a, b]) [a, b] 0 () r List.perm_append_comm (by simp [c172Good])
    (by simp [c172Good]) hr hs

end Robpy
