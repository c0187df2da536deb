import Verif.Model.LTS
import Mathlib.Analysis.InnerProductSpace.PiL2
import Mathlib.Analysis.InnerProductSpace.Projection.FiniteDimensional

/-! Least squares with an intercept: uniqueness of the shortest solution, and that the contract of `LinearRegression` can be met. -/

namespace Robpy

section
variable {p : ℕ}

/-- The model halfway between two models. -/
noncomputable def LinModel.mid (a b : LinModel p) : LinModel p :=
  ⟨(a.intercept + b.intercept) / 2, fun j => (a.coef j + b.coef j) / 2⟩

theorem predict_mid (a b : LinModel p) (x : Fin p → ℝ) : (a.mid b).predict x = (a.predict x + b.predict x) / 2 := by
  unfold LinModel.predict LinModel.mid
  simp only
  have : ∑ j, x j * ((a.coef j + b.coef j) / 2) = (∑ j, x j * a.coef j + ∑ j, x j * b.coef j) / 2 := by
    rw [← Finset.sum_add_distrib, Finset.sum_div]
    exact Finset.sum_congr rfl fun j _ => by ring
  rw [this]; ring

theorem ssr_mid (D : List ((Fin p → ℝ) × ℝ)) (a b : LinModel p) :
    ssr D (a.mid b) = (ssr D a + ssr D b) / 2 - (D.map fun d => (a.predict d.1 - b.predict d.1) ^ 2).sum / 4 := by
  unfold ssr
  induction D with
  | nil => simp
  | cons d D ih =>
    simp only [List.map_cons, List.sum_cons]
    rw [ih]
    unfold resid
    rw [predict_mid]
    ring

theorem sum_sq_eq_zero {α : Type} (f : α → ℝ) (l : List α) (h : (l.map fun a => f a ^ 2).sum ≤ 0) : ∀ a ∈ l, f a = 0 := by
  induction l with
  | nil => simp
  | cons b l ih =>
    rw [List.map_cons, List.sum_cons] at h
    have h0 : 0 ≤ (l.map fun a => f a ^ 2).sum := by
      apply List.sum_nonneg
      intro x hx
      obtain ⟨a, -, rfl⟩ := List.mem_map.1 hx
      positivity
    intro a ha
    rcases List.mem_cons.1 ha with rfl | ha
    · have : f a ^ 2 = 0 := le_antisymm (by linarith) (by positivity)
      simpa using this
    · exact ih (by nlinarith [sq_nonneg (f b)]) a ha

/-- Two least-squares fits predict the same at the observations. -/
theorem predict_eq_of_min {D : List ((Fin p → ℝ) × ℝ)} {a b : LinModel p} (ha : ∀ m, ssr D a ≤ ssr D m) (hb : ∀ m, ssr D b ≤ ssr D m) :
    ∀ d ∈ D, a.predict d.1 = b.predict d.1 := by
  have h1 := ha (a.mid b)
  have h2 := hb a
  have h3 := ha b
  rw [ssr_mid] at h1
  have := sum_sq_eq_zero (fun d : (Fin p → ℝ) × ℝ => a.predict d.1 - b.predict d.1) D (by linarith)
  exact fun d hd => sub_eq_zero.1 (this d hd)

theorem ssr_congr {D : List ((Fin p → ℝ) × ℝ)} {a b : LinModel p} (h : ∀ d ∈ D, a.predict d.1 = b.predict d.1) : ssr D a = ssr D b := by
  unfold ssr resid
  congr 1
  exact List.map_congr_left fun d hd => by rw [h d hd]

/-- The least-squares fit with the shortest coefficient vector is unique. -/
theorem leastSquares_unique {D : List ((Fin p → ℝ) × ℝ)} (hD : D ≠ []) {a b : LinModel p}
    (ha : ∀ m, ssr D a ≤ ssr D m) (hb : ∀ m, ssr D b ≤ ssr D m)
    (ha' : ∀ m, ssr D m = ssr D a → ∑ j, a.coef j ^ 2 ≤ ∑ j, m.coef j ^ 2)
    (hb' : ∀ m, ssr D m = ssr D b → ∑ j, b.coef j ^ 2 ≤ ∑ j, m.coef j ^ 2) : a = b := by
  have hp := predict_eq_of_min ha hb
  have hab := ssr_congr hp
  have hmid : ssr D (a.mid b) = ssr D a := ssr_congr fun d hd => by rw [predict_mid, hp d hd]; ring
  have h1 := ha' _ hmid
  have h2 := ha' b hab.symm
  have h3 := hb' a hab
  have h4 : ∑ j, (a.mid b).coef j ^ 2 = (∑ j, a.coef j ^ 2 + ∑ j, b.coef j ^ 2) / 2 - (∑ j, (a.coef j - b.coef j) ^ 2) / 4 := by
    rw [← Finset.sum_add_distrib, Finset.sum_div, Finset.sum_div, ← Finset.sum_sub_distrib]
    exact Finset.sum_congr rfl fun j _ => by unfold LinModel.mid; ring
  have h5 : ∑ j, (a.coef j - b.coef j) ^ 2 = 0 :=
    le_antisymm (by linarith) (Finset.sum_nonneg fun j _ => sq_nonneg _)
  have hcoef : a.coef = b.coef := by
    funext j
    have := (Finset.sum_eq_zero_iff_of_nonneg fun j _ => sq_nonneg _).1 h5 j (Finset.mem_univ j)
    exact sub_eq_zero.1 (by simpa using this)
  obtain ⟨d, D', rfl⟩ := List.exists_cons_of_ne_nil hD
  have := hp d (by simp)
  unfold LinModel.predict at this
  rw [hcoef] at this
  exact LinModel.ext (by linarith) hcoef

/-- Predictions as a linear map. -/
noncomputable def predMap (D : List ((Fin p → ℝ) × ℝ)) : (ℝ × EuclideanSpace ℝ (Fin p)) →ₗ[ℝ] EuclideanSpace ℝ (Fin D.length) where
  toFun z := WithLp.toLp 2 fun i => z.1 + ∑ j, (D.get i).1 j * z.2 j
  map_add' z w := by
    ext i
    simp only [Prod.fst_add, Prod.snd_add, PiLp.add_apply, mul_add, Finset.sum_add_distrib]
    ring
  map_smul' c z := by
    ext i
    simp only [Prod.smul_fst, Prod.smul_snd, PiLp.smul_apply, smul_eq_mul, RingHom.id_apply, mul_add, Finset.mul_sum]
    congr 1
    exact Finset.sum_congr rfl fun j _ => by ring

/-- A vector of an intercept and coefficients as a model. -/
def toModel (z : ℝ × EuclideanSpace ℝ (Fin p)) : LinModel p := ⟨z.1, fun j => z.2 j⟩

theorem ssr_predMap (D : List ((Fin p → ℝ) × ℝ)) (z : ℝ × EuclideanSpace ℝ (Fin p)) :
    ssr D (toModel z) = ‖WithLp.toLp 2 (fun i => (D.get i).2) - predMap D z‖ ^ 2 := by
  rw [EuclideanSpace.norm_sq_eq]
  unfold ssr
  rw [← Fin.sum_univ_fun_getElem]
  refine Finset.sum_congr rfl fun i _ => ?_
  rw [Real.norm_eq_abs, sq_abs]
  rfl

/-- A shortest least-squares fit exists. -/
theorem exists_leastSquares (D : List ((Fin p → ℝ) × ℝ)) : ∃ a : LinModel p, (∀ m, ssr D a ≤ ssr D m) ∧
    ∀ m, ssr D m = ssr D a → ∑ j, a.coef j ^ 2 ≤ ∑ j, m.coef j ^ 2 := by
  set A := predMap D
  set y : EuclideanSpace ℝ (Fin D.length) := WithLp.toLp 2 fun i => (D.get i).2
  set U := LinearMap.range A
  obtain ⟨z0, hz0⟩ : ∃ z0, A z0 = (U.starProjection y) := LinearMap.mem_range.1 (U.starProjection_apply_mem y)
  set K := (LinearMap.ker A).map (LinearMap.snd ℝ ℝ (EuclideanSpace ℝ (Fin p)))
  obtain ⟨k, hk, hk2⟩ : ∃ k ∈ LinearMap.ker A, k.2 = K.starProjection z0.2 := by
    have := K.starProjection_apply_mem z0.2
    obtain ⟨k, hk, hk2⟩ := Submodule.mem_map.1 this
    exact ⟨k, hk, hk2⟩
  have hmodel : ∀ m : LinModel p, m = toModel (m.intercept, WithLp.toLp 2 m.coef) := fun m => rfl
  have hA1 : A (z0 - k) = U.starProjection y := by
    rw [map_sub, LinearMap.mem_ker.1 hk, sub_zero, hz0]
  have hpyth : ∀ z, ‖y - A z‖ ^ 2 = ‖y - A (z0 - k)‖ ^ 2 + ‖A (z0 - k) - A z‖ ^ 2 := by
    intro z
    have horth : inner ℝ (y - A (z0 - k)) (A (z0 - k) - A z) = 0 := by
      rw [hA1]
      refine Submodule.starProjection_inner_eq_zero (K := U) y _ ?_
      exact U.sub_mem (U.starProjection_apply_mem y) (LinearMap.mem_range_self A z)
    have := norm_add_sq_real (y - A (z0 - k)) (A (z0 - k) - A z)
    rw [horth] at this
    have h2 : y - A (z0 - k) + (A (z0 - k) - A z) = y - A z := by abel
    rw [h2] at this
    linarith
  refine ⟨toModel (z0 - k), ?_, ?_⟩
  · intro m
    rw [hmodel m, ssr_predMap, ssr_predMap, hpyth (m.intercept, WithLp.toLp 2 m.coef)]
    exact le_add_of_nonneg_right (by positivity)
  · intro m hm
    set z : ℝ × EuclideanSpace ℝ (Fin p) := (m.intercept, WithLp.toLp 2 m.coef)
    rw [hmodel m, ssr_predMap, ssr_predMap, hpyth z] at hm
    have h0 : ‖A (z0 - k) - A z‖ = 0 := by
      have : ‖A (z0 - k) - A z‖ ^ 2 = 0 := by linarith
      simpa using this
    have hker : z - (z0 - k) ∈ LinearMap.ker A := by
      rw [LinearMap.mem_ker, map_sub, ← neg_sub, norm_eq_zero.1 h0, neg_zero]
    have hK : z.2 - (z0 - k).2 ∈ K := Submodule.mem_map.2 ⟨_, hker, rfl⟩
    have horth : inner ℝ (z0 - k).2 (z.2 - (z0 - k).2) = 0 := by
      have : (z0 - k).2 = z0.2 - K.starProjection z0.2 := by rw [← hk2]; rfl
      rw [this] at hK ⊢
      exact Submodule.starProjection_inner_eq_zero (K := K) _ _ hK
    have hn := norm_add_sq_real (z0 - k).2 (z.2 - (z0 - k).2)
    rw [horth] at hn
    have h2 : (z0 - k).2 + (z.2 - (z0 - k).2) = z.2 := by abel
    rw [h2] at hn
    have hle : ‖(z0 - k).2‖ ^ 2 ≤ ‖z.2‖ ^ 2 := by nlinarith [sq_nonneg ‖z.2 - (z0 - k).2‖]
    rw [EuclideanSpace.norm_sq_eq, EuclideanSpace.norm_sq_eq] at hle
    simpa [toModel, z, sq_abs] using hle

/-- The contract of `LinearRegression` can be met. -/
noncomputable def linRegExists (p : ℕ) : LinReg p where
  fit D := (exists_leastSquares D).choose
  isMin D _ := (exists_leastSquares D).choose_spec.1
  minNorm D _ := (exists_leastSquares D).choose_spec.2

end
end Robpy
