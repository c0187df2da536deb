import Verif.Model.SReg
import Mathlib.Analysis.InnerProductSpace.Projection.Minimal
import Mathlib.Analysis.InnerProductSpace.PiL2

/-! Weighted least squares: a shortest solution exists and is unique. -/

namespace Robpy
variable {k : ℕ}

theorem dotRow_add (x a b : Fin k → ℝ) : dotRow x (a + b) = dotRow x a + dotRow x b := by
  unfold dotRow
  rw [← Finset.sum_add_distrib]
  exact Finset.sum_congr rfl fun j _ => by rw [Pi.add_apply]; ring

theorem dotRow_smul (x a : Fin k → ℝ) (t : ℝ) : dotRow x (t • a) = t * dotRow x a := by
  unfold dotRow
  rw [Finset.mul_sum]
  exact Finset.sum_congr rfl fun j _ => by rw [Pi.smul_apply, smul_eq_mul]; ring

theorem dotRow_zero (x : Fin k → ℝ) : dotRow x 0 = 0 := by simp [dotRow]

/-- Weighted predictions as a linear map. -/
noncomputable def wlsMap (D : List ((Fin k → ℝ) × ℝ × ℝ)) : EuclideanSpace ℝ (Fin k) →ₗ[ℝ] EuclideanSpace ℝ (Fin D.length) where
  toFun z := WithLp.toLp 2 fun i => Real.sqrt (D.get i).2.2 * dotRow (D.get i).1 z
  map_add' z w := by
    ext i
    simp only [PiLp.add_apply]
    rw [← mul_add, ← dotRow_add]
    rfl
  map_smul' c z := by
    ext i
    simp only [PiLp.smul_apply, smul_eq_mul, RingHom.id_apply]
    have h : dotRow (D.get i).1 (c • z).ofLp = c * dotRow (D.get i).1 z.ofLp := dotRow_smul _ _ c
    rw [h]
    ring

theorem wssr_wlsMap (D : List ((Fin k → ℝ) × ℝ × ℝ)) (hw : ∀ d ∈ D, 0 ≤ d.2.2) (z : EuclideanSpace ℝ (Fin k)) :
    wssr D (fun j => z j) = ‖WithLp.toLp 2 (fun i => Real.sqrt (D.get i).2.2 * (D.get i).2.1) - wlsMap D z‖ ^ 2 := by
  rw [EuclideanSpace.norm_sq_eq]
  unfold wssr
  rw [← Fin.sum_univ_fun_getElem]
  refine Finset.sum_congr rfl fun i _ => ?_
  rw [Real.norm_eq_abs, sq_abs]
  have h0 : 0 ≤ (D[i]).2.2 := hw _ (List.getElem_mem i.2)
  change (D[i]).2.2 * ((D[i]).2.1 - dotRow (D[i]).1 fun j => z j) ^ 2 =
    (Real.sqrt (D[i]).2.2 * (D[i]).2.1 - Real.sqrt (D[i]).2.2 * dotRow (D[i]).1 fun j => z j) ^ 2
  rw [← mul_sub, mul_pow, Real.sq_sqrt h0]

theorem exists_wls (D : List ((Fin k → ℝ) × ℝ × ℝ)) (hw : ∀ d ∈ D, 0 ≤ d.2.2) : ∃ a : Fin k → ℝ, (∀ b, wssr D a ≤ wssr D b) ∧
    ∀ b, wssr D b = wssr D a → ∑ j, a j ^ 2 ≤ ∑ j, b j ^ 2 := by
  set A := wlsMap D
  set y : EuclideanSpace ℝ (Fin D.length) := WithLp.toLp 2 fun i => Real.sqrt (D.get i).2.2 * (D.get i).2.1
  set U := LinearMap.range A
  obtain ⟨z0, hz0⟩ : ∃ z0, A z0 = (U.starProjection y) := LinearMap.mem_range.1 (U.starProjection_apply_mem y)
  set K := LinearMap.ker A
  set z1 := z0 - K.starProjection z0
  have hk := K.starProjection_apply_mem z0
  have hA1 : A z1 = U.starProjection y := by
    rw [map_sub, LinearMap.mem_ker.1 hk, sub_zero, hz0]
  have hpyth : ∀ z, ‖y - A z‖ ^ 2 = ‖y - A z1‖ ^ 2 + ‖A z1 - A z‖ ^ 2 := by
    intro z
    have horth : inner ℝ (y - A z1) (A z1 - A z) = 0 := by
      rw [hA1]
      refine Submodule.starProjection_inner_eq_zero (K := U) y _ ?_
      exact U.sub_mem (U.starProjection_apply_mem y) (LinearMap.mem_range_self A z)
    have := norm_add_sq_real (y - A z1) (A z1 - A z)
    rw [horth] at this
    have h2 : y - A z1 + (A z1 - A z) = y - A z := by abel
    rw [h2] at this
    linarith
  have hb' : ∀ b : Fin k → ℝ, wssr D b = ‖y - A (WithLp.toLp 2 b)‖ ^ 2 := fun b => wssr_wlsMap D hw (WithLp.toLp 2 b)
  have ha' : wssr D (fun j => z1 j) = ‖y - A z1‖ ^ 2 := wssr_wlsMap D hw z1
  refine ⟨fun j => z1 j, ?_, ?_⟩
  · intro b
    rw [ha', hb', hpyth (WithLp.toLp 2 b)]
    exact le_add_of_nonneg_right (by positivity)
  · intro b hb
    set z : EuclideanSpace ℝ (Fin k) := WithLp.toLp 2 b
    rw [ha', hb', hpyth z] at hb
    have h0 : ‖A z1 - A z‖ = 0 := by
      have : ‖A z1 - A z‖ ^ 2 = 0 := by linarith
      simpa using this
    have hker : z - z1 ∈ K := by
      rw [LinearMap.mem_ker, map_sub, ← neg_sub, norm_eq_zero.1 h0, neg_zero]
    have horth : inner ℝ z1 (z - z1) = 0 := Submodule.starProjection_inner_eq_zero (K := K) _ _ hker
    have hn := norm_add_sq_real z1 (z - z1)
    rw [horth] at hn
    have h2 : z1 + (z - z1) = z := by abel
    rw [h2] at hn
    have hle : ‖z1‖ ^ 2 ≤ ‖z‖ ^ 2 := by nlinarith [sq_nonneg ‖z - z1‖]
    rw [EuclideanSpace.norm_sq_eq, EuclideanSpace.norm_sq_eq] at hle
    simpa [z, sq_abs] using hle

/-- The contract of `WLS` can be met. -/
noncomputable def wlsExists : WLSReg where
  fit {k} D := open Classical in if hw : ∀ d ∈ D, 0 ≤ d.2.2 then (exists_wls (k := k) D hw).choose else 0
  isMin {k} D hw := by rw [dif_pos hw]; exact (exists_wls (k := k) D hw).choose_spec.1
  minNorm {k} D hw := by rw [dif_pos hw]; exact (exists_wls (k := k) D hw).choose_spec.2

theorem wssr_mid (D : List ((Fin k → ℝ) × ℝ × ℝ)) (a b : Fin k → ℝ) :
    wssr D (fun j => (a j + b j) / 2) = (wssr D a + wssr D b) / 2 - (D.map fun d => d.2.2 * (dotRow d.1 a - dotRow d.1 b) ^ 2).sum / 4 := by
  have hdot : ∀ x : Fin k → ℝ, dotRow x (fun j => (a j + b j) / 2) = (dotRow x a + dotRow x b) / 2 := by
    intro x
    unfold dotRow
    rw [← Finset.sum_add_distrib, Finset.sum_div]
    exact Finset.sum_congr rfl fun j _ => by ring
  unfold wssr
  induction D with
  | nil => simp
  | cons d D ih =>
    simp only [List.map_cons, List.sum_cons]
    rw [ih, hdot]
    ring

/-- Two minimisers agree on all rows of positive weight. -/
theorem wls_predict_eq {D : List ((Fin k → ℝ) × ℝ × ℝ)} (hw : ∀ d ∈ D, 0 ≤ d.2.2) {a b : Fin k → ℝ} (ha : ∀ m, wssr D a ≤ wssr D m)
    (hb : ∀ m, wssr D b ≤ wssr D m) : ∀ d ∈ D, d.2.2 = 0 ∨ dotRow d.1 a = dotRow d.1 b := by
  have h1 := wssr_mid D a b
  have h2 := ha (fun j => (a j + b j) / 2)
  have h3 := le_antisymm (ha b) (hb a)
  have hnn : ∀ x ∈ D.map fun d => d.2.2 * (dotRow d.1 a - dotRow d.1 b) ^ 2, (0 : ℝ) ≤ x := by
    intro x hx
    obtain ⟨d, hd, rfl⟩ := List.mem_map.1 hx
    exact mul_nonneg (hw d hd) (sq_nonneg _)
  have h4 : (D.map fun d => d.2.2 * (dotRow d.1 a - dotRow d.1 b) ^ 2).sum ≤ 0 := by linarith
  intro d hd
  have h5 := List.single_le_sum hnn _ (List.mem_map.2 ⟨d, hd, rfl⟩)
  have h6 := hnn _ (List.mem_map.2 ⟨d, hd, rfl⟩)
  rcases mul_eq_zero.1 (le_antisymm (h5.trans h4) h6) with h | h
  · exact Or.inl h
  · right
    have : dotRow d.1 a - dotRow d.1 b = 0 := by simpa using h
    linarith

/-- The fitted coefficients are the only shortest minimiser. -/
theorem WLSReg.fit_unique (W : WLSReg) {D : List ((Fin k → ℝ) × ℝ × ℝ)} (hw : ∀ d ∈ D, 0 ≤ d.2.2) {a : Fin k → ℝ}
    (ha : ∀ m, wssr D a ≤ wssr D m) (ha2 : ∀ m, wssr D m = wssr D a → ∑ j, a j ^ 2 ≤ ∑ j, m j ^ 2) : W.fit D = a := by
  have hb := W.isMin D hw
  have hb2 := W.minNorm D hw
  set b := W.fit D
  have hab : wssr D a = wssr D b := le_antisymm (ha b) (hb a)
  have hpred := wls_predict_eq hw ha hb
  have hmid : wssr D (fun j => (a j + b j) / 2) = wssr D a := by
    rw [wssr_mid, hab]
    have : (D.map fun d => d.2.2 * (dotRow d.1 a - dotRow d.1 b) ^ 2).sum = 0 := by
      refine List.sum_eq_zero fun x hx => ?_
      obtain ⟨d, hd, rfl⟩ := List.mem_map.1 hx
      rcases hpred d hd with h | h
      · rw [h, zero_mul]
      · rw [h]; ring
    rw [this]; ring
  have h1 := ha2 _ hmid
  have h2 := ha2 b hab.symm
  have h3 := hb2 a hab
  have h4 : ∑ j, ((a j + b j) / 2) ^ 2 = (∑ j, a j ^ 2 + ∑ j, b j ^ 2) / 2 - (∑ j, (a j - b j) ^ 2) / 4 := by
    rw [← Finset.sum_add_distrib, Finset.sum_div, Finset.sum_div, ← Finset.sum_sub_distrib]
    exact Finset.sum_congr rfl fun j _ => by ring
  have h5 : ∑ j, (a j - b j) ^ 2 = 0 := le_antisymm (by linarith) (Finset.sum_nonneg fun j _ => sq_nonneg _)
  funext j
  have := (Finset.sum_eq_zero_iff_of_nonneg fun j _ => sq_nonneg _).1 h5 j (Finset.mem_univ j)
  have h6 : a j - b j = 0 := by simpa using this
  change b j = a j
  linarith

/-- If no row has weight the coefficients are 0. -/
theorem WLSReg.fit_zero (W : WLSReg) {D : List ((Fin k → ℝ) × ℝ × ℝ)} (hw : ∀ d ∈ D, d.2.2 = 0) : W.fit D = 0 := by
  have h0 : ∀ m, wssr D m = 0 := by
    intro m
    refine List.sum_eq_zero fun x hx => ?_
    obtain ⟨d, hd, rfl⟩ := List.mem_map.1 hx
    rw [hw d hd, zero_mul]
  refine W.fit_unique (fun d hd => (hw d hd).ge) (fun m => by rw [h0, h0]) fun m _ => ?_
  simp only [Pi.zero_apply]
  have : ∑ _j : Fin k, (0 : ℝ) ^ 2 = 0 := by simp
  rw [this]
  exact Finset.sum_nonneg fun j _ => sq_nonneg _

/-- The normal equations: the weighted residuals are orthogonal to every column. -/
theorem wls_normal {D : List ((Fin k → ℝ) × ℝ × ℝ)} {a : Fin k → ℝ} (ha : ∀ m, wssr D a ≤ wssr D m) (v : Fin k → ℝ) :
    (D.map fun d => d.2.2 * (d.2.1 - dotRow d.1 a) * dotRow d.1 v).sum = 0 := by
  set S := (D.map fun d => d.2.2 * (d.2.1 - dotRow d.1 a) * dotRow d.1 v).sum with hS
  set Q := (D.map fun d => d.2.2 * dotRow d.1 v ^ 2).sum with hQ
  have hexp : ∀ t : ℝ, wssr D (a + t • v) = wssr D a - 2 * t * S + t ^ 2 * Q := by
    intro t
    rw [hS, hQ]
    unfold wssr
    clear hS hQ S Q ha
    induction D with
    | nil => simp
    | cons d D ih =>
      simp only [List.map_cons, List.sum_cons]
      rw [ih, dotRow_add, dotRow_smul]
      ring
  by_contra hne
  have h : ∀ t : ℝ, 0 ≤ - 2 * t * S + t ^ 2 * Q := by
    intro t
    have := ha (a + t • v)
    rw [hexp] at this
    linarith
  have hq : 0 < 1 + |Q| := by positivity
  have h1 := h (S / (1 + |Q|))
  have hQle : Q ≤ |Q| := le_abs_self Q
  have h2 : -2 * (S / (1 + |Q|)) * S + (S / (1 + |Q|)) ^ 2 * Q = (S ^ 2 / (1 + |Q|) ^ 2) * (Q - 2 * (1 + |Q|)) := by
    field_simp
    ring
  rw [h2] at h1
  have h3 : 0 < S ^ 2 / (1 + |Q|) ^ 2 := by positivity
  nlinarith [abs_nonneg Q]

end Robpy
