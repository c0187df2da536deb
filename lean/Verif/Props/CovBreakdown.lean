import Verif.Props.OGKBreakdown
import Verif.Props.RowOrder

/-! C170: KendallTau and WrappingCovariance under contamination. -/

namespace Robpy
open Matrix

section
variable {p : ℕ}

/-! ### Kendall -/

/-- The sum over all ordered pairs of rows of the squared combination of the signs of their differences. -/
noncomputable def signForm (X : List (Fin p → ℝ)) (u : Fin p → ℝ) : ℝ :=
  (X.map fun x => (X.map fun y => (∑ i, u i * Real.sign (x i - y i)) ^ 2).sum).sum

theorem signForm_perm {X Y : List (Fin p → ℝ)} (h : X.Perm Y) (u : Fin p → ℝ) : signForm X u = signForm Y u := by
  unfold signForm
  rw [(h.map _).sum_eq]
  congr 1
  exact List.map_congr_left fun x _ => (h.map _).sum_eq

theorem signForm_append (O G : List (Fin p → ℝ)) (u : Fin p → ℝ) : signForm G u ≤ signForm (O ++ G) u := by
  unfold signForm
  have hnn : ∀ (x : Fin p → ℝ) (l : List (Fin p → ℝ)), 0 ≤ (l.map fun y => (∑ i, u i * Real.sign (x i - y i)) ^ 2).sum := by
    intro x l
    refine List.sum_nonneg ?_
    intro z hz
    obtain ⟨y, -, rfl⟩ := List.mem_map.1 hz
    exact sq_nonneg _
  rw [List.map_append, List.sum_append]
  have h1 : 0 ≤ (O.map fun x => ((O ++ G).map fun y => (∑ i, u i * Real.sign (x i - y i)) ^ 2).sum).sum := by
    refine List.sum_nonneg ?_
    intro z hz
    obtain ⟨x, -, rfl⟩ := List.mem_map.1 hz
    exact hnn x _
  have h2 : (G.map fun x => (G.map fun y => (∑ i, u i * Real.sign (x i - y i)) ^ 2).sum).sum ≤
      (G.map fun x => ((O ++ G).map fun y => (∑ i, u i * Real.sign (x i - y i)) ^ 2).sum).sum := by
    refine List.sum_le_sum fun x _ => ?_
    rw [List.map_append, List.sum_append]
    linarith [hnn x O]
  linarith

theorem signForm_eq (X : List (Fin p → ℝ)) (u : Fin p → ℝ) :
    signForm X u = ∑ i, ∑ j, u i * u j * Spec.signSum X i j := by
  have hsq : ∀ a : Fin p → ℝ, (∑ i, u i * a i) ^ 2 = ∑ i, ∑ j, u i * u j * (a i * a j) := by
    intro a
    rw [pow_two, Finset.sum_mul]
    refine Finset.sum_congr rfl fun i _ => ?_
    rw [Finset.mul_sum]
    exact Finset.sum_congr rfl fun j _ => by ring
  have hswap : ∀ (l : List (Fin p → ℝ)) (f : (Fin p → ℝ) → Fin p → Fin p → ℝ),
      (l.map fun y => ∑ i, ∑ j, u i * u j * f y i j).sum = ∑ i, ∑ j, u i * u j * (l.map fun y => f y i j).sum := by
    intro l f
    induction l with
    | nil => simp
    | cons y l ih => simp only [List.map_cons, List.sum_cons, ih, mul_add, Finset.sum_add_distrib]
  unfold signForm Spec.signSum
  rw [← hswap]
  congr 1
  refine List.map_congr_left fun x _ => ?_
  rw [← hswap]
  congr 1
  exact List.map_congr_left fun y _ => hsq _

theorem signSum_diag_le (X : List (Fin p → ℝ)) (i : Fin p) : Spec.signSum X i i ≤ (X.length : ℝ) ^ 2 := by
  unfold Spec.signSum
  have h1 : ∀ x : Fin p → ℝ, (X.map fun y => Real.sign (x i - y i) * Real.sign (x i - y i)).sum ≤ X.length := by
    intro x
    have := List.sum_le_card_nsmul (X.map fun y => Real.sign (x i - y i) * Real.sign (x i - y i)) 1 (by
      intro z hz
      obtain ⟨y, -, rfl⟩ := List.mem_map.1 hz
      rcases Real.sign_apply_eq (x i - y i) with h | h | h <;> rw [h] <;> norm_num)
    simpa using this
  have := List.sum_le_card_nsmul (X.map fun x => (X.map fun y => Real.sign (x i - y i) * Real.sign (x i - y i)).sum)
    (X.length : ℝ) (by
      intro z hz
      obtain ⟨x, -, rfl⟩ := List.mem_map.1 hz
      exact h1 x)
  rw [List.length_map, nsmul_eq_mul] at this
  rw [pow_two]
  exact this

/-- **C170** for `KendallTau` with any scale: bounded scales give a bounded matrix, from below as well when the signs
of the good rows are not degenerate. -/
theorem C170_kendall_scales (G : List (Fin p → ℝ)) {lam s S : ℝ} (hlam : 0 < lam) (hs : 0 < s)
    (hG : ∀ v : Fin p → ℝ, lam * (v ⬝ᵥ v) ≤ ∑ i, ∑ j, v i * v j * Spec.signSum G i j)
    (scale : List ℝ → Except PyErr ℝ) (X O : List (Fin p → ℝ)) (st : CovState ℝ (Fin p)) (hX : X.Perm (O ++ G))
    (hsc : ∀ j, ∃ v, scale (X.map fun x => x j) = .ok v ∧ s ≤ v ∧ v ≤ S) :
    ∃ cov st', kendallCalc scale X st = (.ok (some cov), st') ∧ cov.IsSymm ∧
      ∀ v : Fin p → ℝ, s ^ 2 * lam / (X.length : ℝ) ^ 2 * (v ⬝ᵥ v) ≤ v ⬝ᵥ (cov *ᵥ v) ∧
        v ⬝ᵥ (cov *ᵥ v) ≤ p * S ^ 2 * (v ⬝ᵥ v) := by
  -- no column is constant
  have hdiag : ∀ i, lam ≤ Spec.signSum G i i := by
    intro i
    have := hG (Pi.single i 1)
    have e : ∑ a, ∑ b, (Pi.single i 1 : Fin p → ℝ) a * (Pi.single i 1 : Fin p → ℝ) b * Spec.signSum G a b =
        Spec.signSum G i i := by
      rw [Finset.sum_eq_single i, Finset.sum_eq_single i]
      · simp
      · intro b _ hb; simp [hb]
      · simp
      · intro a _ ha; simp [ha]
      · simp
    rw [e] at this
    simpa using this
  have hdX : ∀ i, lam ≤ Spec.signSum X i i := by
    intro i
    have e : ∀ Y : List (Fin p → ℝ), signForm Y (Pi.single i 1) = Spec.signSum Y i i := by
      intro Y
      unfold signForm Spec.signSum
      congr 1
      refine List.map_congr_left fun x _ => ?_
      congr 1
      refine List.map_congr_left fun y _ => ?_
      rw [Finset.sum_eq_single i]
      · simp [pow_two]
      · intro b _ hb; simp [hb]
      · simp
    have h1 := signForm_append O G (Pi.single i 1)
    rw [← signForm_perm hX, e, e] at h1
    exact (hdiag i).trans h1
  obtain ⟨cov, st', hk⟩ := C41_returns scale X st (fun i => by
    obtain ⟨v, hv, -⟩ := hsc i
    exact ⟨v, hv⟩) (by
    intro i
    by_contra hcon
    push Not at hcon
    have h0 : Spec.signSum X i i = 0 := by
      unfold Spec.signSum
      refine List.sum_eq_zero ?_
      intro z hz
      obtain ⟨x, hx, rfl⟩ := List.mem_map.1 hz
      refine List.sum_eq_zero ?_
      intro w hw
      obtain ⟨y, hy, rfl⟩ := List.mem_map.1 hw
      rw [hcon x hx y hy, sub_self, Real.sign_zero, mul_zero]
    have := hdX i
    linarith)
  obtain ⟨hsym, -, sc, R, h1, -, -, h4, h5, h6, -, h8⟩ := C41_kendall scale X st st' cov hk
  have hsb : ∀ i, s ≤ sc i ∧ sc i ≤ S := by
    intro i
    obtain ⟨v, hv, h⟩ := hsc i
    rw [h1 i] at hv
    rw [Except.ok.inj hv]
    exact h
  refine ⟨cov, st', hk, hsym, fun v => ?_⟩
  have hform : v ⬝ᵥ (cov *ᵥ v) = ∑ i, ∑ j, (sc i * v i) * (sc j * v j) * R i j := by
    simp only [dotProduct, Matrix.mulVec, h8]
    refine Finset.sum_congr rfl fun i _ => ?_
    rw [Finset.mul_sum]
    exact Finset.sum_congr rfl fun j _ => by ring
  constructor
  · -- the form is a form of the signs
    have hpos : ∀ i, 0 < Spec.signSum X i i := fun i => lt_of_lt_of_le hlam (hdX i)
    set u : Fin p → ℝ := fun i => sc i * v i / Real.sqrt (Spec.signSum X i i) with hu
    have hR : ∀ i j, R i j = Spec.signSum X i j / (Real.sqrt (Spec.signSum X i i) * Real.sqrt (Spec.signSum X j j)) := by
      intro i j
      by_cases hij : i = j
      · subst hij
        rw [h4, Real.mul_self_sqrt (hpos i).le, div_self (hpos i).ne']
      · rw [h6 i j hij]
        unfold Spec.tauB
        rw [Real.sqrt_mul (hpos i).le]
    have e : v ⬝ᵥ (cov *ᵥ v) = signForm X u := by
      rw [hform, signForm_eq]
      refine Finset.sum_congr rfl fun i _ => Finset.sum_congr rfl fun j _ => ?_
      rw [hR i j, hu]
      simp only
      rw [div_mul_div_comm, div_mul_eq_mul_div, mul_div_assoc]
    have h9 := signForm_append O G u
    rw [← signForm_perm hX, signForm_eq G] at h9
    rw [e]
    refine le_trans ?_ ((hG u).trans h9)
    have h10 : s ^ 2 / (X.length : ℝ) ^ 2 * (v ⬝ᵥ v) ≤ u ⬝ᵥ u := by
      simp only [dotProduct, Finset.mul_sum]
      refine Finset.sum_le_sum fun i _ => ?_
      have hq : u i * u i = sc i ^ 2 * (v i * v i) / Spec.signSum X i i := by
        rw [hu]
        simp only
        rw [div_mul_div_comm, Real.mul_self_sqrt (hpos i).le]
        congr 1; ring
      have hle := signSum_diag_le X i
      have hl2 : 0 < (X.length : ℝ) ^ 2 := lt_of_lt_of_le (hpos i) hle
      rw [hq, div_mul_eq_mul_div, div_le_div_iff₀ hl2 (hpos i)]
      have e1 : s ^ 2 ≤ sc i ^ 2 := pow_le_pow_left₀ hs.le (hsb i).1 2
      have e2 : 0 ≤ v i * v i := mul_self_nonneg _
      exact mul_le_mul (mul_le_mul_of_nonneg_right e1 e2) hle (hpos i).le (mul_nonneg (sq_nonneg _) e2)
    calc s ^ 2 * lam / (X.length : ℝ) ^ 2 * (v ⬝ᵥ v) = lam * (s ^ 2 / (X.length : ℝ) ^ 2 * (v ⬝ᵥ v)) := by ring
      _ ≤ lam * (u ⬝ᵥ u) := mul_le_mul_of_nonneg_left h10 hlam.le
  · rw [hform]
    have e1 : ∑ i, ∑ j, (sc i * v i) * (sc j * v j) * R i j ≤ (∑ i, |sc i * v i|) ^ 2 := by
      rw [pow_two, Finset.sum_mul]
      refine Finset.sum_le_sum fun i _ => ?_
      rw [Finset.mul_sum]
      refine Finset.sum_le_sum fun j _ => ?_
      refine (le_abs_self _).trans ?_
      rw [abs_mul, abs_mul]
      exact mul_le_of_le_one_right (mul_nonneg (abs_nonneg _) (abs_nonneg _)) (abs_le.2 (h5 i j))
    have e2 : (∑ i, |sc i * v i|) ^ 2 ≤ p * ∑ i, |sc i * v i| ^ 2 := by
      have := sq_sum_le_card_mul_sum_sq (s := (Finset.univ : Finset (Fin p))) (f := fun i => |sc i * v i|)
      simpa using this
    have e3 : ∑ i, |sc i * v i| ^ 2 ≤ S ^ 2 * (v ⬝ᵥ v) := by
      simp only [dotProduct, Finset.mul_sum]
      refine Finset.sum_le_sum fun i _ => ?_
      rw [sq_abs, mul_pow]
      have := pow_le_pow_left₀ (hs.le.trans (hsb i).1) (hsb i).2 2
      nlinarith [mul_self_nonneg (v i)]
    calc _ ≤ _ := e1
      _ ≤ _ := e2
      _ ≤ p * (S ^ 2 * (v ⬝ᵥ v)) := mul_le_mul_of_nonneg_left e3 (Nat.cast_nonneg _)
      _ = _ := by ring

theorem dn_ge (n : ℕ) (hn : 2 ≤ n) {d : ℝ} (h : smallSampleDn (K := ℝ) n = some d) : 399 / 1000 ≤ d := by
  unfold smallSampleDn at h
  split_ifs at h with h1 h2
  · interval_cases n <;> simp only [Option.some.injEq] at h <;> rw [← h] <;> norm_num
  · have hp : (10:ℝ) ≤ n := by exact_mod_cast (by omega : 10 ≤ n)
    rw [← Option.some.inj h, le_div_iff₀ (by linarith)]
    linarith
  · have hp : (10:ℝ) ≤ n := by exact_mod_cast (by omega : 10 ≤ n)
    rw [← Option.some.inj h, le_div_iff₀ (by linarith)]
    linarith

theorem separated_of_nodup (l : List ℝ) (h : l.Nodup) : ∃ δ > 0, Spec.separated δ l := by
  induction l with
  | nil => exact ⟨1, one_pos, List.Pairwise.nil⟩
  | cons x l ih =>
    obtain ⟨hx, hl⟩ := List.nodup_cons.1 h
    obtain ⟨δ, hδ, hs⟩ := ih hl
    have : ∀ l : List ℝ, x ∉ l → ∃ ε > 0, ∀ y ∈ l, ε ≤ |x - y| := by
      intro l hxl
      induction l with
      | nil => exact ⟨1, one_pos, by simp⟩
      | cons y l ih =>
        obtain ⟨ε, hε, hy⟩ := ih fun h => hxl (List.mem_cons_of_mem _ h)
        have hxy : 0 < |x - y| := abs_pos.2 (sub_ne_zero.2 fun e => hxl (by rw [e]; exact List.mem_cons_self))
        refine ⟨min ε |x - y|, lt_min hε hxy, fun z hz => ?_⟩
        rcases List.mem_cons.1 hz with rfl | hz
        · exact min_le_right _ _
        · exact (min_le_left _ _).trans (hy z hz)
    obtain ⟨ε, hε, hy⟩ := this l hx
    refine ⟨min δ ε, lt_min hδ hε, List.pairwise_cons.2 ⟨fun y hyl => (min_le_right _ _).trans (hy y hyl), ?_⟩⟩
    exact hs.imp fun h => (min_le_left _ _).trans h

/-- `Qn().fit(col).scale`, the default of `KendallTau` (see `C164_defaults`). -/
noncomputable def Spec.qnOf (fc cc : Bool) : List ℝ → Except PyErr ℝ := fun l =>
  match qnScale fc cc (l.length * l.length + 1) l with | some r => r | none => .error .valueError

/-- Bounds of Qn for contaminated columns which do not depend on the outliers. -/
theorem qnOf_bounded (fc cc : Bool) (G : List ℝ) (hG : G.Nodup) :
    ∃ s S : ℝ, 0 < s ∧ ∀ X O : List ℝ, X.Perm (O ++ G) → O.length + 1 ≤ X.length / 2 →
      ∃ v, Spec.qnOf fc cc X = .ok v ∧ s ≤ v ∧ v ≤ S := by
  obtain ⟨δ, hδ, hsep⟩ := separated_of_nodup G hG
  set B := (G.map fun x => |x|).sum with hB
  have hb : ∀ x ∈ G, |x| ≤ B := fun x hx => List.single_le_sum (by
    intro z hz
    obtain ⟨y, -, rfl⟩ := List.mem_map.1 hz
    exact abs_nonneg _) _ (List.mem_map.2 ⟨x, hx, rfl⟩)
  have hB0 : 0 ≤ B := List.sum_nonneg (by
    intro z hz
    obtain ⟨y, -, rfl⟩ := List.mem_map.1 hz
    exact abs_nonneg _)
  refine ⟨399 / 1000 * (δ / 2), 2.219144 * (2 * B), by positivity, ?_⟩
  intro X O hX hO
  have hlen : X.length = O.length + G.length := by simpa using hX.length_eq
  obtain ⟨v, d, hd, hd0, hv, hle⟩ := C162_qn_corrected fc cc X O G hX hO δ hδ.le hsep (X.length * X.length + 1) (Nat.lt_succ_self _)
  have hdg := dn_ge X.length (by omega) hd
  obtain ⟨d', hd', -, hd1⟩ := C01_dn_range (K := ℝ) X.length (by omega)
  rw [hd] at hd'
  obtain rfl := Option.some.inj hd'
  refine ⟨v, by unfold Spec.qnOf; rw [hv], ?_, ?_⟩
  · refine le_trans ?_ hle
    have h1 : (399 / 1000 : ℝ) ≤ if fc then d else 1 := by split_ifs <;> [exact hdg; norm_num]
    have h2 : (1 : ℝ) ≤ if cc then 2.219144 else 1 := by split_ifs <;> norm_num
    have h3 := mul_le_mul_of_nonneg_right h1 (by positivity : 0 ≤ δ / 2)
    have h4 : 0 ≤ 399 / 1000 * (δ / 2) := by positivity
    nlinarith
  · obtain ⟨w, hw, hw0, hwL⟩ := C10_no_explosion X (by omega) (-B) (2 * B) (by
      rw [hX.countP_eq, List.countP_append]
      have : G.countP (fun x => decide (-B ≤ x ∧ x ≤ -B + 2 * B)) = G.length := by
        refine List.countP_eq_length.2 fun x hx => ?_
        have := abs_le.1 (hb x hx)
        rw [decide_eq_true_eq]
        constructor <;> linarith
      omega) (X.length * X.length + 1) (Nat.lt_succ_self _)
    obtain ⟨v1, d1, hk1, hd1', he1⟩ := C01_qn_corrected fc cc X (by omega) (X.length * X.length + 1) (Nat.lt_succ_self _)
    obtain ⟨v2, d2, hk2, -, he2⟩ := C01_qn_corrected false false X (by omega) (X.length * X.length + 1) (Nat.lt_succ_self _)
    obtain rfl := isKth_unique hk1 hk2
    rw [hd] at hd1'
    obtain rfl := Option.some.inj hd1'
    rw [hw] at he2
    have e2 := Except.ok.inj (Option.some.inj he2)
    simp only [Bool.false_eq_true, if_false, one_mul] at e2
    subst e2
    rw [hv] at he1
    rw [Except.ok.inj (Option.some.inj he1)]
    have h1 : (if fc then d else 1) ≤ 1 := by split_ifs <;> [exact hd1.le; exact le_refl _]
    have h1' : 0 ≤ (if fc then d else 1) := by split_ifs <;> [exact hd0.le; norm_num]
    have h2 : (if cc then (2.219144:ℝ) else 1) ≤ 2.219144 := by split_ifs <;> norm_num
    have h3 : (if fc then d else 1) * w ≤ 2 * B := by nlinarith
    refine mul_le_mul h2 h3 (mul_nonneg h1' hw0) (by norm_num)

/-- **C170** for `KendallTau` with its default scale. -/
theorem C170_kendall (G : List (Fin p → ℝ)) (hnd : ∀ j, (G.map fun x => x j).Nodup) {lam : ℝ} (hlam : 0 < lam)
    (hG : ∀ v : Fin p → ℝ, lam * (v ⬝ᵥ v) ≤ ∑ i, ∑ j, v i * v j * Spec.signSum G i j) (fc cc : Bool) :
    ∃ c C : ℝ, 0 < c ∧ ∀ (X O : List (Fin p → ℝ)) (st : CovState ℝ (Fin p)), X.Perm (O ++ G) → O.length + 1 ≤ X.length / 2 →
      ∃ cov st', kendallCalc (Spec.qnOf fc cc) X st = (.ok (some cov), st') ∧ cov.IsSymm ∧
        ∀ v : Fin p → ℝ, c * (v ⬝ᵥ v) ≤ v ⬝ᵥ (cov *ᵥ v) ∧ v ⬝ᵥ (cov *ᵥ v) ≤ C * (v ⬝ᵥ v) := by
  choose s S hs h using fun j => qnOf_bounded fc cc (G.map fun x => x j) (hnd j)
  obtain ⟨s0, hs0, hs0'⟩ : ∃ s0 > 0, ∀ j, s0 ≤ s j := by
    by_cases hp : Nonempty (Fin p)
    · obtain ⟨j0, hj0⟩ := Finite.exists_min s
      exact ⟨s j0, hs j0, hj0⟩
    · exact ⟨1, one_pos, fun j => absurd ⟨j⟩ hp⟩
  obtain ⟨S0, hS0⟩ : ∃ S0, ∀ j, S j ≤ S0 := by
    by_cases hp : Nonempty (Fin p)
    · obtain ⟨j0, hj0⟩ := Finite.exists_max S
      exact ⟨S j0, hj0⟩
    · exact ⟨1, fun j => absurd ⟨j⟩ hp⟩
  by_cases hGl : G.length = 0
  · refine ⟨1, 1, one_pos, ?_⟩
    intro X O st hX hO
    have hlen : X.length = O.length + G.length := by simpa using hX.length_eq
    omega
  have hGl' : (0:ℝ) < (2 * G.length : ℕ) := by exact_mod_cast (by omega : 0 < 2 * G.length)
  refine ⟨s0 ^ 2 * lam / ((2 * G.length : ℕ) : ℝ) ^ 2, p * S0 ^ 2, by positivity, ?_⟩
  intro X O st hX hO
  have hlen : X.length = O.length + G.length := by simpa using hX.length_eq
  obtain ⟨cov, st', h1, h2, h3⟩ := C170_kendall_scales G (s := s0) (S := S0) hlam hs0 hG (Spec.qnOf fc cc) X O st hX (by
    intro j
    obtain ⟨v, hv, h1, h2⟩ := h j (X.map fun x => x j) (O.map fun x => x j) (by rw [← List.map_append]; exact hX.map _)
      (by simpa using hO)
    exact ⟨v, hv, (hs0' j).trans h1, h2.trans (hS0 j)⟩)
  refine ⟨cov, st', h1, h2, fun v => ⟨le_trans ?_ (h3 v).1, (h3 v).2⟩⟩
  refine mul_le_mul_of_nonneg_right ?_ (dot_self_nonneg v)
  have hXl : (0:ℝ) < X.length := by exact_mod_cast (by omega : 0 < X.length)
  refine div_le_div_of_nonneg_left (by positivity) (by positivity) ?_
  refine pow_le_pow_left₀ hXl.le ?_ 2
  exact_mod_cast (by omega : X.length ≤ 2 * G.length)

/-! ### Wrapping -/

/-- The quadratic form of a covariance matrix is bounded by its variances. -/
theorem npCov_form_le_diag (R : List (Fin p → ℝ)) (h2 : 2 ≤ R.length) {D : ℝ} (h : ∀ j, npCov R j j ≤ D) (v : Fin p → ℝ) :
    v ⬝ᵥ (npCov R *ᵥ v) ≤ p * D * (v ⬝ᵥ v) := by
  have hl : (0:ℝ) < (R.length : ℝ) - 1 := by
    have : (2:ℝ) ≤ R.length := by exact_mod_cast h2
    linarith
  have h1 : ∀ x : Fin p → ℝ, (x ⬝ᵥ v - meanRow R ⬝ᵥ v) ^ 2 ≤ (p : ℝ) * ∑ j, v j ^ 2 * ((x j - meanRow R j) * (x j - meanRow R j)) := by
    intro x
    have e : x ⬝ᵥ v - meanRow R ⬝ᵥ v = ∑ j, v j * (x j - meanRow R j) := by
      rw [← sub_dotProduct]
      exact Finset.sum_congr rfl fun j _ => by simp [mul_comm]
    rw [e]
    have := sq_sum_le_card_mul_sum_sq (s := (Finset.univ : Finset (Fin p))) (f := fun j => v j * (x j - meanRow R j))
    simp only [Finset.card_univ, Fintype.card_fin] at this
    refine this.trans (le_of_eq ?_)
    congr 1
    exact Finset.sum_congr rfl fun j _ => by ring
  rw [npCov_form, div_le_iff₀ hl]
  have h3 : ∀ l : List (Fin p → ℝ), (l.map fun x => (p : ℝ) * ∑ j, v j ^ 2 * ((x j - meanRow R j) * (x j - meanRow R j))).sum =
      p * ∑ j, v j ^ 2 * (l.map fun x => (x j - meanRow R j) * (x j - meanRow R j)).sum := by
    intro l
    induction l with
    | nil => simp
    | cons x l ih => simp only [List.map_cons, List.sum_cons, ih, mul_add, Finset.sum_add_distrib]
  have h4 := List.sum_le_sum (l := R) (f := fun x => (x ⬝ᵥ v - meanRow R ⬝ᵥ v) ^ 2)
    (g := fun x => (p : ℝ) * ∑ j, v j ^ 2 * ((x j - meanRow R j) * (x j - meanRow R j))) fun x _ => h1 x
  refine h4.trans ?_
  rw [h3, mul_assoc, mul_assoc]
  refine mul_le_mul_of_nonneg_left ?_ (Nat.cast_nonneg _)
  simp only [dotProduct, Finset.mul_sum, Finset.sum_mul]
  refine Finset.sum_le_sum fun j _ => ?_
  have h5 : (R.map fun x => (x j - meanRow R j) * (x j - meanRow R j)).sum ≤ D * ((R.length : ℝ) - 1) := by
    have := h j
    unfold npCov at this
    rwa [div_le_iff₀ hl] at this
  nlinarith [mul_le_mul_of_nonneg_left h5 (sq_nonneg (v j))]

/-- **C170** for `WrappingCovariance`, any location and scale estimators: scales bounded by `S` bound the matrix; the
variance of a column whose wrapped values are not all equal is not below its squared scale. -/
theorem C170_wrapping (b c q1 q2 : ℝ) (le se : List ℝ → ℝ) {S : ℝ} (X : List (Fin p → ℝ)) (st st1 : CovState ℝ (Fin p))
    (cov : Matrix (Fin p) (Fin p) ℝ) (h : wrappingCalc b c q1 q2 le se X st = (.ok (some cov), st1))
    (hse : ∀ j, 0 ≤ se (X.map fun x => x j) ∧ se (X.map fun x => x j) ≤ S) :
    (∀ v : Fin p → ℝ, 0 ≤ v ⬝ᵥ (cov *ᵥ v) ∧ v ⬝ᵥ (cov *ᵥ v) ≤ p * (2 * S ^ 2) * (v ⬝ᵥ v)) ∧
      ∀ j, var (zWrapped b c q1 q2 (le (X.map fun x => x j)) (se (X.map fun x => x j)) (X.map fun x => x j)) ≠ 0 →
        se (X.map fun x => x j) ^ 2 ≤ cov j j := by
  obtain ⟨-, hpsd, hdiag⟩ := C86_wrapping b c q1 q2 le se X st st1 cov h
  unfold wrappingCalc at h
  simp only at h
  split_ifs at h with hc
  · simp at h
  push Not at hc
  obtain ⟨h1, -⟩ := Prod.mk.inj h
  obtain rfl := Option.some.inj (Except.ok.inj h1)
  have hX2 : (2:ℝ) ≤ X.length := by exact_mod_cast hc.2
  have hfac : 1 ≤ X.length / ((X.length : ℝ) - 1) ∧ X.length / ((X.length : ℝ) - 1) ≤ 2 := by
    constructor
    · rw [le_div_iff₀ (by linarith)]; linarith
    · rw [div_le_iff₀ (by linarith)]; linarith
  set W := wrappedRows b c q1 q2 le se X with hW
  have hlen : W.length = X.length := by rw [hW]; simp [wrappedRows]
  refine ⟨fun v => ⟨by simpa using hpsd.dotProduct_mulVec_nonneg v, npCov_form_le_diag W (by rw [hlen]; exact hc.2) (fun j => ?_) v⟩, fun j hv => ?_⟩
  · by_cases hv : var (zWrapped b c q1 q2 (le (X.map fun x => x j)) (se (X.map fun x => x j)) (X.map fun x => x j)) = 0
    · -- a constant column
      have hz : ∀ w ∈ zWrapped b c q1 q2 (le (X.map fun x => x j)) (se (X.map fun x => x j)) (X.map fun x => x j),
          w = mean (zWrapped b c q1 q2 (le (X.map fun x => x j)) (se (X.map fun x => x j)) (X.map fun x => x j)) := by
        generalize zWrapped b c q1 q2 (le (X.map fun x => x j)) (se (X.map fun x => x j)) (X.map fun x => x j) = z at hv ⊢
        intro w hw
        have hz0 : (0:ℝ) < z.length := by exact_mod_cast List.length_pos_iff.2 (List.ne_nil_of_mem hw)
        unfold var at hv
        have h0 : ((z.map fun x => (x - mean z) ^ 2)).sum = 0 := by
          have : mean (z.map fun x => (x - mean z) ^ 2) = 0 := hv
          unfold mean at this
          rw [List.length_map] at this
          rcases div_eq_zero_iff.1 this with h | h
          · exact h
          · exact absurd h hz0.ne'
        have h2 : (w - mean z) ^ 2 ≤ (z.map fun x => (x - mean z) ^ 2).sum := List.single_le_sum (by
          intro t ht
          obtain ⟨y, -, rfl⟩ := List.mem_map.1 ht
          exact sq_nonneg _) _ (List.mem_map.2 ⟨w, hw, rfl⟩)
        rw [h0] at h2
        have h3 := pow_eq_zero_iff two_ne_zero |>.1 (le_antisymm h2 (sq_nonneg (w - mean z)))
        linarith
      have hconst := C27_constant b c q1 q2 _ _ _ (X.map fun x => x j) (by
        intro h0
        have : X.length = 0 := by simpa using congrArg List.length h0
        omega) hz
      have hcol : (W.map fun w => w j) = wrapColumn b c q1 q2 true (le (X.map fun x => x j)) (se (X.map fun x => x j))
        (X.map fun x => x j) := column_wrappedRows b c q1 q2 le se X j
      have hWj : ∀ w ∈ W, w j = le (X.map fun x => x j) := fun w hw =>
        hconst (w j) (by rw [← hcol]; exact List.mem_map.2 ⟨w, hw, rfl⟩)
      have hm : meanRow W j = le (X.map fun x => x j) := by
        unfold meanRow mean
        have e : (W.map fun w => w j) = List.replicate W.length (le (X.map fun x => x j)) := by
          rw [← List.map_const']
          exact List.map_congr_left hWj
        have hWl : (W.length : ℝ) ≠ 0 := by rw [hlen]; linarith
        rw [e, List.sum_replicate, List.length_replicate, nsmul_eq_mul, mul_div_assoc, mul_comm, div_mul_cancel₀ _ hWl]
      have h0 : npCov W j j = 0 := by
        unfold npCov
        rw [List.sum_eq_zero, zero_div]
        intro t ht
        obtain ⟨w, hw, rfl⟩ := List.mem_map.1 ht
        rw [hWj w hw, hm]
        ring
      rw [h0]
      positivity
    · rw [hdiag j (hse j).1 hv]
      have := pow_le_pow_left₀ (hse j).1 (hse j).2 2
      exact mul_le_mul hfac.2 this (sq_nonneg _) (by norm_num)
  · rw [hdiag j (hse j).1 hv]
    have := sq_nonneg (se (X.map fun x => x j))
    nlinarith [hfac.1]

/-- **C170** for `WrappingCovariance` with the median and a multiple of the MAD: a bound which does not depend on the
outliers. -/
theorem C170_wrapping_default (hp : p ≠ 1) (b c q1 q2 k : ℝ) (hk : 0 ≤ k) (G : List (Fin p → ℝ)) (hG2 : 2 ≤ G.length) :
    ∃ C : ℝ, ∀ (X O : List (Fin p → ℝ)) (st : CovState ℝ (Fin p)), X.Perm (O ++ G) → O.length < G.length →
      ∃ cov st1, wrappingCalc b c q1 q2 (fun l => (npMedian l).getD 0) (fun l => k * (madRaw l).getD 0) X st =
          (.ok (some cov), st1) ∧
        ∀ v : Fin p → ℝ, 0 ≤ v ⬝ᵥ (cov *ᵥ v) ∧ v ⬝ᵥ (cov *ᵥ v) ≤ C * (v ⬝ᵥ v) := by
  obtain ⟨R, hR, hrows⟩ := rows_bounded G
  refine ⟨p * (2 * (k * (2 * R)) ^ 2), ?_⟩
  intro X O st hX hO
  have hlen : X.length = O.length + G.length := by simpa using hX.length_eq
  obtain ⟨cov, st1, h⟩ : ∃ cov st1, wrappingCalc b c q1 q2 (fun l => (npMedian l).getD 0) (fun l => k * (madRaw l).getD 0) X st =
      (.ok (some cov), st1) := by
    unfold wrappingCalc
    simp only
    rw [if_neg (by simp only [Fintype.card_fin]; omega)]
    exact ⟨_, _, rfl⟩
  refine ⟨cov, st1, h, ?_⟩
  refine (C170_wrapping b c q1 q2 _ _ (S := k * (2 * R)) X st st1 cov h fun j => ?_).1
  obtain ⟨m, s, -, e2, -, e4, e5⟩ := C12_breakdown (X.map fun x => x j) (-R) R (by
    rw [(hX.map _).countP_eq, List.map_append, List.countP_append]
    have h1 : (G.map fun x => x j).countP (fun x => decide (-R ≤ x ∧ x ≤ R)) = G.length := by
      rw [← List.length_map (f := fun x => x j) (as := G)]
      refine List.countP_eq_length.2 fun z hz => ?_
      obtain ⟨x, hx, rfl⟩ := List.mem_map.1 hz
      rw [decide_eq_true_eq, ← abs_le]
      refine abs_le_of_sq_le_sq ?_ hR.le
      refine le_trans ?_ (hrows x hx)
      rw [pow_two]
      exact Finset.single_le_sum (f := fun j => x j * x j) (fun j _ => mul_self_nonneg _) (Finset.mem_univ j)
    rw [h1, List.length_map, hlen]
    omega)
  simp only [e2, Option.getD_some]
  exact ⟨mul_nonneg hk e4, mul_le_mul_of_nonneg_left (by linarith) hk⟩

end

/-- Three good rows and any fourth one: `KendallTau`. -/
example : ∃ c C : ℝ, 0 < c ∧ ∀ x : Fin 2 → ℝ, ∃ cov st',
    kendallCalc (Spec.qnOf true true) [x, ![0, 0], ![1, 2], ![2, 1]] CovState.new = (.ok (some cov), st') ∧
      ∀ v : Fin 2 → ℝ, c * (v ⬝ᵥ v) ≤ v ⬝ᵥ (cov *ᵥ v) ∧ v ⬝ᵥ (cov *ᵥ v) ≤ C * (v ⬝ᵥ v) := by
  obtain ⟨c, C, hc, h⟩ := C170_kendall [![0, 0], ![1, 2], ![2, 1]] (by
    intro j
    fin_cases j <;> norm_num) (lam := 4) (by norm_num) (by
    intro v
    have s1 : ∀ r : ℝ, 0 < r → Real.sign r = 1 := fun r h => Real.sign_of_pos h
    have s2 : ∀ r : ℝ, r < 0 → Real.sign r = -1 := fun r h => Real.sign_of_neg h
    have e1 : Real.sign (1 : ℝ) = 1 := s1 _ (by norm_num)
    have e2 : Real.sign (2 : ℝ) = 1 := s1 _ (by norm_num)
    have e3 : Real.sign (-1 : ℝ) = -1 := s2 _ (by norm_num)
    have e4 : Real.sign (-2 : ℝ) = -1 := s2 _ (by norm_num)
    have t1 : (1 : ℝ) - 2 = -1 := by norm_num
    have t2 : (2 : ℝ) - 1 = 1 := by norm_num
    simp [Spec.signSum, Fin.sum_univ_two, dotProduct, e1, e2, e3, e4, t1, t2]
    nlinarith [sq_nonneg (v 0 + v 1)]) true true
  refine ⟨c, C, hc, fun x => ?_⟩
  obtain ⟨cov, st', h1, -, h2⟩ := h [x, ![0, 0], ![1, 2], ![2, 1]] [x] CovState.new (List.Perm.refl _) (by simp)
  exact ⟨cov, st', h1, h2⟩

/-- Three good rows and any two others: `WrappingCovariance` as the class calls it. -/
example : ∃ C : ℝ, ∀ x y : Fin 2 → ℝ, ∃ cov st1,
    wrappingCalc 1.5 4 1.540793 0.8622731 (fun l => (npMedian l).getD 0) (fun l => 1 * (madRaw l).getD 0)
      [x, y, ![0, 0], ![1, 2], ![2, 1]] CovState.new = (.ok (some cov), st1) ∧
      ∀ v : Fin 2 → ℝ, 0 ≤ v ⬝ᵥ (cov *ᵥ v) ∧ v ⬝ᵥ (cov *ᵥ v) ≤ C * (v ⬝ᵥ v) := by
  obtain ⟨C, h⟩ := C170_wrapping_default (p := 2) (by norm_num) 1.5 4 1.540793 0.8622731 1 zero_le_one
    [![0, 0], ![1, 2], ![2, 1]] (by simp)
  exact ⟨C, fun x y => h _ [x, y] CovState.new (List.Perm.refl _) (by simp)⟩

end Robpy
