import Verif.Props.FarValues

/-! The steps of `DDC` on one column with far cells: used for C186 (Props/DDCFar.lean). -/

namespace Robpy

section
variable {ks : List ℕ} {far : ℕ → Bool} {C T : ℝ} {v v' : ℕ → Option ℝ}

theorem farCells_mono {C₁ T₁ : ℝ} (h : Spec.farCells ks far C T v v') (hC : C ≤ C₁) (hT : T₁ ≤ T) :
    Spec.farCells ks far C₁ T₁ v v' := by
  intro k hk
  refine ⟨fun hf => ⟨((h k hk).1 hf).1, fun x hx => (((h k hk).1 hf).2 x hx).trans hC⟩, fun hf => ?_⟩
  rcases (h k hk).2 hf with ⟨a, b⟩ | ⟨x, x', a, b, ⟨c, d⟩ | ⟨c, d⟩⟩
  · exact Or.inl ⟨a, b⟩
  · exact Or.inr ⟨x, x', a, b, Or.inl ⟨by linarith, by linarith⟩⟩
  · exact Or.inr ⟨x, x', a, b, Or.inr ⟨by linarith, by linarith⟩⟩

theorem farCells_subset {js : List ℕ} (h : Spec.farCells ks far C T v v') (hj : ∀ k ∈ js, k ∈ ks) : Spec.farCells js far C T v v' :=
  fun k hk => h k (hj k hk)

/-- A bound on finitely many numbers. -/
theorem exists_bound (ks : List ℕ) (g : ℕ → Option ℝ) : ∃ G, 0 ≤ G ∧ ∀ k ∈ ks, ∀ y, g k = some y → |y| ≤ G := by
  induction ks with
  | nil => exact ⟨0, le_rfl, by simp⟩
  | cons a ks ih =>
    obtain ⟨G, hG, h⟩ := ih
    rcases hg : g a with _ | y
    · refine ⟨G, hG, fun k hk y hy => ?_⟩
      rcases List.mem_cons.1 hk with rfl | hk
      · rw [hg] at hy; cases hy
      · exact h k hk y hy
    · refine ⟨max G |y|, le_max_of_le_left hG, fun k hk z hz => ?_⟩
      rcases List.mem_cons.1 hk with rfl | hk
      · rw [hg] at hz
        obtain rfl := Option.some.inj hz
        exact le_max_right _ _
      · exact (h k hk z hz).trans (le_max_left _ _)

/-- Far values minus bounded values. -/
theorem farCells_sub (h : Spec.farCells ks far C T v v') (g : ℕ → Option ℝ) {G : ℝ} (hG : ∀ k ∈ ks, ∀ y, g k = some y → |y| ≤ G) :
    Spec.farCells ks far (C + G) (T - G) (fun k => liftNaN (· - ·) (v k) (g k)) fun k => liftNaN (· - ·) (v' k) (g k) := by
  intro k hk
  refine ⟨fun hf => ?_, fun hf => ?_⟩
  · obtain ⟨e, hb⟩ := (h k hk).1 hf
    refine ⟨by simp only [e], fun x hx => ?_⟩
    simp only at hx
    rcases hv : v k with _ | a
    · rw [hv] at hx; simp [liftNaN] at hx
    rcases hg : g k with _ | y
    · rw [hv, hg] at hx; simp [liftNaN] at hx
    rw [hv, hg] at hx
    simp only [liftNaN, Option.some.injEq] at hx
    rw [← hx]
    have h1 := hb a hv
    have h2 := hG k hk y hg
    have := abs_sub a y
    linarith
  · rcases (h k hk).2 hf with ⟨a, b⟩ | ⟨x, x', a, b, hside⟩
    · left; simp [a, b, liftNaN]
    · rcases hg : g k with _ | y
      · left; simp [a, b, hg, liftNaN]
      · right
        have := abs_le.1 (hG k hk y hg)
        refine ⟨x - y, x' - y, by simp [a, hg, liftNaN], by simp [b, hg, liftNaN], ?_⟩
        rcases hside with ⟨c, d⟩ | ⟨c, d⟩
        · left; constructor <;> linarith [this.1, this.2]
        · right; constructor <;> linarith [this.1, this.2]

/-- Division as in the exact arithmetic of DDC. -/
noncomputable def divNaN (a b : Option ℝ) : Option ℝ := if b = some 0 then none else liftNaN (· / ·) a b

/-- Far values divided by numbers that are not 0. -/
theorem farCells_div (h : Spec.farCells ks far C T v v') (g : ℕ → Option ℝ) {G H : ℝ} (hG0 : 0 < G) (hT : 0 ≤ T) (hC : 0 ≤ C)
    (hG : ∀ k ∈ ks, ∀ y, g k = some y → |y| ≤ G) (hH : ∀ k ∈ ks, ∀ y, g k = some y → |1 / y| ≤ H) :
    Spec.farCells ks far (C * H) (T / G) (fun k => divNaN (v k) (g k)) fun k => divNaN (v' k) (g k) := by
  intro k hk
  refine ⟨fun hf => ?_, fun hf => ?_⟩
  · obtain ⟨e, hb⟩ := (h k hk).1 hf
    refine ⟨by simp only [e], fun x hx => ?_⟩
    simp only [divNaN] at hx
    split_ifs at hx with h0
    rcases hv : v k with _ | a
    · rw [hv] at hx; simp [liftNaN] at hx
    rcases hg : g k with _ | y
    · rw [hv, hg] at hx; simp [liftNaN] at hx
    rw [hv, hg] at hx
    simp only [liftNaN, Option.some.injEq] at hx
    rw [← hx, div_eq_mul_one_div, abs_mul]
    exact mul_le_mul (hb a hv) (hH k hk y hg) (abs_nonneg _) hC
  · simp only [divNaN]
    by_cases h0 : g k = some 0
    · left; simp [h0]
    rw [if_neg h0, if_neg h0]
    rcases (h k hk).2 hf with ⟨a, b⟩ | ⟨x, x', a, b, hside⟩
    · left; simp [a, b, liftNaN]
    · rcases hg : g k with _ | y
      · left; simp [a, b, hg, liftNaN]
      · right
        have hy0 : y ≠ 0 := fun e => h0 (by rw [hg, e])
        have hyG := abs_le.1 (hG k hk y hg)
        refine ⟨x / y, x' / y, by simp [a, hg, liftNaN], by simp [b, hg, liftNaN], ?_⟩
        have pos : ∀ z : ℝ, T < z → 0 < y → T / G < z / y := by
          intro z hz hy
          rw [div_lt_div_iff₀ hG0 hy]
          nlinarith [hyG.2]
        have neg : ∀ z : ℝ, T < z → y < 0 → z / y < -(T / G) := by
          intro z hz hy
          have := div_lt_div_iff₀ (a := T) (b := G) (c := z) (d := -y) hG0 (by linarith)
          have h2 : T / G < z / (-y) := this.2 (by nlinarith [hyG.1])
          rw [div_neg] at h2
          linarith
        rcases hside with ⟨c, d⟩ | ⟨c, d⟩
        · rcases lt_or_gt_of_ne hy0 with hy | hy
          · exact Or.inr ⟨neg x c hy, neg x' d hy⟩
          · exact Or.inl ⟨pos x c hy, pos x' d hy⟩
        · have e1 : ∀ z : ℝ, z / y = -(-z / y) := fun z => by ring
          rcases lt_or_gt_of_ne hy0 with hy | hy
          · left
            have a1 := neg (-x) (by linarith) hy
            have a2 := neg (-x') (by linarith) hy
            rw [e1 x, e1 x']
            constructor <;> linarith
          · right
            have a1 := pos (-x) (by linarith) hy
            have a2 := pos (-x') (by linarith) hy
            rw [e1 x, e1 x']
            constructor <;> linarith

/-- The scale of `CellwiseOneStepM` on a sample with a minority of far values is bounded by the other values. -/
theorem osm_scale_bound (h : Spec.farCells ks far C T v v') (hm : Spec.farMinority ks far) (hC : 0 ≤ C) (hT : 3 * C ≤ T)
    {q : Option ℝ × Option ℝ} (hq : cellwiseOSM (ks.map v) = .ok q) : ∃ s, q.2 = some s ∧ 0 ≤ s ∧ s ≤ 9 * C := by
  have hn : ∀ k ∈ ks, v k ≠ none := by
    intro k hk hnone
    unfold cellwiseOSM oneStepM at hq
    rw [if_pos (List.any_eq_true.2 ⟨_, List.mem_map.2 ⟨k, hk, hnone⟩, rfl⟩)] at hq
    cases hq
  obtain ⟨m, s, -, -, h3, -, -, hs0, hsC⟩ := madRaw_far (farCells_apart h hn) hm hT hC
  have hid : ∀ l : List ℝ, (l.map some).filterMap id = l := fun l => by simp
  unfold cellwiseOSM oneStepM at hq
  rw [map_getD hn, if_neg (by simp)] at hq
  simp only [hid, Except.ok.injEq] at hq
  obtain ⟨w, hw, hw0, hwb, -⟩ := C08_scale (.huber 2.5) (by norm_num [Rho.const]) 0.845 (1 / 10 ^ 12) (by norm_num) _ s h3
  refine ⟨w, by rw [← hq]; exact hw, hw0, hwb.trans ?_⟩
  have hqp : (0:ℝ) < normalQuartile := normalQuartile_pos
  have hmad : s / normalQuartile ≤ 3 * C := by
    rw [div_le_iff₀ hqp]
    unfold normalQuartile
    linarith
  have hsq : (0.9:ℝ) ≤ Real.sqrt 0.845 := by
    apply Real.le_sqrt_of_sq_le
    norm_num
  rw [div_le_iff₀ (by linarith)]
  simp only [Rho.const]
  nlinarith

end

section
variable {round3 cdf : ℝ → ℝ} {est : List (Option ℝ) → Except PyErr (Option ℝ × Option ℝ)} {ks : List ℕ} {far : ℕ → Bool}

/-- The robust slope of a column on fixed predictors does not depend on how far its far cells are, when they are a minority, also among
the rows whose predictor is not 0. -/
theorem slope_far (ks : List ℕ) (far : ℕ → Bool) (g : ℕ → Option ℝ) (c : ℝ) {C : ℝ} (hC : 0 ≤ C) (hm : Spec.farMinority ks far)
    (hm2 : Spec.farMinority (ks.filter fun k => decide (g k ≠ some 0)) far ∨ ks.filter (fun k => decide (g k ≠ some 0)) = []) :
    ∃ T₀, ∀ T, T₀ ≤ T → ∀ v v', Spec.farCells ks far C T v v' →
      robustSlope (realEnv round3 cdf est) (some c) (ks.map fun k => (g k, v' k)) =
        robustSlope (realEnv round3 cdf est) (some c) (ks.map fun k => (g k, v k)) := by
  obtain ⟨G₁, hG₁, hG₁b⟩ := exists_bound ks g
  obtain ⟨H, hH, hHb⟩ := exists_bound ks fun k => (g k).map fun y => 1 / y
  have hH' : ∀ k ∈ ks, ∀ y, g k = some y → |1 / y| ≤ H := fun k hk y hy => hHb k hk _ (by simp [hy])
  set G := G₁ + 1 with hG
  have hG0 : 0 < G := by linarith
  have hGb : ∀ k ∈ ks, ∀ y, g k = some y → |y| ≤ G := fun k hk y hy => (hG₁b k hk y hy).trans (by linarith)
  set M := C * H with hM
  have hM0 : 0 ≤ M := mul_nonneg hC hH
  set C₃ := C + M * G with hC₃
  have hC₃0 : 0 ≤ C₃ := add_nonneg hC (mul_nonneg hM0 hG0.le)
  refine ⟨max (M * G) (20 * C₃ + 20 + M * G + |c| * (9 * C₃)), fun T hT v v' h => ?_⟩
  have hT1 : M * G ≤ T := (le_max_left _ _).trans hT
  have hT2 : 20 * C₃ + 20 + M * G + |c| * (9 * C₃) ≤ T := (le_max_right _ _).trans hT
  have hc9 : 0 ≤ |c| * (9 * C₃) := mul_nonneg (abs_nonneg _) (by linarith)
  have hT0 : 0 ≤ T := (mul_nonneg hM0 hG0.le).trans hT1
  unfold robustSlope
  have hall : ∀ w : ℕ → Option ℝ, ((ks.map fun k => (g k, w k)).all fun q =>
      (realEnv round3 cdf est).eqb q.1 (realEnv round3 cdf est).zero) = ks.all fun k => decide (g k = some 0) := by
    intro w
    rw [List.all_map]
    congr 1
    funext k
    rw [Bool.eq_iff_iff]
    simp only [Function.comp_apply, eqb_zero_iff, decide_eq_true_eq]
  rw [hall, hall]
  split_ifs with hz
  · rfl
  have hne : ks.filter (fun k => decide (g k ≠ some 0)) ≠ [] := by
    intro e
    apply hz
    rw [List.all_eq_true]
    intro k hk
    by_contra hcon
    have : k ∈ ks.filter (fun k => decide (g k ≠ some 0)) := List.mem_filter.2 ⟨hk, by simpa using hcon⟩
    rw [e] at this
    cases this
  have hm2 := hm2.resolve_right hne
  have hlist : ∀ w : ℕ → Option ℝ, (((ks.map fun k => (g k, w k)).filter fun q =>
      !(realEnv round3 cdf est).eqb q.1 (realEnv round3 cdf est).zero).map fun q => (realEnv round3 cdf est).div q.2 q.1) =
      (ks.filter fun k => decide (g k ≠ some 0)).map fun k => divNaN (w k) (g k) := by
    intro w
    rw [List.filter_map, List.map_map]
    have : ((fun q : Option ℝ × Option ℝ => !(realEnv round3 cdf est).eqb q.1 (realEnv round3 cdf est).zero) ∘ fun k => (g k, w k)) =
        fun k => decide (g k ≠ some 0) := by
      funext k
      rw [Bool.eq_iff_iff]
      simp only [Function.comp_apply, Bool.not_eq_true', decide_eq_true_eq, ← Bool.not_eq_true, eqb_zero_iff, ne_eq]
    rw [this]
    rfl
  have hratio : Spec.farCells (ks.filter fun k => decide (g k ≠ some 0)) far M (T / G) (fun k => divNaN (v k) (g k))
      fun k => divNaN (v' k) (g k) :=
    farCells_subset (farCells_div h g hG0 hT0 hC hGb hH') fun k hk => (List.mem_filter.1 hk).1
  have hMT : M ≤ T / G := by rw [le_div_iff₀ hG0]; exact hT1
  have hmed := median_far hratio hm2 hMT
  have hmed' : (realEnv round3 cdf est).median (((ks.map fun k => (g k, v' k)).filter fun q =>
      !(realEnv round3 cdf est).eqb q.1 (realEnv round3 cdf est).zero).map fun q => (realEnv round3 cdf est).div q.2 q.1) =
      (realEnv round3 cdf est).median (((ks.map fun k => (g k, v k)).filter fun q =>
      !(realEnv round3 cdf est).eqb q.1 (realEnv round3 cdf est).zero).map fun q => (realEnv round3 cdf est).div q.2 q.1) := by
    rw [hlist, hlist]; exact hmed
  have hslope : ∀ a, (realEnv round3 cdf est).median (((ks.map fun k => (g k, v k)).filter fun q =>
      !(realEnv round3 cdf est).eqb q.1 (realEnv round3 cdf est).zero).map fun q => (realEnv round3 cdf est).div q.2 q.1) = some a →
      |a| ≤ M := by
    intro a ha
    rw [hlist] at ha
    by_cases hn : ∃ k ∈ ks.filter (fun k => decide (g k ≠ some 0)), divNaN (v k) (g k) = none
    · obtain ⟨k, hk, hnone⟩ := hn
      simp only [realEnv] at ha
      rw [allSome_eq, if_pos (List.mem_map.2 ⟨k, hk, hnone⟩)] at ha
      cases ha
    · push Not at hn
      obtain ⟨m, e1, -, e3⟩ := npMedian_far (farCells_apart hratio hn) hm2 hMT
      have hid : ∀ l : List ℝ, allSome (l.map some) = some l := fun l => by rw [allSome_eq, if_neg (by simp)]; simp
      simp only [realEnv] at ha
      rw [map_getD hn, hid, Option.bind_some, e1] at ha
      rw [← Option.some.inj ha]
      exact e3
  simp only [hmed']
  generalize hsl : (realEnv round3 cdf est).median (((ks.map fun k => (g k, v k)).filter fun q =>
      !(realEnv round3 cdf est).eqb q.1 (realEnv round3 cdf est).zero).map fun q => (realEnv round3 cdf est).div q.2 q.1) = sl
  rw [hsl] at hslope
  have hprod : ∀ k ∈ ks, ∀ y, liftNaN (· * ·) sl (g k) = some y → |y| ≤ M * G := by
    intro k hk y hy
    rcases sl with _ | a
    · simp [liftNaN] at hy
    rcases hg : g k with _ | b
    · rw [hg] at hy; simp [liftNaN] at hy
    rw [hg] at hy
    simp only [liftNaN, Option.some.injEq] at hy
    rw [← hy, abs_mul]
    exact mul_le_mul (hslope a rfl) (hGb k hk b hg) (abs_nonneg _) hM0
  have hres := farCells_sub h (fun k => liftNaN (· * ·) sl (g k)) hprod
  have hreslist : ∀ w : ℕ → Option ℝ, ((ks.map fun k => (g k, w k)).map fun q : Option ℝ × Option ℝ =>
      (realEnv round3 cdf est).sub q.2 ((realEnv round3 cdf est).mul sl q.1)) =
      ks.map fun k => liftNaN (· - ·) (w k) (liftNaN (· * ·) sl (g k)) := by
    intro w
    rw [List.map_map]
    rfl
  have hosm : (realEnv round3 cdf est).osm = cellwiseOSM := rfl
  rw [hreslist, hreslist, hosm, osm_far hres hm hC₃0 (by linarith)]
  rcases hq : cellwiseOSM (ks.map fun k => liftNaN (· - ·) (v k) (liftNaN (· * ·) sl (g k))) with e | q
  · rfl
  · obtain ⟨s, hs, hs0, hsC⟩ := osm_scale_bound hres hm hC₃0 (by linarith) hq
    simp only [Except.map, Except.ok.injEq]
    congr 1
    rw [List.filter_map, List.filter_map]
    have hdrop : ∀ k ∈ ks, far k = true → ∀ w, (w = v k ∨ w = v' k) →
        (realEnv round3 cdf est).le ((realEnv round3 cdf est).abs ((realEnv round3 cdf est).sub w
          ((realEnv round3 cdf est).mul sl (g k)))) ((realEnv round3 cdf est).mul (some c) q.2) = false := by
      intro k hk hf w hw
      rw [hs]
      have hcs : c * s ≤ |c| * (9 * C₃) := by
        calc c * s ≤ |c| * s := mul_le_mul_of_nonneg_right (le_abs_self _) hs0
          _ ≤ |c| * (9 * C₃) := mul_le_mul_of_nonneg_left hsC (abs_nonneg _)
      have hfalse : ∀ r : ℝ, (T - M * G < r ∨ r < -(T - M * G)) → ¬ |r| ≤ c * s := by
        intro r hr hle
        rcases hr with hr | hr
        · have := le_abs_self r; linarith
        · have := neg_le_abs r; linarith
      rcases (hres k hk).2 hf with ⟨a, b⟩ | ⟨x, x', a, b, hside⟩
      · rcases hw with rfl | rfl
        · have : (realEnv round3 cdf est).sub (v k) ((realEnv round3 cdf est).mul sl (g k)) = none := a
          rw [this]; rfl
        · have : (realEnv round3 cdf est).sub (v' k) ((realEnv round3 cdf est).mul sl (g k)) = none := b
          rw [this]; rfl
      · rcases hw with rfl | rfl
        · have : (realEnv round3 cdf est).sub (v k) ((realEnv round3 cdf est).mul sl (g k)) = some x := a
          rw [this]
          simp only [realEnv, liftRel, liftNaN, Option.map_some, decide_eq_false_iff_not]
          exact hfalse x (hside.imp And.left And.left)
        · have : (realEnv round3 cdf est).sub (v' k) ((realEnv round3 cdf est).mul sl (g k)) = some x' := b
          rw [this]
          simp only [realEnv, liftRel, liftNaN, Option.map_some, decide_eq_false_iff_not]
          exact hfalse x' (hside.imp And.right And.right)
    have hf : ks.filter ((fun q' : Option ℝ × Option ℝ => (realEnv round3 cdf est).le ((realEnv round3 cdf est).abs
        ((realEnv round3 cdf est).sub q'.2 ((realEnv round3 cdf est).mul sl q'.1))) ((realEnv round3 cdf est).mul (some c) q.2)) ∘
          fun k => (g k, v' k)) =
        ks.filter ((fun q' : Option ℝ × Option ℝ => (realEnv round3 cdf est).le ((realEnv round3 cdf est).abs
        ((realEnv round3 cdf est).sub q'.2 ((realEnv round3 cdf est).mul sl q'.1))) ((realEnv round3 cdf est).mul (some c) q.2)) ∘
          fun k => (g k, v k)) := by
      apply List.filter_congr
      intro k hk
      simp only [Function.comp_apply]
      cases hfk : far k
      · rw [((h k hk).1 hfk).1]
      · rw [hdrop k hk hfk _ (Or.inl rfl), hdrop k hk hfk _ (Or.inr rfl)]
    rw [hf]
    apply List.map_congr_left
    intro k hk
    obtain ⟨hk1, hk2⟩ := List.mem_filter.1 hk
    cases hfk : far k
    · rw [((h k hk1).1 hfk).1]
    · simp only [Function.comp_apply] at hk2
      rw [hdrop k hk1 hfk _ (Or.inl rfl)] at hk2
      cases hk2

theorem map_eq_ok {α β : Type} {f : α → β} {a : Except PyErr α} {b : β} (h : a.map f = .ok b) : ∃ x, f x = b := by
  cases a with
  | error e => cases h
  | ok x => exact ⟨x, Except.ok.inj h⟩

/-- A slope that could be computed has no missing predictor. -/
theorem robustSlope_ok {c : Option ℝ} {xy : List (Option ℝ × Option ℝ)} {d : Option ℝ}
    (h : robustSlope (realEnv round3 cdf est) c xy = .ok d) : (∀ q ∈ xy, q.1 ≠ none) ∧ d ≠ none := by
  unfold robustSlope at h
  split_ifs at h with hz
  · refine ⟨fun q hq hn => ?_, ?_⟩
    · rw [List.all_eq_true] at hz
      have := eqb_zero_iff.1 (hz q hq)
      rw [hn] at this; cases this
    · obtain rfl := Except.ok.inj h
      simp [realEnv]
  · simp only at h
    refine ⟨fun q hq hn => ?_, ?_⟩
    · have : ∀ sl : Option ℝ, (realEnv round3 cdf est).osm (xy.map fun q => (realEnv round3 cdf est).sub q.2
          ((realEnv round3 cdf est).mul sl q.1)) = .error .valueError := by
        intro sl
        show cellwiseOSM _ = _
        unfold cellwiseOSM oneStepM
        rw [if_pos]
        refine List.any_eq_true.2 ⟨_, List.mem_map.2 ⟨q, hq, rfl⟩, ?_⟩
        rw [hn]
        rcases sl with _ | _ <;> rcases q.2 with _ | _ <;> rfl
      rw [this] at h
      cases h
    · obtain ⟨s, hs⟩ := map_eq_ok h
      rw [← hs]
      simp [realEnv]

end

end Robpy
