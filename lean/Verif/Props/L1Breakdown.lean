import Verif.Props.L1Median
import Verif.Model.PCA

/-! C169: the L1-median under contamination. -/

namespace Robpy
variable {p : ℕ}

/-- **C169** (full statement, violated by the code): the result stays within a bound which does not depend on the
outliers as long as they are fewer than the other rows. -/
def C169_statement : Prop :=
  ∀ (p : ℕ) (eps : ℝ), 0 < eps → ∀ G : List (Fin p → ℝ), ∃ K : ℝ, ∀ (X O : List (Fin p → ℝ)) (fuel : ℕ) (mu : Fin p → ℝ),
    X.Perm (O ++ G) → O.length < G.length → l1median eps X fuel = some (.ok mu) → ∀ j, |mu j| ≤ K

theorem abs_le_rowDist (x mu : Fin p → ℝ) (j : Fin p) : |x j - mu j| ≤ rowDist x mu := by
  refine abs_le_of_sq_le_sq ?_ (rowDist_nonneg x mu)
  rw [rowDist_sq]
  exact Finset.single_le_sum (f := fun j => (x j - mu j) ^ 2) (fun j _ => sq_nonneg _) (Finset.mem_univ j)

theorem sum_mul_le_norms (f g : Fin p → ℝ) {A B : ℝ} (hA : 0 ≤ A) (hB : 0 ≤ B) (hf : ∑ j, f j ^ 2 ≤ A ^ 2)
    (hg : ∑ j, g j ^ 2 ≤ B ^ 2) : |∑ j, f j * g j| ≤ A * B := by
  refine abs_le_of_sq_le_sq ?_ (mul_nonneg hA hB)
  have := Finset.sum_mul_sq_le_sq_mul_sq Finset.univ f g
  rw [mul_pow]
  refine this.trans (mul_le_mul hf hg (Finset.sum_nonneg fun j _ => sq_nonneg _) (sq_nonneg _))

theorem rowDist_triangle (x a c : Fin p → ℝ) : rowDist x a ≤ rowDist x c + rowDist c a := by
  refine le_of_sq_le_sq ?_ (add_nonneg (rowDist_nonneg _ _) (rowDist_nonneg _ _))
  have h1 := sum_mul_le_norms (fun j => x j - c j) (fun j => c j - a j) (rowDist_nonneg x c) (rowDist_nonneg c a)
    (rowDist_sq x c).ge (rowDist_sq c a).ge
  have h2 := (abs_le.1 h1).2
  have h3 : ∑ j, (x j - a j) ^ 2 = ∑ j, (x j - c j) ^ 2 + 2 * ∑ j, (x j - c j) * (c j - a j) + ∑ j, (c j - a j) ^ 2 := by
    rw [Finset.mul_sum, ← Finset.sum_add_distrib, ← Finset.sum_add_distrib]
    exact Finset.sum_congr rfl fun j _ => by ring
  rw [rowDist_sq, h3, ← rowDist_sq, ← rowDist_sq]
  nlinarith

/-- Weighted sums of the coordinates of the step. -/
theorem l1Next_step {X : List (Fin p → ℝ)} {a mu : Fin p → ℝ} (hX : X ≠ []) (h : a ∉ X)
    (hn : l1Next X (some a) = some mu) (e : Fin p → ℝ) :
    l1WeightSum X a * ∑ j, (a j - mu j) * e j = (X.map fun x => 1 / rowDist x a * ∑ j, (a j - x j) * e j).sum := by
  have h1 : ∀ j, l1WeightSum X a * (a j - mu j) = (X.map fun x => 1 / rowDist x a * (a j - x j)).sum := by
    intro j
    rw [mul_sub, l1Next_mean hX h hn j]
    unfold l1WeightSum
    generalize X = l
    induction l with
    | nil => simp
    | cons x l ih => simp only [List.map_cons, List.sum_cons, ← ih]; ring
  rw [Finset.mul_sum]
  have h2 : ∀ l : List (Fin p → ℝ), (l.map fun x => 1 / rowDist x a * ∑ j, (a j - x j) * e j).sum =
      ∑ j, (l.map fun x => 1 / rowDist x a * (a j - x j)).sum * e j := by
    intro l
    induction l with
    | nil => simp
    | cons x l ih =>
      simp only [List.map_cons, List.sum_cons, ih, add_mul, Finset.sum_add_distrib]
      congr 1
      rw [Finset.mul_sum]
      exact Finset.sum_congr rfl fun j _ => by ring
  rw [h2]
  exact Finset.sum_congr rfl fun j _ => by rw [← h1]; ring

/-- **C169**, what holds: when the rows `G` lie within `R` of `c` and are more than the others, every result is near
them, or it sticks to an outlier. -/
theorem C169_partial {eps R : ℝ} (heps : 0 < eps) (hR : 0 ≤ R) (X O G : List (Fin p → ℝ)) (c : Fin p → ℝ)
    (hX : X.Perm (O ++ G)) (hO : O.length < G.length) (hG : ∀ x ∈ G, rowDist x c ≤ R) (fuel : ℕ) (mu : Fin p → ℝ)
    (h : l1median eps X fuel = some (.ok mu)) :
    (∀ j, |mu j - c j| ≤ 4 * G.length * R + (2 * X.length + 1) * eps) ∨
      ∃ x ∈ O, ∀ j, |mu j - x j| ≤ (2 * X.length + 1) * eps := by
  have hlen : X.length = O.length + G.length := by simpa using hX.length_eq
  have hne : X ≠ [] := by rintro rfl; simp at hlen; omega
  obtain ⟨mu', a, hr, ha, hn, hd, -⟩ := C63_hull_partial eps X hne fuel _ h
  obtain rfl := Except.ok.inj hr
  have hG1 : (1:ℝ) ≤ G.length := by exact_mod_cast (by omega : 1 ≤ G.length)
  have hn0 : (0:ℝ) ≤ X.length := Nat.cast_nonneg _
  have hdj : ∀ j, |a j - mu j| < eps := fun j =>
    lt_of_le_of_lt (Finset.single_le_sum (f := fun j => |a j - mu j|) (fun j _ => abs_nonneg _) (Finset.mem_univ j)) hd
  by_cases hnear : ∃ x ∈ X, rowDist x a ≤ 2 * X.length * eps
  · obtain ⟨x, hx, hxa⟩ := hnear
    have hxm : ∀ j, |mu j - x j| ≤ (2 * X.length + 1) * eps := by
      intro j
      have h1 := abs_le.1 ((abs_le_rowDist x a j).trans hxa)
      have h2 := abs_lt.1 (hdj j)
      rw [abs_le]
      constructor <;> nlinarith
    rcases List.mem_append.1 (hX.mem_iff.1 hx) with hx | hx
    · exact .inr ⟨x, hx, hxm⟩
    · refine .inl fun j => ?_
      have h1 := abs_le.1 (hxm j)
      have h2 := abs_le.1 ((abs_le_rowDist x c j).trans (hG x hx))
      rw [abs_le]
      constructor <;> nlinarith
  · push Not at hnear
    refine .inl ?_
    set t := rowDist c a with ht
    have ht0 : 0 ≤ t := rowDist_nonneg _ _
    have key : t ≤ 4 * G.length * R := by
      by_contra hcon
      push Not at hcon
      have htR : R < t := by nlinarith
      have htp : 0 < t := lt_of_le_of_lt hR htR
      have hstep := l1Next_step hne ha hn fun j => a j - c j
      have hat : ∑ j, (a j - c j) ^ 2 = t ^ 2 := by
        rw [ht, rowDist_sq]
        exact Finset.sum_congr rfl fun j _ => by ring
      -- the left-hand side is small
      have hW0 : 0 < l1WeightSum X a := l1WeightSum_pos hne ha
      have hWb : l1WeightSum X a * eps ≤ 1 / 2 := by
        have hXl : (0:ℝ) < X.length := by exact_mod_cast List.length_pos_iff.2 hne
        have := List.sum_le_card_nsmul (X.map fun x => 1 / rowDist x a) (1 / (2 * X.length * eps)) (by
          intro z hz
          obtain ⟨x, hx, rfl⟩ := List.mem_map.1 hz
          exact one_div_le_one_div_of_le (by positivity) (hnear x hx).le)
        rw [List.length_map, nsmul_eq_mul] at this
        have e1 : (X.length : ℝ) * (1 / (2 * X.length * eps)) * eps = 1 / 2 := by field_simp
        calc l1WeightSum X a * eps ≤ (X.length : ℝ) * (1 / (2 * X.length * eps)) * eps :=
              mul_le_mul_of_nonneg_right this heps.le
          _ = 1 / 2 := e1
      have hlhs : l1WeightSum X a * ∑ j, (a j - mu j) * (a j - c j) < 1 / 2 * t := by
        have h1 : ∑ j, (a j - mu j) * (a j - c j) ≤ (∑ j, |a j - mu j|) * t := by
          rw [Finset.sum_mul]
          refine Finset.sum_le_sum fun j _ => ?_
          refine (le_abs_self _).trans ?_
          rw [abs_mul]
          refine mul_le_mul_of_nonneg_left ?_ (abs_nonneg _)
          rw [abs_sub_comm]
          exact abs_le_rowDist c a j
        have h2 : (∑ j, |a j - mu j|) * t < eps * t := mul_lt_mul_of_pos_right hd htp
        have h3 := mul_lt_mul_of_pos_left (lt_of_le_of_lt h1 h2) hW0
        nlinarith
      -- the right-hand side is not
      have hbad : ∀ x ∈ X, -t ≤ 1 / rowDist x a * ∑ j, (a j - x j) * (a j - c j) := by
        intro x hx
        have hd0 : 0 < rowDist x a := lt_of_le_of_lt (by positivity) (hnear x hx)
        have h1 := sum_mul_le_norms (fun j => a j - x j) (fun j => a j - c j) hd0.le htp.le
          (by rw [rowDist_sq]; exact (Finset.sum_congr rfl fun j _ => by ring).le) hat.le
        have h2 := (abs_le.1 h1).1
        rw [one_div, le_inv_mul_iff₀ hd0]
        linarith
      have hgood : ∀ x ∈ G, t * (1 - 2 * R / (t + R)) ≤ 1 / rowDist x a * ∑ j, (a j - x j) * (a j - c j) := by
        intro x hx
        have hd0 : 0 < rowDist x a := lt_of_le_of_lt (by positivity) (hnear x (hX.mem_iff.2 (List.mem_append_right _ hx)))
        have h1 := sum_mul_le_norms (fun j => c j - x j) (fun j => a j - c j) hR htp.le
          (by
            refine le_trans (le_of_eq ?_) (pow_le_pow_left₀ (rowDist_nonneg x c) (hG x hx) 2)
            rw [rowDist_sq]
            exact Finset.sum_congr rfl fun j _ => by ring) hat.le
        have h2 := (abs_le.1 h1).1
        have h3 : ∑ j, (a j - x j) * (a j - c j) = t ^ 2 + ∑ j, (c j - x j) * (a j - c j) := by
          rw [← hat, ← Finset.sum_add_distrib]
          exact Finset.sum_congr rfl fun j _ => by ring
        have h4 : rowDist x a ≤ R + t := (rowDist_triangle x a c).trans (by linarith [hG x hx])
        have h5 : t * (t - R) ≤ ∑ j, (a j - x j) * (a j - c j) := by rw [h3]; nlinarith
        have h6 : 1 - 2 * R / (t + R) = (t - R) / (t + R) := by field_simp; ring
        rw [h6, one_div, le_inv_mul_iff₀ hd0]
        have h7 : rowDist x a * (t * ((t - R) / (t + R))) ≤ (R + t) * (t * ((t - R) / (t + R))) :=
          mul_le_mul_of_nonneg_right h4 (mul_nonneg htp.le (div_nonneg (by linarith) (by linarith)))
        have h8 : (R + t) * (t * ((t - R) / (t + R))) = t * (t - R) := by field_simp; ring
        linarith
      have hrhs : (G.length : ℝ) * (t * (1 - 2 * R / (t + R))) - O.length * t ≤
          (X.map fun x => 1 / rowDist x a * ∑ j, (a j - x j) * (a j - c j)).sum := by
        rw [(hX.map _).sum_eq, List.map_append, List.sum_append]
        have h1 := List.card_nsmul_le_sum (O.map fun x => 1 / rowDist x a * ∑ j, (a j - x j) * (a j - c j)) (-t) (by
          intro z hz
          obtain ⟨x, hx, rfl⟩ := List.mem_map.1 hz
          exact hbad x (hX.mem_iff.2 (List.mem_append_left _ hx)))
        have h2 := List.card_nsmul_le_sum (G.map fun x => 1 / rowDist x a * ∑ j, (a j - x j) * (a j - c j))
          (t * (1 - 2 * R / (t + R))) (by
          intro z hz
          obtain ⟨x, hx, rfl⟩ := List.mem_map.1 hz
          exact hgood x hx)
        rw [List.length_map, nsmul_eq_mul] at h1 h2
        linarith
      rw [← hstep] at hrhs
      have hOG : (O.length : ℝ) + 1 ≤ G.length := by exact_mod_cast hO
      have hfrac : (G.length : ℝ) * (2 * R / (t + R)) ≤ 1 / 2 := by
        rw [← mul_div_assoc, div_le_iff₀ (by linarith)]
        nlinarith
      have h9 : t * (1 / 2) ≤ t * (G.length * (1 - 2 * R / (t + R)) - O.length) := by
        refine mul_le_mul_of_nonneg_left ?_ htp.le
        linarith
      linarith
    intro j
    have h1 := abs_le.1 ((abs_le_rowDist c a j).trans key)
    have h2 := abs_lt.1 (hdj j)
    rw [abs_le]
    constructor <;> nlinarith

/-- A start close to an observation: the first step is short, and the loop ends there. -/
theorem l1median_stuck (hp : 0 < p) {eps η : ℝ} (hη : 0 < η) (X : List (Fin p → ℝ)) (x0 : Fin p → ℝ) (hx0 : x0 ∈ X)
    (hmem : meanRow X ∉ X) (hd : rowDist x0 (meanRow X) ≤ η) (he : p * (X.length * η) < eps) :
    ∃ mu, l1median eps X 1 = some (.ok mu) ∧ ∀ j, |meanRow X j - mu j| ≤ X.length * η := by
  have hne : X ≠ [] := List.ne_nil_of_mem hx0
  set a := meanRow X with ha
  obtain ⟨mu, hn⟩ : ∃ mu, l1Next X (some a) = some mu := ⟨_, l1Next_of_not_mem hmem⟩
  have hpos : ∀ x ∈ X, 0 < rowDist x a := fun x hx =>
    lt_of_le_of_ne (rowDist_nonneg _ _) fun h0 => hmem (rowDist_eq_zero.1 h0.symm ▸ hx)
  have hW : 1 / η ≤ l1WeightSum X a := by
    refine le_trans (one_div_le_one_div_of_le (hpos x0 hx0) hd) ?_
    refine List.single_le_sum ?_ _ (List.mem_map.2 ⟨x0, hx0, rfl⟩)
    intro z hz
    obtain ⟨x, hx, rfl⟩ := List.mem_map.1 hz
    exact (one_div_pos.2 (hpos x hx)).le
  have hstep : ∀ j, |a j - mu j| ≤ X.length * η := by
    intro j
    have h1 := l1Next_step hne hmem hn (Pi.single j 1)
    have h2 : ∀ f : Fin p → ℝ, ∑ i, f i * (Pi.single j 1 : Fin p → ℝ) i = f j := by
      intro f; simp [Pi.single_apply]
    simp only [h2] at h1
    have h3 : ∀ l : List (Fin p → ℝ), (∀ x ∈ l, x ∈ X) → |(l.map fun x => 1 / rowDist x a * (a j - x j)).sum| ≤ l.length := by
      intro l hl
      induction l with
      | nil => simp
      | cons x l ih =>
        simp only [List.map_cons, List.sum_cons, List.length_cons, Nat.cast_add, Nat.cast_one]
        have e1 := ih fun y hy => hl y (List.mem_cons_of_mem _ hy)
        have e2 : |1 / rowDist x a * (a j - x j)| ≤ 1 := by
          have hx := hpos x (hl x List.mem_cons_self)
          rw [abs_mul, abs_of_pos (one_div_pos.2 hx), one_div, inv_mul_le_iff₀ hx, mul_one, abs_sub_comm]
          exact abs_le_rowDist x a j
        have := abs_add_le (1 / rowDist x a * (a j - x j)) (l.map fun x => 1 / rowDist x a * (a j - x j)).sum
        linarith
    have h4 := h3 X fun _ h => h
    rw [← h1, abs_mul, abs_of_pos (lt_of_lt_of_le (one_div_pos.2 hη) hW)] at h4
    have h5 := mul_le_mul_of_nonneg_right hW (abs_nonneg (a j - mu j))
    have h6 : 1 / η * |a j - mu j| ≤ X.length := h5.trans h4
    rw [one_div, inv_mul_le_iff₀ hη] at h6
    linarith
  refine ⟨mu, ?_, hstep⟩
  unfold l1median
  rw [if_neg hne, runLoop, ← ha]
  have hlt : ∑ j, |a j - mu j| < eps := by
    refine lt_of_le_of_lt (Finset.sum_le_card_nsmul _ _ _ fun j _ => hstep j) ?_
    simpa using he
  have hs : l1Step eps X (some a) = .ok (.inr mu) := by
    unfold l1Step
    rw [hn]
    simp only
    rw [if_pos hlt]
  rw [hs]

/-- **C169** is violated by the code: whatever the number of good rows, two outliers carry the result beyond every
bound.  The iteration starts at the mean, and it does not leave the neighbourhood of an observation. -/
theorem C169_two_outliers (hp : 0 < p) {eps : ℝ} (heps : 0 < eps) (G : List (Fin p → ℝ)) (hG : G ≠ []) (K : ℝ) :
    ∃ b1 b2 mu, l1median eps (b1 :: b2 :: G) 1 = some (.ok mu) ∧ K < mu ⟨0, hp⟩ := by
  obtain ⟨g, hg⟩ : ∃ g : ℝ, g = (G.length : ℝ) := ⟨_, rfl⟩
  have hg1 : 1 ≤ g := by rw [hg]; exact_mod_cast List.length_pos_iff.2 hG
  have hp1 : (1:ℝ) ≤ p := by exact_mod_cast hp
  set η := min 1 (eps / (2 * p * (g + 2))) with hη
  have hη0 : 0 < η := lt_min one_pos (by positivity)
  have hη1 : η ≤ 1 := min_le_left _ _
  have hηe : p * ((g + 2) * η) < eps := by
    have h1 : η ≤ eps / (2 * p * (g + 2)) := min_le_right _ _
    have h2 : p * ((g + 2) * η) ≤ p * ((g + 2) * (eps / (2 * p * (g + 2)))) := by
      refine mul_le_mul_of_nonneg_left (mul_le_mul_of_nonneg_left h1 (by linarith)) (by linarith)
    have h3 : p * ((g + 2) * (eps / (2 * p * (g + 2)))) = eps / 2 := by field_simp
    linarith
  set i0 : Fin p := ⟨0, hp⟩ with hi0
  set S : Fin p → ℝ := fun j => (G.map fun x => x j).sum with hS
  -- a bound for the first coordinates of the good rows
  obtain ⟨B, hB0, hB⟩ : ∃ B : ℝ, 0 ≤ B ∧ ∀ x ∈ G, |x i0| ≤ B := by
    refine ⟨(G.map fun x => |x i0|).sum, List.sum_nonneg ?_, fun x hx => List.single_le_sum ?_ _ (List.mem_map.2 ⟨x, hx, rfl⟩)⟩
    · intro z hz
      obtain ⟨x, -, rfl⟩ := List.mem_map.1 hz
      exact abs_nonneg _
    · intro z hz
      obtain ⟨x, -, rfl⟩ := List.mem_map.1 hz
      exact abs_nonneg _
  -- the first outlier in direction `i0`, the second one next to the mean
  set L := |K| + eps + B + 1 with hL
  have hL0 : 0 < L := by positivity
  set M := (g + 1) * (L + 1) + |S i0| + g + 2 with hM
  set b1 : Fin p → ℝ := fun j => if j = i0 then M else 0 with hb1
  set a : Fin p → ℝ := fun j => (S j + b1 j - (if j = i0 then η else 0)) / (g + 1) with ha
  set b2 : Fin p → ℝ := fun j => a j - (if j = i0 then η else 0) with hb2
  have hlen : ((b1 :: b2 :: G).length : ℝ) = g + 2 := by
    simp only [List.length_cons, Nat.cast_add, Nat.cast_one, hg]; ring
  have hmean : meanRow (b1 :: b2 :: G) = a := by
    funext j
    unfold meanRow mean
    rw [List.length_map, hlen]
    simp only [List.map_cons, List.sum_cons]
    have : (G.map fun x => x j).sum = S j := rfl
    rw [this, hb2, div_eq_iff (by linarith)]
    simp only [ha]
    field_simp
    ring
  have hai : a i0 = (S i0 + M - η) / (g + 1) := by simp [ha, hb1]
  have hal : L < a i0 := by
    rw [hai, lt_div_iff₀ (by linarith)]
    have := neg_abs_le (S i0)
    nlinarith
  have haM : a i0 < M := by
    rw [hai, div_lt_iff₀ (by linarith)]
    have h1 := le_abs_self (S i0)
    have h2 : |S i0| + 2 ≤ M := by
      have : 0 ≤ (g + 1) * (L + 1) := by positivity
      rw [hM]; linarith
    have h3 : M ≤ M * g := by
      have : 0 ≤ M := by linarith [abs_nonneg (S i0)]
      nlinarith
    linarith
  have hmem : meanRow (b1 :: b2 :: G) ∉ b1 :: b2 :: G := by
    rw [hmean]
    intro h
    rcases List.mem_cons.1 h with h | h
    · have := congrFun h i0
      simp only [hb1, if_true] at this
      linarith
    · rcases List.mem_cons.1 h with h | h
      · have := congrFun h i0
        simp only [hb2, if_true] at this
        linarith
      · have := (abs_le.1 (hB a h)).2
        have := abs_nonneg K
        linarith
  have hd : rowDist b2 (meanRow (b1 :: b2 :: G)) ≤ η := by
    rw [hmean]
    refine le_of_sq_le_sq ?_ hη0.le
    rw [rowDist_sq]
    have : ∀ j, (b2 j - a j) ^ 2 = if j = i0 then η ^ 2 else 0 := by
      intro j
      simp only [hb2]
      split_ifs <;> ring
    rw [Finset.sum_congr rfl fun j _ => this j]
    simp
  obtain ⟨mu, h1, h2⟩ := l1median_stuck hp (eps := eps) hη0 (b1 :: b2 :: G) b2 (by simp) hmem hd (by rw [hlen]; exact hηe)
  refine ⟨b1, b2, mu, h1, ?_⟩
  have h3 := (abs_le.1 (h2 i0)).2
  rw [hmean, hlen] at h3
  have h4 : (g + 2) * η ≤ p * ((g + 2) * η) := by
    have : 0 ≤ (g + 2) * η := by positivity
    nlinarith
  have h5 := le_abs_self K
  linarith

theorem C169_violated : ¬ C169_statement := by
  intro h
  obtain ⟨K, hK⟩ := h 1 (1 / 10 ^ 7) (by positivity) [![0], ![1], ![2]]
  obtain ⟨b1, b2, mu, h1, h2⟩ := C169_two_outliers (p := 1) one_pos (eps := 1 / 10 ^ 7) (by positivity) [![0], ![1], ![2]]
    (by simp) K
  have h3 := hK _ [b1, b2] 1 mu (List.Perm.refl _) (by simp) h1 0
  have h4 := le_abs_self (mu 0)
  have h5 : K < mu 0 := h2
  linarith

/-- Consequence for `PCALocantore`: with two outliers among any number of rows, `fit` raises LinAlgError or reports a
centre beyond every bound. -/
theorem C169_locantore (hp : 0 < p) {eps : ℝ} (heps : 0 < eps) (cst thr : ℝ) (eigh : ∀ A : Matrix (Fin p) (Fin p) ℝ, EighAsc A)
    (k : ℕ) (G : List (Fin p → ℝ)) (hG : G ≠ []) (K : ℝ) (st : PCAState p) (hk : st.nComponents = some k) :
    ∃ b1 b2 mu, K < mu ⟨0, hp⟩ ∧ (locantoreFit eps cst thr eigh st (b1 :: b2 :: G) 1 = some (.error .linAlgError) ∨
      ∃ st', locantoreFit eps cst thr eigh st (b1 :: b2 :: G) 1 = some (.ok st') ∧ st'.location_ = some (some mu)) := by
  obtain ⟨b1, b2, mu, h1, h2⟩ := C169_two_outliers hp heps G hG K
  refine ⟨b1, b2, mu, h2, ?_⟩
  unfold locantoreFit
  rw [h1]
  simp only [Run.andThen]
  unfold locantoreWith
  by_cases h : mu ∈ b1 :: b2 :: G
  · rw [if_pos (Or.inr h)]
    exact .inl rfl
  · rw [if_neg (by rintro (h0 | h0) <;> [simp at h0; exact h h0]), hk]
    exact .inr ⟨_, rfl, rfl⟩

/-- The hypotheses of `C169_partial`: three rows at most 1 from the origin and one outlier. -/
example (mu : Fin 1 → ℝ) (fuel : ℕ) (M : ℝ) (h : l1median (1 / 10 ^ 7) [![M], ![0], ![1], ![-1]] fuel = some (.ok mu)) :
    |mu 0| ≤ 13 ∨ |mu 0 - M| ≤ 1 := by
  have := C169_partial (eps := 1 / 10 ^ 7) (R := 1) (by positivity) zero_le_one [![M], ![0], ![1], ![-1]] [![M]]
    [![0], ![1], ![-1]] ![0] (List.Perm.refl _) (by simp) (by
      intro x hx
      simp only [List.mem_cons, List.not_mem_nil, or_false] at hx
      rcases hx with rfl | rfl | rfl <;> simp [rowDist]) fuel mu h
  rcases this with h1 | ⟨x, hx, h1⟩
  · refine .inl ?_
    have := h1 0
    simp at this
    refine this.trans ?_
    norm_num
  · refine .inr ?_
    have e : x = ![M] := by simpa using hx
    subst e
    have := h1 0
    simp at this
    refine this.trans ?_
    norm_num

end Robpy
