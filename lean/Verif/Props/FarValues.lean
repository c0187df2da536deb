import Verif.Props.DDCOrder

/-! How far an outlying value lies does not matter to the median and to the one-step M-estimator: used for C186 (Props/DDCFar.lean). -/

namespace Robpy

open _root_.Spec (IsKthSmallest)

namespace Spec

/-- Two samples indexed by `ks` that agree, and are bounded by `C`, where `far` is false, and lie beyond `T` on the same side where
`far` is true. -/
def farApart (ks : List ℕ) (far : ℕ → Bool) (C T : ℝ) (u u' : ℕ → ℝ) : Prop :=
  ∀ k ∈ ks, (far k = false → u' k = u k ∧ |u k| ≤ C) ∧
    (far k = true → (T < u k ∧ T < u' k) ∨ (u k < -T ∧ u' k < -T))

/-- Fewer than half of the observations `ks` are far. -/
def farMinority (ks : List ℕ) (far : ℕ → Bool) : Prop := ks.length < 2 * ks.countP fun k => !far k

end Spec

section
variable {ks : List ℕ} {far : ℕ → Bool} {C T : ℝ} {u u' : ℕ → ℝ}

theorem farApart_count (h : Spec.farApart ks far C T u u') : ks.countP (fun k => !far k) ≤ (ks.map u).countP fun x => decide (-C ≤ x ∧ x ≤ C) := by
  rw [List.countP_map]
  apply List.countP_mono_left
  intro k hk hf
  have := ((h k hk).1 (by simpa using hf)).2
  simpa [abs_le] using this

theorem isKth_far (h : Spec.farApart ks far C T u u') {j : ℕ} {v : ℝ} (hv : |v| ≤ T) (hk : IsKthSmallest j (ks.map u) v) :
    IsKthSmallest j (ks.map u') v := by
  obtain ⟨h1, h2⟩ := abs_le.1 hv
  have e : ∀ k ∈ ks, (u' k < v ↔ u k < v) ∧ (u' k ≤ v ↔ u k ≤ v) := by
    intro k hk
    cases hf : far k
    · rw [((h k hk).1 hf).1]; exact ⟨Iff.rfl, Iff.rfl⟩
    · rcases (h k hk).2 hf with ⟨a, b⟩ | ⟨a, b⟩
      · constructor <;> constructor <;> intro <;> exfalso <;> linarith
      · constructor <;> constructor <;> intro <;> linarith
  unfold IsKthSmallest at hk ⊢
  rw [List.countP_map, List.countP_map] at hk ⊢
  have e1 : ks.countP ((fun x => decide (x < v)) ∘ u') = ks.countP ((fun x => decide (x < v)) ∘ u) :=
    List.countP_congr fun k hk => by simpa using (e k hk).1
  have e2 : ks.countP ((fun x => decide (x ≤ v)) ∘ u') = ks.countP ((fun x => decide (x ≤ v)) ∘ u) :=
    List.countP_congr fun k hk => by simpa using (e k hk).2
  rw [e1, e2]
  exact hk

/-- The median of a sample with a minority of far values does not depend on how far they are. -/
theorem npMedian_far (h : Spec.farApart ks far C T u u') (hm : Spec.farMinority ks far) (hCT : C ≤ T) :
    ∃ m, npMedian (ks.map u) = some m ∧ npMedian (ks.map u') = some m ∧ |m| ≤ C := by
  have hc := farApart_count h
  have hne : ks.map u ≠ [] := by
    intro e
    have : ks = [] := by simpa using e
    subst this
    simp [Spec.farMinority] at hm
  obtain ⟨m, hmed⟩ := npMedian_isSome hne
  obtain ⟨a, b, ha, hb, rfl⟩ := npMedian_eq_some_iff.1 hmed
  have hl : (ks.map u).length = ks.length := List.length_map _
  unfold Spec.farMinority at hm
  have h1 := isKth_between ha (-C) C (by omega) (by omega)
  have h2 := isKth_between hb (-C) C (by omega) (by omega)
  refine ⟨_, hmed, npMedian_eq_some_iff.2 ⟨a, b, ?_, ?_, rfl⟩, abs_le.2 ⟨by linarith [h1.1, h2.1], by linarith [h1.2, h2.2]⟩⟩
  · rw [List.length_map, ← hl]; exact isKth_far h ((abs_le.2 h1).trans hCT) ha
  · rw [List.length_map, ← hl]; exact isKth_far h ((abs_le.2 h2).trans hCT) hb

theorem farApart_abs (h : Spec.farApart ks far C T u u') {m : ℝ} (hm : |m| ≤ C) :
    Spec.farApart ks far (2 * C) (T - C) (fun k => |u k - m|) fun k => |u' k - m| := by
  obtain ⟨m1, m2⟩ := abs_le.1 hm
  intro k hk
  refine ⟨fun hf => ?_, fun hf => Or.inl ?_⟩
  · obtain ⟨e, hb⟩ := (h k hk).1 hf
    obtain ⟨b1, b2⟩ := abs_le.1 hb
    refine ⟨by simp only [e], ?_⟩
    simp only [abs_abs]
    exact abs_le.2 ⟨by linarith, by linarith⟩
  · rcases (h k hk).2 hf with ⟨a, b⟩ | ⟨a, b⟩
    · exact ⟨lt_of_lt_of_le (by linarith) (le_abs_self _), lt_of_lt_of_le (by linarith) (le_abs_self _)⟩
    · exact ⟨lt_of_lt_of_le (by linarith) (neg_le_abs _), lt_of_lt_of_le (by linarith) (neg_le_abs _)⟩

/-- Median and MAD of a sample with a minority of far values do not depend on how far they are. -/
theorem madRaw_far (h : Spec.farApart ks far C T u u') (hm : Spec.farMinority ks far) (hCT : 3 * C ≤ T) (hC : 0 ≤ C) :
    ∃ m s, npMedian (ks.map u) = some m ∧ npMedian (ks.map u') = some m ∧ madRaw (ks.map u) = some s ∧ madRaw (ks.map u') = some s ∧
      |m| ≤ C ∧ 0 ≤ s ∧ s ≤ 2 * C := by
  obtain ⟨m, h1, h2, h3⟩ := npMedian_far h hm (by linarith)
  obtain ⟨s, k1, k2, k3⟩ := npMedian_far (farApart_abs h h3) hm (by linarith)
  have e1 : madRaw (ks.map u) = some s := by
    unfold madRaw; rw [h1]; simp only [List.map_map]; exact k1
  have e2 : madRaw (ks.map u') = some s := by
    unfold madRaw; rw [h2]; simp only [List.map_map]; exact k2
  exact ⟨m, s, h1, h2, e1, e2, h3, madRaw_nonneg e1, (abs_le.1 k3).2⟩

theorem tukeyWeight_far {r : ℝ} (h : 3 < |r|) : oneStepWeight (.tukey (3:ℝ)) r = 0 := by
  unfold oneStepWeight
  rw [if_pos (by linarith)]
  simp only [Rho.psi, tukeyPsi]
  rw [if_neg (not_le.2 h), zero_div]

theorem huberPsi_far {b r : ℝ} (hb : 0 ≤ b) (h : b < |r|) : huberPsi b r ^ 2 = b ^ 2 := by
  unfold huberPsi npSign
  rw [if_neg (not_le.2 h)]
  split_ifs with h1 h2
  · ring
  · ring
  · exfalso
    have : r = 0 := le_antisymm (not_lt.1 h2) (not_lt.1 h1)
    rw [this, abs_zero] at h
    linarith

theorem map_far_eq {α : Type} (h : Spec.farApart ks far C T u u') (f : ℝ → α) (v : α) (hf : ∀ x, T < |x| → f x = v) (hT : 0 ≤ T) :
    (ks.map u').map f = (ks.map u).map f := by
  rw [List.map_map, List.map_map]
  apply List.map_congr_left
  intro k hk
  simp only [Function.comp_apply]
  cases hfar : far k
  · rw [((h k hk).1 hfar).1]
  · rcases (h k hk).2 hfar with ⟨a, b⟩ | ⟨a, b⟩
    · rw [hf _ (a.trans_le (le_abs_self _)), hf _ (b.trans_le (le_abs_self _))]
    · rw [hf _ (by rw [abs_of_neg (by linarith)]; linarith), hf _ (by rw [abs_of_neg (by linarith)]; linarith)]

/-- `CellwiseOneStepM` on a sample with a minority of far values: location and scale do not depend on how far they are. -/
theorem osm_far_real (h : Spec.farApart ks far C T u u') (hm : Spec.farMinority ks far) (hC : 0 ≤ C) (hT : 20 * C + 20 ≤ T) :
    oneStepLocation (.tukey (3:ℝ)) (1 / 10 ^ 12) (ks.map u') = oneStepLocation (.tukey 3) (1 / 10 ^ 12) (ks.map u) ∧
      oneStepScale (.huber (2.5:ℝ)) 0.845 (1 / 10 ^ 12) (ks.map u') = oneStepScale (.huber 2.5) 0.845 (1 / 10 ^ 12) (ks.map u) := by
  obtain ⟨m, s, h1, h2, h3, h4, hmC, hs0, hsC⟩ := madRaw_far h hm (by linarith) hC
  obtain ⟨m1, m2⟩ := abs_le.1 hmC
  have hq : (0:ℝ) < normalQuartile := normalQuartile_pos
  have hmad : s / normalQuartile ≤ 3 * C := by
    rw [div_le_iff₀ hq]
    unfold normalQuartile
    linarith
  have hmad0 : 0 ≤ s / normalQuartile := div_nonneg hs0 hq.le
  have hsafe : 0 < safeMad (1 / 10 ^ 12) (s / normalQuartile) ∧ safeMad (1 / 10 ^ 12) (s / normalQuartile) ≤ 3 * C + 1 := by
    unfold safeMad
    split_ifs with hlt
    · exact ⟨by norm_num, by linarith⟩
    · exact ⟨lt_of_lt_of_le (by positivity) (not_lt.1 hlt), by linarith⟩
  have hdev : ∀ x : ℝ, T < |x| → T - C < |x - m| := by
    intro x hx
    have := abs_sub_abs_le_abs_sub x m
    linarith
  constructor
  · unfold oneStepLocation
    rw [h1, h2, h3, h4]
    simp only
    unfold weightedMean
    have hw : ∀ x : ℝ, T < |x| → oneStepWeight (.tukey (3:ℝ)) ((x - m) / safeMad (1 / 10 ^ 12) (s / normalQuartile)) = 0 := by
      intro x hx
      apply tukeyWeight_far
      rw [abs_div, abs_of_pos hsafe.1, lt_div_iff₀ hsafe.1]
      have := hdev x hx
      linarith [hsafe.2]
    rw [map_far_eq h _ 0 hw (by linarith), map_far_eq h (fun x => oneStepWeight (.tukey (3:ℝ)) ((x - m) / safeMad (1 / 10 ^ 12)
      (s / normalQuartile)) * x) 0 (fun x hx => by rw [hw x hx, zero_mul]) (by linarith)]
  · unfold oneStepScale
    rw [h1, h2, h3, h4]
    simp only
    split_ifs with hlt
    · rfl
    · have hpos : 0 < s / normalQuartile := lt_of_lt_of_le (by positivity) (not_lt.1 hlt)
      rw [map_far_eq h (fun x => (Rho.huber (2.5:ℝ)).psi ((x - m) / (s / normalQuartile)) ^ 2) (2.5 ^ 2) (fun x hx => ?_) (by linarith)]
      apply huberPsi_far (by norm_num)
      rw [abs_div, abs_of_pos hpos, lt_div_iff₀ hpos]
      have := hdev x hx
      linarith

end

/-! ### Samples with missing values -/

namespace Spec

/-- Two samples with missing values indexed by `ks`: equal, and bounded by `C`, where `far` is false; where `far` is true both are
missing or both lie beyond `T` on the same side. -/
def farCells (ks : List ℕ) (far : ℕ → Bool) (C T : ℝ) (v v' : ℕ → Option ℝ) : Prop :=
  ∀ k ∈ ks, (far k = false → v' k = v k ∧ ∀ x, v k = some x → |x| ≤ C) ∧
    (far k = true → (v k = none ∧ v' k = none) ∨
      ∃ x x', v k = some x ∧ v' k = some x' ∧ ((T < x ∧ T < x') ∨ (x < -T ∧ x' < -T)))

end Spec

section
variable {ks : List ℕ} {far : ℕ → Bool} {C T : ℝ} {v v' : ℕ → Option ℝ}

theorem farCells_none (h : Spec.farCells ks far C T v v') : ∀ k ∈ ks, (v' k = none ↔ v k = none) := by
  intro k hk
  cases hf : far k
  · rw [((h k hk).1 hf).1]
  · rcases (h k hk).2 hf with ⟨a, b⟩ | ⟨x, x', a, b, -⟩
    · simp [a, b]
    · simp [a, b]

theorem farCells_apart (h : Spec.farCells ks far C T v v') (hv : ∀ k ∈ ks, v k ≠ none) :
    Spec.farApart ks far C T (fun k => (v k).getD 0) fun k => (v' k).getD 0 := by
  intro k hk
  refine ⟨fun hf => ?_, fun hf => ?_⟩
  · obtain ⟨e, hb⟩ := (h k hk).1 hf
    rcases hx : v k with _ | x
    · exact absurd hx (hv k hk)
    · rw [hx] at e
      simpa [e, hx] using hb x hx
  · rcases (h k hk).2 hf with ⟨a, -⟩ | ⟨x, x', a, b, hside⟩
    · exact absurd a (hv k hk)
    · simpa [a, b] using hside

theorem map_getD {v : ℕ → Option ℝ} (hv : ∀ k ∈ ks, v k ≠ none) : ks.map v = (ks.map fun k => (v k).getD 0).map some := by
  rw [List.map_map]
  apply List.map_congr_left
  intro k hk
  rcases hx : v k with _ | x
  · exact absurd hx (hv k hk)
  · simp [hx]

/-- `CellwiseOneStepM` with missing values: the same exception, or the same location and scale. -/
theorem osm_far (h : Spec.farCells ks far C T v v') (hm : Spec.farMinority ks far) (hC : 0 ≤ C) (hT : 20 * C + 20 ≤ T) :
    cellwiseOSM (ks.map v') = cellwiseOSM (ks.map v) := by
  by_cases hn : ∃ k ∈ ks, v k = none
  · obtain ⟨k, hk, hnone⟩ := hn
    unfold cellwiseOSM oneStepM
    rw [if_pos, if_pos]
    · exact List.any_eq_true.2 ⟨_, List.mem_map.2 ⟨k, hk, hnone⟩, rfl⟩
    · exact List.any_eq_true.2 ⟨_, List.mem_map.2 ⟨k, hk, (farCells_none h k hk).2 hnone⟩, rfl⟩
  · push Not at hn
    have hn' : ∀ k ∈ ks, v' k ≠ none := fun k hk e => hn k hk ((farCells_none h k hk).1 e)
    obtain ⟨e1, e2⟩ := osm_far_real (farCells_apart h hn) hm hC hT
    have hid : ∀ l : List ℝ, (l.map some).filterMap id = l := fun l => by simp
    unfold cellwiseOSM oneStepM
    rw [map_getD hn, map_getD hn', if_neg (by simp), if_neg (by simp)]
    simp only [hid, e1, e2]

/-- `np.median` with missing values (NaN when one of them is missing). -/
theorem median_far (h : Spec.farCells ks far C T v v') (hm : Spec.farMinority ks far) (hCT : C ≤ T) :
    (allSome (ks.map v')).bind npMedian = (allSome (ks.map v)).bind npMedian := by
  by_cases hn : ∃ k ∈ ks, v k = none
  · obtain ⟨k, hk, hnone⟩ := hn
    rw [allSome_eq, allSome_eq, if_pos (List.mem_map.2 ⟨k, hk, (farCells_none h k hk).2 hnone⟩), if_pos (List.mem_map.2 ⟨k, hk, hnone⟩)]
  · push Not at hn
    have hn' : ∀ k ∈ ks, v' k ≠ none := fun k hk e => hn k hk ((farCells_none h k hk).1 e)
    obtain ⟨m, e1, e2, -⟩ := npMedian_far (farCells_apart h hn) hm hCT
    have hid : ∀ l : List ℝ, allSome (l.map some) = some l := fun l => by rw [allSome_eq, if_neg (by simp)]; simp
    rw [map_getD hn, map_getD hn', hid, hid, Option.bind_some, Option.bind_some, e1, e2]

end

end Robpy
