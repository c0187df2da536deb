import Verif.Props.DDCFarCol
import Verif.Props.DDCColumns

/-! C186: how far the far cells are does not matter to `DDC`, and it flags them. -/

namespace Robpy

namespace Spec

/-- `X` is `X₀` with the cells in `S` replaced by numbers beyond `B`: above `B` where `up` is true, below `-B` elsewhere. -/
structure pushed (X₀ : CellFrame (Option ℝ)) (S up : ℕ → ℕ → Bool) (B : ℝ) (X : CellFrame (Option ℝ)) : Prop where
  rows : X.n = X₀.n
  cols : X.p = X₀.p
  keep : ∀ k i, S k i = false → X.cell k i = X₀.cell k i
  far : ∀ k i, S k i = true → ∃ x, X.cell k i = some x ∧ ((up k i = true ∧ B < x) ∨ (up k i = false ∧ x < -B))

/-- The rows in which column `i` is not missing. -/
def filled (X₀ : CellFrame (Option ℝ)) (S : ℕ → ℕ → Bool) (i : ℕ) : List ℕ :=
  (List.range X₀.n).filter fun k => S k i || (X₀.cell k i).isSome

end Spec

section
variable {F : Type} {env : DDCEnv F} {n p : ℕ}

theorem mapExcept_congr {α β : Type} {f g : α → Except PyErr β} (l : List α) (h : ∀ a ∈ l, f a = g a) : mapExcept f l = mapExcept g l := by
  induction l with
  | nil => rfl
  | cons a l ih =>
    unfold mapExcept
    rw [h a List.mem_cons_self, ih fun b hb => h b (List.mem_cons_of_mem _ hb)]

theorem tabulate_congr {f g : ℕ → Except PyErr F} (h : ∀ i < p, f i = g i) : tabulate env p f = tabulate env p g := by
  unfold tabulate
  rw [mapExcept_congr _ fun i hi => h i (List.mem_range.1 hi)]

theorem tabulate2_congr {f g : ℕ → ℕ → Except PyErr F} (h : ∀ i < p, ∀ j < p, f i j = g i j) : tabulate2 env p f = tabulate2 env p g := by
  unfold tabulate2
  rw [mapExcept_congr _ fun i hi => tabulate_congr (h i (List.mem_range.1 hi))]

theorem commonRows_congr {U U' : ℕ → ℕ → F} (h : ∀ k < n, ∀ i < p, U' k i = U k i) {i j : ℕ} (hi : i < p) (hj : j < p) :
    commonRows env n U' i j = commonRows env n U i j := by
  unfold commonRows
  congr 1
  apply List.map_congr_left
  intro k hk
  rw [h k (List.mem_range.1 hk) i hi, h k (List.mem_range.1 hk) j hj]

theorem robustCorrelation_congr {U U' : ℕ → ℕ → F} (h : ∀ k < n, ∀ i < p, U' k i = U k i) (c : F) (v : Bool) :
    robustCorrelation env c n p U' v = robustCorrelation env c n p U v := by
  unfold robustCorrelation
  split_ifs
  · rfl
  · apply tabulate2_congr
    intro i hi j hj
    rw [commonRows_congr (env := env) h (min_lt_of_left_lt hi : min i j < p) (max_lt hi hj)]

theorem getSlopes_congr {U U' : ℕ → ℕ → F} (h : ∀ k < n, ∀ i < p, U' k i = U k i) (cfg : DDCConfig F) (corr : ℕ → ℕ → F) :
    getSlopes env cfg n p U' corr = getSlopes env cfg n p U corr := by
  unfold getSlopes
  apply tabulate2_congr
  intro i hi j hj
  rw [commonRows_congr (env := env) h hi hj]

theorem predictCell_congr {corr slopes : ℕ → ℕ → F} {row row' : ℕ → F} (h : ∀ j < p, row' j = row j) (i : ℕ) :
    predictCell env p corr slopes row' i = predictCell env p corr slopes row i := by
  have hw : ∀ j < p, predWeight env corr row' i j = predWeight env corr row i j := by
    intro j hj
    unfold predWeight
    rw [h j hj]
  have hsum : predWeightSum env p corr row' i = predWeightSum env p corr row i := by
    unfold predWeightSum
    rw [List.map_congr_left fun j hj => hw j (List.mem_range.1 hj)]
  unfold predictCell
  simp only
  rw [hsum]
  apply foldl_congr_mem
  intro b j hj
  rw [hw j (List.mem_range.1 hj), h j (List.mem_range.1 hj)]

theorem fitScaler_congr {X X' : CellFrame F} (is : List ℕ) (ls ss : List F)
    (h : ∀ i ∈ is, env.est ((colList X'.n X'.cell i).filter env.ok) = env.est ((colList X.n X.cell i).filter env.ok)) :
    fitScaler env X' is ls ss = fitScaler env X is ls ss := by
  induction is generalizing ls ss with
  | nil => rfl
  | cons i is ih =>
    unfold fitScaler
    rw [h i List.mem_cons_self]
    rcases env.est ((colList X.n X.cell i).filter env.ok) with e | ⟨l, s⟩
    · rfl
    · exact ih _ _ fun j hj => h j (List.mem_cons_of_mem _ hj)

end

/-- A threshold for every column gives a threshold for all columns. -/
theorem exists_uniform {Q : ℕ → ℝ → Prop} (hm : ∀ i B B', B ≤ B' → Q i B → Q i B') (p : ℕ) (h : ∀ i < p, ∃ B, Q i B) (B₀ : ℝ) :
    ∃ B, B₀ ≤ B ∧ ∀ i < p, Q i B := by
  induction p with
  | zero => exact ⟨B₀, le_rfl, fun i hi => absurd hi (Nat.not_lt_zero i)⟩
  | succ p ih =>
    obtain ⟨B₁, hB₁, h1⟩ := ih fun i hi => h i (by omega)
    obtain ⟨B₂, h2⟩ := h p (by omega)
    refine ⟨max B₁ B₂, hB₁.trans (le_max_left _ _), fun i hi => ?_⟩
    rcases Nat.lt_succ_iff_lt_or_eq.1 hi with hlt | rfl
    · exact hm _ _ _ (le_max_left _ _) (h1 i hlt)
    · exact hm _ _ _ (le_max_right _ _) h2

section
variable {round3 cdf : ℝ → ℝ} {X₀ X X' : CellFrame (Option ℝ)} {S up : ℕ → ℕ → Bool} {B : ℝ}

theorem pushed_mono {B' : ℝ} (h : Spec.pushed X₀ S up B' X) (hB : B ≤ B') : Spec.pushed X₀ S up B X :=
  ⟨h.rows, h.cols, h.keep, fun k i hS => by
    obtain ⟨x, hx, hside⟩ := h.far k i hS
    exact ⟨x, hx, hside.imp (fun a => ⟨a.1, by linarith [a.2]⟩) fun a => ⟨a.1, by linarith [a.2]⟩⟩⟩

theorem replaceInf_real {est : List (Option ℝ) → Except PyErr (Option ℝ × Option ℝ)} (X : CellFrame (Option ℝ)) :
    replaceInf (realEnv round3 cdf est) X = X := by
  unfold replaceInf
  simp [realEnv]

theorem pushed_isSome (h : Spec.pushed X₀ S up B X) (k i : ℕ) : (X.cell k i).isSome = (S k i || (X₀.cell k i).isSome) := by
  cases hS : S k i
  · rw [h.keep k i hS]; rfl
  · obtain ⟨x, hx, -⟩ := h.far k i hS
    rw [hx]; rfl

/-- Two frames with far cells, column by column. -/
theorem pushed_farCells (i : ℕ) : ∃ C, 0 ≤ C ∧ ∀ B X X', Spec.pushed X₀ S up B X → Spec.pushed X₀ S up B X' →
    Spec.farCells (List.range X₀.n) (fun k => S k i) C B (fun k => X.cell k i) fun k => X'.cell k i := by
  obtain ⟨C, hC, hb⟩ := exists_bound (List.range X₀.n) fun k => X₀.cell k i
  refine ⟨C, hC, fun B X X' h h' k hk => ⟨fun hS => ?_, fun hS => ?_⟩⟩
  · simp only [h.keep k i hS, h'.keep k i hS]
    exact ⟨trivial, hb k hk⟩
  · obtain ⟨x, hx, s1⟩ := h.far k i hS
    obtain ⟨x', hx', s2⟩ := h'.far k i hS
    right
    refine ⟨x, x', hx, hx', ?_⟩
    rcases s1 with ⟨u, a⟩ | ⟨u, a⟩ <;> rcases s2 with ⟨u', b⟩ | ⟨u', b⟩
    · exact Or.inl ⟨a, b⟩
    · rw [u] at u'; cases u'
    · rw [u] at u'; cases u'
    · exact Or.inr ⟨a, b⟩

/-- One cell of the standardised data. -/
noncomputable def zOf (l s x : Option ℝ) : Option ℝ := divNaN (liftNaN (· - ·) x l) s

theorem zOf_none (l s : Option ℝ) : (∀ x, zOf l s x = none) ∨ ∀ x, (zOf l s x = none ↔ x = none) := by
  unfold zOf divNaN
  by_cases h0 : s = some 0
  · left; simp [h0]
  simp only [if_neg h0]
  rcases s with _ | s
  · left; intro x; rcases x with _ | x <;> rcases l with _ | l <;> rfl
  rcases l with _ | l
  · left; intro x; rcases x with _ | x <;> rfl
  · right; intro x; rcases x with _ | x <;> simp [liftNaN]

/-- The standardised column. -/
theorem zcol_far (i : ℕ) (l s : Option ℝ) : ∃ C, 0 ≤ C ∧ ∀ T, ∃ B, ∀ X X', Spec.pushed X₀ S up B X → Spec.pushed X₀ S up B X' →
    Spec.farCells (List.range X₀.n) (fun k => S k i) C T (fun k => zOf l s (X.cell k i)) fun k => zOf l s (X'.cell k i) := by
  obtain ⟨C, hC, h⟩ := pushed_farCells (X₀ := X₀) (S := S) (up := up) i
  obtain ⟨L, hL, hLb⟩ := exists_bound [0] fun _ => l
  obtain ⟨G, hG, hGb⟩ := exists_bound [0] fun _ => s
  obtain ⟨H, hH, hHb⟩ := exists_bound [0] fun _ => s.map fun y => 1 / y
  refine ⟨(C + L) * H, mul_nonneg (add_nonneg hC hL) hH, fun T => ⟨L + (G + 1) * max T 0, fun X X' hX hX' => ?_⟩⟩
  have h1 := farCells_sub (h _ X X' hX hX') (fun _ => l) (G := L) fun k _ y hy => hLb 0 (by simp) y hy
  have h2 := farCells_div h1 (fun _ => s) (G := G + 1) (H := H) (by linarith)
    (by have := mul_nonneg (add_nonneg hG zero_le_one) (le_max_right T 0); linarith) (add_nonneg hC hL)
    (fun k _ y hy => (hGb 0 (by simp) y hy).trans (by linarith)) fun k _ y hy => hHb 0 (by simp) _ (by simp [hy])
  refine farCells_mono h2 le_rfl ?_
  have : (L + (G + 1) * max T 0 - L) / (G + 1) = max T 0 := by
    field_simp
    ring
  rw [this]
  exact le_max_left _ _

/-- After the far cells of the standardised data have been set to missing, nothing is left of them. -/
theorem flag_far {ks : List ℕ} {far : ℕ → Bool} {C T c : ℝ} {v v' : ℕ → Option ℝ}
    {est : List (Option ℝ) → Except PyErr (Option ℝ × Option ℝ)} (h : Spec.farCells ks far C T v v') (hc : |c| ≤ T) :
    ∀ k ∈ ks, univariateFlag (realEnv round3 cdf est) (some c) (v' k) = univariateFlag (realEnv round3 cdf est) (some c) (v k) := by
  intro k hk
  cases hf : far k
  · rw [((h k hk).1 hf).1]
  · have hflag : ∀ x : ℝ, (T < x ∨ x < -T) → univariateFlag (realEnv round3 cdf est) (some c) (some x) = none := by
      intro x hx
      have hlt : c < |x| := by
        have hc' := le_abs_self c
        rcases hx with hx | hx
        · exact lt_of_lt_of_le (by linarith) (le_abs_self x)
        · exact lt_of_lt_of_le (by linarith) (neg_le_abs x)
      unfold univariateFlag
      simp [realEnv, liftRel, hlt]
    rcases (h k hk).2 hf with ⟨a, b⟩ | ⟨x, x', a, b, hside⟩
    · rw [a, b]
    · rw [a, b, hflag x (hside.imp And.left And.left), hflag x' (hside.imp And.right And.right)]

/-- The non-missing entries of a column, in row order. -/
theorem okFilter {est : List (Option ℝ) → Except PyErr (Option ℝ × Option ℝ)} {n : ℕ} (w : ℕ → Option ℝ) (sel : ℕ → Bool)
    (h : ∀ k < n, (w k).isSome = sel k) :
    ((List.range n).map w).filter (realEnv round3 cdf est).ok = ((List.range n).filter sel).map w := by
  rw [List.filter_map]
  congr 1
  apply List.filter_congr
  intro k hk
  rw [← h k (List.mem_range.1 hk)]
  simp only [Function.comp_apply, DDCEnv.ok, realEnv]
  cases w k <;> rfl

theorem filled_lt {i k : ℕ} (hk : k ∈ Spec.filled X₀ S i) : k ∈ List.range X₀.n := (List.mem_filter.1 hk).1

/-- Location and scale of a column. -/
theorem est_far (i : ℕ) (hm : Spec.farMinority (Spec.filled X₀ S i) fun k => S k i) :
    ∃ B, ∀ X X', Spec.pushed X₀ S up B X → Spec.pushed X₀ S up B X' →
      cellwiseOSM ((colList X'.n X'.cell i).filter (realEnv round3 cdf cellwiseOSM).ok) =
        cellwiseOSM ((colList X.n X.cell i).filter (realEnv round3 cdf cellwiseOSM).ok) := by
  obtain ⟨C, hC, h⟩ := pushed_farCells (X₀ := X₀) (S := S) (up := up) i
  refine ⟨20 * C + 20, fun X X' hX hX' => ?_⟩
  have e : ∀ Y, Spec.pushed X₀ S up (20 * C + 20) Y → (colList Y.n Y.cell i).filter (realEnv round3 cdf cellwiseOSM).ok =
      (Spec.filled X₀ S i).map fun k => Y.cell k i := by
    intro Y hY
    unfold colList Spec.filled
    rw [hY.rows]
    exact okFilter _ _ fun k _ => pushed_isSome hY k i
  rw [e X hX, e X' hX']
  exact osm_far (farCells_subset (h _ X X' hX hX') fun k hk => filled_lt hk) hm hC le_rfl

/-- The rows in which the standardised column is not missing. -/
theorem zfilled {l s : Option ℝ} {i : ℕ} (hg : ∀ x, (zOf l s x = none ↔ x = none)) (hX : Spec.pushed X₀ S up B X) :
    ((List.range X₀.n).filter fun k => (realEnv round3 cdf cellwiseOSM).ok (zOf l s (X.cell k i))) = Spec.filled X₀ S i := by
  unfold Spec.filled
  apply List.filter_congr
  intro k _
  rw [← pushed_isSome hX k i]
  simp only [DDCEnv.ok, realEnv]
  rcases hx : X.cell k i with _ | x
  · rw [(hg none).2 rfl]; rfl
  · rcases hz : zOf l s (some x) with _ | z
    · have := (hg (some x)).1 hz; cases this
    · rfl

theorem zempty {l s : Option ℝ} {i n : ℕ} (hg : ∀ x, zOf l s x = none) :
    ((List.range n).filter fun k => (realEnv round3 cdf cellwiseOSM).ok (zOf l s (X.cell k i))) = [] := by
  rw [List.filter_eq_nil_iff]
  intro k _
  rw [hg]
  simp [DDCEnv.ok, realEnv]

/-- The deshrinkage factor of a column. -/
theorem desh_far (i : ℕ) (l s : Option ℝ) (g : ℕ → Option ℝ) (c : ℝ) (hm : Spec.farMinority (Spec.filled X₀ S i) fun k => S k i)
    (hm2 : Spec.farMinority ((Spec.filled X₀ S i).filter fun k => decide (g k ≠ some 0)) (fun k => S k i) ∨
      (Spec.filled X₀ S i).filter (fun k => decide (g k ≠ some 0)) = []) :
    ∃ B, ∀ X X', Spec.pushed X₀ S up B X → Spec.pushed X₀ S up B X' →
      robustSlope (realEnv round3 cdf cellwiseOSM) (some c) (((List.range X₀.n).filter fun k =>
          (realEnv round3 cdf cellwiseOSM).ok (zOf l s (X'.cell k i))).map fun k => (g k, zOf l s (X'.cell k i))) =
        robustSlope (realEnv round3 cdf cellwiseOSM) (some c) (((List.range X₀.n).filter fun k =>
          (realEnv round3 cdf cellwiseOSM).ok (zOf l s (X.cell k i))).map fun k => (g k, zOf l s (X.cell k i))) := by
  rcases zOf_none l s with hd | hg
  · refine ⟨0, fun X X' _ _ => ?_⟩
    rw [zempty hd, zempty hd]
    rfl
  · obtain ⟨C, hC, h⟩ := zcol_far (X₀ := X₀) (S := S) (up := up) i l s
    obtain ⟨T, hT⟩ := slope_far (round3 := round3) (cdf := cdf) (est := cellwiseOSM) (Spec.filled X₀ S i) (fun k => S k i) g c hC hm hm2
    obtain ⟨B, hB⟩ := h T
    refine ⟨B, fun X X' hX hX' => ?_⟩
    rw [zfilled hg hX, zfilled hg hX']
    exact hT T le_rfl (fun k => zOf l s (X.cell k i)) (fun k => zOf l s (X'.cell k i))
      (farCells_subset (hB X X' hX hX') fun k hk => filled_lt hk)

/-- The rows in which the residual is not missing. -/
theorem resfilled {l s : Option ℝ} {i : ℕ} {g : ℕ → Option ℝ} (hg : ∀ x, (zOf l s x = none ↔ x = none)) (hX : Spec.pushed X₀ S up B X)
    (hpg : ∀ k ∈ Spec.filled X₀ S i, g k ≠ none) :
    (((List.range X₀.n).map fun k => liftNaN (· - ·) (zOf l s (X.cell k i)) (g k)).filter (realEnv round3 cdf cellwiseOSM).ok) =
      (Spec.filled X₀ S i).map fun k => liftNaN (· - ·) (zOf l s (X.cell k i)) (g k) := by
  refine okFilter (round3 := round3) (cdf := cdf) (est := cellwiseOSM) _ (fun k => S k i || (X₀.cell k i).isSome) fun k hk => ?_
  rw [← pushed_isSome hX k i]
  rcases hx : X.cell k i with _ | x
  · rw [(hg none).2 rfl]; rfl
  · have hk' : k ∈ Spec.filled X₀ S i := List.mem_filter.2 ⟨List.mem_range.2 hk, by rw [← pushed_isSome hX k i, hx]; rfl⟩
    rcases hz : zOf l s (some x) with _ | z
    · have := (hg (some x)).1 hz; cases this
    · rcases hgk : g k with _ | y
      · exact absurd hgk (hpg k hk')
      · rfl

/-- The scale of the residuals of a column. -/
theorem res_far (i : ℕ) (l s : Option ℝ) (g : ℕ → Option ℝ) (hm : Spec.farMinority (Spec.filled X₀ S i) fun k => S k i)
    (hpg : (∀ x, (zOf l s x = none ↔ x = none)) → ∀ k ∈ Spec.filled X₀ S i, g k ≠ none) :
    ∃ B, ∀ X X', Spec.pushed X₀ S up B X → Spec.pushed X₀ S up B X' →
      cellwiseOSM (((List.range X₀.n).map fun k => liftNaN (· - ·) (zOf l s (X'.cell k i)) (g k)).filter
          (realEnv round3 cdf cellwiseOSM).ok) =
        cellwiseOSM (((List.range X₀.n).map fun k => liftNaN (· - ·) (zOf l s (X.cell k i)) (g k)).filter
          (realEnv round3 cdf cellwiseOSM).ok) := by
  rcases zOf_none l s with hd | hg
  · refine ⟨0, fun X X' _ _ => ?_⟩
    simp only [hd]
  · obtain ⟨C, hC, h⟩ := zcol_far (X₀ := X₀) (S := S) (up := up) i l s
    obtain ⟨G, hG, hGb⟩ := exists_bound (Spec.filled X₀ S i) g
    obtain ⟨B, hB⟩ := h (20 * (C + G) + 20 + G)
    refine ⟨B, fun X X' hX hX' => ?_⟩
    rw [resfilled hg hX (hpg hg), resfilled hg hX' (hpg hg)]
    exact osm_far (farCells_sub (farCells_subset (hB X X' hX hX') fun k hk => filled_lt hk) g hGb) hm (add_nonneg hC hG) (by linarith)

/-- The far cells of a column are flagged. -/
theorem flagged_far (i : ℕ) (l s : Option ℝ) (g : ℕ → Option ℝ) (c : ℝ) {r : ℝ} (hr : r ≠ 0)
    (hg : ∀ x, (zOf l s x = none ↔ x = none)) (hpg : ∀ k ∈ Spec.filled X₀ S i, g k ≠ none) :
    ∃ B, ∀ X, Spec.pushed X₀ S up B X → ∀ k < X₀.n, S k i = true →
      liftRel (· < ·) (some c) ((divNaN (liftNaN (· - ·) (zOf l s (X.cell k i)) (g k)) (some r)).map fun a => |a|) = true := by
  obtain ⟨C, hC, h⟩ := zcol_far (X₀ := X₀) (S := S) (up := up) i l s
  obtain ⟨G, hG, hGb⟩ := exists_bound (Spec.filled X₀ S i) g
  obtain ⟨B, hB⟩ := h (|c| * |r| + G)
  refine ⟨B, fun X hX k hk hS => ?_⟩
  have hk' : k ∈ Spec.filled X₀ S i := List.mem_filter.2 ⟨List.mem_range.2 hk, by rw [hS]; rfl⟩
  have hf := farCells_sub (farCells_subset (hB X X hX hX) fun k hk => filled_lt hk) g hGb
  obtain ⟨x, hx, -⟩ := hX.far k i hS
  rcases (hf k hk').2 hS with ⟨a, -⟩ | ⟨y, y', a, -, hside⟩
  · exfalso
    simp only at a
    rw [hx] at a
    rcases hz : zOf l s (some x) with _ | z
    · have := (hg (some x)).1 hz; cases this
    · rcases hgk : g k with _ | w
      · exact hpg k hk' hgk
      · rw [hz, hgk] at a; simp [liftNaN] at a
  · simp only at a
    rw [a]
    have hy : |c| * |r| < |y| := by
      rcases hside with ⟨b, -⟩ | ⟨b, -⟩
      · exact lt_of_lt_of_le (by linarith) (le_abs_self y)
      · exact lt_of_lt_of_le (by linarith) (neg_le_abs y)
    have h0 : (some r : Option ℝ) ≠ some 0 := fun e => hr (Option.some.inj e)
    have hlt : c < |y / r| := by
      rw [abs_div, lt_div_iff₀ (abs_pos.2 hr)]
      exact lt_of_le_of_lt (mul_le_mul_of_nonneg_right (le_abs_self c) (abs_nonneg r)) hy
    simp [divNaN, hr, liftNaN, liftRel, hlt]

theorem zCells_zOf {est : List (Option ℝ) → Except PyErr (Option ℝ × Option ℝ)} (ls ss : List (Option ℝ)) (X : CellFrame (Option ℝ)) :
    zCells (realEnv round3 cdf est) ls ss X = fun k i => zOf (ls.getD i none) (ss.getD i none) (X.cell k i) := by
  funext k i
  unfold zCells
  rw [replaceInf_real]
  rfl

/-- The data after the univariate flagging. -/
theorem uni_far (ls ss : List (Option ℝ)) (c : ℝ) (B₀ : ℝ) : ∃ B, B₀ ≤ B ∧ ∀ i < X₀.p, ∀ X X', Spec.pushed X₀ S up B X → Spec.pushed X₀ S up B X' →
    ∀ k < X₀.n, univariateFlag (realEnv round3 cdf cellwiseOSM) (some c) (zCells (realEnv round3 cdf cellwiseOSM) ls ss X' k i) =
      univariateFlag (realEnv round3 cdf cellwiseOSM) (some c) (zCells (realEnv round3 cdf cellwiseOSM) ls ss X k i) := by
  apply exists_uniform (Q := fun i B => ∀ X X', Spec.pushed X₀ S up B X → Spec.pushed X₀ S up B X' →
    ∀ k < X₀.n, univariateFlag (realEnv round3 cdf cellwiseOSM) (some c) (zCells (realEnv round3 cdf cellwiseOSM) ls ss X' k i) =
      univariateFlag (realEnv round3 cdf cellwiseOSM) (some c) (zCells (realEnv round3 cdf cellwiseOSM) ls ss X k i))
  · intro i B B' hB h X X' hX hX'
    exact h X X' (pushed_mono hX hB) (pushed_mono hX' hB)
  · intro i _
    obtain ⟨C, hC, h⟩ := zcol_far (X₀ := X₀) (S := S) (up := up) i (ls.getD i none) (ss.getD i none)
    obtain ⟨B, hB⟩ := h |c|
    refine ⟨B, fun X X' hX hX' k hk => ?_⟩
    rw [zCells_zOf, zCells_zOf]
    exact flag_far (hB X X' hX hX') le_rfl k (List.mem_range.2 hk)

/-- Whether a standardised residual is missing does not depend on how far the far cells are. -/
theorem std_none (l s g r : Option ℝ) (i k : ℕ) (hX : Spec.pushed X₀ S up B X) (hX' : Spec.pushed X₀ S up B X') :
    divNaN (liftNaN (· - ·) (zOf l s (X'.cell k i)) g) r = none ↔ divNaN (liftNaN (· - ·) (zOf l s (X.cell k i)) g) r = none := by
  have hc : X'.cell k i = none ↔ X.cell k i = none := by
    rw [← Option.isNone_iff_eq_none, ← Option.isNone_iff_eq_none, ← Option.not_isSome, ← Option.not_isSome, pushed_isSome hX, pushed_isSome hX']
  have hz : zOf l s (X'.cell k i) = none ↔ zOf l s (X.cell k i) = none := by
    rcases zOf_none l s with hd | hg
    · simp [hd]
    · rw [hg, hg, hc]
  unfold divNaN
  split_ifs
  · simp
  · rcases h1 : zOf l s (X'.cell k i) with _ | a <;> rcases h2 : zOf l s (X.cell k i) with _ | b
    · exact Iff.rfl
    · have := hz.1 h1; rw [h2] at this; cases this
    · have := hz.2 h2; rw [h1] at this; cases this
    · rcases g with _ | g <;> rcases r with _ | r <;> simp [liftNaN]

/-- The one-step M-estimator rejects missing values. -/
theorem osm_ok_mem {l : List (Option ℝ)} {q : Option ℝ × Option ℝ} (h : cellwiseOSM l = .ok q) : ∀ x ∈ l, x ≠ none := by
  intro x hx hn
  unfold cellwiseOSM oneStepM at h
  rw [if_pos (List.any_eq_true.2 ⟨x, hx, by rw [hn]; rfl⟩)] at h
  cases h

/-- The mean of the row is missing when all its entries are. -/
theorem nanmean_none {est : List (Option ℝ) → Except PyErr (Option ℝ × Option ℝ)} (l : List (Option ℝ)) :
    (realEnv round3 cdf est).nanmean l = none ↔ ∀ x ∈ l, x = none := by
  simp only [realEnv]
  split_ifs with h
  · simp only [true_iff]
    intro x hx
    rcases x with _ | x
    · rfl
    · have : x ∈ l.filterMap id := List.mem_filterMap.2 ⟨some x, hx, rfl⟩
      rw [List.isEmpty_iff.1 h] at this
      cases this
  · simp only [reduceCtorEq, false_iff]
    intro hall
    apply h
    rw [List.isEmpty_iff, List.filterMap_eq_nil_iff]
    exact hall

namespace Spec

/-- The far cells are also a minority among the cells of each column whose (unscaled) prediction is not 0. -/
def minorityPredicted (X₀ : CellFrame (Option ℝ)) (S : ℕ → ℕ → Bool) (g : ℕ → ℕ → Option ℝ) : Prop :=
  ∀ i < X₀.p, farMinority ((filled X₀ S i).filter fun k => decide (g k i ≠ some 0)) (fun k => S k i) ∨
    (filled X₀ S i).filter (fun k => decide (g k i ≠ some 0)) = []

/-- Two fits that differ only in what they report about the far cells and the rows. -/
structure farFit (X₀ : CellFrame (Option ℝ)) (S : ℕ → ℕ → Bool) (st st' : DDCState (Option ℝ)) : Prop where
  location : st'.location = st.location
  scale : st'.scale = st.scale
  corr : st'.corr = st.corr
  slopes : st'.slopes = st.slopes
  deshrink : st'.deshrink = st.deshrink
  resScales : st'.resScales = st.resScales
  rawPred : bothSet (fun a b => ∀ k < X₀.n, ∀ i < X₀.p, a k i = b k i) st'.rawPred st.rawPred
  pred : bothSet (fun a b => ∀ k < X₀.n, ∀ i < X₀.p, a k i = b k i) st'.pred st.pred
  rescaled : bothSet (fun a b => ∀ k < X₀.n, ∀ i < X₀.p, a k i = b k i) st'.rescaled st.rescaled
  stdRes : bothSet (fun a b => ∀ k < X₀.n, ∀ i < X₀.p, S k i = false → a k i = b k i) st'.stdRes st.stdRes
  cellwise : bothSet (fun a b => a.1 = b.1 ∧ ∀ k < X₀.n, ∀ i < X₀.p, S k i = false → a.2 k i = b.2 k i) st'.cellwise st.cellwise

/-- The far cells are flagged in every column whose residuals have a scale that is not 0. -/
def farFlagged (X₀ : CellFrame (Option ℝ)) (S : ℕ → ℕ → Bool) (st : DDCState (Option ℝ)) : Prop :=
  ∀ fl rs, st.cellwise = some fl → st.resScales = some rs → ∀ i < X₀.p, ∀ r, rs i = some r → r ≠ 0 →
    ∀ k < X₀.n, S k i = true → fl.2 k i = true

end Spec

/-- C186.  How far the far cells are does not matter to a fit, and they are flagged: when fewer than half of the cells of each column
are far (beyond a bound that depends only on the other cells), and also fewer than half of those whose prediction is not 0. -/
theorem C186_far (c m : Option ℝ) {c₀ : ℝ} (hc : c = some c₀) (v : Bool) (h1 : ∀ i < X₀.p, Spec.farMinority (Spec.filled X₀ S i) fun k => S k i) :
    ∃ B, ∀ X X', Spec.pushed X₀ S up B X → Spec.pushed X₀ S up B X' → ddcCheck (realEnv round3 cdf cellwiseOSM) X' = .ok () →
      ∀ st₀ st₁ st, ddcFit (realEnv round3 cdf cellwiseOSM) ⟨c, m⟩ v st₀ X = (.ok (), st) →
      (∀ g, st.rawPred = some g → Spec.minorityPredicted X₀ S g) →
      ∃ st', ddcFit (realEnv round3 cdf cellwiseOSM) ⟨c, m⟩ v st₁ X' = (.ok (), st') ∧ Spec.farFit X₀ S st st' ∧ Spec.farFlagged X₀ S st' := by
  subst hc
  generalize hE : realEnv round3 cdf cellwiseOSM = E
  -- location and scale
  obtain ⟨B₁, -, e1⟩ := exists_uniform (Q := fun i B => ∀ X X', Spec.pushed X₀ S up B X → Spec.pushed X₀ S up B X' →
      cellwiseOSM ((colList X'.n X'.cell i).filter (realEnv round3 cdf cellwiseOSM).ok) =
        cellwiseOSM ((colList X.n X.cell i).filter (realEnv round3 cdf cellwiseOSM).ok))
    (fun i B B' hB h X X' hX hX' => h X X' (pushed_mono hX hB) (pushed_mono hX' hB)) X₀.p (fun i hi => est_far i (h1 i hi)) 0
  have hscal : ∀ X X', Spec.pushed X₀ S up B₁ X → Spec.pushed X₀ S up B₁ X' →
      fitScaler E (replaceInf E X') (List.range X'.p) [] [] = fitScaler E (replaceInf E X) (List.range X.p) [] [] := by
    intro X X' hX hX'
    subst hE
    rw [replaceInf_real, replaceInf_real, hX'.cols, hX.cols]
    exact fitScaler_congr _ _ _ fun i hi => e1 i (List.mem_range.1 hi) X X' hX hX'
  by_cases A₁ : ∃ X st₀ st, Spec.pushed X₀ S up B₁ X ∧ ddcFit E ⟨some c₀, m⟩ v st₀ X = (.ok (), st) ∧
      ∀ g, st.rawPred = some g → Spec.minorityPredicted X₀ S g
  swap
  · exact ⟨B₁, fun X X' hX _ _ st₀ _ st h h2 => absurd ⟨X, st₀, st, hX, h, h2⟩ A₁⟩
  obtain ⟨Y₁, a, b, hY₁, hf₁, -⟩ := A₁
  obtain ⟨-, ls, ss, _, _, _, _, _, T₁⟩ := ddcFit_ok hf₁
  have hls : ∀ X, Spec.pushed X₀ S up B₁ X → fitScaler E (replaceInf E X) (List.range X.p) [] [] = (.ok (), ls, ss) :=
    fun X hX => (hscal Y₁ X hY₁ hX).trans T₁.scaler
  clear T₁ hf₁ hY₁ Y₁ a b hscal e1
  -- the data after the univariate flagging, the correlations, the slopes and the predictions
  obtain ⟨B₂, hB₂, e2⟩ := uni_far (round3 := round3) (cdf := cdf) (X₀ := X₀) (S := S) (up := up) ls ss c₀ B₁
  rw [hE] at e2
  by_cases A₂ : ∃ X st₀ st, Spec.pushed X₀ S up B₂ X ∧ ddcFit E ⟨some c₀, m⟩ v st₀ X = (.ok (), st) ∧
      ∀ g, st.rawPred = some g → Spec.minorityPredicted X₀ S g
  swap
  · exact ⟨B₂, fun X X' hX _ _ st₀ _ st h h2 => absurd ⟨X, st₀, st, hX, h, h2⟩ A₂⟩
  obtain ⟨Y₂, a, b, hY₂, hf₂, hg₂⟩ := A₂
  obtain ⟨-, ls', ss', corr, slopes, _, _, _, T₂⟩ := ddcFit_ok hf₂
  have hl2 := T₂.scaler
  rw [hls Y₂ (pushed_mono hY₂ hB₂)] at hl2
  simp only [Prod.mk.injEq, true_and] at hl2
  obtain ⟨rfl, rfl⟩ := hl2
  obtain ⟨g, hgdef⟩ : ∃ g, g = predictedValues E Y₂.p corr slopes (fun k i => univariateFlag E (some c₀) (zCells E ls ss Y₂ k i)) := ⟨_, rfl⟩
  have hH2 : Spec.minorityPredicted X₀ S g := by
    obtain ⟨_, _, -, -, hst⟩ := T₂.hst
    apply hg₂
    rw [hst, hgdef]
  have hcorr : ∀ X, Spec.pushed X₀ S up B₂ X → robustCorrelation E (some c₀) X.n X.p
      (fun k i => univariateFlag E (some c₀) (zCells E ls ss X k i)) v = .ok corr := by
    intro X hX
    rw [← T₂.hcorr, hX.rows, hX.cols, hY₂.rows, hY₂.cols]
    exact robustCorrelation_congr (fun k hk i hi => e2 i hi Y₂ X hY₂ hX k hk) _ _
  have hslopes : ∀ X, Spec.pushed X₀ S up B₂ X → getSlopes E ⟨some c₀, m⟩ X.n X.p
      (fun k i => univariateFlag E (some c₀) (zCells E ls ss X k i)) corr = .ok slopes := by
    intro X hX
    rw [← T₂.hslopes, hX.rows, hX.cols, hY₂.rows, hY₂.cols]
    exact getSlopes_congr (fun k hk i hi => e2 i hi Y₂ X hY₂ hX k hk) _ _
  have hraw : ∀ X, Spec.pushed X₀ S up B₂ X → ∀ k < X₀.n, ∀ i, predictedValues E X.p corr slopes
      (fun k i => univariateFlag E (some c₀) (zCells E ls ss X k i)) k i = g k i := by
    intro X hX k hk i
    rw [hgdef, hX.cols, hY₂.cols]
    unfold predictedValues
    exact predictCell_congr (fun j hj => e2 j hj Y₂ X hY₂ hX k hk) i
  clear hgdef T₂ hg₂ hf₂ hY₂ Y₂ a b
  -- the deshrinkage factors
  obtain ⟨B₃, hB₃, e3⟩ := exists_uniform (Q := fun i B => ∀ X X', Spec.pushed X₀ S up B X → Spec.pushed X₀ S up B X' →
      robustSlope (realEnv round3 cdf cellwiseOSM) (some c₀) (((List.range X₀.n).filter fun k =>
          (realEnv round3 cdf cellwiseOSM).ok (zOf (ls.getD i none) (ss.getD i none) (X'.cell k i))).map
            fun k => (g k i, zOf (ls.getD i none) (ss.getD i none) (X'.cell k i))) =
        robustSlope (realEnv round3 cdf cellwiseOSM) (some c₀) (((List.range X₀.n).filter fun k =>
          (realEnv round3 cdf cellwiseOSM).ok (zOf (ls.getD i none) (ss.getD i none) (X.cell k i))).map
            fun k => (g k i, zOf (ls.getD i none) (ss.getD i none) (X.cell k i))))
    (fun i B B' hB h X X' hX hX' => h X X' (pushed_mono hX hB) (pushed_mono hX' hB)) X₀.p
    (fun i hi => desh_far i _ _ (fun k => g k i) c₀ (h1 i hi) (hH2 i hi)) B₂
  have hdesh : ∀ X, Spec.pushed X₀ S up B₃ X → deshrinkage E (some c₀) X.n X.p (zCells E ls ss X) (predictedValues E X.p corr slopes
      (fun k i => univariateFlag E (some c₀) (zCells E ls ss X k i))) = tabulate E X₀.p fun i =>
        robustSlope E (some c₀) (((List.range X₀.n).filter fun k =>
          E.ok (zOf (ls.getD i none) (ss.getD i none) (X.cell k i))).map
            fun k => (g k i, zOf (ls.getD i none) (ss.getD i none) (X.cell k i))) := by
    intro X hX
    unfold deshrinkage
    rw [hX.rows, hX.cols]
    apply tabulate_congr
    intro i hi
    congr 1
    have hz : zCells E ls ss X = fun k i => zOf (ls.getD i none) (ss.getD i none) (X.cell k i) := by rw [← hE]; exact zCells_zOf ls ss X
    have hr := hraw X (pushed_mono hX hB₃)
    rw [hX.cols, hz] at hr
    rw [hz]
    apply List.map_congr_left
    intro k hk
    simp only at hr ⊢
    rw [hr k (List.mem_range.1 (List.mem_filter.1 hk).1)]
  by_cases A₃ : ∃ X st₀ st, Spec.pushed X₀ S up B₃ X ∧ ddcFit E ⟨some c₀, m⟩ v st₀ X = (.ok (), st) ∧
      ∀ g, st.rawPred = some g → Spec.minorityPredicted X₀ S g
  swap
  · exact ⟨B₃, fun X X' hX _ _ st₀ _ st h h2 => absurd ⟨X, st₀, st, hX, h, h2⟩ A₃⟩
  obtain ⟨Y₃, a, b, hY₃, hf₃, -⟩ := A₃
  obtain ⟨-, ls', ss', corr', slopes', d, _, _, T₃⟩ := ddcFit_ok hf₃
  have hl3 := T₃.scaler
  rw [hls Y₃ (pushed_mono hY₃ (hB₂.trans hB₃))] at hl3
  simp only [Prod.mk.injEq, true_and] at hl3
  obtain ⟨rfl, rfl⟩ := hl3
  obtain rfl := Except.ok.inj ((hcorr Y₃ (pushed_mono hY₃ hB₃)).symm.trans T₃.hcorr)
  obtain rfl := Except.ok.inj ((hslopes Y₃ (pushed_mono hY₃ hB₃)).symm.trans T₃.hslopes)
  have hd : ∀ X, Spec.pushed X₀ S up B₃ X → deshrinkage E (some c₀) X.n X.p (zCells E ls ss X) (predictedValues E X.p corr slopes
      (fun k i => univariateFlag E (some c₀) (zCells E ls ss X k i))) = .ok d := by
    intro X hX
    rw [← T₃.hd, hdesh X hX]
    refine Eq.trans ?_ (hdesh Y₃ hY₃).symm
    apply tabulate_congr
    intro i hi
    rw [← hE]
    exact e3 i hi Y₃ X hY₃ hX
  have hpg : ∀ i < X₀.p, (∀ x, (zOf (ls.getD i none) (ss.getD i none) x = none ↔ x = none)) →
      ∀ k ∈ Spec.filled X₀ S i, liftNaN (· * ·) (g k i) (d i) ≠ none := by
    intro i hi hg k hk
    have hd3 := T₃.hd
    have ht : ∀ j < X₀.p, robustSlope E (some c₀) (((List.range X₀.n).filter fun k =>
          E.ok (zOf (ls.getD j none) (ss.getD j none) (Y₃.cell k j))).map
            fun k => (g k j, zOf (ls.getD j none) (ss.getD j none) (Y₃.cell k j))) = .ok (d j) := by
      have e := (hdesh Y₃ hY₃).symm.trans (hd Y₃ hY₃)
      exact tabulate_ok e
    have hti := ht i hi
    subst hE
    rw [zfilled hg hY₃] at hti
    obtain ⟨q1, q2⟩ := robustSlope_ok hti
    exact liftNaN_ne_none (q1 (g k i, _) (List.mem_map.2 ⟨k, hk, rfl⟩)) q2
  clear T₃ hf₃ hY₃ Y₃ a b hdesh e3
  -- the scales of the residuals
  obtain ⟨B₄, hB₄, e4⟩ := exists_uniform (Q := fun i B => ∀ X X', Spec.pushed X₀ S up B X → Spec.pushed X₀ S up B X' →
      cellwiseOSM (((List.range X₀.n).map fun k => liftNaN (· - ·) (zOf (ls.getD i none) (ss.getD i none) (X'.cell k i))
          (liftNaN (· * ·) (g k i) (d i))).filter (realEnv round3 cdf cellwiseOSM).ok) =
        cellwiseOSM (((List.range X₀.n).map fun k => liftNaN (· - ·) (zOf (ls.getD i none) (ss.getD i none) (X.cell k i))
          (liftNaN (· * ·) (g k i) (d i))).filter (realEnv round3 cdf cellwiseOSM).ok))
    (fun i B B' hB h X X' hX hX' => h X X' (pushed_mono hX hB) (pushed_mono hX' hB)) X₀.p
    (fun i hi => res_far i _ _ (fun k => liftNaN (· * ·) (g k i) (d i)) (h1 i hi) (hpg i hi)) B₃
  have hstd : ∀ X, Spec.pushed X₀ S up B₃ X → ∀ k < X₀.n, ∀ i, E.sub (zCells E ls ss X k i) (E.mul (predictedValues E X.p corr slopes
      (fun k i => univariateFlag E (some c₀) (zCells E ls ss X k i)) k i) (d i)) =
        liftNaN (· - ·) (zOf (ls.getD i none) (ss.getD i none) (X.cell k i)) (liftNaN (· * ·) (g k i) (d i)) := by
    intro X hX k hk i
    rw [hraw X (pushed_mono hX hB₃) k hk i, ← hE, zCells_zOf]
    rfl
  have hresid : ∀ X, Spec.pushed X₀ S up B₃ X → (tabulate E X.p fun i => (E.osm ((colList X.n (fun k i => E.sub (zCells E ls ss X k i)
      (E.mul (predictedValues E X.p corr slopes (fun k i => univariateFlag E (some c₀) (zCells E ls ss X k i)) k i) (d i))) i).filter E.ok)).map
          Prod.snd) = tabulate E X₀.p fun i => (cellwiseOSM (((List.range X₀.n).map fun k =>
            liftNaN (· - ·) (zOf (ls.getD i none) (ss.getD i none) (X.cell k i)) (liftNaN (· * ·) (g k i) (d i))).filter E.ok)).map Prod.snd := by
    intro X hX
    have hr := hstd X hX
    rw [hX.cols] at hr ⊢
    rw [hX.rows]
    apply tabulate_congr
    intro i hi
    have el : colList X₀.n (fun k i => E.sub (zCells E ls ss X k i) (E.mul (predictedValues E X₀.p corr slopes
        (fun k i => univariateFlag E (some c₀) (zCells E ls ss X k i)) k i) (d i))) i = (List.range X₀.n).map fun k =>
          liftNaN (· - ·) (zOf (ls.getD i none) (ss.getD i none) (X.cell k i)) (liftNaN (· * ·) (g k i) (d i)) := by
      unfold colList
      apply List.map_congr_left
      intro k hk
      exact hr k (List.mem_range.1 hk) i
    rw [el, ← hE]
    rfl
  by_cases A₄ : ∃ X st₀ st, Spec.pushed X₀ S up B₄ X ∧ ddcFit E ⟨some c₀, m⟩ v st₀ X = (.ok (), st) ∧
      ∀ g, st.rawPred = some g → Spec.minorityPredicted X₀ S g
  swap
  · exact ⟨B₄, fun X X' hX _ _ st₀ _ st h h2 => absurd ⟨X, st₀, st, hX, h, h2⟩ A₄⟩
  obtain ⟨Y₄, a, b, hY₄, hf₄, -⟩ := A₄
  have hY₃ := pushed_mono hY₄ hB₄
  obtain ⟨-, ls', ss', corr', slopes', d', rs, _, T₄⟩ := ddcFit_ok hf₄
  have hl4 := T₄.scaler
  rw [hls Y₄ (pushed_mono hY₃ (hB₂.trans hB₃))] at hl4
  simp only [Prod.mk.injEq, true_and] at hl4
  obtain ⟨rfl, rfl⟩ := hl4
  obtain rfl := Except.ok.inj ((hcorr Y₄ (pushed_mono hY₃ hB₃)).symm.trans T₄.hcorr)
  obtain rfl := Except.ok.inj ((hslopes Y₄ (pushed_mono hY₃ hB₃)).symm.trans T₄.hslopes)
  obtain rfl := Except.ok.inj ((hd Y₄ hY₃).symm.trans T₄.hd)
  have hrs : ∀ X, Spec.pushed X₀ S up B₄ X → (tabulate E X.p fun i => (E.osm ((colList X.n (fun k i => E.sub (zCells E ls ss X k i)
      (E.mul (predictedValues E X.p corr slopes (fun k i => univariateFlag E (some c₀) (zCells E ls ss X k i)) k i) (d i))) i).filter E.ok)).map
          Prod.snd) = .ok rs := by
    intro X hX
    rw [← T₄.hrs, hresid X (pushed_mono hX hB₄)]
    refine Eq.trans ?_ (hresid Y₄ hY₃).symm
    apply tabulate_congr
    intro i hi
    rw [← hE, e4 i hi Y₄ X hY₄ hX]
  have hdeg : ∀ i < X₀.p, (∀ x, zOf (ls.getD i none) (ss.getD i none) x = none) → rs i = none := by
    intro i hi hz
    have e := tabulate_ok ((hresid Y₄ hY₃).symm.trans (hrs Y₄ hY₄)) i hi
    have el : (((List.range X₀.n).map fun k => liftNaN (· - ·) (zOf (ls.getD i none) (ss.getD i none) (Y₄.cell k i))
        (liftNaN (· * ·) (g k i) (d i))).filter E.ok) = [] := by
      rw [List.filter_eq_nil_iff, ← hE]
      intro x hx
      obtain ⟨k, -, rfl⟩ := List.mem_map.1 hx
      rw [hz]
      simp [DDCEnv.ok, realEnv, liftNaN]
    rw [el] at e
    exact (Except.ok.inj e).symm.trans (by rfl)
  clear T₄ hf₄ hY₃ hY₄ Y₄ a b hresid e4
  -- the flags
  obtain ⟨B₅, hB₅, e5⟩ := exists_uniform (Q := fun i B => i < X₀.p → ∀ r, rs i = some r → r ≠ 0 → ∀ X, Spec.pushed X₀ S up B X →
      ∀ k < X₀.n, S k i = true → liftRel (· < ·) (some c₀) ((divNaN (liftNaN (· - ·) (zOf (ls.getD i none) (ss.getD i none) (X.cell k i))
        (liftNaN (· * ·) (g k i) (d i))) (some r)).map fun a => |a|) = true)
    (fun i B B' hB h hi r hr hr0 X hX => h hi r hr hr0 X (pushed_mono hX hB)) X₀.p
    (fun i hi => by
      by_cases hex : ∃ r, rs i = some r ∧ r ≠ 0
      · obtain ⟨r, hr, hr0⟩ := hex
        have hg : ∀ x, (zOf (ls.getD i none) (ss.getD i none) x = none ↔ x = none) := by
          rcases zOf_none (ls.getD i none) (ss.getD i none) with hz | hz
          · rw [hdeg i hi hz] at hr; cases hr
          · exact hz
        obtain ⟨B, hB⟩ := flagged_far (X₀ := X₀) (S := S) (up := up) i _ _ (fun k => liftNaN (· * ·) (g k i) (d i)) c₀ hr0 hg (hpg i hi hg)
        refine ⟨B, fun _ r' hr' _ => ?_⟩
        obtain rfl : r = r' := Option.some.inj (hr.symm.trans hr')
        exact hB
      · exact ⟨0, fun _ r hr hr0 => absurd ⟨r, hr, hr0⟩ hex⟩) B₄
  refine ⟨B₅, fun X X' hX hX' hchk st₀ st₁ st hfit _ => ?_⟩
  have hX4 := pushed_mono hX hB₅
  have hX4' := pushed_mono hX' hB₅
  have hX3 := pushed_mono hX4 hB₄
  have hX3' := pushed_mono hX4' hB₄
  have hX2 := pushed_mono hX3 hB₃
  have hX2' := pushed_mono hX3' hB₃
  obtain ⟨-, ls', ss', corr', slopes', d', rs', t, T⟩ := ddcFit_ok hfit
  have hl := T.scaler
  rw [hls X (pushed_mono hX2 hB₂)] at hl
  simp only [Prod.mk.injEq, true_and] at hl
  obtain ⟨rfl, rfl⟩ := hl
  obtain rfl := Except.ok.inj ((hcorr X hX2).symm.trans T.hcorr)
  obtain rfl := Except.ok.inj ((hslopes X hX2).symm.trans T.hslopes)
  obtain rfl := Except.ok.inj ((hd X hX3).symm.trans T.hd)
  obtain rfl := Except.ok.inj ((hrs X hX4).symm.trans T.hrs)
  have ht' : ∃ t', E.osm ((List.range X'.n).map fun k => E.nanmean ((List.range X'.p).map fun i =>
      E.chi2cdf (E.mul (E.div (E.sub (zCells E ls ss X' k i)
        (E.mul (predictedValues E X'.p corr slopes
          (fun k i => univariateFlag E (some c₀) (zCells E ls ss X' k i)) k i) (d i))) (rs i))
        (E.div (E.sub (zCells E ls ss X' k i) (E.mul (predictedValues E X'.p corr slopes
          (fun k i => univariateFlag E (some c₀) (zCells E ls ss X' k i)) k i) (d i))) (rs i))))) = .ok t' := by
    have hsome := osm_ok_mem (Eq.trans (by rw [← hE]; rfl) T.ht)
    have hmul : ∀ x : Option ℝ, E.chi2cdf (E.mul x x) = none ↔ x = none := by
      intro x
      rw [← hE]
      rcases x with _ | x <;> simp [realEnv, liftNaN]
    obtain ⟨t', ht'⟩ := osm_ok (l := (List.range X'.n).map fun k => E.nanmean ((List.range X'.p).map fun i =>
      E.chi2cdf (E.mul (E.div (E.sub (zCells E ls ss X' k i)
        (E.mul (predictedValues E X'.p corr slopes
          (fun k i => univariateFlag E (some c₀) (zCells E ls ss X' k i)) k i) (d i))) (rs i))
        (E.div (E.sub (zCells E ls ss X' k i) (E.mul (predictedValues E X'.p corr slopes
          (fun k i => univariateFlag E (some c₀) (zCells E ls ss X' k i)) k i) (d i))) (rs i))))) (by
      intro x hx hn
      obtain ⟨k, hk, rfl⟩ := List.mem_map.1 hx
      have hk' : k < X₀.n := by rw [← hX'.rows]; exact List.mem_range.1 hk
      refine hsome _ (List.mem_map.2 ⟨k, by rw [List.mem_range, hX.rows]; exact hk', rfl⟩) ?_
      rw [← hE] at hn hmul hstd
      rw [nanmean_none] at hn ⊢
      intro y hy
      obtain ⟨i, hi, rfl⟩ := List.mem_map.1 hy
      have hn' := hn _ (List.mem_map.2 ⟨i, by rw [List.mem_range] at hi ⊢; rw [hX'.cols, ← hX.cols]; exact hi, rfl⟩)
      rw [hmul] at hn' ⊢
      rw [hstd X' hX3' k hk' i] at hn'
      rw [hstd X hX3 k hk' i]
      exact (std_none _ _ _ _ i k hX hX').1 hn')
    exact ⟨t', Eq.trans (by rw [← hE]; rfl) ht'⟩
  obtain ⟨t', ht'⟩ := ht'
  obtain ⟨st', hfit', T'⟩ := ddcFit_of_steps (cfg := ⟨some c₀, m⟩) (v := v) st₁ hchk (hls X' (pushed_mono hX2' hB₂)) (hcorr X' hX2') (hslopes X' hX2')
    (hd X' hX3') (hrs X' hX4') ht'
  refine ⟨st', hfit', ?_, ?_⟩
  · obtain ⟨_, _, rfl, rfl, hst⟩ := T.hst
    obtain ⟨_, _, rfl, rfl, hst'⟩ := T'.hst
    have hp : ∀ k < X₀.n, ∀ i, predictedValues E X'.p corr slopes
        (fun k i => univariateFlag E (some c₀) (zCells E ls ss X' k i)) k i = predictedValues E X.p corr slopes
        (fun k i => univariateFlag E (some c₀) (zCells E ls ss X k i)) k i :=
      fun k hk i => (hraw X' hX2' k hk i).trans (hraw X hX2 k hk i).symm
    have hs : ∀ k < X₀.n, ∀ i, S k i = false → E.sub (zCells E ls ss X' k i) (E.mul (predictedValues E X'.p corr slopes
      (fun k i => univariateFlag E (some c₀) (zCells E ls ss X' k i)) k i) (d i)) = E.sub (zCells E ls ss X k i)
      (E.mul (predictedValues E X.p corr slopes (fun k i => univariateFlag E (some c₀) (zCells E ls ss X k i)) k i) (d i)) := by
      intro k hk i hS
      rw [hstd X' hX3' k hk i, hstd X hX3 k hk i, hX'.keep k i hS, hX.keep k i hS]
    rw [hst, hst']
    refine ⟨rfl, rfl, rfl, rfl, rfl, rfl, ⟨_, _, rfl, rfl, fun k hk i _ => hp k hk i⟩, ⟨_, _, rfl, rfl, fun k hk i _ => ?_⟩,
      ⟨_, _, rfl, rfl, fun k hk i _ => ?_⟩, ⟨_, _, rfl, rfl, fun k hk i _ hS => ?_⟩, ⟨_, _, rfl, rfl, ?_, fun k hk i _ hS => ?_⟩⟩
    · simp only [hp k hk i]
    · unfold rescale
      simp only [hp k hk i]
    · simp only
      rw [hs k hk i hS]
    · simp only
      rw [hX'.cols, hX.cols]
    · simp only
      rw [hs k hk i hS]
  · obtain ⟨_, _, rfl, rfl, hst'⟩ := T'.hst
    intro fl rs' hfl hrs' i hi r hr hr0 k hk hS
    rw [hst'] at hfl hrs'
    obtain rfl := Option.some.inj hfl
    obtain rfl := Option.some.inj hrs'
    have e := e5 i hi hi r hr hr0 X' hX' k hk hS
    simp only
    rw [hstd X' hX3' k hk i, hr]
    subst hE
    exact e

end

end Robpy
