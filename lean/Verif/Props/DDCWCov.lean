import Verif.Props.DDCW

/-! The covariance that `InitialDDCW` returns (C126), the data sets on which it always raises (C127, C128) and the
deletion of rows (C129, C130). -/

namespace Robpy
open Matrix

variable {n p : ℕ}

/-! ## C126: the result is positive definite -/

theorem completeRows_ok {rows : List (Fin p → Option ℝ)} {R : List (Fin p → ℝ)} (h : completeRows rows = some R) :
    (∀ r ∈ rows, ∀ j, r j ≠ none) ∧ R = rows.map fun r j => (r j).getD 0 := by
  unfold completeRows at h
  split_ifs at h with hc
  exact ⟨hc, (Option.some.inj h).symm⟩

theorem scale_conj (T : Matrix (Fin p) (Fin p) ℝ) (s : Fin p → ℝ) :
    (fun i j => T i j * s j * s i) = diagonal s * T * diagonal s := by
  funext i j
  rw [Matrix.mul_diagonal, Matrix.diagonal_mul]
  ring

/-- The parts of a stage that ended normally. -/
theorem ddcwStage_parts {env : DDCWEnv p} {a : ℝ} {scale : Fin p → Option ℝ} {rows : List (Fin p → Option ℝ)}
    {S : Matrix (Fin p) (Fin p) ℝ} (h : ddcwStage env a scale rows = .ok S) :
    p ≠ 1 ∧ 2 ≤ rows.length ∧ (∀ r ∈ rows, ∀ j, r j ≠ none) ∧
      (∃ C, S = diagonal (fun j => (scale j).getD 0) * truncatedCovariance env.eigh env.order C a *
        diagonal fun j => (scale j).getD 0) ∧
      (0 < p → ∃ e : Eigh (npCov (rows.map fun r j => (r j).getD 0)), ∃ i k, i ≠ k ∧ a < e.w i ∧ a < e.w k) := by
  classical
  unfold ddcwStage at h
  split at h
  · cases h
  rename_i R hR
  obtain ⟨hc, hR'⟩ := completeRows_ok hR
  by_cases h1 : p = 1 ∨ R.length < 2
  · rw [if_pos h1] at h; cases h
  rw [if_neg h1] at h
  rw [not_or] at h1
  simp only at h
  by_cases hcard : Fintype.card {i // a < (env.eigh (npCov R) (npCov_isSymm R)).w i} = 1
  · rw [if_pos (by convert hcard)] at h; cases h
  rw [if_neg (by convert hcard)] at h
  split_ifs at h with h3 h4
  refine ⟨h1.1, ?_, hc, ?_, fun hp => ?_⟩
  · have := not_lt.1 h1.2
    rw [hR', List.length_map] at this
    exact this
  · exact ⟨_, (Except.ok.inj h).symm.trans (scale_conj _ _)⟩
  · rw [← hR']
    refine ⟨env.eigh (npCov R) (npCov_isSymm R), ?_⟩
    have h2 : 1 < Fintype.card {i // a < (env.eigh (npCov R) (npCov_isSymm R)).w i} := by
      rcases Nat.lt_or_ge 1 (Fintype.card {i // a < (env.eigh (npCov R) (npCov_isSymm R)).w i}) with h5 | h5
      · exact h5
      · exfalso
        have h0 : Fintype.card {i // a < (env.eigh (npCov R) (npCov_isSymm R)).w i} = 0 := by omega
        have := Fintype.card_eq_zero_iff.1 h0
        apply h4
        refine ⟨⟨0, hp⟩, ?_⟩
        rw [Matrix.mul_apply]
        exact Finset.sum_eq_zero fun x _ => (this.false x).elim
    obtain ⟨x, y, hxy⟩ := Fintype.one_lt_card_iff.1 h2
    exact ⟨x.1, y.1, fun h => hxy (Subtype.ext h), x.2, y.2⟩

theorem posDef_of_bound {A : Matrix (Fin p) (Fin p) ℝ} {a : ℝ} (ha : 0 < a)
    (h : (A - a • (1 : Matrix (Fin p) (Fin p) ℝ)).PosSemidef) : A.PosDef := by
  have h1 : (a • (1 : Matrix (Fin p) (Fin p) ℝ)).PosDef := Matrix.PosDef.one.smul ha
  have := h1.add_posSemidef h
  rwa [add_sub_cancel] at this

theorem diag_conj_posSemidef {A : Matrix (Fin p) (Fin p) ℝ} (h : A.PosSemidef) (s : Fin p → ℝ) :
    (diagonal s * A * diagonal s).PosSemidef := by
  have := h.mul_mul_conjTranspose_same (diagonal s)
  rwa [Matrix.diagonal_conjTranspose, show star s = s from rfl] at this

theorem diag_conj_posDef {A : Matrix (Fin p) (Fin p) ℝ} (h : A.PosDef) {s : Fin p → ℝ} (hs : ∀ j, s j ≠ 0) :
    (diagonal s * A * diagonal s).PosDef := by
  have hD : IsUnit (diagonal s) := by
    rw [Matrix.isUnit_iff_isUnit_det, Matrix.det_diagonal]
    exact (Finset.prod_ne_zero_iff.2 fun j _ => hs j).isUnit
  have := (Matrix.IsUnit.posDef_star_right_conjugate_iff hD).2 h
  rwa [Matrix.star_eq_conjTranspose, Matrix.diagonal_conjTranspose, show star s = s from rfl] at this

/-- The parts of a run of `calculate_covariance` after `DDC` that ended normally. -/
theorem ddcwFrom_parts {env : DDCWEnv p} {alpha a : ℝ} {d : DDCOutput n p} {X : Cells n p}
    {r : (Fin p → ℝ) × Matrix (Fin p) (Fin p) ℝ} (h : ddcwFrom env alpha a d X = .ok r) :
    ∃ S₁ rows₁ rows₂ : _, ddcwStage env a d.scale rows₁ = .ok S₁ ∧ ddcwStage env a d.scale rows₂ = .ok r.2 ∧
      (∀ z ∈ rows₁, ∃ k, z = ddcwImputed env.argsort alpha d X k) ∧
      (∀ z ∈ rows₂, ∃ k, z = ddcwImputed env.argsort alpha d X k) ∧ r.1 = fun j => (d.location j).getD 0 := by
  unfold ddcwFrom at h
  obtain ⟨S₁, h1, h2⟩ := bind_ok h
  obtain ⟨I, -, h4⟩ := bind_ok h2
  obtain ⟨S₂, h5, h6⟩ := map_ok h4
  subst h6
  refine ⟨S₁, _, _, h1, h5, fun z hz => ?_, fun z hz => ?_, rfl⟩
  · obtain ⟨k, -, rfl⟩ := List.mem_map.1 hz
    exact ⟨k, rfl⟩
  · obtain ⟨k, -, rfl⟩ := List.mem_map.1 hz
    exact ⟨k, rfl⟩

/-- A standardised cell that is a number has a scale that is a number different from 0. -/
theorem stdCell_scale {x l s : Option ℝ} (h : stdCell x l s ≠ none) : s.getD 0 ≠ 0 := by
  rcases x with _ | x
  · exact absurd rfl h
  rcases l with _ | l
  · exact absurd rfl h
  rcases s with _ | s
  · exact absurd rfl h
  intro h0
  apply h
  show (if s = 0 then none else _) = none
  exact if_pos h0

/-- **C126** for everything after `DDC`: the covariance is positive definite, and in the units of the scales of
`DDC` its eigenvalues are at least `min_eigenvalue`. -/
theorem C126_from {env : DDCWEnv p} {alpha a : ℝ} (ha : 0 < a) {d : DDCOutput n p} {X : Cells n p}
    {r : (Fin p → ℝ) × Matrix (Fin p) (Fin p) ℝ} (h : ddcwFrom env alpha a d X = .ok r) :
    r.2.PosDef ∧ (r.2 - a • diagonal fun j => (d.scale j).getD 0 ^ 2).PosSemidef ∧ ∀ j, (d.scale j).getD 0 ≠ 0 := by
  obtain ⟨-, -, rows, -, h2, -, h4, -⟩ := ddcwFrom_parts h
  obtain ⟨-, hlen, hc, ⟨C, hS⟩, -⟩ := ddcwStage_parts h2
  have hs : ∀ j, (d.scale j).getD 0 ≠ 0 := by
    intro j
    obtain ⟨z, hz⟩ := List.exists_mem_of_length_pos (by omega : 0 < rows.length)
    obtain ⟨k, rfl⟩ := h4 z hz
    exact stdCell_scale (hc _ hz j)
  have hb := (C33_bound env.eigh env.order C a).2
  refine ⟨?_, ?_, hs⟩
  · rw [hS]; exact diag_conj_posDef (posDef_of_bound ha hb) hs
  · have := diag_conj_posSemidef hb fun j => (d.scale j).getD 0
    rw [Matrix.mul_sub, Matrix.sub_mul, Matrix.mul_smul, Matrix.mul_one, Matrix.smul_mul,
      Matrix.diagonal_mul_diagonal, ← hS] at this
    simpa only [sq] using this

theorem ddcwCalc_parts {env : DDCWEnv p} {alpha a : ℝ} {X : Cells n p}
    {r : (Fin p → ℝ) × Matrix (Fin p) (Fin p) ℝ} (h : ddcwCalc env alpha a X = .ok r) :
    ∃ alpha' d, cellAlpha alpha n = .ok alpha' ∧ ddcwDDC env X = .ok d ∧ ddcwFrom env alpha' a d X = .ok r := by
  unfold ddcwCalc at h
  obtain ⟨al, h1, h2⟩ := bind_ok h
  obtain ⟨d, h3, h4⟩ := bind_ok h2
  exact ⟨al, d, h1, h3, h4⟩

theorem ddcwFit_parts {env : DDCWEnv p} {alpha a : ℝ} {X : Cells n p}
    {r : (Fin p → ℝ) × Matrix (Fin p) (Fin p) ℝ × Matrix (Fin p) (Fin p) ℝ}
    (h : ddcwFit env alpha a X = .ok r) :
    ddcwCalc env alpha a X = .ok (r.1, r.2.1) ∧ r.2.2 = r.2.1⁻¹ := by
  unfold ddcwFit at h
  obtain ⟨q, h1, h2⟩ := bind_ok h
  split at h2
  · split_ifs at h2
    rw [← Except.ok.inj h2]
    exact ⟨h1, rfl⟩
  · rw [← Except.ok.inj h2]
    exact ⟨h1, rfl⟩

/-- **C126**: after every successful fit with a positive `min_eigenvalue` the covariance is positive definite, the
precision is its inverse, and with the column scales of `DDC` as units every eigenvalue of the covariance is at
least `min_eigenvalue`. -/
theorem C126_positive {env : DDCWEnv p} {alpha a : ℝ} (ha : 0 < a) {X : Cells n p}
    {r : (Fin p → ℝ) × Matrix (Fin p) (Fin p) ℝ × Matrix (Fin p) (Fin p) ℝ}
    (h : ddcwFit env alpha a X = .ok r) :
    r.2.1.PosDef ∧ r.2.2 * r.2.1 = 1 ∧ ∃ s : Fin p → ℝ, (∀ j, s j ≠ 0) ∧
      (∃ d, ddcwDDC env X = .ok d ∧ ∀ j, d.scale j = some (s j)) ∧
      (r.2.1 - a • diagonal fun j => s j ^ 2).PosSemidef := by
  obtain ⟨h1, h2⟩ := ddcwFit_parts h
  obtain ⟨al, d, -, h3, h4⟩ := ddcwCalc_parts h1
  obtain ⟨h5, h6, h7⟩ := C126_from ha h4
  refine ⟨h5, ?_, fun j => (d.scale j).getD 0, h7, ⟨d, h3, fun j => ?_⟩, h6⟩
  · rw [h2]
    exact Matrix.nonsing_inv_mul _ ((Matrix.isUnit_iff_isUnit_det _).1 h5.isUnit)
  · have key : ∀ o : Option ℝ, o.getD 0 ≠ 0 → o = some (o.getD 0) := by
      rintro (_ | s) h
      · exact absurd rfl h
      · rfl
    exact key _ (h7 j)

/-- What `CellMCD` takes from other modules, with `InitialDDCW` as modelled here. -/
noncomputable def cellExtOf (env : DDCWEnv p) (est : List (Option ℝ) → Except PyErr (ℝ × ℝ)) : CellExt p :=
  { est := est, ddcw := fun alpha a X => ddcwFit env alpha a X }

/-- The contract under which the theorems about `CellMCD` are stated holds for the model of `InitialDDCW`. -/
theorem ddcw_contract (env : DDCWEnv p) (est : List (Option ℝ) → Except PyErr (ℝ × ℝ)) :
    DDCWContract (cellExtOf env est) := by
  intro n alpha a X r ha h
  exact ⟨(C126_positive ha h).1, (ddcwFit_parts h).2⟩

/-- **C119** without a hypothesis about the initial estimator. -/
theorem C119_with_ddcw {env : CellEnv p} {ini : DDCWEnv p} {est : List (Option ℝ) → Except PyErr (ℝ × ℝ)}
    {cfg : CellConfig} (ha : 0 < cfg.minEig) {alpha : ℝ} {X : Cells n p} {r : CellResult n p}
    (h : cellFitFrom env (cellExtOf ini est) cfg alpha X = .ok r) (i : Fin n) (j : Fin p) :
    (r.W i j = true → r.imputed i j = X i j) ∧ (r.W i j = false → r.imputed i j = r.predictions i j) ∧
      (X i j = none → r.W i j = false) ∧ r.imputed i j ≠ none :=
  C119_imputed (ddcw_contract ini est) ha h i j

/-- **C120** without a hypothesis about the initial estimator. -/
theorem C120_with_ddcw {env : CellEnv p} {ini : DDCWEnv p} {est : List (Option ℝ) → Except PyErr (ℝ × ℝ)}
    (he : ∀ l m s, est l = .ok (m, s) → 0 < s) {cfg : CellConfig} (ha : 0 < cfg.minEig) {alpha : ℝ}
    {X : Cells n p} {r : CellResult n p} (h : cellFitFrom env (cellExtOf ini est) cfg alpha X = .ok r) :
    r.covariance.PosDef ∧ ∀ i j, 0 < r.stds i j :=
  C120_positive (ddcw_contract ini est) he ha h

/-! ## C127, C128: data on which it raises -/

/-- **C127**: a data set with one variable always raises. -/
theorem C127_one_column (env : DDCWEnv 1) (alpha a : ℝ) (X : Cells n 1) : ∃ e, ddcwFit env alpha a X = .error e := by
  rcases h : ddcwFit env alpha a X with e | r
  · exact ⟨e, rfl⟩
  · obtain ⟨al, d, -, -, h4⟩ := ddcwCalc_parts (ddcwFit_parts h).1
    obtain ⟨-, -, rows, -, h2, -⟩ := ddcwFrom_parts h4
    exact absurd rfl (ddcwStage_parts h2).1

/-- **C127** for `CellMCD`: a data set with one variable cannot be fitted. -/
theorem C127_cellmcd (env : CellEnv 1) (ini : DDCWEnv 1) (est : List (Option ℝ) → Except PyErr (ℝ × ℝ))
    (cfg : CellConfig) (alpha : ℝ) (X : Cells n 1) :
    ∃ e, cellFitFrom env (cellExtOf ini est) cfg alpha X = .error e := by
  rcases h : cellFitFrom env (cellExtOf ini est) cfg alpha X with e | r
  · exact ⟨e, rfl⟩
  · obtain ⟨ls, init, -, -, -, h2, -⟩ := cellFitFrom_parts h
    obtain ⟨e, he⟩ := C127_one_column ini alpha cfg.minEig (scaleCells ls X)
    have h2' : ddcwFit ini alpha cfg.minEig (scaleCells ls X) = .ok init := h2
    rw [he] at h2'; cases h2'

/-- The covariance of points on a line has rank at most one. -/
theorem npCov_line (ts : List ℝ) (h : ts ≠ []) (base dir : Fin p → ℝ) :
    ∃ c, npCov (ts.map fun t j => base j + t * dir j) = fun i j => c * (dir i * dir j) := by
  have hl : (ts.length : ℝ) ≠ 0 := by
    exact_mod_cast (List.length_pos_iff.2 h).ne'
  have hm : ∀ j, meanRow (ts.map fun t j => base j + t * dir j) j = base j + mean ts * dir j := by
    intro j
    unfold meanRow
    rw [List.map_map]
    have e : ((fun x : Fin p → ℝ => x j) ∘ fun t j => base j + t * dir j) = fun t => base j + t * dir j := rfl
    rw [e]
    unfold mean
    have : ∀ l : List ℝ, (l.map fun t => base j + t * dir j).sum = l.length * base j + l.sum * dir j := by
      intro l
      induction l with
      | nil => simp
      | cons a l ih => simp only [List.map_cons, List.sum_cons, ih, List.length_cons]; push_cast; ring
    rw [this, List.length_map]
    field_simp
  refine ⟨(ts.map fun t => (t - mean ts) * (t - mean ts)).sum / ((ts.length : ℝ) - 1), ?_⟩
  funext i j
  unfold npCov
  rw [hm, hm, List.map_map, List.length_map, div_mul_eq_mul_div]
  congr 1
  rw [← List.sum_map_mul_right]
  congr 1
  apply List.map_congr_left
  intro t _
  simp only [Function.comp]
  ring

theorem eigh_rank_one {A : Matrix (Fin p) (Fin p) ℝ} {c : ℝ} {u : Fin p → ℝ} (hA : A = fun i j => c * (u i * u j))
    (e : Eigh A) {i k : Fin p} (hik : i ≠ k) (hi : 0 < e.w i) (hk : 0 < e.w k) : False := by
  have h1 : e.Vᵀ * A * e.V = diagonal e.w := by
    have h0 : e.Vᵀ * A * e.V = e.Vᵀ * (e.V * diagonal e.w * e.Vᵀ) * e.V :=
      congrArg (fun B => e.Vᵀ * B * e.V) e.decomp
    rw [h0, ← mul_assoc, ← mul_assoc, e.orth, one_mul, mul_assoc, e.orth, mul_one]
  have h2 : ∀ x y, (e.Vᵀ * A * e.V) x y = c * ((∑ j, e.V j x * u j) * ∑ j, e.V j y * u j) := by
    intro x y
    have hAe : ∀ i j, A i j = c * (u i * u j) := fun i j => congrFun (congrFun hA i) j
    simp only [Matrix.mul_apply, Matrix.transpose_apply, hAe]
    simp only [Finset.sum_mul_sum, Finset.mul_sum, Finset.sum_mul]
    refine Finset.sum_congr rfl fun a _ => Finset.sum_congr rfl fun b _ => ?_
    ring
  have hii := h2 i i
  have hkk := h2 k k
  have hx := h2 i k
  rw [h1, Matrix.diagonal_apply_eq] at hii hkk
  rw [h1, Matrix.diagonal_apply_ne _ hik] at hx
  have hp : e.w i * e.w k = 0 := by
    rw [hii, hkk]
    linear_combination (- c * ((∑ j, e.V j i * u j) * ∑ j, e.V j k * u j)) * hx
  exact (mul_pos hi hk).ne' hp

/-- **C128** for one stage: if the rows lie on a line, it raises. -/
theorem C128_stage {env : DDCWEnv p} (hp : 0 < p) {a : ℝ} (ha : 0 ≤ a) {scale : Fin p → Option ℝ}
    {rows : List (Fin p → Option ℝ)} {base dir : Fin p → ℝ}
    (hline : ∀ z ∈ rows, ∃ t, ∀ j, z j = some (base j + t * dir j)) : ∃ e, ddcwStage env a scale rows = .error e := by
  rcases h : ddcwStage env a scale rows with e | S
  · exact ⟨e, rfl⟩
  exfalso
  obtain ⟨-, hlen, -, -, h5⟩ := ddcwStage_parts h
  obtain ⟨e, i, k, hik, hi, hk⟩ := h5 hp
  have hts : ∀ l : List (Fin p → Option ℝ), (∀ z ∈ l, ∃ t, ∀ j, z j = some (base j + t * dir j)) →
      ∃ ts : List ℝ, (l.map fun r j => (r j).getD 0) = ts.map fun t j => base j + t * dir j := by
    intro l
    induction l with
    | nil => intro _; exact ⟨[], rfl⟩
    | cons z l ih =>
      intro hz
      obtain ⟨ts, hts⟩ := ih fun y hy => hz y (List.mem_cons_of_mem _ hy)
      obtain ⟨t, ht⟩ := hz z List.mem_cons_self
      refine ⟨t :: ts, ?_⟩
      rw [List.map_cons, List.map_cons, hts]
      congr 1
      funext j
      rw [ht j]; rfl
  obtain ⟨ts, hts⟩ := hts rows hline
  have hne : ts ≠ [] := by
    rintro rfl
    have := congrArg List.length hts
    simp at this
    simp [this] at hlen
  obtain ⟨c, hc⟩ := npCov_line ts hne base dir
  rw [← hts] at hc
  exact eigh_rank_one hc e hik (lt_of_le_of_lt ha hi) (lt_of_le_of_lt ha hk)

theorem cellAlpha_le_one {alpha al : ℝ} (hn : 0 < n) (h : cellAlpha alpha n = .ok al) : al ≤ 1 := by
  unfold cellAlpha at h
  split_ifs at h with hc
  rw [← Except.ok.inj h]
  apply max_le hc.2
  have hn' : (0:ℝ) < n := by exact_mod_cast hn
  rw [div_le_one hn']
  have : n / 2 + 1 ≤ n := by omega
  have h2 : ((n / 2 + 1 : ℕ) : ℝ) ≤ n := by exact_mod_cast this
  push_cast at h2 ⊢
  linarith

/-- **C128**: complete data in which every variable is an exact linear function of one variable, and in which `DDC`
flags no cell, always raise. -/
theorem C128_line {env : DDCWEnv p} (hp : 0 < p) {alpha a : ℝ} (ha : 0 ≤ a) {X : Cells n p} {base dir : Fin p → ℝ}
    {t : Fin n → ℝ} (hX : ∀ k j, X k j = some (base j + t k * dir j))
    (hd : ∀ d, ddcwDDC env X = .ok d → ∀ k j, d.cellwise k j = false) :
    ∃ e, ddcwCalc env alpha a X = .error e := by
  rcases h : ddcwCalc env alpha a X with e | r
  · exact ⟨e, rfl⟩
  exfalso
  obtain ⟨al, d, h1, h2, h3⟩ := ddcwCalc_parts h
  have hcalm := hd d h2
  obtain ⟨S, rows, -, h4, -, h6, -⟩ := ddcwFrom_parts h3
  obtain ⟨-, hlen, hc, -⟩ := ddcwStage_parts h4
  rcases Nat.eq_zero_or_pos n with hn | hn
  · subst hn
    obtain ⟨z, hz⟩ := List.exists_mem_of_length_pos (by omega : 0 < rows.length)
    obtain ⟨k, -⟩ := h6 z hz
    exact k.elim0
  have hal : al ≤ 1 := cellAlpha_le_one hn h1
  have hflag : ∀ k j, ddcwFlags env.argsort al d k j = false := by
    intro k j
    unfold ddcwFlags capColumn
    rw [if_neg, hcalm]
    simp only [hcalm]
    simpa using hal
  have himp : ∀ z ∈ rows, ∃ s, ∀ j, z j = some ((base j - (d.location j).getD 0) / (d.scale j).getD 0 +
      s * (dir j / (d.scale j).getD 0)) := by
    intro z hz
    obtain ⟨k, rfl⟩ := h6 z hz
    refine ⟨t k, fun j => ?_⟩
    have hne := hc _ hz j
    unfold ddcwImputed at hne ⊢
    rw [hflag, hX] at hne ⊢
    simp only [Option.isNone_some, Bool.or_false, Bool.false_eq_true, if_false] at hne ⊢
    rcases hl : d.location j with _ | l
    · rw [hl] at hne; exact absurd rfl hne
    rcases hs : d.scale j with _ | s
    · rw [hl, hs] at hne; exact absurd rfl hne
    rw [hl, hs] at hne
    have hs0 : s ≠ 0 := stdCell_scale hne
    show (if s = 0 then none else some _) = _
    rw [if_neg hs0]
    simp only [Option.getD_some]
    congr 1
    field_simp
    ring
  obtain ⟨e, he⟩ := C128_stage (env := env) hp ha (scale := d.scale) himp
  rw [he] at h4; cases h4

/-! ## C129: missing cells and the deletion of rows -/

theorem allSome_none {l : List (Option ℝ)} (h : none ∈ l) : allSome l = none := by
  induction l with
  | nil => cases h
  | cons x l ih =>
    rcases x with _ | x
    · rfl
    · rcases List.mem_cons.1 h with h1 | h1
      · cases h1
      · show (allSome l).map _ = none
        rw [ih h1]; rfl

theorem allSome_map_some (l : List ℝ) : allSome (l.map some) = some l := by
  induction l with
  | nil => rfl
  | cons x l ih =>
    show (allSome (l.map some)).map _ = _
    rw [ih]; rfl

/-- A single missing cell anywhere in the data: no row is deleted, however far it is from the others. -/
theorem C129_missing_disables (chi50 chi99 : ℝ) (covInv : Matrix (Fin p) (Fin p) ℝ) {Z : Cells n p} {k : Fin n}
    {j : Fin p} (h : Z k j = none) (i : Fin n) :
    casewiseOutlier chi50 chi99 (fun k => ddcwDistance covInv (Z k)) i = false := by
  have h1 : ddcwDistance covInv (Z k) = none := by
    unfold ddcwDistance
    rw [if_neg]
    intro h2
    exact h2 j h
  unfold casewiseOutlier
  rw [allSome_none (List.mem_ofFn.2 ⟨k, h1⟩)]

namespace Spec

/-- A row is far from the others: its squared distance exceeds the quotient of the chi-square quantiles times the
median of the squared distances of the complete rows. -/
def FarRow (chi50 chi99 : ℝ) {n : ℕ} (RD : Fin n → Option ℝ) (i : Fin n) : Prop :=
  ∃ d m, RD i = some d ∧ npMedian ((List.ofFn RD).filterMap id) = some m ∧ chi99 * m < d * chi50

end Spec

/-- The full statement of C129: a complete row is deleted exactly if it is far from the other complete rows. -/
def C129_statement : Prop :=
  ∀ (chi50 chi99 : ℝ) (n : ℕ) (RD : Fin n → Option ℝ) (i : Fin n), 0 < chi50 → 0 < chi99 →
    (∀ k d, RD k = some d → 0 ≤ d) → (casewiseOutlier chi50 chi99 RD i = true ↔ Spec.FarRow chi50 chi99 RD i)

/-- **C129** for data without missing cells. -/
theorem C129_complete_partial {chi50 chi99 : ℝ} (h50 : 0 < chi50) {RD : Fin n → Option ℝ} {r : Fin n → ℝ}
    (hr : ∀ k, RD k = some (r k)) (h0 : ∀ k, 0 ≤ r k) (i : Fin n) :
    casewiseOutlier chi50 chi99 RD i = true ↔ Spec.FarRow chi50 chi99 RD i := by
  have hl : List.ofFn RD = (List.ofFn r).map some := by
    rw [List.map_ofFn]
    congr 1
    funext k
    exact hr k
  have hf : (List.ofFn RD).filterMap id = List.ofFn r := by
    rw [hl]; simp
  have hne : List.ofFn r ≠ [] := by
    intro h
    have := congrArg List.length h
    rw [List.length_ofFn] at this
    exact (this ▸ i).elim0
  obtain ⟨m, hm⟩ := npMedian_isSome hne
  have hm0 : 0 ≤ m := by
    obtain ⟨y, hy⟩ := npMedian_isSome hne
    by_contra hneg
    have hb := (npMedian_half hm).1
    have : (List.ofFn r).countP (fun x => decide (x ≤ m)) = 0 := by
      rw [List.countP_eq_zero]
      intro x hx
      obtain ⟨k, rfl⟩ := List.mem_ofFn.1 hx
      have := h0 k
      simp only [decide_eq_true_eq, not_le]
      linarith [not_le.1 hneg]
    rw [this] at hb
    have := List.length_pos_iff.2 hne
    omega
  unfold casewiseOutlier Spec.FarRow
  rw [hf, hl, allSome_map_some]
  simp only [hm, hr]
  constructor
  · intro h
    refine ⟨r i, m, rfl, rfl, ?_⟩
    split_ifs at h with hz
    · rw [hz, mul_zero]
      exact mul_pos (by simpa using h) h50
    · have h1 : chi99 < r i / m * chi50 := by simpa using h
      have hmp : 0 < m := lt_of_le_of_ne hm0 (Ne.symm hz)
      rw [div_mul_eq_mul_div, lt_div_iff₀ hmp] at h1
      exact h1
  · rintro ⟨d, m', hd, hm', h⟩
    have := Option.some.inj hd
    subst this
    have := Option.some.inj hm'
    subst this
    split_ifs with hz
    · rw [hz, mul_zero] at h
      simpa using (mul_pos_iff_of_pos_right h50).1 h
    · have hmp : 0 < m := lt_of_le_of_ne hm0 (Ne.symm hz)
      rw [decide_eq_true_eq, div_mul_eq_mul_div, lt_div_iff₀ hmp]
      exact h

/-- **C129** is violated by the code: one incomplete row, two rows at squared distance 1 and one at 100, which is
not deleted. -/
theorem C129_violated : ¬ C129_statement := by
  intro h
  have h1 := (h 1.386 9.21 4 ![none, some 1, some 1, some 100] 3 (by norm_num) (by norm_num) (by
    intro k d hd
    fin_cases k
    · simp at hd
    · have := Option.some.inj hd; linarith
    · have := Option.some.inj hd; linarith
    · have := Option.some.inj hd; linarith)).2 ⟨100, 1, rfl, by
      show npMedian [(1:ℝ), 1, 100] = some 1
      exact npMedian_eq_some_iff.2 ⟨1, 1, by norm_num [Spec.IsKthSmallest, List.countP_cons],
        by norm_num [Spec.IsKthSmallest, List.countP_cons], by norm_num⟩, by norm_num⟩
  unfold casewiseOutlier at h1
  rw [allSome_none (by simp)] at h1
  cases h1

/-! ## C130: the units of the deletion of rows -/

/-- The rows that are deleted before the second stage, when the first stage ended with the matrix `T` in
standardised units and the scales are `s` (the standardised data `Z` and `T` do not depend on the units of the
data, `s` does). -/
noncomputable def deletedRow (chi50 chi99 : ℝ) (T : Matrix (Fin p) (Fin p) ℝ) (s : Fin p → ℝ) (Z : Cells n p)
    (i : Fin n) : Bool :=
  casewiseOutlier chi50 chi99 (fun k => ddcwDistance (diagonal s * T * diagonal s)⁻¹ (Z k)) i

/-- The full statement of C130: the rows that are deleted do not depend on the units of the variables. -/
def C130_statement : Prop :=
  ∀ (chi50 chi99 : ℝ) (n p : ℕ) (T : Matrix (Fin p) (Fin p) ℝ) (s s' : Fin p → ℝ) (Z : Cells n p) (i : Fin n),
    0 < chi50 → 0 < chi99 → T.PosDef → (∀ j, 0 < s j) → (∀ j, 0 < s' j) →
      deletedRow chi50 chi99 T s Z i = deletedRow chi50 chi99 T s' Z i

theorem ddcwDistance_smul (c : ℝ) (B : Matrix (Fin p) (Fin p) ℝ) (z : Fin p → Option ℝ) :
    ddcwDistance (c • B) z = (ddcwDistance B z).map fun d => c * d := by
  unfold ddcwDistance
  split_ifs
  · rw [quadForm_eq, quadForm_eq, Matrix.smul_mulVec, dotProduct_smul]
    rfl
  · rfl

theorem allSome_map_map (f : ℝ → ℝ) (l : List (Option ℝ)) :
    allSome (l.map fun x => x.map f) = (allSome l).map fun l => l.map f := by
  induction l with
  | nil => rfl
  | cons x l ih =>
    rcases x with _ | x
    · rfl
    · show (allSome (l.map _)).map _ = ((allSome l).map _).map _
      rw [ih]
      rcases allSome l with _ | l' <;> rfl

theorem casewiseOutlier_smul {c : ℝ} (hc : 0 < c) (chi50 chi99 : ℝ) (RD : Fin n → Option ℝ) (i : Fin n) :
    casewiseOutlier chi50 chi99 (fun k => (RD k).map fun d => c * d) i = casewiseOutlier chi50 chi99 RD i := by
  unfold casewiseOutlier
  have e : List.ofFn (fun k => (RD k).map fun d => c * d) = (List.ofFn RD).map fun x => x.map fun d => c * d := by
    rw [List.map_ofFn]; rfl
  rw [e, allSome_map_map]
  rcases allSome (List.ofFn RD) with _ | l
  · rfl
  · simp only [Option.map_some, npMedian_scale]
    rcases npMedian l with _ | m
    · rfl
    · rcases RD i with _ | d
      · rfl
      · simp only [Option.map_some]
        by_cases hm : m = 0
        · rw [if_pos hm, if_pos (by rw [hm, mul_zero]), decide_eq_decide]
          exact mul_pos_iff_of_pos_left hc
        · rw [if_neg hm, if_neg (mul_ne_zero hc.ne' hm), mul_div_mul_left _ _ hc.ne']

/-- **C130** when all variables change their units by the same factor. -/
theorem C130_common_factor_partial (chi50 chi99 : ℝ) (T : Matrix (Fin p) (Fin p) ℝ) (s : Fin p → ℝ) {c : ℝ}
    (hc : 0 < c) (Z : Cells n p) (i : Fin n) :
    deletedRow chi50 chi99 T (fun j => c * s j) Z i = deletedRow chi50 chi99 T s Z i := by
  have e : diagonal (fun j => c * s j) * T * diagonal (fun j => c * s j)
      = (c * c) • (diagonal s * T * diagonal s) := by
    have h1 : diagonal (fun j => c * s j) = c • diagonal s := by
      rw [← Matrix.diagonal_smul]; rfl
    rw [h1, Matrix.smul_mul, Matrix.smul_mul, Matrix.mul_smul, smul_smul]
  have e2 : ((c * c) • (diagonal s * T * diagonal s))⁻¹ = (c * c)⁻¹ • (diagonal s * T * diagonal s)⁻¹ := by
    by_cases hd : IsUnit (diagonal s * T * diagonal s).det
    · apply Matrix.inv_eq_left_inv
      rw [Matrix.smul_mul, Matrix.mul_smul, smul_smul, inv_mul_cancel₀ (mul_pos hc hc).ne', one_smul,
        Matrix.nonsing_inv_mul _ hd]
    · have hd' : ¬ IsUnit ((c * c) • (diagonal s * T * diagonal s)).det := by
        rw [Matrix.det_smul]
        intro h
        exact hd (isUnit_of_mul_isUnit_right h)
      rw [Matrix.nonsing_inv_apply_not_isUnit _ hd, Matrix.nonsing_inv_apply_not_isUnit _ hd', smul_zero]
  unfold deletedRow
  rw [e, e2]
  simp only [ddcwDistance_smul]
  exact casewiseOutlier_smul (inv_pos.2 (mul_pos hc hc)) _ _ _ _

/-- The standardised data of the witness: one row far from the others in the first variable. -/
def cells130 : Cells 3 2 := ![![some 2, some 0], ![some 0.5, some 0.5], ![some 0.5, some 0.5]]

theorem distance130 {s : Fin 2 → ℝ} (hs : ∀ j, s j ≠ 0) (a b : ℝ) (ha : |a| ≤ 2) (hb : |b| ≤ 2) :
    ddcwDistance (diagonal s * (1 : Matrix (Fin 2) (Fin 2) ℝ) * diagonal s)⁻¹ ![some a, some b]
      = some (a ^ 2 / s 0 ^ 2 + b ^ 2 / s 1 ^ 2) := by
  have hclip : ∀ v : ℝ, |v| ≤ 2 → clip2 (some v) = some v := by
    intro v hv
    rw [abs_le] at hv
    show some (min (max v (-2)) 2) = some v
    rw [max_eq_left hv.1, min_eq_left hv.2]
  have hinv : (diagonal s * (1 : Matrix (Fin 2) (Fin 2) ℝ) * diagonal s)⁻¹ = diagonal fun j => (s j ^ 2)⁻¹ := by
    apply Matrix.inv_eq_left_inv
    rw [mul_one, Matrix.diagonal_mul_diagonal, Matrix.diagonal_mul_diagonal, ← Matrix.diagonal_one]
    congr 1
    funext j
    have := hs j
    field_simp
  unfold ddcwDistance
  rw [if_pos (by intro j; fin_cases j <;> simp), hinv, quadForm_eq]
  congr 1
  simp only [dotProduct, Matrix.mulVec_diagonal, Fin.sum_univ_two, Matrix.cons_val_zero, Matrix.cons_val_one,
    hclip a ha, hclip b hb, Option.getD_some]
  field_simp

/-- **C130** is violated by the code: the first row is deleted with scales 1 and 1, and kept with scales 10 and 1. -/
theorem C130_violated : ¬ C130_statement := by
  intro h
  have key := h 1.386 9.21 3 2 1 ![1, 1] ![10, 1] cells130 0 (by norm_num) (by norm_num) Matrix.PosDef.one
    (by intro j; fin_cases j <;> simp) (by intro j; fin_cases j <;> simp)
  have hrd : ∀ s : Fin 2 → ℝ, (∀ j, s j ≠ 0) → (fun k => ddcwDistance (diagonal s * (1 : Matrix (Fin 2) (Fin 2) ℝ) *
      diagonal s)⁻¹ (cells130 k)) = fun k => some ((![4 / s 0 ^ 2, 0.25 / s 0 ^ 2 + 0.25 / s 1 ^ 2,
        0.25 / s 0 ^ 2 + 0.25 / s 1 ^ 2] : Fin 3 → ℝ) k) := by
    intro s hs
    funext k
    fin_cases k
    · refine (distance130 hs 2 0 (by norm_num) (by norm_num)).trans ?_
      norm_num
    · refine (distance130 hs 0.5 0.5 (by norm_num [abs_le]) (by norm_num [abs_le])).trans ?_
      norm_num
    · refine (distance130 hs 0.5 0.5 (by norm_num [abs_le]) (by norm_num [abs_le])).trans ?_
      norm_num
  have hmed : ∀ x y : ℝ, npMedian [x, y, y] = some y := by
    intro x y
    refine npMedian_eq_some_iff.2 ⟨y, y, ?_, ?_, by ring⟩ <;>
    · rcases lt_trichotomy x y with h | h | h
      · simp [Spec.IsKthSmallest, List.countP_cons, h, h.le]
      · simp [Spec.IsKthSmallest, List.countP_cons, h]
      · simp [Spec.IsKthSmallest, List.countP_cons, not_le.2 h, not_lt.2 h.le]
  unfold deletedRow at key
  rw [hrd ![1, 1] (by intro j; fin_cases j <;> simp), hrd ![10, 1] (by intro j; fin_cases j <;> simp)] at key
  rw [Bool.eq_iff_iff, C129_complete_partial (by norm_num) (fun _ => rfl) (by
      intro k; fin_cases k <;> norm_num),
    C129_complete_partial (by norm_num) (fun _ => rfl) (by intro k; fin_cases k <;> norm_num)] at key
  have h1 := key.1 ⟨4, 0.5, by norm_num, by
    simp only [List.ofFn_succ, List.ofFn_zero]
    norm_num
    exact hmed _ _, by norm_num⟩
  obtain ⟨d, m, hd, hm, hlt⟩ := h1
  have hd' : d = 0.04 := by
    have := Option.some.inj hd
    rw [← this]; norm_num
  have hm' : m = 0.2525 := by
    have e : ((List.ofFn fun k => some ((![4 / (![10, 1] : Fin 2 → ℝ) 0 ^ 2,
      0.25 / (![10, 1] : Fin 2 → ℝ) 0 ^ 2 + 0.25 / (![10, 1] : Fin 2 → ℝ) 1 ^ 2,
      0.25 / (![10, 1] : Fin 2 → ℝ) 0 ^ 2 + 0.25 / (![10, 1] : Fin 2 → ℝ) 1 ^ 2] : Fin 3 → ℝ) k)).filterMap id)
        = [0.04, 0.2525, 0.2525] := by
      simp only [List.ofFn_succ, List.ofFn_zero]
      norm_num
      rfl
    rw [e, hmed] at hm
    exact (Option.some.inj hm).symm
  rw [hd', hm'] at hlt
  norm_num at hlt

end Robpy
