import Verif.Props.DDCWRun
import Verif.Props.Scaling

/-! # What the covariance of `InitialDDCW` is: variances (C135) and principal directions (C136) -/

namespace Robpy
open Matrix

variable {n p : ℕ}

theorem eigh_nonneg {A : Matrix (Fin p) (Fin p) ℝ} (hA : A.PosSemidef) (e : Eigh A) (i : Fin p) : 0 ≤ e.w i := by
  have h1 : e.Vᵀ * A * e.V = Matrix.diagonal e.w := by
    refine (congrArg (fun B => e.Vᵀ * B * e.V) e.decomp).trans ?_
    beta_reduce
    rw [show e.Vᵀ * (e.V * Matrix.diagonal e.w * e.Vᵀ) * e.V = (e.Vᵀ * e.V) * Matrix.diagonal e.w * (e.Vᵀ * e.V) by
      simp only [Matrix.mul_assoc], e.orth, Matrix.one_mul, Matrix.mul_one]
  have h2 := hA.conjTranspose_mul_mul_same e.V
  rw [Matrix.conjTranspose_eq_transpose_of_trivial, h1] at h2
  have := h2.diag_nonneg (i := i)
  simpa using this

/-- Truncating the eigenvalues of a positive semidefinite matrix at `a` adds a matrix between 0 and `a`. -/
theorem truncated_between (eigh : ∀ A : Matrix (Fin p) (Fin p) ℝ, A.IsSymm → Eigh A)
    (order : (Fin p → ℝ) → Equiv.Perm (Fin p)) {C : Matrix (Fin p) (Fin p) ℝ} (hC : C.PosSemidef) {a : ℝ} (ha : 0 ≤ a) :
    (truncatedCovariance eigh order C a - C).PosSemidef ∧
      (C + a • (1 : Matrix (Fin p) (Fin p) ℝ) - truncatedCovariance eigh order C a).PosSemidef := by
  have hs : C.IsSymm := by
    have := hC.1
    rwa [Matrix.IsHermitian, Matrix.conjTranspose_eq_transpose_of_trivial] at this
  have hsym : symPart C = C := by
    unfold symPart
    rw [hs, ← two_smul ℝ C, smul_smul]
    norm_num
  rw [truncated_eq]
  have hw := eigh_nonneg (by rw [hsym]; exact hC) (eigh (symPart C) (symPart_isSymm C))
  have hd : C = (eigh (symPart C) (symPart_isSymm C)).V *
      Matrix.diagonal (eigh (symPart C) (symPart_isSymm C)).w * (eigh (symPart C) (symPart_isSymm C)).Vᵀ :=
    hsym.symm.trans (eigh (symPart C) (symPart_isSymm C)).decomp
  generalize eigh (symPart C) (symPart_isSymm C) = e at hw hd ⊢
  have hVV : e.V * e.Vᵀ = 1 := mul_eq_one_comm.1 e.orth
  have h1 : a • (1 : Matrix (Fin p) (Fin p) ℝ) = e.V * Matrix.diagonal (fun _ => a) * e.Vᵀ := by
    rw [← Matrix.smul_one_eq_diagonal, Matrix.mul_smul, Matrix.smul_mul, mul_one, hVV]
  have key : ∀ f : Fin p → ℝ, (∀ i, 0 ≤ f i) → (e.V * Matrix.diagonal f * e.Vᵀ).PosSemidef := by
    intro f hf
    have := (Matrix.PosSemidef.diagonal hf).mul_mul_conjTranspose_same e.V
    rwa [Matrix.conjTranspose_eq_transpose_of_trivial] at this
  constructor
  · have : e.V * Matrix.diagonal (fun i => max (e.w i) a) * e.Vᵀ - C =
        e.V * Matrix.diagonal (fun i => max (e.w i) a - e.w i) * e.Vᵀ := by
      rw [← Matrix.diagonal_sub, Matrix.mul_sub, Matrix.sub_mul]
      exact congrArg _ hd
    rw [this]
    exact key _ fun i => sub_nonneg.2 (le_max_left _ _)
  · have : C + a • (1 : Matrix (Fin p) (Fin p) ℝ) - e.V * Matrix.diagonal (fun i => max (e.w i) a) * e.Vᵀ =
        e.V * Matrix.diagonal (fun i => e.w i + a - max (e.w i) a) * e.Vᵀ := by
      rw [← Matrix.diagonal_sub, Matrix.mul_sub, Matrix.sub_mul, ← Matrix.diagonal_add, Matrix.mul_add, Matrix.add_mul,
        h1]
      exact congrArg (fun B => B + _ - _) hd
    rw [this]
    refine key _ fun i => ?_
    rcases max_choice (e.w i) a with h | h <;> rw [h] <;> [linarith; linarith [hw i]]

/-! ## Wrapped projections -/

/-- The covariance of `np.cov` on the diagonal in terms of the variance of the column. -/
theorem npCov_self {κ : Type} [Fintype κ] [DecidableEq κ] (Y : List (κ → ℝ)) (i : κ) (hY : Y ≠ []) :
    npCov Y i i = (Y.length : ℝ) / ((Y.length : ℝ) - 1) * var (Y.map fun y => y i) := by
  have hl : (Y.length : ℝ) ≠ 0 := by
    exact_mod_cast (List.length_pos_iff.2 hY).ne'
  unfold npCov var
  have hm : meanRow Y i = mean (Y.map fun y => y i) := rfl
  rw [hm, List.map_map]
  have e : (Y.map fun x => (x i - mean (Y.map fun y => y i)) * (x i - mean (Y.map fun y => y i))) =
      Y.map ((fun x => (x - mean (Y.map fun y => y i)) ^ 2) ∘ fun y => y i) :=
    List.map_congr_left fun y _ => (sq _).symm
  rw [e]
  generalize (fun x : ℝ => (x - mean (Y.map fun y => y i)) ^ 2) ∘ (fun y : κ → ℝ => y i) = g
  unfold mean
  rw [List.length_map]
  field_simp

theorem wrapRows_column {κ : Type} (est : List ℝ → Option ℝ × Option ℝ) (b c q1 q2 : ℝ) (P : List (κ → ℝ)) (i : κ) :
    (wrapRows est b c q1 q2 P).map (fun y => y i) =
      wrapColumn b c q1 q2 true ((est (P.map fun z => z i)).1.getD 0) ((est (P.map fun z => z i)).2.getD 0)
        (P.map fun z => z i) := by
  unfold wrapRows
  rw [List.map_map]
  set col := wrapColumn b c q1 q2 true ((est (P.map fun z => z i)).1.getD 0) ((est (P.map fun z => z i)).2.getD 0)
        (P.map fun z => z i) with hcol
  have hlen : col.length = P.length := by
    rw [hcol]; unfold wrapColumn zWrapped; simp
  have e : ((fun y : κ → ℝ => y i) ∘ fun k j => (wrapColumn b c q1 q2 true ((est (P.map fun z => z j)).1.getD 0)
      ((est (P.map fun z => z j)).2.getD 0) (P.map fun z => z j)).getD k 0) = fun k => col.getD k 0 := rfl
  simp only at e ⊢
  rw [e, ← hlen]
  refine List.ext_getElem (by simp) fun k h1 h2 => ?_
  simp at h1
  simp [h1]

theorem var_ne_zero {l : List ℝ} {x y : ℝ} (hx : x ∈ l) (hy : y ∈ l) (h : x ≠ y) : var l ≠ 0 := by
  intro h0
  unfold var mean at h0
  rw [List.length_map, div_eq_zero_iff] at h0
  have hl : (l.length : ℝ) ≠ 0 := by
    exact_mod_cast (List.length_pos_iff.2 (List.ne_nil_of_mem hx)).ne'
  have h0 := h0.resolve_right hl
  have hz : ∀ v ∈ l, v = l.sum / l.length := fun v hv => by
    have hnn : ∀ t ∈ l.map (fun x => (x - l.sum / l.length) ^ 2), 0 ≤ t := fun t ht => by
      obtain ⟨x, -, rfl⟩ := List.mem_map.1 ht
      exact sq_nonneg _
    have h1 := List.single_le_sum hnn _ (List.mem_map.2 ⟨v, hv, rfl⟩)
    rw [h0] at h1
    exact sub_eq_zero.1 ((pow_eq_zero_iff two_ne_zero).1 (le_antisymm h1 (sq_nonneg _)))
  exact h ((hz x hx).trans (hz y hy).symm)

/-- A rescaled wrapped column whose sample has two different values in the central part has the given scale. -/
theorem var_wrapColumn {b c q1 q2 l s : ℝ} (hs : 0 < s) {X : List ℝ} {x y : ℝ} (hx : x ∈ X) (hy : y ∈ X) (hxy : x ≠ y)
    (hxb : |x - l| < b * s) (hyb : |y - l| < b * s) : var (wrapColumn b c q1 q2 true l s X) = s ^ 2 := by
  have hz : ∀ v ∈ X, |v - l| < b * s → (v - l) / s ∈ zWrapped b c q1 q2 l s X := by
    intro v hv hvb
    refine List.mem_map.2 ⟨v, hv, ?_⟩
    unfold noZero wrapPsi
    rw [if_neg hs.ne', if_pos]
    rw [abs_div, abs_of_pos hs, div_lt_iff₀ hs]
    exact hvb
  have hne := var_ne_zero (hz x hx hxb) (hz y hy hyb) (by
    intro e
    rw [div_left_inj' hs.ne'] at e
    exact hxy (by linarith))
  have h2 := (C27_rescale b c q1 q2 l s X hs.le hne).2
  have h0 : 0 ≤ var (wrapColumn b c q1 q2 true l s X) := by rw [var_eq_popVar]; exact popVar_nonneg _
  calc var (wrapColumn b c q1 q2 true l s X) = Real.sqrt (var (wrapColumn b c q1 q2 true l s X)) ^ 2 :=
        (Real.sq_sqrt h0).symm
    _ = s ^ 2 := by rw [h2]

/-! ## The stage -/

/-- Specification: `C` is spread out over the principal directions `V` of the rows `R` whose variance exceeds `a`: no
variance in the other directions, and in these directions the variance is the square of the robust scale of the
projected rows (at least `a`; the divisor is `n - 1`), if two different projections are within `b` scales of the robust
location. -/
def Spec.SpreadOver (est : List ℝ → Option ℝ × Option ℝ) (a b : ℝ) (R : List (Fin p → ℝ)) (w : Fin p → ℝ)
    (V : Matrix (Fin p) (Fin p) ℝ) (C : Matrix (Fin p) (Fin p) ℝ) : Prop :=
  ∀ i, let v : Fin p → ℝ := fun j => V j i
    (w i ≤ a → C *ᵥ v = 0) ∧
    (a < w i → ∃ l s, est (R.map fun z => z ⬝ᵥ v) = (some l, some s) ∧
      ((∃ x ∈ R, ∃ y ∈ R, x ⬝ᵥ v ≠ y ⬝ᵥ v ∧ |x ⬝ᵥ v - l| < b * max s a ∧ |y ⬝ᵥ v - l| < b * max s a) →
        v ⬝ᵥ C *ᵥ v = (R.length : ℝ) / (R.length - 1) * max s a ^ 2))

open Classical in
/-- **C136** for one pass (lines 80-102 or 112-134). -/
theorem C136_stage {env : DDCWEnv p} {a : ℝ} (ha : 0 < a) {scale : Fin p → Option ℝ} {rows : List (Fin p → Option ℝ)}
    {S : Matrix (Fin p) (Fin p) ℝ} (h : ddcwStage env a scale rows = .ok S) :
    (∀ r ∈ rows, ∀ j, r j ≠ none) ∧ 2 ≤ rows.length ∧ ∃ (e : Eigh (npCov (rows.map fun r j => (r j).getD 0)))
      (C : Matrix (Fin p) (Fin p) ℝ), C.PosSemidef ∧ (∀ j, 0 < C j j) ∧
      Spec.SpreadOver env.est a env.b (rows.map fun r j => (r j).getD 0) e.w e.V C ∧
      S = diagonal (fun j => (scale j).getD 0) *
        truncatedCovariance env.eigh env.order (covarianceToCorrelation C) a * diagonal fun j => (scale j).getD 0 := by
  unfold ddcwStage at h
  split at h
  · cases h
  rename_i R hR
  obtain ⟨hc, hR'⟩ := completeRows_ok hR
  by_cases h1 : p = 1 ∨ R.length < 2
  · rw [if_pos h1] at h; cases h
  rw [if_neg h1] at h
  rw [not_or] at h1
  simp only at h
  have h2 : 2 ≤ R.length := not_lt.1 h1.2
  have hRne : R ≠ [] := by rintro rfl; simp at h2
  refine ⟨hc, by rw [hR', List.length_map] at h2; exact h2, ?_⟩
  rw [← hR']
  refine ⟨env.eigh (npCov R) (npCov_isSymm R), ?_⟩
  generalize env.eigh (npCov R) (npCov_isSymm R) = e at h ⊢
  by_cases hcard : Fintype.card {i // a < e.w i} = 1
  · rw [if_pos (by convert hcard)] at h; cases h
  rw [if_neg (by convert hcard)] at h
  split_ifs at h with h3 h4
  set W := wrapRows (flooredEst env.est a) env.b env.c env.q1 env.q2 (projectRows a e R) with hW
  set U : Matrix (Fin p) {i // a < e.w i} ℝ := fun j i => e.V j i.1 with hU
  have hpsd : (U * npCov W * Uᵀ).PosSemidef := by
    have := (npCov_posSemidef W).mul_mul_conjTranspose_same U
    rwa [Matrix.conjTranspose_eq_transpose_of_trivial] at this
  have hUt : ∀ i, Uᵀ *ᵥ (fun j => e.V j i) = fun k => if k.1 = i then 1 else 0 := by
    intro i
    funext k
    have := congrFun (congrFun e.orth k.1) i
    rw [Matrix.mul_apply, Matrix.one_apply] at this
    exact this
  refine ⟨U * npCov W * Uᵀ, hpsd, fun j => ?_, fun i => ⟨fun hi => ?_, fun hi => ?_⟩, ?_⟩
  · push Not at h4
    exact lt_of_le_of_ne (by simpa using hpsd.diag_nonneg (i := j)) (h4 j).symm
  · rw [← Matrix.mulVec_mulVec, hUt]
    have : (fun k : {i // a < e.w i} => if k.1 = i then (1 : ℝ) else 0) = 0 := by
      funext k
      have : k.1 ≠ i := fun h => absurd k.2 (not_lt.2 (h ▸ hi))
      simp [this]
    rw [this, Matrix.mulVec_zero]
  · have hcol : (projectRows a e R).map (fun z => z ⟨i, hi⟩) = R.map fun z => z ⬝ᵥ fun j => e.V j i := by
      unfold projectRows
      rw [List.map_map]
      rfl
    push Not at h3
    obtain ⟨n1, n2⟩ := h3 ⟨i, hi⟩
    rw [hcol] at n1 n2
    unfold flooredEst at n1 n2
    obtain ⟨l, hl⟩ := Option.ne_none_iff_exists'.1 n1
    simp only [ne_eq, Option.map_eq_none_iff] at n2
    obtain ⟨s, hs⟩ := Option.ne_none_iff_exists'.1 n2
    simp only at hl
    refine ⟨l, s, Prod.ext hl hs, ?_⟩
    rintro ⟨x, hx, y, hy, hxy, hxb, hyb⟩
    have hquad : (fun j => e.V j i) ⬝ᵥ (U * npCov W * Uᵀ) *ᵥ (fun j => e.V j i) = npCov W ⟨i, hi⟩ ⟨i, hi⟩ := by
      rw [← Matrix.mulVec_mulVec, ← Matrix.mulVec_mulVec, Matrix.dotProduct_mulVec, ← Matrix.mulVec_transpose, hUt]
      have : (fun k : {i // a < e.w i} => if k.1 = i then (1 : ℝ) else 0) = Pi.single ⟨i, hi⟩ 1 := by
        funext k
        rw [Pi.single_apply]
        congr 1
        simp [Subtype.ext_iff]
      rw [this, Matrix.mulVec_single_one]
      simp
    rw [hquad]
    have hWl : W.length = R.length := by rw [hW]; unfold wrapRows projectRows; simp
    rw [npCov_self W _ (by intro h; rw [h] at hWl; simp at hWl; omega), hWl]
    congr 1
    rw [hW, wrapRows_column, hcol]
    have e1 : (flooredEst env.est a (R.map fun z => z ⬝ᵥ fun j => e.V j i)).1.getD 0 = l := by
      unfold flooredEst; rw [hl]; rfl
    have e2 : (flooredEst env.est a (R.map fun z => z ⬝ᵥ fun j => e.V j i)).2.getD 0 = max s a := by
      unfold flooredEst
      rw [hs]
      simp only [Option.map_some, Option.getD_some]
      split_ifs with hlt
      · rw [max_eq_right hlt.le]
      · rw [max_eq_left (not_lt.1 hlt)]
    rw [e1, e2]
    exact var_wrapColumn (lt_of_lt_of_le ha (le_max_right _ _)) (List.mem_map.2 ⟨x, hx, rfl⟩)
      (List.mem_map.2 ⟨y, hy, rfl⟩) hxy hxb hyb
  · exact (Except.ok.inj h).symm.trans (scale_conj _ _)

theorem ddcwFrom_last {env : DDCWEnv p} {alpha a : ℝ} {d : DDCOutput n p} {X : Cells n p}
    {r : (Fin p → ℝ) × Matrix (Fin p) (Fin p) ℝ} (h : ddcwFrom env alpha a d X = .ok r) :
    ∃ keep : List (Fin n), keep.Sublist (List.finRange n) ∧
      ddcwStage env a d.scale (keep.map (ddcwImputed env.argsort alpha d X)) = .ok r.2 := by
  unfold ddcwFrom at h
  obtain ⟨S₁, h1, h2⟩ := bind_ok h
  obtain ⟨I, -, h4⟩ := bind_ok h2
  obtain ⟨S₂, h5, h6⟩ := map_ok h4
  subst h6
  exact ⟨_, List.filter_sublist, h5⟩

theorem stdCell_value {x l s : Option ℝ} (h : stdCell x l s ≠ none) :
    ∃ x' l' s', x = some x' ∧ l = some l' ∧ s = some s' ∧ stdCell x l s = some ((x' - l') / s') := by
  rcases x with _ | x
  · exact absurd rfl h
  rcases l with _ | l
  · exact absurd rfl h
  rcases s with _ | s
  · exact absurd rfl h
  refine ⟨x, l, s, rfl, rfl, rfl, ?_⟩
  by_cases h0 : s = 0
  · exact absurd (if_pos h0) h
  · exact if_neg h0

/-- Specification: `T` is `K` with the eigenvalues below `a` raised, no more than necessary and never by more than
`a`. -/
def Spec.RaisedTo (a : ℝ) (K T : Matrix (Fin p) (Fin p) ℝ) : Prop :=
  (T - K).PosSemidef ∧ (K + a • (1 : Matrix (Fin p) (Fin p) ℝ) - T).PosSemidef ∧
    (T - a • (1 : Matrix (Fin p) (Fin p) ℝ)).PosSemidef ∧
    ((K - a • (1 : Matrix (Fin p) (Fin p) ℝ)).PosSemidef → T = K)

/-- **C136**: the covariance matrix of `InitialDDCW` is a correlation matrix `K`, with its small eigenvalues raised,
in the units of the scales of `DDC`.  `K` is the correlation matrix of a matrix `C` that has, in each principal
direction (of the standardised imputed rows that were kept) with variance above `min_eigenvalue`, the squared robust
scale of the rows projected on that direction as variance, and no variance in the other principal directions. -/
theorem C136_directions {env : DDCWEnv p} {alpha a : ℝ} (ha : 0 < a) {d : DDCOutput n p} {X : Cells n p}
    {r : (Fin p → ℝ) × Matrix (Fin p) (Fin p) ℝ} (h : ddcwFrom env alpha a d X = .ok r) :
    ∃ (keep : List (Fin n)) (s : Fin p → ℝ) (R : List (Fin p → ℝ)), keep.Sublist (List.finRange n) ∧
      (∀ j, d.scale j = some (s j) ∧ s j ≠ 0) ∧ R.length = keep.length ∧
      (∀ m (hm : m < R.length) (hk : m < keep.length) j, ∃ x l, d.location j = some l ∧ R[m] j = (x - l) / s j ∧
        (X keep[m] j = none ∨ ddcwFlags env.argsort alpha d keep[m] j = true → d.imputed keep[m] j = some x) ∧
        (X keep[m] j = none ∨ ddcwFlags env.argsort alpha d keep[m] j = true ∨ X keep[m] j = some x)) ∧
      ∃ (w : Fin p → ℝ) (V C K T : Matrix (Fin p) (Fin p) ℝ),
        (Vᵀ * V = 1 ∧ npCov R * V = V * diagonal w) ∧
        C.PosSemidef ∧ (∀ j, 0 < C j j) ∧ Spec.SpreadOver env.est a env.b R w V C ∧
        (∀ i j, K i j * (Real.sqrt (C i i) * Real.sqrt (C j j)) = C i j) ∧ Spec.RaisedTo a K T ∧
        ∀ i j, r.2 i j = s i * T i j * s j := by
  obtain ⟨keep, hkeep, hst⟩ := ddcwFrom_last h
  obtain ⟨-, -, hs⟩ := C126_from ha h
  obtain ⟨hc, hlen, e, C, hC, hCd, hsp, hS⟩ := C136_stage ha hst
  have key : ∀ o : Option ℝ, o.getD 0 ≠ 0 → o = some (o.getD 0) := by
    rintro (_ | s) h
    · exact absurd rfl h
    · rfl
  have key2 : ∀ o : Option ℝ, o ≠ none → some (o.getD 0) = o := by
    rintro (_ | s) h
    · exact absurd rfl h
    · rfl
  obtain ⟨hKs, hKp, -, -⟩ := C34_correlation C hC hCd
  refine ⟨keep, fun j => (d.scale j).getD 0, _, hkeep, fun j => ⟨key _ (hs j), hs j⟩, by simp, ?_,
    e.w, e.V, C, covarianceToCorrelation C, truncatedCovariance env.eigh env.order (covarianceToCorrelation C) a,
    ⟨e.orth, ?_⟩, hC, hCd, hsp, fun i j => ?_, ⟨(truncated_between _ _ hKp ha.le).1, (truncated_between _ _ hKp ha.le).2,
    (C33_bound _ _ _ _).2, C33_unchanged _ _ _ _ hKs⟩, fun i j => ?_⟩
  · intro m hm hk j
    have hne := hc _ (List.mem_map.2 ⟨_, List.getElem_mem hk, rfl⟩) j
    have e1 := key2 _ hne
    rw [List.getElem_map, List.getElem_map]
    generalize keep[m] = k at hne e1 ⊢
    obtain ⟨x, l, s', h1, h2, h3, h4⟩ := stdCell_value hne
    refine ⟨x, l, h2, ?_, ?_, ?_⟩
    · have : ddcwImputed env.argsort alpha d X k j = some ((x - l) / s') := h4
      rw [this]
      simp only [h3, Option.getD_some]
    · intro h0
      rw [if_pos] at h1
      · exact h1
      · rcases h0 with h0 | h0
        · simp [h0]
        · simp [h0]
    · by_cases hx : X k j = none
      · exact Or.inl hx
      · by_cases hf : ddcwFlags env.argsort alpha d k j = true
        · exact Or.inr (Or.inl hf)
        · rw [if_neg] at h1
          · exact Or.inr (Or.inr h1)
          · obtain ⟨v, hv⟩ := Option.ne_none_iff_exists'.1 hx
            simp [hf, hv]
  · refine (congrArg (fun B => B * e.V) e.decomp).trans ?_
    beta_reduce
    rw [mul_assoc, e.orth, mul_one]
  · unfold covarianceToCorrelation
    exact div_mul_cancel₀ _ (mul_pos (Real.sqrt_pos.2 (hCd i)) (Real.sqrt_pos.2 (hCd j))).ne'
  · rw [hS, Matrix.mul_diagonal, Matrix.diagonal_mul]

theorem ddcwStage_posDef {env : DDCWEnv p} {a : ℝ} (ha : 0 < a) {scale : Fin p → Option ℝ} (hs : ∀ j, (scale j).getD 0 ≠ 0)
    {rows : List (Fin p → Option ℝ)} {S : Matrix (Fin p) (Fin p) ℝ} (h : ddcwStage env a scale rows = .ok S) : S.PosDef := by
  obtain ⟨-, -, -, ⟨C, hS⟩, -⟩ := ddcwStage_parts h
  rw [hS]
  exact diag_conj_posDef (posDef_of_bound ha (C33_bound env.eigh env.order C a).2) hs

/-- **C129** (partial) in terms of the whole estimator: for data without missing cells the first pass uses exactly the
rows that `DDC` did not flag, and the second pass exactly the rows whose standardised cells, cut off at -2 and 2, are
not far from 0 in the metric of the first covariance.  Missing: data with missing cells (violated). -/
theorem C129_rows_partial {env : DDCWEnv p} {alpha a : ℝ} (ha : 0 < a) (h50 : 0 < env.chi50) {d : DDCOutput n p}
    {X : Cells n p} (hX : ∀ k j, X k j ≠ none) {r : (Fin p → ℝ) × Matrix (Fin p) (Fin p) ℝ}
    (h : ddcwFrom env alpha a d X = .ok r) :
    ∃ (S₁ : Matrix (Fin p) (Fin p) ℝ) (keep₁ keep₂ : List (Fin n)) (z : Fin n → Fin p → ℝ),
      (∀ k j, ∃ x l s, X k j = some x ∧ d.location j = some l ∧ d.scale j = some s ∧ z k j = max (-2) (min 2 ((x - l) / s))) ∧
      keep₁.Sublist (List.finRange n) ∧ (∀ k, k ∈ keep₁ ↔ d.rowOut k = false) ∧
      ddcwStage env a d.scale (keep₁.map (ddcwImputed env.argsort alpha d X)) = .ok S₁ ∧
      keep₂.Sublist (List.finRange n) ∧
      (∀ k, k ∈ keep₂ ↔ ¬ Spec.FarRow env.chi50 env.chi99 (fun k => some (z k ⬝ᵥ (S₁⁻¹ *ᵥ z k))) k) ∧
      ddcwStage env a d.scale (keep₂.map (ddcwImputed env.argsort alpha d X)) = .ok r.2 := by
  obtain ⟨-, -, hs⟩ := C126_from ha h
  have hloc : ∀ j, d.location j ≠ none := by
    intro j
    obtain ⟨-, -, rows, -, h2, -, hrows, -⟩ := ddcwFrom_parts h
    obtain ⟨-, hlen, hc, -⟩ := ddcwStage_parts h2
    obtain ⟨z, hz⟩ := List.exists_mem_of_length_pos (by omega : 0 < rows.length)
    obtain ⟨k, rfl⟩ := hrows z hz
    obtain ⟨x, l, s, -, h1, -⟩ := stdCell_value (hc _ hz j)
    rw [h1]; simp
  unfold ddcwFrom at h
  obtain ⟨S₁, h1, h2⟩ := bind_ok h
  obtain ⟨I, h3, h4⟩ := bind_ok h2
  obtain ⟨S₂, h5, h6⟩ := map_ok h4
  have hpd := ddcwStage_posDef ha hs h1
  have hI : I = S₁⁻¹ := by
    rw [npInv_eq S₁ hpd.det_pos.ne'] at h3
    exact (Except.ok.inj h3).symm
  subst hI
  have hcell : ∀ k j, ∃ x l s, X k j = some x ∧ d.location j = some l ∧ d.scale j = some s ∧
      stdCell (X k j) (d.location j) (d.scale j) = some ((x - l) / s) := by
    intro k j
    obtain ⟨x, hx⟩ := Option.ne_none_iff_exists'.1 (hX k j)
    obtain ⟨l, hl⟩ := Option.ne_none_iff_exists'.1 (hloc j)
    have h0 := hs j
    rcases hsj : d.scale j with _ | s
    · rw [hsj] at h0; exact absurd rfl h0
    · rw [hsj] at h0
      refine ⟨x, l, s, hx, hl, rfl, ?_⟩
      rw [hx, hl]
      exact if_neg h0
  let z : Fin n → Fin p → ℝ := fun k j => (clip2 (stdCell (X k j) (d.location j) (d.scale j))).getD 0
  have hRD : (fun k => ddcwDistance S₁⁻¹ fun j => stdCell (X k j) (d.location j) (d.scale j)) =
      fun k => some (z k ⬝ᵥ (S₁⁻¹ *ᵥ z k)) := by
    funext k
    unfold ddcwDistance
    rw [if_pos]
    · rw [quadForm_eq]
    · intro j
      obtain ⟨x, l, s, -, -, -, e⟩ := hcell k j
      show stdCell (X k j) (d.location j) (d.scale j) ≠ none
      rw [e]; simp
  have hnn : ∀ k, 0 ≤ z k ⬝ᵥ (S₁⁻¹ *ᵥ z k) := fun k => by
    have := hpd.inv.posSemidef.dotProduct_mulVec_nonneg (z k)
    simpa using this
  subst h6
  refine ⟨S₁, _, _, z, fun k j => ?_, List.filter_sublist, fun k => ?_, h1, List.filter_sublist, fun k => ?_, h5⟩
  · obtain ⟨x, l, s, e1, e2, e3, e4⟩ := hcell k j
    refine ⟨x, l, s, e1, e2, e3, ?_⟩
    show (clip2 (stdCell (X k j) (d.location j) (d.scale j))).getD 0 = _
    rw [e4]
    show min (max ((x - l) / s) (-2)) 2 = _
    rw [max_comm, max_min_distrib_left]
    rw [max_eq_right (by norm_num : (-2:ℝ) ≤ 2), min_comm]
  · simp
  · rw [List.mem_filter]
    simp only [List.mem_finRange, true_and, Bool.not_eq_true']
    rw [hRD, ← C129_complete_partial h50 (fun _ => rfl) hnn k, Bool.not_eq_true]

/-- **C135** for everything after `DDC`. -/
theorem C135_from {env : DDCWEnv p} {alpha a : ℝ} (ha : 0 < a) {d : DDCOutput n p} {X : Cells n p}
    {r : (Fin p → ℝ) × Matrix (Fin p) (Fin p) ℝ} (h : ddcwFrom env alpha a d X = .ok r) (j : Fin p) :
    ∃ s, d.scale j = some s ∧ s ^ 2 ≤ r.2 j j ∧ r.2 j j ≤ (1 + a) * s ^ 2 := by
  obtain ⟨-, s, -, -, hs, -, -, -, -, C, K, T, -, -, hC, -, hK, ⟨h1, h2, -⟩, hr⟩ := C136_directions ha h
  have hKj : K j j = 1 := by
    have := hK j j
    rw [Real.mul_self_sqrt (hC j).le] at this
    exact mul_right_cancel₀ (hC j).ne' (by rw [this, one_mul])
  have d1 := h1.diag_nonneg (i := j)
  have d2 := h2.diag_nonneg (i := j)
  simp only [Matrix.sub_apply, Matrix.add_apply, Matrix.smul_apply, Matrix.one_apply_eq, hKj, smul_eq_mul, mul_one] at d1 d2
  refine ⟨s j, (hs j).1, ?_, ?_⟩
  · rw [hr]; nlinarith [sq_nonneg (s j)]
  · rw [hr]; nlinarith [sq_nonneg (s j)]

/-- **C135**: after a successful fit with a positive `min_eigenvalue` the variance of every variable is the square of
the scale `DDC` gave it, up to a factor between 1 and `1 + min_eigenvalue`. -/
theorem C135_variances {env : DDCWEnv p} {alpha a : ℝ} (ha : 0 < a) {X : Cells n p}
    {r : (Fin p → ℝ) × Matrix (Fin p) (Fin p) ℝ × Matrix (Fin p) (Fin p) ℝ} (h : ddcwFit env alpha a X = .ok r) :
    ∃ d, ddcwDDC env X = .ok d ∧ ∀ j, d.location j = some (r.1 j) ∧
      ∃ s, d.scale j = some s ∧ s ^ 2 ≤ r.2.1 j j ∧ r.2.1 j j ≤ (1 + a) * s ^ 2 := by
  obtain ⟨h1, -⟩ := ddcwFit_parts h
  obtain ⟨al, d, -, h3, h4⟩ := ddcwCalc_parts h1
  refine ⟨d, h3, fun j => ⟨?_, C135_from ha h4 j⟩⟩
  obtain ⟨-, -, rows, -, h2, -, hrows, hloc⟩ := ddcwFrom_parts h4
  obtain ⟨-, hlen, hc, -⟩ := ddcwStage_parts h2
  obtain ⟨z, hz⟩ := List.exists_mem_of_length_pos (by omega : 0 < rows.length)
  obtain ⟨k, rfl⟩ := hrows z hz
  have hne := hc _ hz j
  have hl : d.location j ≠ none := by
    intro h0
    apply hne
    unfold ddcwImputed
    rw [h0]
    unfold stdCell
    cases (if ddcwFlags env.argsort al d k j || (X k j).isNone then d.imputed k j else X k j) <;> rfl
  obtain ⟨l, hl⟩ := Option.ne_none_iff_exists'.1 hl
  rw [show r.1 j = (d.location j).getD 0 from congrFun hloc j, hl]
  rfl

/-- **C135** on the run `fitRun`: the variances 4 are the squares of the scales 2. -/
example : ∃ d, ddcwDDC envRun cellsRun = .ok d ∧ ∀ j, d.location j = some 0 ∧
    ∃ s, d.scale j = some s ∧ s ^ 2 ≤ (diagonal fun _ : Fin 2 => (4:ℝ)) j j ∧
      (diagonal fun _ : Fin 2 => (4:ℝ)) j j ≤ (1 + 1 / 100) * s ^ 2 :=
  C135_variances (by norm_num) fitRun

/-- The hypothesis of `C136_directions` is met by `fitRun`. -/
example : ∃ alpha d r, ddcwFrom envRun alpha (1 / 100) d cellsRun = .ok r := by
  obtain ⟨al, d, -, -, h⟩ := ddcwCalc_parts (ddcwFit_parts fitRun).1
  exact ⟨al, d, _, h⟩

/-- The hypotheses of `C129_rows_partial` are met by that run. -/
example : (∀ k j, cellsRun k j ≠ none) ∧ 0 < envRun.chi50 ∧
    ∃ alpha d r, ddcwFrom envRun alpha (1 / 100) d cellsRun = .ok r := by
  obtain ⟨al, d, -, -, h⟩ := ddcwCalc_parts (ddcwFit_parts fitRun).1
  exact ⟨by intro k j; fin_cases k <;> fin_cases j <;> simp [cellsRun], by norm_num [envRun, envPlain], al, d, _, h⟩

/-- The condition on two projections in `Spec.SpreadOver` is met by the rows of that run and the first unit vector:
projections -1 and 1 lie within 1.5 times the scale 2 of the location 0. -/
example : ∃ x ∈ rowsRun, ∃ y ∈ rowsRun, x ⬝ᵥ ![1, 0] ≠ y ⬝ᵥ ![1, 0] ∧ |x ⬝ᵥ ![1, 0] - 0| < 1.5 * max 2 (1 / 100) ∧
    |y ⬝ᵥ ![1, 0] - 0| < (1.5 : ℝ) * max 2 (1 / 100) := by
  have hm : max (2:ℝ) (1 / 100) = 2 := max_eq_left (by norm_num)
  refine ⟨![-1, 1 / 2], by simp [rowsRun], ![1, -1 / 2], by simp [rowsRun], ?_, ?_, ?_⟩ <;>
    norm_num [dotProduct, Fin.sum_univ_two, hm]

end Robpy
