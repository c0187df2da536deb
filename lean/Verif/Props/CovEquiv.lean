import Verif.Props.Covariance
import Verif.Props.Scaling
import Verif.Props.MCDPost
import Verif.Lemmas.Median

/-! # Properties C84-C86: equivariance of OGK, rank invariance of Kendall, wrapping covariance -/

namespace Robpy
open Matrix

section
variable {p : ℕ}

/-! ## C84 -/

/-- Change of units and origin of the columns. -/
def rescaleRows (a b : Fin p → ℝ) (X : List (Fin p → ℝ)) : List (Fin p → ℝ) :=
  X.map fun x j => a j * x j + b j

/-- A scale estimator is equivariant on non-empty samples. -/
def ScaleEquivariant (est : List ℝ → ℝ) : Prop :=
  ∀ (c d : ℝ) (l : List ℝ), 0 < c → l ≠ [] → est (l.map fun x => c * x + d) = c * est l

/-- A location estimator is equivariant on non-empty samples. -/
def LocEquivariant (loc : List ℝ → ℝ) : Prop :=
  ∀ (c d : ℝ) (l : List ℝ), 0 < c → l ≠ [] → loc (l.map fun x => c * x + d) = c * loc l + d

theorem column_rescale (a b : Fin p → ℝ) (X : List (Fin p → ℝ)) (i : Fin p) :
    column (rescaleRows a b X) i = (column X i).map fun x => a i * x + b i := by
  simp [column, rescaleRows, Function.comp_def]

theorem eighRev_orth {A : Matrix (Fin p) (Fin p) ℝ} (e : Eigh A) :
    e.V.submatrix id Fin.rev * (e.V.submatrix id Fin.rev)ᵀ = 1 := by
  have h1 : e.V * e.Vᵀ = 1 := mul_eq_one_comm.1 e.orth
  have h2 : (e.V.submatrix id Fin.rev)ᵀ = e.Vᵀ.submatrix (Fin.revPerm : Equiv.Perm (Fin p)) id := rfl
  have h3 : e.V.submatrix id Fin.rev = e.V.submatrix id (Fin.revPerm : Equiv.Perm (Fin p)) := rfl
  rw [h2, h3, Matrix.submatrix_mul_equiv, h1]
  rfl

/-- One pass on rescaled data: the same rotation, shifted scores. -/
theorem ogkStep_rescale (eigh : ∀ A : Matrix (Fin p) (Fin p) ℝ, A.IsSymm → Eigh A) {est : List ℝ → ℝ}
    (hest : ScaleEquivariant est) (a b : Fin p → ℝ) (ha : ∀ j, 0 < a j) (Z : List (Fin p → ℝ)) (hZ : Z ≠ []) :
    match ogkStep eigh est Z with
    | none => ogkStep eigh est (rescaleRows a b Z) = none
    | some r => r.1 ≠ [] ∧ ∃ c : Fin p → ℝ, ogkStep eigh est (rescaleRows a b Z) =
        some (rescaleRows (fun _ => 1) c r.1, Matrix.diagonal a * r.2) ∧ (Matrix.diagonal a * r.2) *ᵥ c = b := by
  have hcol : ∀ i, column Z i ≠ [] := fun i => by simpa [column] using hZ
  have hs : ∀ i, est (column (rescaleRows a b Z) i) = a i * est (column Z i) := fun i => by
    rw [column_rescale, hest _ _ _ (ha i) (hcol i)]
  unfold ogkStep
  simp only [hs]
  by_cases h0 : ∃ i, est (column Z i) = 0
  · obtain ⟨i, hi⟩ := h0
    rw [if_pos (Or.inl ⟨i, hi⟩)]
    exact if_pos (Or.inl ⟨i, by rw [hi, mul_zero]⟩)
  push Not at h0
  have hY : ((rescaleRows a b Z).map fun z j => z j / (a j * est (column Z j))) =
      (Z.map fun z j => z j / est (column Z j)).map fun y j => y j + b j / (a j * est (column Z j)) := by
    unfold rescaleRows
    rw [List.map_map, List.map_map]
    refine List.map_congr_left fun z _ => ?_
    funext j
    have h1 := (ha j).ne'
    have h2 := h0 j
    simp only [Function.comp]
    field_simp
  have hYne : (Z.map fun z j => z j / est (column Z j)) ≠ [] := by simpa using hZ
  set Y := Z.map fun z j => z j / est (column Z j) with hYdef
  set c0 : Fin p → ℝ := fun j => b j / (a j * est (column Z j)) with hc0
  have hsum : ∀ i j, est (((rescaleRows a b Z).map fun z j => z j / (a j * est (column Z j))).map fun y => y i + y j) =
      est (Y.map fun y => y i + y j) := by
    intro i j
    rw [hY, List.map_map]
    have := hest 1 (c0 i + c0 j) (Y.map fun y => y i + y j) one_pos (by simpa using hYne)
    rw [List.map_map, one_mul] at this
    rw [← this]
    congr 1
    refine List.map_congr_left fun y _ => ?_
    simp only [Function.comp, hc0]; ring
  have hdiff : ∀ i j, est (((rescaleRows a b Z).map fun z j => z j / (a j * est (column Z j))).map fun y => y i - y j) =
      est (Y.map fun y => y i - y j) := by
    intro i j
    rw [hY, List.map_map]
    have := hest 1 (c0 i - c0 j) (Y.map fun y => y i - y j) one_pos (by simpa using hYne)
    rw [List.map_map, one_mul] at this
    rw [← this]
    congr 1
    refine List.map_congr_left fun y _ => ?_
    simp only [Function.comp, hc0]; ring
  simp only [hsum, hdiff]
  by_cases h1 : ∃ i j, j < i ∧ est (Y.map fun y => y i + y j) ^ 2 + est (Y.map fun y => y i - y j) ^ 2 = 0
  · rw [if_pos (Or.inr h1)]
    exact if_pos (Or.inr h1)
  rw [if_neg (by push Not; exact ⟨h0, by push Not at h1; exact h1⟩)]
  simp only
  rw [if_neg (by
    push Not
    exact ⟨fun i => mul_ne_zero (ha i).ne' (h0 i), by push Not at h1; exact h1⟩)]
  have hEE : ∀ cor, ogkE eigh cor * (ogkE eigh cor)ᵀ = 1 := fun cor => eighRev_orth _
  generalize hE : ogkE eigh _ = E
  replace hEE : E * Eᵀ = 1 := hE ▸ hEE _
  refine ⟨by simpa using hYne, c0 ᵥ* E, ?_, ?_⟩
  · congr 2
    · rw [hY]
      clear_value Y
      simp only [rescaleRows, List.map_map]
      refine List.map_congr_left fun y _ => ?_
      funext j
      have : (fun j => y j + c0 j) = y + c0 := rfl
      simp only [Function.comp]
      rw [show (fun j => y j + b j / (a j * est (column Z j))) = y + c0 from rfl, Matrix.add_vecMul]
      simp
    · rw [← Matrix.mul_assoc, Matrix.diagonal_mul_diagonal]
  · rw [← Matrix.mulVec_transpose, Matrix.mulVec_mulVec, ← Matrix.mul_assoc, Matrix.diagonal_mul_diagonal,
      Matrix.mul_assoc, hEE, Matrix.mul_one]
    funext j
    rw [Matrix.mulVec_diagonal]
    have h1 := (ha j).ne'
    have h2 := h0 j
    simp only [hc0]
    field_simp

theorem ogkRaw_succ (eigh : ∀ A : Matrix (Fin p) (Fin p) ℝ, A.IsSymm → Eigh A) (loc est : List ℝ → ℝ) (k : ℕ)
    (X : List (Fin p → ℝ)) :
    ogkRaw eigh loc est (k + 1) X = (ogkStep eigh est X).bind fun r =>
      (ogkRaw eigh loc est k r.1).map fun q => (r.2 *ᵥ q.1, r.2 * q.2 * r.2ᵀ) := by
  unfold ogkRaw
  rw [ogkLoop]
  rcases ogkStep eigh est X with _ | r
  · rfl
  · simp only [Option.bind_some]
    rcases ogkLoop eigh est k r.1 with _ | q
    · rfl
    · rfl

/-- **C84**, raw estimates: a change of units and origin of the columns carries over. -/
theorem C84_raw (eigh : ∀ A : Matrix (Fin p) (Fin p) ℝ, A.IsSymm → Eigh A) (loc est : List ℝ → ℝ)
    (hest : ScaleEquivariant est) (hloc : LocEquivariant loc) (k : ℕ) (a b : Fin p → ℝ) (ha : ∀ j, 0 < a j)
    (X : List (Fin p → ℝ)) (hX : X ≠ []) :
    ogkRaw eigh loc est k (X.map fun x j => a j * x j + b j) =
      (ogkRaw eigh loc est k X).map fun q =>
        (Matrix.diagonal a *ᵥ q.1 + b, Matrix.diagonal a * q.2 * (Matrix.diagonal a)ᵀ) := by
  change ogkRaw eigh loc est k (rescaleRows a b X) = _
  induction k generalizing X a b with
  | zero =>
    have hcol : ∀ i, column X i ≠ [] := fun i => by simpa [column] using hX
    simp only [ogkRaw, ogkLoop, Option.map_some, List.foldr_nil]
    congr 2
    · funext i
      rw [column_rescale, hloc _ _ _ (ha i) (hcol i)]
      simp [Matrix.mulVec_diagonal]
    · rw [Matrix.diagonal_transpose, Matrix.diagonal_mul_diagonal, Matrix.diagonal_mul_diagonal]
      congr 1
      funext i
      rw [column_rescale, hest _ _ _ (ha i) (hcol i)]
      ring
  | succ k ih =>
    rw [ogkRaw_succ, ogkRaw_succ]
    have h := ogkStep_rescale eigh hest a b ha X hX
    rcases hr : ogkStep eigh est X with _ | r
    · rw [hr] at h
      simp only at h
      rw [h]; rfl
    · rw [hr] at h
      obtain ⟨hne, c, h1, h2⟩ := h
      rw [h1]
      simp only [Option.bind_some]
      rw [ih (fun _ => 1) c (fun _ => one_pos) r.1 hne, Option.map_map, Option.map_map]
      congr 1
      funext q
      have e1 : Matrix.diagonal (fun _ : Fin p => (1:ℝ)) = 1 := Matrix.diagonal_one
      simp only [Function.comp, e1, Matrix.one_mulVec, Matrix.one_mul, Matrix.transpose_one, Matrix.mul_one]
      congr 1
      · rw [Matrix.mulVec_add, h2, Matrix.mulVec_mulVec]
      · rw [Matrix.transpose_mul]
        simp only [Matrix.mul_assoc]

theorem rescaleRows_eq (a b : Fin p → ℝ) (X : List (Fin p → ℝ)) :
    rescaleRows a b X = X.map fun x => Matrix.diagonal a *ᵥ x + b := by
  unfold rescaleRows
  refine List.map_congr_left fun x _ => ?_
  funext j
  simp [Matrix.mulVec_diagonal]

theorem maskRows_map_rows {α β : Type} (f : α → β) (mask : List Bool) (X : List α) :
    maskRows mask (X.map f) = (maskRows mask X).map f := by
  unfold maskRows
  induction X generalizing mask with
  | nil => simp
  | cons x X ih =>
    rcases mask with _ | ⟨b, mask⟩
    · simp
    · rcases b with _ | _
      · simpa using ih mask
      · simpa using ih mask

/-- **C84**: with or without reweighting, a change of units (positive factors) and origin of the columns carries
over to the matrix and the location that OGK reports, for equivariant location and scale estimators. -/
theorem C84_ogk (eigh : ∀ A : Matrix (Fin p) (Fin p) ℝ, A.IsSymm → Eigh A) (loc est : List ℝ → ℝ)
    (hest : ScaleEquivariant est) (hloc : LocEquivariant loc) (k : ℕ) (reweighting : Bool) (ratio : ℝ)
    (a b : Fin p → ℝ) (ha : ∀ j, 0 < a j) (X : List (Fin p → ℝ)) (hX : X ≠ []) (st st' st1 : CovState ℝ (Fin p))
    (cov : Matrix (Fin p) (Fin p) ℝ) (mu : Fin p → ℝ)
    (h : ogkCalc eigh loc est k reweighting ratio X st = (.ok (some cov), st1)) (hmu : st1.location_ = some mu) :
    ∃ st2 cov2 mu2, ogkCalc eigh loc est k reweighting ratio (X.map fun x j => a j * x j + b j) st' =
        (.ok (some cov2), st2) ∧ st2.location_ = some mu2 ∧
      (∀ j, mu2 j = a j * mu j + b j) ∧ ∀ i j, cov2 i j = a i * a j * cov i j := by
  have hraw := C84_raw eigh loc est hest hloc k a b ha X hX
  have hdet : (Matrix.diagonal a).det ≠ 0 := by
    rw [Matrix.det_diagonal]
    exact Finset.prod_ne_zero_iff.2 fun i _ => (ha i).ne'
  have hm : ∀ (v : Fin p → ℝ) j, (Matrix.diagonal a *ᵥ v + b) j = a j * v j + b j := fun v j => by
    simp [Matrix.mulVec_diagonal]
  have hc : ∀ (C : Matrix (Fin p) (Fin p) ℝ) i j, (Matrix.diagonal a * C * (Matrix.diagonal a)ᵀ) i j =
      a i * a j * C i j := fun C i j => by
    rw [Matrix.diagonal_transpose, Matrix.mul_diagonal, Matrix.diagonal_mul]; ring
  unfold ogkCalc at h ⊢
  rw [hraw]
  rcases hr : ogkRaw eigh loc est k X with _ | ⟨mu0, cov0⟩
  · rw [hr] at h; simp at h
  rw [hr] at h
  simp only [Option.map_some] at h ⊢
  rcases reweighting with _ | _
  · simp only [Bool.false_eq_true, if_false] at h ⊢
    obtain ⟨h1, rfl⟩ := Prod.mk.inj h
    obtain rfl := Option.some.inj (Except.ok.inj h1)
    obtain rfl := Option.some.inj hmu
    exact ⟨_, _, _, rfl, rfl, hm _, hc _⟩
  · simp only [if_true] at h ⊢
    have hinv : mahalanobis (X.map fun x j => a j * x j + b j) (Matrix.diagonal a *ᵥ mu0 + b)
        (Matrix.diagonal a * cov0 * (Matrix.diagonal a)ᵀ) = mahalanobis X mu0 cov0 := by
      have := C31_affine_invariant (Matrix.diagonal a) cov0 hdet b mu0 X
      rwa [← rescaleRows_eq] at this
    unfold ogkReweight at h ⊢
    rw [hinv]
    rcases hd : mahalanobis X mu0 cov0 with e | d
    · rw [hd] at h; simp [Except.map] at h
    rw [hd] at h
    simp only [Except.map] at h ⊢
    have hrows := maskRows_map_rows (fun (x : Fin p → ℝ) j => a j * x j + b j)
      (d.map fun v => decide (v < ratio * (npMedian d).getD 0)) X
    rw [hrows]
    set rows := maskRows (d.map fun v => decide (v < ratio * (npMedian d).getD 0)) X with hrowsdef
    rw [List.length_map]
    obtain ⟨h1, rfl⟩ := Prod.mk.inj h
    by_cases hlt : rows.length < 2 ∨ p = 1
    · rw [if_pos hlt] at h1; simp at h1
    rw [if_neg hlt] at h1 ⊢
    obtain rfl := Option.some.inj (Except.ok.inj h1)
    obtain rfl := Option.some.inj hmu
    have hlen : (rows.length : ℝ) ≠ 0 := by
      push Not at hlt
      have : 0 < rows.length := by omega
      exact_mod_cast this.ne'
    have e1 : (rows.map fun x j => a j * x j + b j) = rows.map fun x => Matrix.diagonal a *ᵥ x + b :=
      rescaleRows_eq a b rows
    refine ⟨_, _, _, rfl, rfl, ?_, ?_⟩
    · rw [e1, meanRow_affine _ _ _ hlen]; exact hm _
    · rw [e1, npCov_affine _ _ _ hlen]; exact hc _

/-- The default estimators of OGK, median and MAD, are equivariant. -/
theorem median_locEquivariant : LocEquivariant fun l => (npMedian l).getD 0 := by
  intro c d l _ hl
  simp only
  rw [npMedian_affine]
  obtain ⟨v, h⟩ := npMedian_isSome hl
  rw [h]
  rfl

theorem mad_scaleEquivariant : ScaleEquivariant fun l => (madRaw l).getD 0 := by
  intro c d l hc _
  simp only
  rw [madRaw_affine, abs_of_pos hc]
  rcases madRaw l with _ | v <;> simp

/-- `C84_ogk` applies to the default estimators whenever the fit succeeds; here without iterations. -/
example : ∃ st2 cov2 mu2, ogkCalc eighSpectral (fun l => (npMedian l).getD 0) (fun l => (madRaw l).getD 0) 0 false 1
    ([![1, 2], ![3, 5], ![4, 4]].map fun (x : Fin 2 → ℝ) j => ![2, 3] j * x j + ![1, 7] j) CovState.new =
      (.ok (some cov2), st2) ∧ st2.location_ = some mu2 := by
  obtain ⟨s, c, u, h1, h2, -, -⟩ := C84_ogk eighSpectral _ _ mad_scaleEquivariant median_locEquivariant 0 false 1
    ![2, 3] ![1, 7] (by intro j; fin_cases j <;> norm_num) [![1, 2], ![3, 5], ![4, 4]] (by simp)
    CovState.new CovState.new _ _ _ rfl rfl
  exact ⟨s, c, u, h1, h2⟩

/-! ## C87 -/

/-- **C87**: with reweighting, OGK reports the mean and the classical covariance of exactly those rows whose
distance from the raw estimates is below `ratio` times the median distance. -/
theorem C87_reweighted (eigh : ∀ A : Matrix (Fin p) (Fin p) ℝ, A.IsSymm → Eigh A) (loc est : List ℝ → ℝ) (k : ℕ)
    (ratio : ℝ) (X : List (Fin p → ℝ)) (st st1 : CovState ℝ (Fin p)) (cov : Matrix (Fin p) (Fin p) ℝ)
    (h : ogkCalc eigh loc est k true ratio X st = (.ok (some cov), st1)) :
    ∃ (mu0 : Fin p → ℝ) (cov0 : Matrix (Fin p) (Fin p) ℝ) (med : ℝ) (rows : List (Fin p → ℝ)) (mu : Fin p → ℝ),
      ogkRaw eigh loc est k X = some (mu0, cov0) ∧ cov0.det ≠ 0 ∧
      med = (npMedian (X.map fun x => Real.sqrt ((x - mu0) ⬝ᵥ (cov0⁻¹ *ᵥ (x - mu0))))).getD 0 ∧
      rows = X.filter (fun x => decide (Real.sqrt ((x - mu0) ⬝ᵥ (cov0⁻¹ *ᵥ (x - mu0))) < ratio * med)) ∧
      2 ≤ rows.length ∧ st1.location_ = some mu ∧
      (∀ j, mu j = (rows.map fun x => x j).sum / rows.length) ∧
      ∀ i j, cov i j = (rows.map fun x => (x i - mu i) * (x j - mu j)).sum / ((rows.length : ℝ) - 1) := by
  unfold ogkCalc at h
  rcases hr : ogkRaw eigh loc est k X with _ | ⟨mu0, cov0⟩
  · rw [hr] at h; simp at h
  rw [hr] at h
  simp only [if_true] at h
  unfold ogkReweight mahalanobis at h
  rcases hd : sqMahalanobis X mu0 cov0 with e | d
  · rw [hd] at h; simp [Except.map] at h
  have hdet : cov0.det ≠ 0 := fun h0 => by rw [sqMahalanobis_singular h0] at hd; simp at hd
  rw [sqMahalanobis_eq hdet] at hd
  obtain rfl := Except.ok.inj hd
  rw [sqMahalanobis_eq hdet] at h
  simp only [Except.map, List.map_map] at h
  have hq : (Real.sqrt ∘ fun x => quadForm cov0⁻¹ (x - mu0)) =
      fun x => Real.sqrt ((x - mu0) ⬝ᵥ (cov0⁻¹ *ᵥ (x - mu0))) := by
    funext x; simp only [Function.comp, quadForm_eq]
  rw [← Function.comp_assoc] at h
  simp only [hq] at h
  set med := (npMedian (X.map fun x => Real.sqrt ((x - mu0) ⬝ᵥ (cov0⁻¹ *ᵥ (x - mu0))))).getD 0 with hmed
  rw [maskRows_map, Function.comp_assoc, hq] at h
  set rows := X.filter ((fun v => decide (v < ratio * med)) ∘ fun x =>
    Real.sqrt ((x - mu0) ⬝ᵥ (cov0⁻¹ *ᵥ (x - mu0)))) with hrows
  obtain ⟨h1, rfl⟩ := Prod.mk.inj h
  by_cases hlt : rows.length < 2 ∨ p = 1
  · rw [if_pos hlt] at h1; simp at h1
  rw [if_neg hlt] at h1
  obtain rfl := Option.some.inj (Except.ok.inj h1)
  push Not at hlt
  exact ⟨mu0, cov0, med, rows, meanRow rows, rfl, hdet, rfl, rfl, hlt.1, rfl,
    fun j => by simp [meanRow, mean], fun i j => rfl⟩

/-- The hypothesis of `C87_reweighted` is met: three rows at distance 1. -/
example (eigh : ∀ A : Matrix (Fin 2) (Fin 2) ℝ, A.IsSymm → Eigh A) : ∃ cov st1,
    ogkCalc eigh (fun _ => 0) (fun _ => 1) 0 true 2 [![1, 0], ![0, 1], ![-1, 0]] CovState.new =
      (.ok (some cov), st1) := by
  have hm : npMedian [(1:ℝ), 1, 1] = some 1 := by
    obtain ⟨v, hv⟩ := npMedian_isSome (xs := [(1:ℝ), 1, 1]) (by simp)
    have := npMedian_bounds hv 1 1 (by simp)
    rw [hv, le_antisymm this.2 this.1]
  have hdet : (Matrix.diagonal fun _ : Fin 2 => (1:ℝ) ^ 2).det ≠ 0 := by simp
  unfold ogkCalc ogkRaw ogkReweight mahalanobis
  simp only [ogkLoop, Option.map_some, List.foldr_nil, if_true]
  rw [sqMahalanobis_eq hdet]
  have hd : ([![1, 0], ![0, 1], ![-1, 0]].map fun x : Fin 2 → ℝ =>
      Real.sqrt (quadForm (Matrix.diagonal fun _ : Fin 2 => (1:ℝ) ^ 2)⁻¹ (x - fun _ => 0))) = [1, 1, 1] := by
    simp [quadForm_eq, dotProduct, Matrix.mulVec, Fin.sum_univ_two]
  simp only [Except.map, List.map_map, Function.comp_def, hd, hm]
  simp [maskRows]

/-! ## C85 -/

/-- **C85**: the correlations of KendallTau do not change under strictly increasing transformations of the
columns. -/
theorem C85_increasing (scale : List ℝ → Except PyErr ℝ) (f : Fin p → ℝ → ℝ) (hf : ∀ j, StrictMono (f j))
    (X : List (Fin p → ℝ)) (st st' st1 st2 : CovState ℝ (Fin p)) (cov cov' : Matrix (Fin p) (Fin p) ℝ)
    (h1 : kendallCalc scale X st = (.ok (some cov), st1))
    (h2 : kendallCalc scale (X.map fun x j => f j (x j)) st' = (.ok (some cov'), st2)) :
    st1.correlation_ = st2.correlation_ := by
  obtain ⟨-, -, s, R, -, e1, -, d1, -, t1, -, -⟩ := C41_kendall _ _ _ _ _ h1
  obtain ⟨-, -, s', R', -, e2, -, d2, -, t2, -, -⟩ := C41_kendall _ _ _ _ _ h2
  rw [e1, e2]
  congr 1
  have hsign : ∀ j a b, Real.sign (f j a - f j b) = Real.sign (a - b) := by
    intro j a b
    rcases lt_trichotomy a b with h | h | h
    · rw [Real.sign_of_neg (sub_neg.2 h), Real.sign_of_neg (sub_neg.2 (hf j h))]
    · subst h; simp
    · rw [Real.sign_of_pos (sub_pos.2 h), Real.sign_of_pos (sub_pos.2 (hf j h))]
  have hS : ∀ i j, Spec.signSum (X.map fun x j => f j (x j)) i j = Spec.signSum X i j := by
    intro i j
    simp only [Spec.signSum, List.map_map, Function.comp_def, hsign]
  ext i j
  by_cases hij : i = j
  · subst hij; rw [d1, d2]
  · rw [t1 i j hij, t2 i j hij]
    simp only [Spec.tauB, hS]

/-- `C85_increasing` applies: both calls return for the same data, cubed. -/
example : ∃ cov st', kendallCalc (fun _ => .ok 2) ([![0, 1], ![1, 5], ![2, 3]].map fun (x : Fin 2 → ℝ) j => x j ^ 3)
    (CovState.new : CovState ℝ (Fin 2)) = (.ok (some cov), st') :=
  C41_returns _ _ _ (fun _ => ⟨2, rfl⟩) fun i =>
    ⟨fun j => ![0, 1] j ^ 3, by simp, fun j => ![1, 5] j ^ 3, by simp, by fin_cases i <;> norm_num⟩

/-! ## C86 -/

theorem wrapColumn_length (b c q1 q2 loc scale : ℝ) (X : List ℝ) :
    (wrapColumn b c q1 q2 true loc scale X).length = X.length := by
  simp [wrapColumn, zWrapped]

theorem column_wrappedRows (b c q1 q2 : ℝ) (le se : List ℝ → ℝ) (X : List (Fin p → ℝ)) (j : Fin p) :
    column (wrappedRows b c q1 q2 le se X) j =
      wrapColumn b c q1 q2 true (le (column X j)) (se (column X j)) (column X j) := by
  unfold wrappedRows column
  rw [List.map_map]
  refine List.ext_getElem? fun i => ?_
  set w := wrapColumn b c q1 q2 true (le (X.map fun x => x j)) (se (X.map fun x => x j)) (X.map fun x => x j) with hw
  have hl : w.length = X.length := by rw [hw, wrapColumn_length, List.length_map]
  rw [List.getElem?_map]
  by_cases hi : i < X.length
  · rw [List.getElem?_range hi, List.getElem?_eq_getElem (by rw [hl]; exact hi)]
    simp [Function.comp, column, ← hw, List.getD_eq_getElem?_getD, List.getElem?_eq_getElem (hl ▸ hi : i < w.length)]
  · rw [List.getElem?_eq_none (by simpa using hi), List.getElem?_eq_none (by rw [hl]; omega)]
    rfl

/-- **C86**: the matrix of WrappingCovariance is symmetric and positive semidefinite; the variance of a column
whose wrapped values are not all equal is `n / (n - 1)` times its squared scale estimate. -/
theorem C86_wrapping (b c q1 q2 : ℝ) (le se : List ℝ → ℝ) (X : List (Fin p → ℝ)) (st st1 : CovState ℝ (Fin p))
    (cov : Matrix (Fin p) (Fin p) ℝ) (h : wrappingCalc b c q1 q2 le se X st = (.ok (some cov), st1)) :
    cov.IsSymm ∧ cov.PosSemidef ∧
    ∀ j, 0 ≤ se (X.map fun x => x j) →
      var (zWrapped b c q1 q2 (le (X.map fun x => x j)) (se (X.map fun x => x j)) (X.map fun x => x j)) ≠ 0 →
      cov j j = X.length / ((X.length : ℝ) - 1) * se (X.map fun x => x j) ^ 2 := by
  unfold wrappingCalc at h
  simp only at h
  split_ifs at h with hc
  · simp at h
  push Not at hc
  obtain ⟨h1, rfl⟩ := Prod.mk.inj h
  obtain rfl := Option.some.inj (Except.ok.inj h1)
  refine ⟨npCov_isSymm _, npCov_posSemidef _, fun j hs hv => ?_⟩
  obtain ⟨-, h3⟩ := C27_rescale b c q1 q2 _ _ _ hs hv
  set W := wrappedRows b c q1 q2 le se X with hW
  have hcolW : (W.map fun x => x j) = wrapColumn b c q1 q2 true (le (X.map fun x => x j)) (se (X.map fun x => x j))
    (X.map fun x => x j) := column_wrappedRows b c q1 q2 le se X j
  rw [← hcolW] at h3
  have hlen : W.length = X.length := by rw [hW]; simp [wrappedRows]
  have hv0 : 0 ≤ var (W.map fun x => x j) := by rw [var_eq_popVar]; exact popVar_nonneg _
  have h4 : var (W.map fun x => x j) = se (X.map fun x => x j) ^ 2 := by rw [← h3, Real.sq_sqrt hv0]
  rw [← h4]
  unfold npCov var mean
  simp only [meanRow, mean, List.map_map, List.length_map, hlen, Function.comp_def, pow_two]
  have : (X.length : ℝ) ≠ 0 := by
    have : 0 < X.length := by omega
    exact_mod_cast this.ne'
  have key : ∀ S : ℝ, S / ((X.length : ℝ) - 1) = X.length / ((X.length : ℝ) - 1) * (S / X.length) := fun S => by
    rw [div_mul_div_comm, mul_comm ((X.length : ℝ) - 1), mul_div_mul_left _ _ this]
  exact key _

/-- **C86**: every entry is the classical covariance of the wrapped and rescaled columns. -/
theorem C86_entries (b c q1 q2 : ℝ) (le se : List ℝ → ℝ) (X : List (Fin p → ℝ)) (st st1 : CovState ℝ (Fin p))
    (cov : Matrix (Fin p) (Fin p) ℝ) (h : wrappingCalc b c q1 q2 le se X st = (.ok (some cov), st1)) :
    ∃ W : List (Fin p → ℝ), W.length = X.length ∧
      (∀ j, (W.map fun w => w j) = wrapColumn b c q1 q2 true (le (X.map fun x => x j)) (se (X.map fun x => x j))
        (X.map fun x => x j)) ∧
      ∀ i j, cov i j = (W.map fun w => (w i - (W.map fun v => v i).sum / X.length) *
        (w j - (W.map fun v => v j).sum / X.length)).sum / ((X.length : ℝ) - 1) := by
  unfold wrappingCalc at h
  simp only at h
  split_ifs at h with hc
  · simp at h
  obtain ⟨h1, rfl⟩ := Prod.mk.inj h
  obtain rfl := Option.some.inj (Except.ok.inj h1)
  have hlen : (wrappedRows b c q1 q2 le se X).length = X.length := by simp [wrappedRows]
  refine ⟨wrappedRows b c q1 q2 le se X, hlen, column_wrappedRows b c q1 q2 le se X, fun i j => ?_⟩
  simp [npCov, meanRow, mean, hlen]

/-- `C86_wrapping` and `C86_entries` apply to every data set with two columns and two rows or more. -/
example (X : List (Fin 2 → ℝ)) (hX : 2 ≤ X.length) : ∃ cov st1,
    wrappingCalc 1.5 4 1.540793 0.8622731 (fun l => (npMedian l).getD 0) (fun l => (madRaw l).getD 0) X CovState.new =
      (.ok (some cov), st1) := by
  unfold wrappingCalc
  simp only
  rw [if_neg (by simp; omega)]
  exact ⟨_, _, rfl⟩

end
end Robpy
