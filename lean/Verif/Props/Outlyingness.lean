import Verif.Model.Utils
import Verif.Lemmas.Select
import Verif.Lemmas.Median
import Mathlib.Tactic.FieldSimp
import Mathlib.Tactic.FinCases

/-! # Properties C61, C62, C69, C91: Stahel-Donoho outlyingness and the logger -/

namespace Robpy
open Matrix

section
variable {p : ℕ}

/-! ## C62 -/

theorem extDiv_scale {a : ℝ} (ha : 0 < a) (u s : ℝ) : extDiv (a * u) (a * s) = extDiv u s := by
  unfold extDiv
  by_cases hs : s = 0
  · by_cases hu : u = 0 <;> simp [hs, hu, ha.ne']
  · rw [if_neg hs, if_neg (mul_ne_zero ha.ne' hs), mul_div_mul_left _ _ ha.ne']

theorem sdScores_affine (l : List ℝ) (a e : ℝ) (ha : a ≠ 0) : sdScores (l.map fun v => a * v + e) = sdScores l := by
  unfold sdScores
  rw [npMedian_affine, madRaw_affine]
  rcases npMedian l with _ | m
  · simp [Function.comp_def]
  rcases madRaw l with _ | s
  · simp [Function.comp_def]
  simp only [Option.map_some, List.map_map]
  refine List.map_congr_left fun x _ => ?_
  simp only [Function.comp]
  rw [show ∀ v, a * v + e - (a * m + e) = a * (v - m) from fun v => by ring, abs_mul, extDiv_scale (abs_pos.2 ha)]

/-- The column of one direction only depends on the projections up to an affine map. -/
theorem sdColumn_affine (X : List (Fin p → ℝ)) (f : (Fin p → ℝ) → Fin p → ℝ) (d d' : Fin p → ℝ) (a e : ℝ) (ha : a ≠ 0)
    (h : ∀ x, ∑ j, f x j * d' j = a * (∑ j, x j * d j) + e) :
    sdColumn (X.map f) (some d') = sdColumn X (some d) := by
  have hp : ((X.map f).map fun x => ∑ j, x j * d' j) = (X.map fun x => ∑ j, x j * d j).map fun v => a * v + e := by
    rw [List.map_map, List.map_map]
    exact List.map_congr_left fun x _ => h x
  unfold sdColumn
  simp only
  rw [hp, sdScores_affine _ _ _ ha]

theorem sdFromDirections_congr (X X' : List (Fin p → ℝ)) (hl : X'.length = X.length) (D D' : List (Option (Fin p → ℝ)))
    (h : D'.map (sdColumn X') = D.map (sdColumn X)) : sdFromDirections X' D' = sdFromDirections X D := by
  unfold sdFromDirections
  rw [hl]
  refine List.map_congr_left fun i _ => ?_
  have := congrArg (List.map fun c : List ExtFloat => c.getD i none) h
  simp only [List.map_map] at this
  exact congrArg extMax this

/-- **C62**: for given directions, the outlyingness does not change under shifts and non-zero rescaling. -/
theorem C62_fixed_directions (X : List (Fin p → ℝ)) (D : List (Option (Fin p → ℝ))) (c : ℝ) (hc : c ≠ 0) (b : Fin p → ℝ) :
    sdFromDirections (X.map fun x j => c * x j + b j) D = sdFromDirections X D := by
  refine sdFromDirections_congr _ _ (by simp) _ _ (List.map_congr_left fun d _ => ?_)
  rcases d with _ | d
  · simp [sdColumn, Function.comp_def]
  refine sdColumn_affine X _ d d c (∑ j, b j * d j) hc fun x => ?_
  rw [Finset.mul_sum, ← Finset.sum_add_distrib]
  exact Finset.sum_congr rfl fun j _ => by ring

theorem vecNorm_rotate (Q : Matrix (Fin p) (Fin p) ℝ) (hQ : Q * Qᵀ = 1) (c : ℝ) (d : Fin p → ℝ) :
    vecNorm (c • (d ᵥ* Q)) = |c| * vecNorm d := by
  have h : (d ᵥ* Q) ⬝ᵥ (d ᵥ* Q) = d ⬝ᵥ d := by
    rw [← Matrix.mulVec_transpose Q d, Matrix.dotProduct_mulVec, Matrix.vecMul_transpose, Matrix.mulVec_transpose,
      Matrix.mulVec_vecMul, hQ, Matrix.one_mulVec]
  have h2 : ∑ j, (c • (d ᵥ* Q)) j * (c • (d ᵥ* Q)) j = c ^ 2 * ∑ j, d j * d j := by
    have : ∑ j, (d ᵥ* Q) j * (d ᵥ* Q) j = ∑ j, d j * d j := h
    rw [← this, Finset.mul_sum]
    exact Finset.sum_congr rfl fun j _ => by simp only [Pi.smul_apply, smul_eq_mul]; ring
  unfold vecNorm
  rw [h2, Real.sqrt_mul (sq_nonneg c), Real.sqrt_sq_eq_abs]

/-- **C62**: with two points per direction the whole function is invariant under shifts, rotations, reflections and
non-zero rescaling of the data, for the same random draws. -/
theorem C62_invariant {S : Type} (ch : Choice S) (svd : List (Fin p → ℝ) → Fin p → ℝ) (fresh : ℕ → S) (X : List (Fin p → ℝ))
    (nDir : ℕ) (seed : Option S) (c : ℝ) (hc : c ≠ 0) (Q : Matrix (Fin p) (Fin p) ℝ) (hQ : Q * Qᵀ = 1) (b : Fin p → ℝ) :
    stahelDonoho ch svd fresh (X.map fun x => c • (x ᵥ* Q) + b) 2 nDir seed =
      stahelDonoho ch svd fresh X 2 nDir seed := by
  set f : (Fin p → ℝ) → Fin p → ℝ := fun x => c • (x ᵥ* Q) + b with hf
  have habs : |c| ≠ 0 := abs_ne_zero.2 hc
  -- the directions are transformed with the data
  have hdir : ∀ s, randomDirection ch svd (X.map f) 2 s =
      (randomDirection ch svd X 2 s).map fun d => d.map fun d => (c / |c|) • (d ᵥ* Q) := by
    intro s
    unfold randomDirection
    rw [List.length_map, takeAt_map]
    by_cases hl : X.length < 2
    · simp [hl, Except.map]
    rw [if_neg hl, if_neg hl]
    generalize takeAt X (ch.pick s X.length 2) = P
    rcases P with _ | ⟨x, _ | ⟨y, l⟩⟩
    · rfl
    · rfl
    simp only [rawDirection, List.map_cons, if_true, Except.map]
    have e : f x - f y = c • ((x - y) ᵥ* Q) := by
      simp only [hf, Matrix.sub_vecMul, smul_sub]
      abel
    rw [e, vecNorm_rotate Q hQ]
    by_cases h0 : vecNorm (x - y) = 0
    · simp [h0]
    · rw [if_neg (mul_ne_zero habs h0), if_neg h0, Option.map_some]
      congr 2
      funext j
      have : (fun j => (x - y) j / vecNorm (x - y)) = (vecNorm (x - y))⁻¹ • (x - y) := by
        funext j
        simp [div_eq_inv_mul]
      rw [this, Matrix.smul_vecMul]
      simp only [Pi.smul_apply, smul_eq_mul]
      field_simp
  have hcol : ∀ d : Option (Fin p → ℝ), sdColumn (X.map f) (d.map fun d => (c / |c|) • (d ᵥ* Q)) = sdColumn X d := by
    intro d
    rcases d with _ | d
    · simp [sdColumn, Function.comp_def]
    rw [Option.map_some]
    refine sdColumn_affine X f d _ |c| (b ⬝ᵥ ((c / |c|) • (d ᵥ* Q))) habs fun x => ?_
    have h : (x ᵥ* Q) ⬝ᵥ (d ᵥ* Q) = x ⬝ᵥ d := by
      rw [← Matrix.mulVec_transpose Q d, Matrix.dotProduct_mulVec, Matrix.vecMul_vecMul, hQ, Matrix.vecMul_one]
    show (c • (x ᵥ* Q) + b) ⬝ᵥ ((c / |c|) • (d ᵥ* Q)) = |c| * (x ⬝ᵥ d) + b ⬝ᵥ ((c / |c|) • (d ᵥ* Q))
    rw [add_dotProduct, smul_dotProduct, dotProduct_smul, h, smul_eq_mul, smul_eq_mul]
    congr 1
    have : c * (c / |c|) = |c| := by
      field_simp
      exact (sq_abs c).symm
    rw [← mul_assoc, this]
  unfold stahelDonoho
  split_ifs with h0
  · rfl
  have hmap : ∀ l : List ℕ, mapExcept (fun i => randomDirection ch svd (X.map f) 2 (seed.getD (fresh i))) l =
      (mapExcept (fun i => randomDirection ch svd X 2 (seed.getD (fresh i))) l).map fun D =>
        D.map fun d => d.map fun d => (c / |c|) • (d ᵥ* Q) := by
    intro l
    induction l with
    | nil => rfl
    | cons i l ih =>
      simp only [mapExcept, hdir]
      rcases randomDirection ch svd X 2 (seed.getD (fresh i)) with e | d
      · rfl
      simp only [hdir] at ih
      rw [ih]
      rcases mapExcept (fun i => randomDirection ch svd X 2 (seed.getD (fresh i))) l with e | D
      · rfl
      · rfl
  rw [hmap]
  rcases mapExcept (fun i => randomDirection ch svd X 2 (seed.getD (fresh i))) (List.range nDir) with e | D
  · rfl
  simp only [Except.map]
  congr 1
  refine sdFromDirections_congr _ _ (by simp) _ _ ?_
  rw [List.map_map]
  exact List.map_congr_left fun d _ => hcol d

/-- `C62_invariant` for a rotation by a right angle. -/
example {S : Type} (ch : Choice S) (svd : List (Fin 2 → ℝ) → Fin 2 → ℝ) (fresh : ℕ → S) (X : List (Fin 2 → ℝ)) (s : S) :
    stahelDonoho ch svd fresh (X.map fun x => (-2 : ℝ) • (x ᵥ* !![0, 1; -1, 0]) + ![3, 4]) 2 250 (some s) =
      stahelDonoho ch svd fresh X 2 250 (some s) :=
  C62_invariant ch svd fresh X 250 (some s) (-2) (by norm_num) _ (by
    ext i j; fin_cases i <;> fin_cases j <;> simp [Matrix.mul_apply, Fin.sum_univ_two]) _

theorem extMax_nonneg (l : List ExtFloat) (hl : ∀ v ∈ l, ∀ w, v = some w → 0 ≤ w) (w : WithTop ℝ)
    (h : extMax l = some w) : 0 ≤ w := by
  induction l generalizing w with
  | nil => simp [extMax] at h
  | cons a l ih =>
    rcases l with _ | ⟨b, l⟩
    · exact hl a (by simp) w h
    · rw [extMax] at h
      rcases a with _ | x
      · simp [extMax2] at h
      rcases hm : extMax (b :: l) with _ | y
      · rw [hm] at h; simp [extMax2] at h
      · rw [hm] at h
        obtain rfl := Option.some.inj h
        exact le_max_of_le_left (hl _ (by simp) x rfl)

/-- **C62**: the outlyingness is not negative. -/
theorem C62_nonneg (X : List (Fin p → ℝ)) (D : List (Option (Fin p → ℝ))) (w : WithTop ℝ)
    (h : some w ∈ sdFromDirections X D) : 0 ≤ w := by
  unfold sdFromDirections at h
  obtain ⟨i, -, hi⟩ := List.mem_map.1 h
  refine extMax_nonneg _ ?_ w hi
  intro v hv w' hw
  obtain ⟨d, -, rfl⟩ := List.mem_map.1 hv
  rw [List.getD_eq_getElem?_getD] at hw
  rcases hg : (sdColumn X d)[i]? with _ | u
  · rw [hg] at hw; simp at hw
  rw [hg, Option.getD_some] at hw
  subst hw
  have hmem := List.mem_of_getElem? hg
  unfold sdColumn at hmem
  rcases d with _ | d
  · simp at hmem
  simp only [sdScores] at hmem
  split at hmem
  · rename_i m s hm hs
    obtain ⟨u, -, hu⟩ := List.mem_map.1 hmem
    unfold extDiv at hu
    split_ifs at hu with h1 h2
    · obtain rfl := Option.some.inj hu
      exact le_top
    · obtain rfl := Option.some.inj hu
      have := madRaw_nonneg hs
      exact_mod_cast div_nonneg (abs_nonneg _) this
  · simp at hmem

/-! ## C61 -/

theorem extMax_replicate (v : ExtFloat) (n : ℕ) : extMax (List.replicate (n + 1) v) = v := by
  induction n with
  | zero => rfl
  | succ n ih =>
    rw [List.replicate_succ, List.replicate_succ, extMax, ← List.replicate_succ, ih]
    rcases v with _ | w <;> simp [extMax2]

theorem mapExcept_const {α β : Type} (r : Except PyErr β) (a : α) (l : List α) :
    mapExcept (fun _ => r) (a :: l) = r.map fun b => List.replicate (l.length + 1) b := by
  induction l generalizing a with
  | nil => rcases r with e | b <;> rfl
  | cons c l ih =>
    rw [mapExcept, ih]
    rcases r with e | b
    · rfl
    · rfl

/-- **C61**: with a seed the number of directions has no effect: all of them are equal. -/
theorem C61_seeded {S : Type} (ch : Choice S) (svd : List (Fin p → ℝ) → Fin p → ℝ) (fresh : ℕ → S) (X : List (Fin p → ℝ))
    (nPoints nDir : ℕ) (hn : 0 < nDir) (s : S) :
    stahelDonoho ch svd fresh X nPoints nDir (some s) = stahelDonoho ch svd fresh X nPoints 1 (some s) := by
  obtain ⟨k, rfl⟩ : ∃ k, nDir = k + 1 := ⟨nDir - 1, by omega⟩
  unfold stahelDonoho
  rw [if_neg (by omega), if_neg (by omega)]
  simp only [Option.getD_some]
  rw [List.range_succ_eq_map, List.range_succ_eq_map, mapExcept_const, mapExcept_const]
  rcases randomDirection ch svd X nPoints s with e | d
  · rfl
  simp only [Except.map]
  congr 1
  unfold sdFromDirections
  refine List.map_congr_left fun i _ => ?_
  simp only [List.map_replicate, List.length_map, List.length_range]
  rw [extMax_replicate, extMax_replicate]

/-- Successive draws of `k` out of `n` from one generator. -/
def Spec.draws {G : Type} (rng : Rng G) (n k : ℕ) : ℕ → G → List (List ℕ)
  | 0, _ => []
  | i + 1, g => (rng.sample g n k).1 :: Spec.draws rng n k i (rng.sample g n k).2

/-- The unit vector through the first two of the given rows. -/
noncomputable def Spec.unitDiff (P : List (Fin p → ℝ)) : Fin p → ℝ :=
  fun j => (P.getD 0 0 j - P.getD 1 0 j) / Real.sqrt (∑ i, (P.getD 0 0 i - P.getD 1 0 i) ^ 2)

/-- A generator seen as a function of its seed, as `default_rng(seed).choice(...)`. -/
def Rng.toChoice {G : Type} (rng : Rng G) : Choice G where
  pick g n k := (rng.sample g n k).1
  length := rng.sample_length
  nodup := rng.sample_nodup
  lt := rng.sample_lt

/-- **C61**, full statement (two points per direction): with a seed, the outlyingness of a row is at least the one
along every one of `nDir` successive draws from the seeded generator. -/
def C61_statement : Prop :=
  ∀ (p : ℕ) (G : Type) (rng : Rng G) (svd : List (Fin p → ℝ) → Fin p → ℝ) (fresh : ℕ → G) (X : List (Fin p → ℝ))
    (nDir : ℕ) (g : G) (out : List ExtFloat), X.Nodup →
    stahelDonoho rng.toChoice svd fresh X 2 nDir (some g) = .ok out →
    ∀ idx ∈ Spec.draws rng X.length 2 nDir g, ∀ (i : ℕ) (x : Fin p → ℝ) (v : WithTop ℝ) (m s : ℝ), X[i]? = some x →
      out[i]? = some (some v) → npMedian (X.map fun x => ∑ j, x j * Spec.unitDiff (takeAt X idx) j) = some m →
      madRaw (X.map fun x => ∑ j, x j * Spec.unitDiff (takeAt X idx) j) = some s → s ≠ 0 →
      ((|∑ j, x j * Spec.unitDiff (takeAt X idx) j - m| / s : ℝ) : WithTop ℝ) ≤ v

/-- **C61**, the part that holds without a seed: every direction comes from its own generator and the outlyingness is the
maximum over all `nDir` of them. -/
theorem C61_unseeded_partial {S : Type} (ch : Choice S) (svd : List (Fin p → ℝ) → Fin p → ℝ) (fresh : ℕ → S)
    (X : List (Fin p → ℝ)) (nPoints nDir : ℕ) (out : List ExtFloat)
    (h : stahelDonoho ch svd fresh X nPoints nDir none = .ok out) :
    ∃ D : List (Option (Fin p → ℝ)), D.length = nDir ∧ out = sdFromDirections X D ∧
      ∀ (i : ℕ) d, D[i]? = some d → randomDirection ch svd X nPoints (fresh i) = .ok d := by
  unfold stahelDonoho at h
  split_ifs at h with h0
  rcases hD : mapExcept (fun i => randomDirection ch svd X nPoints ((none : Option S).getD (fresh i)))
    (List.range nDir) with e | D
  · rw [hD] at h; simp [Except.map] at h
  rw [hD] at h
  have key : ∀ (l : List ℕ) (D : List (Option (Fin p → ℝ))),
      mapExcept (fun i => randomDirection ch svd X nPoints ((none : Option S).getD (fresh i))) l = .ok D →
      D.length = l.length ∧ ∀ (i k : ℕ) d, l[i]? = some k → D[i]? = some d →
        randomDirection ch svd X nPoints (fresh k) = .ok d := by
    intro l
    induction l with
    | nil =>
      intro D hD
      obtain rfl := Except.ok.inj hD
      simp
    | cons a l ih =>
      intro D hD
      rw [mapExcept] at hD
      rcases ha : randomDirection ch svd X nPoints ((none : Option S).getD (fresh a)) with e | b
      · rw [ha] at hD; simp [Except.bind] at hD
      rcases hl : mapExcept (fun i => randomDirection ch svd X nPoints ((none : Option S).getD (fresh i))) l with e | B
      · rw [ha, hl] at hD; simp [Except.bind, Except.map] at hD
      rw [ha, hl] at hD
      obtain rfl := Except.ok.inj hD
      obtain ⟨h1, h2⟩ := ih B hl
      refine ⟨by simp [h1], fun i k d hk hd => ?_⟩
      rcases i with _ | i
      · simp at hk hd
        subst hk hd
        exact ha
      · exact h2 i k d (by simpa using hk) (by simpa using hd)
  obtain ⟨h1, h2⟩ := key _ D hD
  refine ⟨D, by simpa using h1, (Except.ok.inj h).symm, fun i d hd => ?_⟩
  have hi : i < nDir := by
    have := (List.getElem?_eq_some_iff.1 hd).1
    rw [h1] at this
    simpa using this
  exact h2 i i d (by simp [hi]) hd

theorem extMax_spec (l : List ExtFloat) (w : WithTop ℝ) (h : extMax l = some w) :
    some w ∈ l ∧ ∀ v ∈ l, ∃ u, v = some u ∧ u ≤ w := by
  induction l generalizing w with
  | nil => simp [extMax] at h
  | cons a l ih =>
    rcases l with _ | ⟨b, l⟩
    · have : a = some w := h
      subst this
      simp
    rw [extMax] at h
    rcases a with _ | x
    · simp [extMax2] at h
    rcases hm : extMax (b :: l) with _ | y
    · rw [hm] at h; simp [extMax2] at h
    rw [hm] at h
    obtain rfl := Option.some.inj h
    obtain ⟨h1, h2⟩ := ih y hm
    constructor
    · rcases max_choice x y with e | e <;> rw [e]
      · exact List.mem_cons_self
      · exact List.mem_cons_of_mem _ h1
    · intro v hv
      rcases List.mem_cons.1 hv with rfl | hv
      · exact ⟨x, rfl, le_max_left _ _⟩
      · obtain ⟨u, rfl, hu⟩ := h2 v hv
        exact ⟨u, rfl, hu.trans (le_max_right _ _)⟩

/-- **C61**: what the value of a row is, for given directions: the largest `|x·d - median| / MAD`. -/
theorem C61_value (X : List (Fin p → ℝ)) (D : List (Option (Fin p → ℝ))) (i : ℕ) (x : Fin p → ℝ) (v : ℝ)
    (hx : X[i]? = some x) (h : (sdFromDirections X D)[i]? = some (some (v : WithTop ℝ))) :
    (∀ d ∈ D, ∃ e m s, d = some e ∧ npMedian (X.map fun y => ∑ j, y j * e j) = some m ∧
      madRaw (X.map fun y => ∑ j, y j * e j) = some s ∧ s ≠ 0 ∧ |∑ j, x j * e j - m| / s ≤ v) ∧
    ∃ e m s, some e ∈ D ∧ npMedian (X.map fun y => ∑ j, y j * e j) = some m ∧
      madRaw (X.map fun y => ∑ j, y j * e j) = some s ∧ |∑ j, x j * e j - m| / s = v := by
  have hi : i < X.length := (List.getElem?_eq_some_iff.1 hx).1
  unfold sdFromDirections at h
  rw [List.getElem?_map, List.getElem?_range hi, Option.map_some] at h
  obtain ⟨h1, h2⟩ := extMax_spec _ _ (Option.some.inj h)
  have hcol : ∀ (d : Option (Fin p → ℝ)) (u : WithTop ℝ), (sdColumn X d).getD i none = some u → u ≠ ⊤ →
      ∃ e m s, d = some e ∧ npMedian (X.map fun y => ∑ j, y j * e j) = some m ∧
        madRaw (X.map fun y => ∑ j, y j * e j) = some s ∧ s ≠ 0 ∧ u = ((|∑ j, x j * e j - m| / s : ℝ) : WithTop ℝ) := by
    intro d u hu ht
    rw [List.getD_eq_getElem?_getD] at hu
    rcases d with _ | e
    · rw [sdColumn, List.getElem?_map, hx] at hu
      simp at hu
    unfold sdColumn sdScores at hu
    simp only at hu
    split at hu
    · rename_i m s hm hs
      rw [List.map_map, List.getElem?_map, hx] at hu
      simp only [Option.map_some, Option.getD_some, Function.comp] at hu
      unfold extDiv at hu
      split_ifs at hu with h3 h4
      · exact absurd (Option.some.inj hu).symm ht
      · exact ⟨e, m, s, rfl, hm, hs, h3, (Option.some.inj hu).symm⟩
    · simp [hx] at hu
  constructor
  · intro d hd
    obtain ⟨u, hu, hle⟩ := h2 _ (List.mem_map.2 ⟨d, hd, rfl⟩)
    obtain ⟨e, m, s, h3, h4, h5, h6, h7⟩ := hcol d u hu (fun ht => by rw [ht] at hle; simp at hle)
    rw [h7] at hle
    exact ⟨e, m, s, h3, h4, h5, h6, by exact_mod_cast hle⟩
  · obtain ⟨d, hd, hu⟩ := List.mem_map.1 h1
    obtain ⟨e, m, s, h3, h4, h5, h6, h7⟩ := hcol d v hu (by simp)
    subst h3
    exact ⟨e, m, s, hd, h4, h5, (by exact_mod_cast h7.symm)⟩

/-- The hypotheses of `C61_value` and the condition of `C91_iff_partial` are met by three numbers and the direction 1. -/
example : (sdFromDirections [![(0:ℝ)], ![1], ![3]] [some ![1]])[2]? = some (some ((2 : ℝ) : WithTop ℝ)) := by
  have hp : (([![(0:ℝ)], ![1], ![3]] : List (Fin 1 → ℝ)).map fun x => ∑ j, x j * (![1] : Fin 1 → ℝ) j) = [0, 1, 3] := by
    simp
  have hm : npMedian [(0:ℝ), 1, 3] = some 1 := npMedian_eq_some_iff.2 ⟨1, 1,
    by norm_num [Spec.IsKthSmallest, List.countP_cons], by norm_num [Spec.IsKthSmallest, List.countP_cons], by norm_num⟩
  have hs : madRaw [(0:ℝ), 1, 3] = some 1 := by
    unfold madRaw
    rw [hm]
    have : ([(0:ℝ), 1, 3].map fun x => |x - 1|) = [1, 0, 2] := by norm_num
    simp only [this]
    exact npMedian_eq_some_iff.2 ⟨1, 1,
      by norm_num [Spec.IsKthSmallest, List.countP_cons], by norm_num [Spec.IsKthSmallest, List.countP_cons], by norm_num⟩
  have hsc : sdScores [(0:ℝ), 1, 3] = [0, 1, 3].map fun v : ℝ => extDiv |v - 1| 1 := by
    unfold sdScores
    rw [hm, hs]
  have hcol : sdColumn [![(0:ℝ)], ![1], ![3]] (some ![1]) = [0, 1, 3].map fun v : ℝ => extDiv |v - 1| 1 := by
    rw [sdColumn, hp, hsc]
  simp only [sdFromDirections, hcol, List.map_cons, List.map_nil]
  norm_num [extMax, extDiv, List.range_succ]

/-- Median and MAD of five concrete numbers. -/
theorem c61_scores (l : List ℝ) (h1 : npMedian l = some 0) (h2 : npMedian (l.map fun x => |x|) = some 1) :
    madRaw l = some 1 := by
  unfold madRaw
  rw [h1]
  simpa using h2

/-- A generator: the first draw of two gives rows 0 and 1, later draws give rows 0 and 2. -/
def c61Rng : Rng Bool where
  sample g n k := (if g = true ∧ k = 2 ∧ 3 ≤ n then [0, 2] else List.range k, true)
  pick g l := (l.headD 0, g)
  sample_length g n k h := by
    by_cases hc : g = true ∧ k = 2 ∧ 3 ≤ n
    · simp [hc]
    · simp only [if_neg hc, List.length_range]
  sample_nodup g n k h := by
    by_cases hc : g = true ∧ k = 2 ∧ 3 ≤ n
    · simp [hc]
    · simp only [if_neg hc]; exact List.nodup_range
  sample_lt g n k h := by
    by_cases hc : g = true ∧ k = 2 ∧ 3 ≤ n
    · rw [if_pos hc]
      intro i hi
      rcases List.mem_cons.1 hi with rfl | hi
      · omega
      · rw [List.mem_singleton] at hi; omega
    · simp only [if_neg hc, List.mem_range]
      exact fun i hi => lt_of_lt_of_le hi h
  pick_mem g l h := by
    cases l with
    | nil => exact absurd rfl h
    | cons a l => simp

/-- Five points, the last one is far away in the second coordinate. -/
def c61Data : List (Fin 2 → ℝ) := [![0, 0], ![1, 0], ![0, 1], ![-1, -1], ![2, 9]]

theorem c61_nodup : c61Data.Nodup := by
  have key : (c61Data.map fun x => 10 * x 0 + x 1).Nodup := by
    simp [c61Data]
    norm_num
  exact List.Nodup.of_map _ key

/-- **C61** is violated by the code: with a seed only the first direction is ever used. -/
theorem C61_violated : ¬ C61_statement := by
  intro h
  have m1 : npMedian [(0:ℝ), -1, 0, 1, -2] = some 0 :=
    npMedian_eq_some_iff.2 ⟨0, 0, by norm_num [Spec.IsKthSmallest, List.countP_cons],
      by norm_num [Spec.IsKthSmallest, List.countP_cons], by norm_num⟩
  have s1 : madRaw [(0:ℝ), -1, 0, 1, -2] = some 1 := c61_scores _ m1 (by
    simp only [List.map_cons, List.map_nil]
    norm_num
    exact npMedian_eq_some_iff.2 ⟨1, 1, by norm_num [Spec.IsKthSmallest, List.countP_cons],
      by norm_num [Spec.IsKthSmallest, List.countP_cons], by norm_num⟩)
  have m2 : npMedian [(0:ℝ), 0, -1, 1, -9] = some 0 :=
    npMedian_eq_some_iff.2 ⟨0, 0, by norm_num [Spec.IsKthSmallest, List.countP_cons],
      by norm_num [Spec.IsKthSmallest, List.countP_cons], by norm_num⟩
  have s2 : madRaw [(0:ℝ), 0, -1, 1, -9] = some 1 := c61_scores _ m2 (by
    simp only [List.map_cons, List.map_nil]
    norm_num
    exact npMedian_eq_some_iff.2 ⟨1, 1, by norm_num [Spec.IsKthSmallest, List.countP_cons],
      by norm_num [Spec.IsKthSmallest, List.countP_cons], by norm_num⟩)
  -- the only direction the code uses
  have hdir : randomDirection c61Rng.toChoice (fun _ => 0) c61Data 2 false = .ok (some ![-1, 0]) := by
    have hn : vecNorm ((![0, 0] : Fin 2 → ℝ) - ![1, 0]) = 1 := by simp [vecNorm, Fin.sum_univ_two]
    have hp : takeAt c61Data (c61Rng.toChoice.pick false c61Data.length 2) = [![0, 0], ![1, 0]] := by
      simp [Rng.toChoice, c61Rng, takeAt, c61Data, List.range_succ]
    unfold randomDirection
    rw [if_neg (by simp [c61Data]), hp]
    simp only [rawDirection, if_true, Except.map, hn, if_neg one_ne_zero]
    congr 2
    funext j
    fin_cases j <;> simp
  have hsd : stahelDonoho c61Rng.toChoice (fun _ => 0) (fun _ => false) c61Data 2 1 (some false) =
      .ok (sdFromDirections c61Data [some ![-1, 0]]) := by
    unfold stahelDonoho
    rw [if_neg one_ne_zero]
    simp [List.range_succ, mapExcept, hdir, Except.bind, Except.map]
  have hsd2 := (C61_seeded c61Rng.toChoice (fun _ => 0) (fun _ => false) c61Data 2 2 two_pos false).trans hsd
  have hproj : (c61Data.map fun x => ∑ j, x j * (![-1, 0] : Fin 2 → ℝ) j) = [0, -1, 0, 1, -2] := by
    simp [c61Data, Fin.sum_univ_two]
  have hout : (sdFromDirections c61Data [some ![-1, 0]])[4]? = some (some ((2:ℝ) : WithTop ℝ)) := by
    unfold sdFromDirections
    rw [List.getElem?_map, List.getElem?_range (by simp [c61Data])]
    simp only [Option.map_some, List.map_cons, List.map_nil, extMax, sdColumn, hproj, sdScores, m1, s1]
    simp [extDiv]
  have hu : Spec.unitDiff (takeAt c61Data [0, 2]) = ![0, -1] := by
    funext j
    fin_cases j <;> simp [Spec.unitDiff, takeAt, c61Data, Fin.sum_univ_two]
  have hproj2 : (c61Data.map fun x => ∑ j, x j * (![0, -1] : Fin 2 → ℝ) j) = [0, 0, -1, 1, -9] := by
    simp [c61Data, Fin.sum_univ_two]
  have := h 2 Bool c61Rng (fun _ => 0) (fun _ => false) c61Data 2 false _ c61_nodup hsd2 [0, 2]
    (by simp [Spec.draws, c61Rng, c61Data]) 4 ![2, 9] _ 0 1 rfl hout
    (by rw [hu, hproj2, m2]) (by rw [hu, hproj2, s2]) one_ne_zero
  rw [hu] at this
  simp [Fin.sum_univ_two] at this
  have h9 : (9:ℝ) ≤ 2 := by exact_mod_cast this
  norm_num at h9

/-! ## C91 -/

/-- **C91**: exactly when the outlyingness of a row is a number: no direction is NaN and no direction has MAD 0. -/
theorem C91_iff_partial (X : List (Fin p → ℝ)) (D : List (Option (Fin p → ℝ))) (hD : D ≠ []) (i : ℕ) (hi : i < X.length) :
    (∃ v : ℝ, (sdFromDirections X D)[i]? = some (some (v : WithTop ℝ))) ↔
      ∀ d ∈ D, ∃ e s, d = some e ∧ madRaw (X.map fun y => ∑ j, y j * e j) = some s ∧ s ≠ 0 := by
  have hx : X[i]? = some X[i] := List.getElem?_eq_getElem hi
  constructor
  · rintro ⟨v, hv⟩ d hd
    obtain ⟨e, m, s, h1, -, h3, h4, -⟩ := (C61_value X D i X[i] v hx hv).1 d hd
    exact ⟨e, s, h1, h3, h4⟩
  · intro h
    unfold sdFromDirections
    rw [List.getElem?_map, List.getElem?_range hi, Option.map_some]
    have key : ∀ d ∈ D, ∃ v : ℝ, (sdColumn X d).getD i none = some (v : WithTop ℝ) := by
      intro d hd
      obtain ⟨e, s, rfl, hs, h0⟩ := h d hd
      obtain ⟨m, hm, -⟩ := madRaw_spec hs
      refine ⟨|∑ j, X[i] j * e j - m| / s, ?_⟩
      simp only [sdColumn, sdScores, hm, hs]
      rw [List.map_map, List.getD_eq_getElem?_getD, List.getElem?_map, hx]
      simp [extDiv, h0]
    clear h hx
    obtain ⟨a, l, rfl⟩ := List.exists_cons_of_ne_nil hD
    clear hD
    induction l generalizing a with
    | nil =>
      obtain ⟨v, hv⟩ := key a (by simp)
      exact ⟨v, by simp only [List.map_cons, List.map_nil, extMax, hv]⟩
    | cons b l ih =>
      obtain ⟨v, hv⟩ := key a (by simp)
      obtain ⟨w, hw⟩ := ih b fun d hd => key d (List.mem_cons_of_mem _ hd)
      refine ⟨max v w, ?_⟩
      rw [List.map_cons] at hw
      rw [List.map_cons, List.map_cons, extMax, Option.some.inj hw, hv]
      simp [extMax2]

/-- **C91**, full statement: for distinct rows every outlyingness is a number. -/
def C91_statement : Prop :=
  ∀ (p : ℕ) (S : Type) (ch : Choice S) (svd : List (Fin p → ℝ) → Fin p → ℝ) (fresh : ℕ → S) (X : List (Fin p → ℝ))
    (nDir : ℕ) (seed : Option S) (out : List ExtFloat), X.Nodup →
    stahelDonoho ch svd fresh X 2 nDir seed = .ok out → ∀ o ∈ out, ∃ v : ℝ, o = some (v : WithTop ℝ)

/-- **C91**: if the two rows drawn for a direction are equal, the outlyingness of every row is NaN. -/
theorem C91_equal_rows {S : Type} (ch : Choice S) (svd : List (Fin p → ℝ) → Fin p → ℝ) (fresh : ℕ → S)
    (X : List (Fin p → ℝ)) (nDir : ℕ) (seed : Option S) (out : List ExtFloat)
    (h : stahelDonoho ch svd fresh X 2 nDir seed = .ok out) (i : ℕ) (hi : i < nDir) (x : Fin p → ℝ)
    (heq : takeAt X (ch.pick (seed.getD (fresh i)) X.length 2) = [x, x]) : ∀ o ∈ out, o = none := by
  unfold stahelDonoho at h
  split_ifs at h with h0
  rcases hD : mapExcept (fun i => randomDirection ch svd X 2 (seed.getD (fresh i))) (List.range nDir) with e | D
  · rw [hD] at h; simp [Except.map] at h
  rw [hD] at h
  obtain rfl := Except.ok.inj h
  have key : ∀ (l : List ℕ) (D : List (Option (Fin p → ℝ))),
      mapExcept (fun i => randomDirection ch svd X 2 (seed.getD (fresh i))) l = .ok D → i ∈ l → none ∈ D := by
    intro l
    induction l with
    | nil => intro D _ hi; simp at hi
    | cons a l ih =>
      intro D hD hi
      rw [mapExcept] at hD
      rcases ha : randomDirection ch svd X 2 (seed.getD (fresh a)) with e | b
      · rw [ha] at hD; simp [Except.bind] at hD
      rcases hl : mapExcept (fun i => randomDirection ch svd X 2 (seed.getD (fresh i))) l with e | B
      · rw [ha, hl] at hD; simp [Except.bind, Except.map] at hD
      rw [ha, hl] at hD
      obtain rfl := Except.ok.inj hD
      rcases List.mem_cons.1 hi with rfl | hi
      · unfold randomDirection at ha
        split_ifs at ha
        rw [heq] at ha
        simp [rawDirection, Except.map, vecNorm] at ha
        simp [← ha]
      · exact List.mem_cons_of_mem _ (ih B hl hi)
  have hmem := key _ D hD (List.mem_range.2 hi)
  intro o ho
  unfold sdFromDirections at ho
  obtain ⟨k, hk, rfl⟩ := List.mem_map.1 ho
  rcases hv : extMax (D.map fun d => (sdColumn X d).getD k none) with _ | v
  · rfl
  obtain ⟨u, hu, -⟩ := (extMax_spec _ _ hv).2 _ (List.mem_map.2 ⟨none, hmem, rfl⟩)
  rw [sdColumn, List.getD_eq_getElem?_getD, List.getElem?_map] at hu
  rcases hg : X[k]? with _ | y <;> rw [hg] at hu <;> simp at hu

/-- `C91_equal_rows` applies to data starting with two equal rows. -/
example : takeAt [![(1:ℝ)], ![1], ![3]] (c61Rng.toChoice.pick false 3 2) = [![1], ![1]] := by
  simp [Rng.toChoice, c61Rng, takeAt, List.range_succ]

/-- **C91** is violated by the code: the median of the projections is attained by most rows, the MAD is 0. -/
theorem C91_violated : ¬ C91_statement := by
  intro h
  set X : List (Fin 2 → ℝ) := [![0, 0], ![1, 0], ![0, 1], ![0, 2]] with hX
  have hnd : X.Nodup := by
    have key : (X.map fun x => 10 * x 0 + x 1).Nodup := by
      simp [hX]
    exact List.Nodup.of_map _ key
  have hdir : randomDirection c61Rng.toChoice (fun _ => 0) X 2 false = .ok (some ![-1, 0]) := by
    have hn : vecNorm ((![0, 0] : Fin 2 → ℝ) - ![1, 0]) = 1 := by simp [vecNorm, Fin.sum_univ_two]
    have hp : takeAt X (c61Rng.toChoice.pick false X.length 2) = [![0, 0], ![1, 0]] := by
      simp [Rng.toChoice, c61Rng, takeAt, hX, List.range_succ]
    unfold randomDirection
    rw [if_neg (by simp [hX]), hp]
    simp only [rawDirection, if_true, Except.map, hn, if_neg one_ne_zero]
    congr 2
    funext j
    fin_cases j <;> simp
  have hsd : stahelDonoho c61Rng.toChoice (fun _ => 0) (fun _ => false) X 2 1 (some false) =
      .ok (sdFromDirections X [some ![-1, 0]]) := by
    unfold stahelDonoho
    rw [if_neg one_ne_zero]
    simp [List.range_succ, mapExcept, hdir, Except.bind, Except.map]
  have hlen : (sdFromDirections X [some ![-1, 0]]).length = 4 := by simp [sdFromDirections, hX]
  obtain ⟨v, hv⟩ := h 2 Bool c61Rng.toChoice (fun _ => 0) (fun _ => false) X 1 (some false) _ hnd hsd
    _ (List.getElem_mem (n := 0) (by rw [hlen]; norm_num))
  obtain ⟨e, s, he, hs, hs0⟩ := (C91_iff_partial X [some ![-1, 0]] (by simp) 0 (by simp [hX])).1
    ⟨v, by rw [List.getElem?_eq_getElem (by rw [hlen]; norm_num), hv]⟩ (some ![-1, 0]) (by simp)
  obtain rfl := Option.some.inj he
  have hproj : (X.map fun x => ∑ j, x j * (![-1, 0] : Fin 2 → ℝ) j) = [0, -1, 0, 0] := by
    simp [hX, Fin.sum_univ_two]
  rw [hproj] at hs
  obtain ⟨m, hm, hs⟩ := madRaw_spec hs
  have m1 : npMedian [(0:ℝ), -1, 0, 0] = some 0 :=
    npMedian_eq_some_iff.2 ⟨0, 0, by norm_num [Spec.IsKthSmallest, List.countP_cons],
      by norm_num [Spec.IsKthSmallest, List.countP_cons], by norm_num⟩
  rw [m1] at hm
  obtain rfl := Option.some.inj hm
  have m2 : npMedian [(0:ℝ), 1, 0, 0] = some 0 :=
    npMedian_eq_some_iff.2 ⟨0, 0, by norm_num [Spec.IsKthSmallest, List.countP_cons],
      by norm_num [Spec.IsKthSmallest, List.countP_cons], by norm_num⟩
  have : ([(0:ℝ), -1, 0, 0].map fun x => |x - 0|) = [0, 1, 0, 0] := by simp
  rw [this, m2] at hs
  exact hs0 (Option.some.inj hs).symm

end

/-! ## C69 -/

section
variable {N : Type} [DecidableEq N]

/-- **C69**: after any history of calls and other changes, a call of `get_logger` leaves the logger with exactly one handler of
its own; logger and handler have the requested level; no other logger changes. -/
theorem C69_one_handler (ancestors : N → List N) (reg : LogRegistry N) (events : List (LogEvent N)) (name : N) (level : ℕ) :
    let before := events.foldl (LogEvent.run ancestors) reg
    let after := (events ++ [LogEvent.get name level]).foldl (LogEvent.run ancestors) reg
    (after name).handlers = [level] ∧ (after name).level = level ∧ ∀ n, n ≠ name → after n = before n := by
  simp only [List.foldl_append, List.foldl_cons, List.foldl_nil, LogEvent.run]
  generalize events.foldl (LogEvent.run ancestors) reg = r
  unfold getLogger
  simp only
  by_cases h : hasHandlers ancestors (Function.update r name { r name with level := level }) name
  · rw [if_pos h]
    refine ⟨by simp, by simp, fun n hn => by simp [hn]⟩
  · rw [if_neg h]
    have h0 : (r name).handlers = [] := by
      unfold hasHandlers at h
      simp at h
      exact h.1
    refine ⟨by simp [h0], by simp, fun n hn => by simp [hn]⟩

/-- **C69**: if only `get_logger` is called, the logger keeps exactly one handler, with the level of the last call for this
name. -/
theorem C69_history (ancestors : N → List N) (reg : LogRegistry N) (calls : List (N × ℕ)) (name : N) (level : ℕ)
    (later : ∀ c ∈ calls, c.1 ≠ name) (hist : List (N × ℕ)) :
    let final := (hist ++ (name, level) :: calls).foldl (fun r c => getLogger ancestors r c.1 c.2) reg
    (final name).handlers = [level] ∧ (final name).level = level := by
  simp only [List.foldl_append, List.foldl_cons]
  generalize hist.foldl (fun r c => getLogger ancestors r c.1 c.2) reg = r
  obtain ⟨h1, h2, -⟩ := C69_one_handler ancestors r [] name level
  simp only [List.nil_append, List.foldl_cons, List.foldl_nil, LogEvent.run] at h1 h2
  generalize getLogger ancestors r name level = q at h1 h2
  induction calls generalizing q with
  | nil => exact ⟨h1, h2⟩
  | cons c l ih =>
    rw [List.foldl_cons]
    obtain ⟨-, -, h3⟩ := C69_one_handler ancestors q [] c.1 c.2
    simp only [List.nil_append, List.foldl_cons, List.foldl_nil, LogEvent.run] at h3
    have hc := h3 name (later c (by simp)).symm
    exact ih (fun d hd => later d (List.mem_cons_of_mem _ hd)) _ (by rw [hc, h1]) (by rw [hc, h2])

/-- A history in which handlers pile up before the call, with an ancestor that has handlers. -/
example : ((([.addHandler 1 5, .addHandler 0 7, .addHandler 1 6, .get 1 30] : List (LogEvent ℕ)).foldl
    (LogEvent.run fun n => if n = 0 then [] else [0]) fun _ => ⟨0, []⟩) 1).handlers = [30] :=
  (C69_one_handler (fun n => if n = 0 then [] else [0]) (fun _ => ⟨0, []⟩)
    [.addHandler 1 5, .addHandler 0 7, .addHandler 1 6] 1 30).1

end
end Robpy
