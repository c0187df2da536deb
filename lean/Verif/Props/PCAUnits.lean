import Verif.Props.PCAMap
import Verif.Props.PCALocantore
import Verif.Props.CovEquiv

/-! # C160: `PCALocantore` and the units of the data -/

namespace Robpy
open Matrix

variable {p : ℕ}

theorem ratioReaches_scale {A : ℝ} (hA : 0 < A) (thr t c : ℝ) : ratioReaches thr (A * t) (A * c) = ratioReaches thr t c := by
  unfold ratioReaches
  by_cases ht : t = 0
  · simp [ht, hA]
  · rw [if_neg ht, if_neg (mul_ne_zero hA.ne' ht), mul_div_mul_left _ _ hA.ne']

theorem cumsum_scale (A : ℝ) (l : List ℝ) : cumsum (l.map (A * ·)) = (cumsum l).map (A * ·) := by
  unfold cumsum
  rw [List.length_map, List.map_map]
  refine List.map_congr_left fun i _ => ?_
  simp only [Function.comp]
  rw [← List.map_take, List.sum_map_mul_left]
  simp

theorem pickK_scale {A : ℝ} (hA : 0 < A) (nc : Option ℕ) (thr : ℝ) (l : List ℝ) : pickK nc thr (l.map (A * ·)) = pickK nc thr l := by
  rcases nc with _ | k
  · unfold pickK chooseK
    simp only
    rw [cumsum_scale, List.map_map]
    have hs : (l.map (A * ·)).sum = A * l.sum := by
      rw [List.sum_map_mul_left]; simp
    rw [hs]
    congr 2
    refine List.map_congr_left fun c _ => ?_
    exact ratioReaches_scale hA thr l.sum c
  · rfl

theorem rowDist_rescale {a : ℝ} (ha : 0 ≤ a) (x mu b : Fin p → ℝ) :
    rowDist (fun j => a * x j + b j) (fun j => a * mu j + b j) = a * rowDist x mu := by
  unfold rowDist
  have e : ∑ j, (a * x j + b j - (a * mu j + b j)) * (a * x j + b j - (a * mu j + b j)) = a ^ 2 * ∑ j, (x j - mu j) * (x j - mu j) := by
    rw [Finset.mul_sum]
    exact Finset.sum_congr rfl fun j _ => by ring
  rw [e, Real.sqrt_mul (sq_nonneg a), Real.sqrt_sq ha]

theorem locantoreWith_move {a : ℝ} (ha : 0 < a) (b : Fin p → ℝ) (c thr : ℝ) (eigh : ∀ A : Matrix (Fin p) (Fin p) ℝ, EighAsc A) (st : PCAState p)
    (X : List (Fin p → ℝ)) (hX : X ≠ []) (loc : Fin p → ℝ) :
    locantoreWith c thr eigh st (X.map fun x j => a * x j + b j) (fun j => a * loc j + b j) =
      (locantoreWith c thr eigh st X loc).map (Spec.movePCA a 1 b) := by
  have hS : spatialSignCov (X.map fun x j => a * x j + b j) (fun j => a * loc j + b j) = spatialSignCov X loc := by
    unfold spatialSignCov
    funext i j
    rw [List.map_map, List.length_map]
    congr 2
    refine List.map_congr_left fun x _ => ?_
    simp only [Function.comp]
    rw [rowDist_rescale ha.le]
    have e : ∀ i, (a * x i + b i - (a * loc i + b i)) * (1 / (a * rowDist x loc)) = (x i - loc i) * (1 / rowDist x loc) := by
      intro i
      rw [show a * x i + b i - (a * loc i + b i) = a * (x i - loc i) by ring, one_div, mul_inv, one_div]
      field_simp
    rw [e, e]
  have hM : ∀ C, madVariances c (X.map fun x j => a * x j + b j) (fun j => a * loc j + b j) C = (madVariances c X loc C).map (a ^ 2 * ·) := by
    intro C
    unfold madVariances
    rw [List.map_map]
    refine List.map_congr_left fun v _ => ?_
    simp only [Function.comp, List.map_map]
    have e : X.map ((fun x => ∑ j, (x j - (a * loc j + b j)) * v j) ∘ fun x j => a * x j + b j) =
        (X.map fun x => ∑ j, (x j - loc j) * v j).map fun t => a * t + 0 := by
      rw [List.map_map]
      refine List.map_congr_left fun x _ => ?_
      simp only [Function.comp, add_zero, Finset.mul_sum]
      exact Finset.sum_congr rfl fun j _ => by ring
    have h2 := mad_scaleEquivariant a 0 (X.map fun x => ∑ j, (x j - loc j) * v j) ha (by simpa using hX)
    simp only at h2
    rw [e, h2]
    ring
  unfold locantoreWith
  rw [hS]
  simp only [hM]
  have hmem : (fun j => a * loc j + b j) ∈ (X.map fun x j => a * x j + b j) ↔ loc ∈ X := by
    constructor
    · intro h
      obtain ⟨x, hx, he⟩ := List.mem_map.1 h
      have : x = loc := by
        funext j
        have := congrFun he j
        simp only [add_left_inj] at this
        exact mul_left_cancel₀ ha.ne' this
      exact this ▸ hx
    · exact fun h => List.mem_map.2 ⟨loc, h, rfl⟩
  by_cases h0 : loc ∈ X
  · rw [if_pos (Or.inr (hmem.2 h0)), if_pos (Or.inr h0)]; rfl
  · rw [if_neg (by rw [hmem]; simp [h0, hX]), if_neg (by simp [h0, hX]), pickK_scale (pow_pos ha 2)]
    rcases pickK st.nComponents thr (madVariances c X loc (colsOf (eigh (spatialSignCov X loc)).V).reverse) with e | k
    · rfl
    · simp only [Except.map, Spec.movePCA, Option.map_some, one_mulVec, List.map_id', List.map_take]
      rfl

/-- **C160** (full statement): if `PCALocantore` is fitted on the data and on the data in other units, the two results correspond.
`eps` is the tolerance `1e-7` of the code. -/
def C160_statement : Prop :=
  ∀ (p : ℕ) (eps c thr a : ℝ) (b : Fin p → ℝ) (eigh : ∀ A : Matrix (Fin p) (Fin p) ℝ, EighAsc A) (st st1 st2 : PCAState p)
    (X : List (Fin p → ℝ)) (f1 f2 : ℕ), 0 < eps → 0 < c → 0 < a → X ≠ [] → locantoreFit eps c thr eigh st X f1 = some (.ok st1) →
    locantoreFit eps c thr eigh st (X.map fun x j => a * x j + b j) f2 = some (.ok st2) → st2 = Spec.movePCA a 1 b st1

/-- **C160** (partial): it holds if the tolerance of the l1-median is given in the units of the data too; then failures and endless
loops correspond as well.  Missing: the tolerance is a fixed number. -/
theorem C160_rescaled_partial (eps c thr : ℝ) {a : ℝ} (ha : 0 < a) (b : Fin p → ℝ) (eigh : ∀ A : Matrix (Fin p) (Fin p) ℝ, EighAsc A)
    (st : PCAState p) (X : List (Fin p → ℝ)) (hX : X ≠ []) (fuel : ℕ) :
    locantoreFit (a * eps) c thr eigh st (X.map fun x j => a * x j + b j) fuel =
      (locantoreFit eps c thr eigh st X fuel).map fun r => r.map (Spec.movePCA a 1 b) := by
  unfold locantoreFit
  have hl := C90_equivariant eps a ha.ne' b X hX fuel
  rw [abs_of_pos ha] at hl
  rw [hl]
  rcases l1median eps X fuel with _ | (e | loc)
  · rfl
  · rfl
  · exact congrArg some (locantoreWith_move ha b c thr eigh st X hX loc)

/-- **C160** (partial), with C158: the diagnostic plot of the rescaled fit names the same observations. -/
theorem C160_map_partial (eps c thr : ℝ) {a : ℝ} (ha : 0 < a) (b : Fin p → ℝ) (eigh : ∀ A : Matrix (Fin p) (Fin p) ℝ, EighAsc A)
    (st st1 : PCAState p) (X : List (Fin p → ℝ)) (hX : X ≠ []) (fuel : ℕ) (h : locantoreFit eps c thr eigh st X fuel = some (.ok st1))
    (chi2 : ℕ → ℝ) (chi z : ℝ) (hz : 0 ≤ z) (corrRaw : ℕ → ℕ → ℝ) (corr : ℝ → ℝ) (d : OutlierMapData)
    (hd : plotOutlierMap chi2 chi z corrRaw corr st1 X = .ok d) :
    ∃ st2 d2, locantoreFit (a * eps) c thr eigh st (X.map fun x j => a * x j + b j) fuel = some (.ok st2) ∧
      plotOutlierMap chi2 chi z corrRaw corr st2 (X.map fun x j => a * x j + b j) = .ok d2 ∧ Spec.beyond d2 = Spec.beyond d := by
  refine ⟨Spec.movePCA a 1 b st1, Spec.rescaleMap a d, ?_, ?_, C158_beyond a ha d⟩
  · rw [C160_rescaled_partial eps c thr ha b eigh st X hX fuel, h]
    rfl
  · have := C158_move chi2 chi z hz corrRaw corr st1 X hX ha (Q := 1) (by simp) b
    rw [hd] at this
    simp only [one_mulVec] at this
    exact this

/-! ## The witness: two observations at 0, one at 3 -/

/-- Two observations at 0 and one at 3. -/
def c160Data : List (Fin 1 → ℝ) := [![0], ![0], ![3]]

theorem c160_next {mu : Fin 1 → ℝ} (h0 : 0 < mu 0) (h3 : mu 0 < 3) : l1Next c160Data (some mu) = some fun _ => 3 * mu 0 / (6 - mu 0) := by
  have hd : ∀ v : ℝ, rowDist ![v] mu = |v - mu 0| := by
    intro v
    simp [rowDist, Real.sqrt_mul_self_eq_abs]
  have hm : mu ∉ c160Data := by
    simp only [c160Data, List.mem_cons, List.not_mem_nil, or_false]
    rintro (h | h | h) <;> rw [h] at h0 h3 <;> simp at h0 h3
  rw [l1Next_of_not_mem hm]
  congr 1
  funext j
  have e1 : |0 - mu 0| = mu 0 := by rw [zero_sub, abs_neg, abs_of_pos h0]
  have e2 : |3 - mu 0| = 3 - mu 0 := abs_of_pos (by linarith)
  have h4 : (3 - mu 0) ≠ 0 := by linarith
  have h5 : (6 - mu 0) ≠ 0 := by linarith
  have h6 : (1 / mu 0 + (1 / mu 0 + 1 / (3 - mu 0))) = (6 - mu 0) / (mu 0 * (3 - mu 0)) := by
    field_simp
    ring
  fin_cases j
  simp only [c160Data, l1WeightSum, List.map_cons, List.map_nil, List.sum_cons, List.sum_nil, hd, e1, e2, add_zero]
  rw [h6]
  simp
  field_simp

theorem c160_iter (i : ℕ) : ∃ v : ℝ, l1Iter c160Data i = some (fun _ => v) ∧ 0 < v ∧ v ≤ 1 := by
  induction i with
  | zero =>
    refine ⟨1, ?_, by norm_num, le_rfl⟩
    rw [l1Iter, if_neg (by simp [c160Data])]
    congr 1
    funext j
    fin_cases j
    norm_num [meanRow, mean, c160Data]
  | succ i ih =>
    obtain ⟨v, h1, h2, h3⟩ := ih
    refine ⟨3 * v / (6 - v), ?_, div_pos (by linarith) (by linarith), ?_⟩
    · rw [l1Iter, h1]
      exact c160_next (mu := fun _ => v) h2 (by linarith)
    · rw [div_le_one (by linarith)]
      linarith

theorem c160_iter_succ {i : ℕ} {a b : Fin 1 → ℝ} (ha : l1Iter c160Data i = some a) (hb : l1Iter c160Data (i + 1) = some b) :
    0 < a 0 ∧ a 0 ≤ 1 ∧ b 0 = 3 * a 0 / (6 - a 0) := by
  obtain ⟨v, h1, h2, h3⟩ := c160_iter i
  rw [h1] at ha
  have := Option.some.inj ha
  subst this
  rw [l1Iter, h1, c160_next (mu := fun _ => v) h2 (by linarith)] at hb
  have := Option.some.inj hb
  subst this
  exact ⟨h2, h3, rfl⟩

theorem c160_locantore {eps : ℝ} (loc : Fin 1 → ℝ) (fuel : ℕ) (h : l1median eps c160Data fuel = some (.ok loc)) (hm : loc ∉ c160Data) :
    ∃ st, locantoreFit eps 1 0 eighSorted ⟨some 1, none, none, none⟩ c160Data fuel = some (.ok st) ∧ st.location_ = some (some loc) := by
  unfold locantoreFit
  rw [h]
  simp only [Run.andThen]
  unfold locantoreWith
  rw [if_neg (by simp only [hm, or_false]; simp [c160Data])]
  exact ⟨_, rfl, rfl⟩

/-- In units that make the numbers small the iteration for the centre stops after one step. -/
theorem C160_violated : ¬ C160_statement := by
  intro hst
  obtain ⟨f1, loc, hl⟩ := C63_terminates_partial 1e-7 (by norm_num) (by norm_num) c160Data (by simp [c160Data]) (by
    intro i a ha
    obtain ⟨v, h1, h2, h3⟩ := c160_iter i
    rw [h1] at ha
    have := Option.some.inj ha
    subst this
    simp only [c160Data, List.mem_cons, List.not_mem_nil, or_false]
    rintro (h | h | h)
    · have := congrFun h 0; simp at this; linarith
    · have := congrFun h 0; simp at this; linarith
    · have := congrFun h 0; simp at this; linarith)
  have hl' := hl
  unfold l1median at hl'
  obtain ⟨b, a, i, hb, h1, h2, h3⟩ := l1Loop_result f1 0 _ hl'
  have := Except.ok.inj hb
  subst this
  obtain ⟨ha0, ha1, hab⟩ := c160_iter_succ h1 h2
  have hlm : ∀ l : Fin 1 → ℝ, 0 < l 0 → l 0 ≤ 1 → l ∉ c160Data := by
    intro l h h'
    simp only [c160Data, List.mem_cons, List.not_mem_nil, or_false]
    rintro (e | e | e) <;> rw [e] at h h' <;> norm_num at h <;> norm_num at h'
  have hloc : 0 < loc 0 ∧ loc 0 ≤ 1 := by
    rw [hab]
    refine ⟨div_pos (by linarith) (by linarith), ?_⟩
    rw [div_le_one (by linarith)]
    linarith
  obtain ⟨st1, hfit1, hst1⟩ := c160_locantore loc f1 hl (hlm loc hloc.1 hloc.2)
  -- in small units: one step with the tolerance 1, that is rescaled
  have hone : l1median 1 c160Data 1 = some (.ok fun _ => 3 / 5) := by
    have h0 : meanRow c160Data = fun _ => 1 := by
      funext j
      fin_cases j
      norm_num [meanRow, mean, c160Data]
    unfold l1median
    rw [if_neg (by simp [c160Data]), h0, runLoop]
    unfold l1Step
    rw [c160_next (by norm_num) (by norm_num)]
    norm_num
  obtain ⟨st2, hfit2, hst2⟩ := c160_locantore (fun _ => 3 / 5) 1 hone (hlm _ (by norm_num) (by norm_num))
  have hmove := C160_rescaled_partial 1 1 0 (a := 1e-7) (by norm_num) 0 eighSorted ⟨some 1, none, none, none⟩ c160Data (by simp [c160Data]) 1
  rw [hfit2, mul_one] at hmove
  have := hst 1 1e-7 1 0 1e-7 0 eighSorted ⟨some 1, none, none, none⟩ st1 (Spec.movePCA 1e-7 1 0 st2) c160Data f1 1 (by norm_num) (by norm_num)
    (by norm_num) (by simp [c160Data]) hfit1 hmove
  have := congrArg PCAState.location_ this
  simp only [Spec.movePCA, hst1, hst2, Option.map_some, Option.some.injEq] at this
  have := congrFun this 0
  simp only [one_mulVec, add_zero, Pi.smul_apply, smul_eq_mul] at this
  have := mul_left_cancel₀ (by norm_num) this
  -- the step before would have been from 1 to 3/5
  rw [← this] at hab
  have ha : a 0 = 1 := by
    rw [eq_div_iff (by linarith)] at hab
    linarith
  simp only [Finset.univ_unique, Fin.default_eq_zero, Finset.sum_singleton, ha, ← this] at h3
  rw [abs_of_pos (by norm_num)] at h3
  norm_num at h3

/-! Examples -/

/-- The hypotheses of `C160_map_partial` and C158: the fit of the witness, its plot and the plot in other units. -/
example : ∃ st1 d, locantoreFit 1 1 0 eighSorted ⟨some 1, none, none, none⟩ c160Data 1 = some (.ok st1) ∧
    plotOutlierMap (fun _ => 5) 5 2 (fun _ _ => 1) (fun _ => 1) st1 c160Data = .ok d ∧ d.score.length = 3 := by
  have hone : l1median 1 c160Data 1 = some (.ok fun _ => 3 / 5) := by
    have h0 : meanRow c160Data = fun _ => 1 := by
      funext j
      fin_cases j
      norm_num [meanRow, mean, c160Data]
    unfold l1median
    rw [if_neg (by simp [c160Data]), h0, runLoop]
    unfold l1Step
    rw [c160_next (by norm_num) (by norm_num)]
    norm_num
  have hm : (fun _ => 3 / 5) ∉ c160Data := by
    simp only [c160Data, List.mem_cons, List.not_mem_nil, or_false]
    rintro (h | h | h) <;> have := congrFun h 0 <;> norm_num at this
  unfold locantoreFit
  rw [hone]
  simp only [Run.andThen]
  unfold locantoreWith
  rw [if_neg (by simp only [hm, or_false]; simp [c160Data])]
  refine ⟨_, _, rfl, rfl, ?_⟩
  simp [c160Data]

end Robpy
