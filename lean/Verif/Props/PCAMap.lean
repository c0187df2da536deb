import Verif.Model.PCAMap
import Verif.Props.PCAFit
import Verif.Props.UnivariateMCD

/-! # C158: the diagnostic plot of the PCA estimators does not depend on units, origin and orientation -/

namespace Robpy
open Matrix

variable {p : ℕ}

theorem scoresRow_move {Q : Matrix (Fin p) (Fin p) ℝ} (hQ : Qᵀ * Q = 1) (a : ℝ) (b loc : Fin p → ℝ) (C : List (Fin p → ℝ)) (x : Fin p → ℝ) :
    scoresRow (a • (Q *ᵥ loc) + b) (C.map (Q *ᵥ ·)) (a • (Q *ᵥ x) + b) = (scoresRow loc C x).map (a * ·) := by
  unfold scoresRow
  rw [List.map_map, List.map_map]
  refine List.map_congr_left fun c _ => ?_
  simp only [Function.comp]
  have e : ∑ j, ((a • (Q *ᵥ x) + b) j - (a • (Q *ᵥ loc) + b) j) * (Q *ᵥ c) j = a * ((Q *ᵥ (x - loc)) ⬝ᵥ (Q *ᵥ c)) := by
    rw [mulVec_sub, dotProduct, Finset.mul_sum]
    refine Finset.sum_congr rfl fun j _ => ?_
    simp only [Pi.add_apply, Pi.smul_apply, Pi.sub_apply, smul_eq_mul]
    ring
  rw [e, dotProduct_mulVec, vecMul_mulVec, hQ, vecMul_one]
  rfl

theorem backRow_move (Q : Matrix (Fin p) (Fin p) ℝ) (a : ℝ) (C : List (Fin p → ℝ)) (t : List ℝ) :
    backRow (C.map (Q *ᵥ ·)) (t.map (a * ·)) = a • (Q *ᵥ backRow C t) := by
  funext i
  unfold backRow
  induction C generalizing t with
  | nil => simp [mulVec, dotProduct]
  | cons c C ih =>
    rcases t with _ | ⟨s, t⟩
    · simp [mulVec, dotProduct]
    · simp only [List.map_cons, List.zipWith_cons_cons, List.sum_cons]
      rw [ih t]
      simp only [mulVec, dotProduct, Pi.smul_apply, smul_eq_mul, Finset.mul_sum]
      rw [← Finset.sum_add_distrib]
      refine Finset.sum_congr rfl fun j _ => by ring

theorem vecNorm_move {Q : Matrix (Fin p) (Fin p) ℝ} (hQ : Qᵀ * Q = 1) {a : ℝ} (ha : 0 ≤ a) (u : Fin p → ℝ) :
    vecNorm (a • (Q *ᵥ u)) = a * vecNorm u := by
  unfold vecNorm
  have e : ∑ j, (a • (Q *ᵥ u)) j * (a • (Q *ᵥ u)) j = a ^ 2 * ((Q *ᵥ u) ⬝ᵥ (Q *ᵥ u)) := by
    rw [dotProduct, Finset.mul_sum]
    refine Finset.sum_congr rfl fun j _ => ?_
    simp only [Pi.smul_apply, smul_eq_mul]
    ring
  rw [e, dotProduct_mulVec, vecMul_mulVec, hQ, vecMul_one, Real.sqrt_mul (sq_nonneg a), Real.sqrt_sq ha]
  rfl

theorem orthDistRow_move {Q : Matrix (Fin p) (Fin p) ℝ} (hQ : Qᵀ * Q = 1) {a : ℝ} (ha : 0 ≤ a) (b loc : Fin p → ℝ) (C : List (Fin p → ℝ))
    (x : Fin p → ℝ) :
    orthDistRow (a • (Q *ᵥ loc) + b) (C.map (Q *ᵥ ·)) (a • (Q *ᵥ x) + b) = a * orthDistRow loc C x := by
  unfold orthDistRow
  rw [scoresRow_move hQ, backRow_move, ← vecNorm_move hQ ha]
  congr 1
  funext j
  have e : (Q *ᵥ fun j => x j - loc j - backRow C (scoresRow loc C x) j) = Q *ᵥ x - Q *ᵥ loc - Q *ᵥ backRow C (scoresRow loc C x) := by
    rw [← mulVec_sub, ← mulVec_sub]
    rfl
  rw [e]
  simp only [Pi.add_apply, Pi.smul_apply, Pi.sub_apply, smul_eq_mul]
  ring

theorem broadcastDiv_move {a : ℝ} (ha : a ≠ 0) (t ev : List ℝ) : broadcastDiv (t.map (a * ·)) (ev.map (a ^ 2 * ·)) = broadcastDiv t ev := by
  have e : ∀ s v : ℝ, (a * s) ^ 2 / (a ^ 2 * v) = s ^ 2 / v := by
    intro s v
    rw [mul_pow, mul_div_mul_left _ _ (pow_ne_zero 2 ha)]
  unfold broadcastDiv
  rw [List.length_map, List.length_map]
  split_ifs with h
  · rw [List.zipWith_map]
    simp only [e]
  · rcases t with _ | ⟨s, _ | ⟨s', t⟩⟩ <;> rcases ev with _ | ⟨v, _ | ⟨v', ev⟩⟩ <;> simp [e] at h ⊢

theorem mean_nonneg {l : List ℝ} (h : ∀ x ∈ l, 0 ≤ x) : 0 ≤ mean l := by
  unfold mean
  exact div_nonneg (List.sum_nonneg h) (by positivity)

/-- The location of `UnivariateMCD` on numbers that are not negative is not negative. -/
theorem mcdCalculate_location_nonneg {cut : ℝ} {corrRaw : ℕ → ℕ → ℝ} {corr : ℝ → ℝ} {h : ℕ} {X : List ℝ} (hX : ∀ x ∈ X, 0 ≤ x)
    {r : MCDFit ℝ} (hr : mcdCalculate cut corrRaw corr h X = some r) {l : ℝ} (hl : r.location = some l) : 0 ≤ l := by
  unfold mcdCalculate at hr
  split_ifs at hr with h1
  · have := Option.some.inj hr
    subst this
    have := Option.some.inj hl
    subst this
    exact mean_nonneg hX
  · rcases hraw : rawEstimates h X with _ | ⟨v, rl⟩
    · rw [hraw] at hr; simp at hr
    · rw [hraw] at hr
      have := Option.some.inj hr
      subst this
      unfold reweighting at hl
      simp only at hl
      split_ifs at hl with h2
      · simp at hl
      · have := Option.some.inj hl
        subst this
        exact mean_nonneg fun x hx => hX x (List.mem_of_mem_filter hx)

theorem getOdCutoff_scale (chi z : ℝ) (hz : 0 ≤ z) (corrRaw : ℕ → ℕ → ℝ) (corr : ℝ → ℝ) {a : ℝ} (ha : 0 < a) (od : List ℝ) (hne : od ≠ [])
    (hod : ∀ d ∈ od, 0 ≤ d) :
    getOdCutoff chi z corrRaw corr (od.map (a * ·)) = (getOdCutoff chi z corrRaw corr od).map (a * ·) := by
  have hlen : 1 ≤ od.length := List.length_pos_iff.2 hne
  have hA : 0 < a ^ (2 / 3 : ℝ) := Real.rpow_pos_of_pos ha _
  have e1 : (od.map (a * ·)).map (fun d => d ^ (2 / 3 : ℝ)) = (od.map fun d => d ^ (2 / 3 : ℝ)).map fun x => a ^ (2 / 3 : ℝ) * x + 0 := by
    rw [List.map_map, List.map_map]
    refine List.map_congr_left fun d hd => ?_
    simp only [Function.comp, add_zero]
    exact Real.mul_rpow ha.le (hod d hd)
  unfold getOdCutoff
  rw [e1, List.length_map, C06_affine hA 0 chi corrRaw corr _ _ (by omega) (by simp; omega)]
  rcases hm : mcdCalculate chi corrRaw corr (od.length / 2 + 1) (od.map fun d => d ^ (2 / 3 : ℝ)) with _ | ⟨rv, rl, _ | v, _ | l⟩
  · rfl
  · rfl
  · rfl
  · rfl
  · have hl : 0 ≤ l := by
      refine mcdCalculate_location_nonneg ?_ hm rfl
      intro x hx
      obtain ⟨d, hd, rfl⟩ := List.mem_map.1 hx
      exact Real.rpow_nonneg (hod d hd) _
    simp only [Option.map_some, Option.some.injEq]
    rw [Real.sqrt_mul (sq_nonneg _), Real.sqrt_sq hA.le, add_zero]
    have e2 : a ^ (2 / 3 : ℝ) * l + a ^ (2 / 3 : ℝ) * Real.sqrt v * z = a ^ (2 / 3 : ℝ) * (l + Real.sqrt v * z) := by ring
    rw [e2, Real.mul_rpow hA.le (by positivity), ← Real.rpow_mul ha.le]
    norm_num

/-- The fitted object moved along with the data: data `a * Q x + b`. -/
def Spec.movePCA (a : ℝ) (Q : Matrix (Fin p) (Fin p) ℝ) (b : Fin p → ℝ) (st : PCAState p) : PCAState p :=
  { nComponents := st.nComponents
    location_ := st.location_.map fun l => l.map fun v => a • (Q *ᵥ v) + b
    components_ := st.components_.map fun C => C.map (Q *ᵥ ·)
    explainedVariance_ := st.explainedVariance_.map fun ev => ev.map (a ^ 2 * ·) }

/-- The same map with the orthogonal distances and their cutoff in other units. -/
def Spec.rescaleMap (a : ℝ) (d : OutlierMapData) : OutlierMapData :=
  { score := d.score, orth := d.orth.map (a * ·), scoreCutoff := d.scoreCutoff, odCutoff := d.odCutoff.map (a * ·) }

/-- The positions of the observations that the plot shows outside the dashed lines: to the right of the vertical one, above the
horizontal one. -/
noncomputable def Spec.beyond (d : OutlierMapData) : List ℕ × List ℕ :=
  ((List.range d.score.length).filter fun i => decide (d.scoreCutoff < d.score.getD i 0),
   (List.range d.orth.length).filter fun i => d.odCutoff.any fun c => decide (c < d.orth.getD i 0))

/-- **C158**: if the data are rotated, rescaled and shifted and the fitted object is moved with them, the score distances and their
cutoff stay the same and the orthogonal distances and their cutoff are rescaled; failures are the same. -/
theorem C158_move (chi2 : ℕ → ℝ) (chi z : ℝ) (hz : 0 ≤ z) (corrRaw : ℕ → ℕ → ℝ) (corr : ℝ → ℝ) (st : PCAState p)
    (X : List (Fin p → ℝ)) (hX : X ≠ []) {a : ℝ} (ha : 0 < a) {Q : Matrix (Fin p) (Fin p) ℝ} (hQ : Qᵀ * Q = 1) (b : Fin p → ℝ) :
    plotOutlierMap chi2 chi z corrRaw corr (Spec.movePCA a Q b st) (X.map fun x => a • (Q *ᵥ x) + b) =
      (plotOutlierMap chi2 chi z corrRaw corr st X).map (Spec.rescaleMap a) := by
  obtain ⟨nc, loc, C, ev⟩ := st
  have key : ∀ (loc : Fin p → ℝ) (C : List (Fin p → ℝ)) (ev : List ℝ),
      mapExcept (fun x => broadcastDiv (scoresRow (a • (Q *ᵥ loc) + b) (C.map (Q *ᵥ ·)) x) (ev.map (a ^ 2 * ·)))
        (X.map fun x => a • (Q *ᵥ x) + b) = mapExcept (fun x => broadcastDiv (scoresRow loc C x) ev) X := by
    intro loc C ev
    clear hX
    induction X with
    | nil => rfl
    | cons x X ih =>
      simp only [List.map_cons, mapExcept]
      rw [ih, scoresRow_move hQ, broadcastDiv_move ha.ne']
  rcases loc with _ | _ | loc
  · rfl
  · rfl
  rcases C with _ | C
  · rfl
  rcases ev with _ | ev
  · rfl
  unfold plotOutlierMap outlierMap Spec.movePCA
  simp only [Option.map_some]
  rw [key]
  have ho : (X.map fun x => a • (Q *ᵥ x) + b).map (orthDistRow (a • (Q *ᵥ loc) + b) (C.map (Q *ᵥ ·))) = (X.map (orthDistRow loc C)).map (a * ·) := by
    rw [List.map_map, List.map_map]
    exact List.map_congr_left fun x _ => orthDistRow_move hQ ha.le b loc C x
  rw [ho]
  rcases mapExcept (fun x => broadcastDiv (scoresRow loc C x) ev) X with e | S
  · rfl
  rcases nc with _ | k
  · rfl
  simp only [Except.map, Except.bind, Spec.rescaleMap]
  rw [getOdCutoff_scale chi z hz corrRaw corr ha _ (by simpa using hX)]
  intro d hd
  obtain ⟨x, -, rfl⟩ := List.mem_map.1 hd
  exact Real.sqrt_nonneg _

/-- **C158**: the same observations lie beyond the lines. -/
theorem C158_beyond (a : ℝ) (ha : 0 < a) (d : OutlierMapData) : Spec.beyond (Spec.rescaleMap a d) = Spec.beyond d := by
  unfold Spec.beyond Spec.rescaleMap
  rw [List.length_map]
  congr 1
  refine List.filter_congr fun i hi => ?_
  rw [List.mem_range] at hi
  rcases d.odCutoff with _ | c
  · rfl
  · simp [List.getD_eq_getElem?_getD, hi, ha]

/-- **C158**: the order of the observations only changes the order of the distances. -/
theorem C158_order (chi2 : ℕ → ℝ) (chi z : ℝ) (corrRaw : ℕ → ℕ → ℝ) (corr : ℝ → ℝ) (st : PCAState p) {X Y : List (Fin p → ℝ)} (h : X.Perm Y)
    (d : OutlierMapData) (hd : plotOutlierMap chi2 chi z corrRaw corr st X = .ok d) :
    ∃ d', plotOutlierMap chi2 chi z corrRaw corr st Y = .ok d' ∧ (d.score.zip d.orth).Perm (d'.score.zip d'.orth) ∧
      d'.scoreCutoff = d.scoreCutoff ∧ d'.odCutoff = d.odCutoff := by
  obtain ⟨nc, loc, C, ev⟩ := st
  rcases loc with _ | _ | loc
  · simp [plotOutlierMap, outlierMap, Except.bind] at hd
  · simp [plotOutlierMap, outlierMap, Except.bind] at hd
  rcases C with _ | C
  · simp [plotOutlierMap, outlierMap, Except.bind] at hd
  rcases ev with _ | ev
  · simp [plotOutlierMap, outlierMap, Except.bind] at hd
  have hall : ∀ (L : List (Fin p → ℝ)) S, mapExcept (fun x => broadcastDiv (scoresRow loc C x) ev) L = .ok S →
      ∀ x ∈ L, ∃ l, broadcastDiv (scoresRow loc C x) ev = .ok l := by
    intro L
    induction L with
    | nil => intro S _ x hx; simp at hx
    | cons y L ih =>
      intro S hS x hx
      simp only [mapExcept] at hS
      rcases hy : broadcastDiv (scoresRow loc C y) ev with e | l
      · rw [hy] at hS; cases hS
      · rw [hy] at hS
        rcases hL : mapExcept (fun x => broadcastDiv (scoresRow loc C x) ev) L with e | S'
        · rw [hL] at hS; cases hS
        · rcases List.mem_cons.1 hx with rfl | hx
          · exact ⟨l, hy⟩
          · exact ih S' hL x hx
  have hmap : ∀ (L : List (Fin p → ℝ)), (∀ x ∈ L, ∃ l, broadcastDiv (scoresRow loc C x) ev = .ok l) →
      mapExcept (fun x => broadcastDiv (scoresRow loc C x) ev) L =
        .ok (L.map fun x => (broadcastDiv (scoresRow loc C x) ev).toOption.getD []) := by
    intro L
    induction L with
    | nil => intro _; rfl
    | cons y L ih =>
      intro hL
      obtain ⟨l, hl⟩ := hL y (by simp)
      simp only [mapExcept, List.map_cons]
      rw [hl, ih fun x hx => hL x (by simp [hx])]
      rfl
  unfold plotOutlierMap outlierMap at hd ⊢
  simp only at hd ⊢
  rcases hS : mapExcept (fun x => broadcastDiv (scoresRow loc C x) ev) X with e | S
  · rw [hS] at hd; simp [Except.map, Except.bind] at hd
  have hXall := hall X S hS
  rw [hmap X hXall] at hd
  rw [hmap Y fun x hx => hXall x (h.mem_iff.2 hx)]
  rcases nc with _ | k
  · simp [Except.map, Except.bind] at hd
  simp only [Except.map, Except.bind] at hd ⊢
  have := Except.ok.inj hd
  subst this
  refine ⟨_, rfl, ?_, rfl, ?_⟩
  · simp only [List.map_map, ← List.zip_map', List.zip_map']
    exact h.map _
  · unfold getOdCutoff
    have hp := (h.map (orthDistRow loc C)).map fun d => d ^ (2 / 3 : ℝ)
    simp only [List.length_map, h.length_eq]
    rw [C06_perm chi corrRaw corr _ _ _ hp]

end Robpy
