import Verif.Props.DetOrder
import Verif.Props.DetWitness
import Verif.Props.MCDAffine

/-! # C189: DetMCD follows a reflection of the data through a point -/

namespace Robpy
open Matrix

variable {p : ℕ}

/-- Specification: the rows reflected through the point `b / 2`. -/
def Spec.reflected (b : Fin p → ℝ) (X : List (Fin p → ℝ)) : List (Fin p → ℝ) := X.map fun x => b - x

theorem column_neg (X : List (Fin p → ℝ)) (j : Fin p) : column (X.map fun x => -x) j = (column X j).map fun v => -1 * v + 0 := by
  unfold column
  rw [List.map_map, List.map_map]
  refine List.map_congr_left fun x _ => ?_
  simp

theorem map_neg_form (x : List ℝ) : (x.map fun v => -v) = x.map fun v => -1 * v + 0 :=
  List.map_congr_left fun v _ => by ring

theorem qnNum_neg {x : List ℝ} (hx : 2 ≤ x.length) : qnNum (x.map fun v => -v) = qnNum x := by
  rw [map_neg_form, qnNum_affine hx]; simp

theorem medNum_neg {x : List ℝ} (hx : x ≠ []) : medNum (x.map fun v => -v) = -medNum x := by
  rw [map_neg_form, medNum_affine hx]; ring

theorem column_neg' (X : List (Fin p → ℝ)) (j : Fin p) : column (X.map fun x => -x) j = (column X j).map fun v => -v := by
  rw [column_neg, map_neg_form]

theorem column_ne_nil {X : List (Fin p → ℝ)} (h : 2 ≤ X.length) (j : Fin p) : column X j ≠ [] := by
  intro h0
  have := congrArg List.length h0
  rw [column_length] at this
  simp at this
  subst this
  simp at h

theorem detScale_reflect (corr : ℝ) {x : List ℝ} (hx : 2 ≤ x.length) (n : ℕ) (b : ℝ) :
    detScale corr n (x.map fun v => -1 * v + b) = detScale corr n x := by
  unfold detScale
  rw [qnNum_affine hx, tauNum_affine corr (by norm_num)]
  simp

/-- The standardised data are negated. -/
theorem detZ_reflected (corr : ℝ) (b : Fin p → ℝ) (X : List (Fin p → ℝ)) :
    detZ corr (Spec.reflected b X) = (detZ corr X).map (List.map fun z => -z) := by
  have hlen : (Spec.reflected b X).length = X.length := List.length_map _
  have hcol : ∀ j, column (Spec.reflected b X) j = (column X j).map fun v => -1 * v + b j := fun j => by
    unfold column Spec.reflected
    rw [List.map_map, List.map_map]
    refine List.map_congr_left fun x _ => ?_
    simp [sub_eq_neg_add]
  unfold detZ
  rw [hlen]
  by_cases h2 : X.length < 2
  · rw [if_pos (Or.inl h2), if_pos (Or.inl h2)]; rfl
  have hs : ∀ j, detScale corr X.length (column (Spec.reflected b X) j) = detScale corr X.length (column X j) := fun j => by
    rw [hcol, detScale_reflect corr (by rw [column_length]; omega)]
  simp only [hs]
  split_ifs with h
  · rfl
  · change _ = Except.ok _
    congr 1
    unfold Spec.reflected at *
    rw [List.map_map, List.map_map]
    refine List.map_congr_left fun x _ => ?_
    funext j
    simp only [Function.comp, Pi.neg_apply, Pi.sub_apply]
    rw [hcol, medNum_affine (column_ne_nil (by omega) j), ← neg_div]
    congr 1
    ring

/-! ## The six scatter matrices -/

theorem npCov_reflect (c : Fin p → ℝ) (Y : List (Fin p → ℝ)) : npCov (Y.map fun y => c - y) = npCov Y := by
  rcases Y with _ | ⟨y, Y⟩
  · rfl
  have h := npCov_affine (-1 : Matrix (Fin p) (Fin p) ℝ) c (y :: Y) (by rw [List.length_cons]; positivity)
  have e : (fun x : Fin p → ℝ => (-1 : Matrix (Fin p) (Fin p) ℝ) *ᵥ x + c) = fun x => c - x := by
    funext x
    rw [Matrix.neg_mulVec, Matrix.one_mulVec]
    abel
  rw [e] at h
  rw [h]
  simp

theorem corrcoefRows_reflect (c : Fin p → ℝ) (Y : List (Fin p → ℝ)) : corrcoefRows (Y.map fun y => c - y) = corrcoefRows Y := by
  unfold corrcoefRows
  rw [npCov_reflect]

theorem avgRank_neg {l : List ℝ} (v : ℝ) : avgRank (l.map fun a => -a) (-v) = l.length + 1 - avgRank l v := by
  have h3 : ((l.countP fun a => decide (a < v) : ℕ) : ℝ) + (l.countP fun a => decide (a = v) : ℕ) + (l.countP fun a => decide (v < a) : ℕ) =
      l.length := by
    induction l with
    | nil => simp
    | cons a l ih =>
      simp only [List.countP_cons, List.length_cons]
      push_cast
      rcases lt_trichotomy a v with h | h | h
      · have h1 : ¬ a = v := h.ne
        have h2 : ¬ v < a := h.le.not_gt
        simp [h, h1, h2]; linarith
      · subst h; simp; linarith
      · have h1 : ¬ a = v := h.ne'
        have h2 : ¬ a < v := h.le.not_gt
        simp [h, h1, h2]; linarith
  have e1 : ((l.map fun a => -a).countP fun a => decide (a < -v)) = l.countP fun a => decide (v < a) := by
    rw [List.countP_map]
    refine List.countP_congr fun a _ => ?_
    simp
  have e2 : ((l.map fun a => -a).countP fun a => decide (a = -v)) = l.countP fun a => decide (a = v) := by
    rw [List.countP_map]
    refine List.countP_congr fun a _ => ?_
    simp
  unfold avgRank
  rw [e1, e2]
  linarith

theorem rankRows_neg (Z : List (Fin p → ℝ)) :
    rankRows (Z.map fun z => -z) = (rankRows Z).map fun r => (fun _ => (Z.length : ℝ) + 1) - r := by
  unfold rankRows
  rw [List.map_map, List.map_map]
  refine List.map_congr_left fun z _ => ?_
  funext j
  simp only [Function.comp, Pi.sub_apply, Pi.neg_apply]
  rw [column_neg', avgRank_neg, column_length]

/-- The normal quantile is antisymmetric: `ppf (1 - u) = - ppf u` (up to a constant that does not matter for correlations). -/
def Spec.symmetricQuantile (ppf : ℝ → ℝ) : Prop := ∃ c, ∀ u, 0 < u → u < 1 → ppf (1 - u) = c - ppf u

theorem scoreRows_neg {ppf : ℝ → ℝ} {c : ℝ} (hppf : ∀ u, 0 < u → u < 1 → ppf (1 - u) = c - ppf u) (Z : List (Fin p → ℝ)) :
    scoreRows ppf (Z.map fun z => -z) = (scoreRows ppf Z).map fun r => (fun _ => c) - r := by
  unfold scoreRows
  rw [rankRows_neg, List.length_map, List.map_map, List.map_map]
  refine List.map_congr_left fun r hr => ?_
  funext j
  simp only [Function.comp, Pi.sub_apply]
  unfold rankRows at hr
  obtain ⟨z, hz, rfl⟩ := List.mem_map.1 hr
  obtain ⟨h1, h2⟩ := avgRank_range (l := column Z j) (a := z j) (List.mem_map.2 ⟨z, hz, rfl⟩)
  rw [column_length] at h2
  set r := avgRank (column Z j) (z j)
  have hn : (0:ℝ) < Z.length + 1 / 3 := by positivity
  rw [← hppf _ (div_pos (by linarith) hn) ((div_lt_one hn).2 (by linarith))]
  congr 1
  field_simp
  ring

theorem rowNorm_neg (z : Fin p → ℝ) : rowNorm (-z) = rowNorm z := by
  unfold rowNorm; simp

theorem spatialSigns_neg (Z : List (Fin p → ℝ)) : spatialSigns (Z.map fun z => -z) = spatialSigns Z := by
  unfold spatialSigns
  have e : (∃ z ∈ Z.map fun z => -z, rowNorm z = 0) ↔ ∃ z ∈ Z, rowNorm z = 0 := by
    simp only [List.mem_map]
    constructor
    · rintro ⟨_, ⟨z, hz, rfl⟩, h⟩
      exact ⟨z, hz, by rwa [rowNorm_neg] at h⟩
    · rintro ⟨z, hz, h⟩
      exact ⟨-z, ⟨z, hz, rfl⟩, by rwa [rowNorm_neg]⟩
  by_cases h : ∃ z ∈ Z, rowNorm z = 0
  · rw [if_pos (e.2 h), if_pos h]
  · rw [if_neg fun h' => h (e.1 h'), if_neg h]
    congr 1
    funext i j
    rw [List.map_map, List.length_map]
    congr 2
    refine List.map_congr_left fun z _ => ?_
    simp only [Function.comp, Pi.neg_apply, rowNorm_neg]
    ring

theorem halfCov_neg (srt : ArgSort ℝ) (Z : List (Fin p → ℝ)) : halfCov srt (Z.map fun z => -z) = halfCov srt Z := by
  have e : (Z.map fun z => -z).map rowNorm = Z.map rowNorm := by
    rw [List.map_map]
    exact List.map_congr_left fun z _ => rowNorm_neg z
  have e2 : ∀ Y : List (Fin p → ℝ), npCov (Y.map fun z => -z) = npCov Y := fun Y => by
    have := npCov_reflect 0 Y
    simpa using this
  unfold halfCov
  simp only [e, List.length_map, takeAt_map, e2]

theorem ogkStep_neg (eigh : ∀ A : Matrix (Fin p) (Fin p) ℝ, A.IsSymm → Eigh A) {Z : List (Fin p → ℝ)} (hZ : 2 ≤ Z.length) :
    ogkStep eigh qnNum (Z.map fun z => -z) = (ogkStep eigh qnNum Z).map fun r => (r.1.map fun z => -z, r.2) := by
  have hs : ∀ i, qnNum (column (Z.map fun z => -z) i) = qnNum (column Z i) := fun i => by
    rw [column_neg', qnNum_neg (by rw [column_length]; exact hZ)]
  have hq : ∀ (f : (Fin p → ℝ) → ℝ), (∀ y, f (-y) = -f y) → ∀ s : Fin p → ℝ,
      qnNum (((Z.map fun z => -z).map fun z j => z j / s j).map f) = qnNum ((Z.map fun z j => z j / s j).map f) := fun f hf s => by
    rw [← qnNum_neg (x := (Z.map fun z j => z j / s j).map f) (by simpa using hZ)]
    congr 1
    simp only [List.map_map]
    refine List.map_congr_left fun z _ => ?_
    simp only [Function.comp]
    rw [← hf]
    congr 1
    funext j
    simp [neg_div]
  unfold ogkStep
  simp only [hs]
  have h1 : ∀ i j, qnNum (((Z.map fun z => -z).map fun z j => z j / qnNum (column Z j)).map fun y => y i + y j) =
      qnNum ((Z.map fun z j => z j / qnNum (column Z j)).map fun y => y i + y j) := fun i j => hq _ (fun y => by simp; ring) _
  have h2 : ∀ i j, qnNum (((Z.map fun z => -z).map fun z j => z j / qnNum (column Z j)).map fun y => y i - y j) =
      qnNum ((Z.map fun z j => z j / qnNum (column Z j)).map fun y => y i - y j) := fun i j => hq _ (fun y => by simp; ring) _
  simp only [h1, h2]
  split_ifs
  · rfl
  · rw [Option.map_some]
    congr 2
    simp only [List.map_map]
    refine List.map_congr_left fun z _ => ?_
    simp only [Function.comp]
    rw [← Matrix.neg_vecMul]
    congr 1
    funext j
    simp [neg_div]

theorem ogkRaw_neg (eigh : ∀ A : Matrix (Fin p) (Fin p) ℝ, A.IsSymm → Eigh A) (k : ℕ) {Z : List (Fin p → ℝ)} (hZ : 2 ≤ Z.length) :
    ogkRaw eigh medNum qnNum k (Z.map fun z => -z) = (ogkRaw eigh medNum qnNum k Z).map fun q => (-q.1, q.2) := by
  induction k generalizing Z with
  | zero =>
    simp only [ogkRaw, ogkLoop, Option.map_some, List.foldr_nil]
    congr 2
    · funext i
      rw [column_neg', medNum_neg (column_ne_nil hZ i)]
      rfl
    · congr 1
      funext i
      rw [column_neg', qnNum_neg (by rw [column_length]; exact hZ)]
  | succ k ih =>
    rw [ogkRaw_succ, ogkRaw_succ, ogkStep_neg eigh hZ]
    rcases hr : ogkStep eigh qnNum Z with _ | r
    · rfl
    · have hl : 2 ≤ r.1.length := by
        unfold ogkStep at hr
        simp only at hr
        split_ifs at hr
        obtain rfl := Option.some.inj hr
        simpa using hZ
      simp only [Option.map_some, Option.bind_some]
      rw [ih hl, Option.map_map, Option.map_map]
      congr 1
      funext q
      simp [Function.comp, Matrix.mulVec_neg]

theorem detScatters_neg (env : DetEnv p) (hppf : Spec.symmetricQuantile env.ppf) {Z : List (Fin p → ℝ)} (hZ : 2 ≤ Z.length) :
    detScatters env (Z.map fun z => -z) = detScatters env Z := by
  obtain ⟨c, hc⟩ := hppf
  have h1 : ((Z.map fun z => -z).map fun z j => Real.tanh (z j)) = (Z.map fun z j => Real.tanh (z j)).map fun y => 0 - y := by
    rw [List.map_map, List.map_map]
    refine List.map_congr_left fun z _ => ?_
    funext j
    simp [Function.comp]
  unfold detScatters
  rw [h1, corrcoefRows_reflect, rankRows_neg, corrcoefRows_reflect, scoreRows_neg hc, corrcoefRows_reflect, spatialSigns_neg, halfCov_neg,
    ogkRaw_neg env.eigh 2 hZ]
  rcases ogkRaw env.eigh medNum qnNum 2 Z with _ | q
  · rfl
  · generalize corrcoefRows (Z.map fun z j => Real.tanh (z j)) = o1
    generalize corrcoefRows (rankRows Z) = o2
    generalize corrcoefRows (scoreRows env.ppf Z) = o3
    generalize spatialSigns Z = o4
    generalize halfCov env.srt Z = o5
    obtain ⟨q1, q2⟩ := q
    rcases o1 with _ | _ <;> rcases o2 with _ | _ <;> rcases o3 with _ | _ <;> rcases o4 with _ | _ <;> rcases o5 with _ | _ <;> rfl

/-! ## The starts -/

theorem column_neg_vecMul (Z : List (Fin p → ℝ)) (E : Matrix (Fin p) (Fin p) ℝ) (j : Fin p) :
    column ((Z.map fun z => -z).map fun z => z ᵥ* E) j = (column (Z.map fun z => z ᵥ* E) j).map fun v => -v := by
  rw [← column_neg', List.map_map, List.map_map]
  congr 1
  refine List.map_congr_left fun z _ => ?_
  simp only [Function.comp, Matrix.neg_vecMul]

theorem detStart_neg (env : DetEnv p) {Z : List (Fin p → ℝ)} (hZ : 2 ≤ Z.length) (S : Matrix (Fin p) (Fin p) ℝ) :
    detStart env (Z.map fun z => -z) S = (detStart env Z S).map fun q => (-q.1, q.2) := by
  have hcov : detCov env (Z.map fun z => -z) S = detCov env Z S := by
    unfold detCov
    simp only
    have : (fun j => qnNum (column ((Z.map fun z => -z).map fun z => z ᵥ* detE env S) j) ^ 2) =
        fun j => qnNum (column (Z.map fun z => z ᵥ* detE env S) j) ^ 2 :=
      funext fun j => by rw [column_neg_vecMul, qnNum_neg (by rw [column_length, List.length_map]; exact hZ)]
    rw [this]
  unfold detStart
  simp only [hcov]
  rcases npInv (env.sqrtm (detCov env Z S)) with e | inv
  · rfl
  · simp only [Except.map]
    congr 2
    rw [← Matrix.mulVec_neg]
    congr 1
    funext j
    rw [column_neg_vecMul, medNum_neg (column_ne_nil (by rw [List.length_map]; exact hZ) j)]
    rfl

theorem detIndices_neg (env : DetEnv p) (Z : List (Fin p → ℝ)) (s : (Fin p → ℝ) × Matrix (Fin p) (Fin p) ℝ) :
    detIndices env (Z.map fun z => -z) (-s.1, s.2) = detIndices env Z s := by
  have e : sqMahalanobis (Z.map fun z => -z) (-s.1) s.2 = sqMahalanobis Z s.1 s.2 := by
    unfold sqMahalanobis
    congr 1
    funext ci
    rw [List.map_map]
    refine List.map_congr_left fun z _ => ?_
    simp only [Function.comp]
    rw [show -z - -s.1 = -(z - s.1) by abel]
    unfold quadForm
    rw [Matrix.neg_vecMul, neg_dotProduct_neg]
  unfold detIndices
  simp only [e, List.length_map]

theorem mapExcept_detStart_neg (env : DetEnv p) {Z : List (Fin p → ℝ)} (hZ : 2 ≤ Z.length) (Ss : List (Matrix (Fin p) (Fin p) ℝ)) :
    mapExcept (detStart env (Z.map fun z => -z)) Ss = (mapExcept (detStart env Z) Ss).map (List.map fun q => (-q.1, q.2)) := by
  induction Ss with
  | nil => rfl
  | cons S Ss ih =>
    simp only [mapExcept]
    rw [ih, detStart_neg env hZ]
    rcases detStart env Z S with e | q
    · rfl
    · rcases mapExcept (detStart env Z) Ss with e | qs
      · rfl
      · rfl

theorem mapExcept_detIndices_neg (env : DetEnv p) (Z : List (Fin p → ℝ)) (l : List ((Fin p → ℝ) × Matrix (Fin p) (Fin p) ℝ)) :
    mapExcept (detIndices env (Z.map fun z => -z)) (l.map fun q => (-q.1, q.2)) = mapExcept (detIndices env Z) l := by
  induction l with
  | nil => rfl
  | cons q l ih =>
    simp only [List.map_cons, mapExcept]
    rw [ih, detIndices_neg]

/-- The six starting sets are the same rows. -/
theorem detInits_reflected (env : DetEnv p) (hppf : Spec.symmetricQuantile env.ppf) (b : Fin p → ℝ) (X : List (Fin p → ℝ)) :
    detInits env (Spec.reflected b X) = detInits env X := by
  unfold detInits
  rw [detZ_reflected]
  rcases hZ : detZ env.tauCorr X with e | Z
  · rfl
  obtain ⟨h2, -, hZe⟩ := detZ_ok hZ
  have hl : 2 ≤ Z.length := by rw [hZe, List.length_map]; exact h2
  simp only [Except.map, Except.bind]
  rw [detScatters_neg env hppf hl]
  rcases detScatters env Z with e | Ss
  · rfl
  simp only
  rw [mapExcept_detStart_neg env hl]
  rcases mapExcept (detStart env Z) Ss with e | st
  · rfl
  simp only [Except.map]
  exact mapExcept_detIndices_neg env Z st

/-! ## C189 -/

/-- Specification: what a result is mapped to when the data are reflected through `b / 2`: the location is reflected, covariance, subset and
mask stay. -/
def Spec.reflectedFit (b : Fin p → ℝ) (f : CovFit ℝ (Fin p)) : CovFit ℝ (Fin p) :=
  { location := b - f.location, covariance := f.covariance,
    best := f.best.map fun s => { s with location := b - s.location }, mask := f.mask }

/-- **C189**: when every row `x` is replaced by `b - x`, DetMCD returns the reflected location, the same covariance, the same subset and the
same mask, and the same exceptions. -/
theorem C189_reflection (env : DetEnv p) (hppf : Spec.symmetricQuantile env.ppf) (cfg : MCDConfig ℝ) (htol : 0 < cfg.tol) (b : Fin p → ℝ)
    (X : List (Fin p → ℝ)) (hX : X ≠ []) (fuel : ℕ) :
    detFit env cfg (Spec.reflected b X) fuel = (detFit env cfg X fuel).map (Except.map (Spec.reflectedFit b)) := by
  have haff : Spec.reflected b X = X.map (Spec.affine (-1) b) := by
    unfold Spec.reflected Spec.affine
    refine List.map_congr_left fun x _ => ?_
    rw [Matrix.neg_mulVec, Matrix.one_mulVec]
    abel
  have hdet : (-1 : Matrix (Fin p) (Fin p) ℝ).det ≠ 0 := by
    rw [Matrix.det_neg]; simp
  have hfit : (Spec.affFit (-1) b : CovFit ℝ (Fin p) → CovFit ℝ (Fin p)) = Spec.reflectedFit b := by
    have hv : ∀ v : Fin p → ℝ, (-1 : Matrix (Fin p) (Fin p) ℝ) *ᵥ v + b = b - v := fun v => by
      rw [Matrix.neg_mulVec, Matrix.one_mulVec]; abel
    funext f
    unfold Spec.affFit Spec.reflectedFit affSubset
    simp only [hv]
    have hd2 : (-1 : Matrix (Fin p) (Fin p) ℝ).det ^ 2 = 1 := by
      rw [Matrix.det_neg, Matrix.det_one, mul_one, ← pow_mul, mul_comm, pow_mul]; simp
    simp [hd2]
  have hall : ∀ inits : List (List ℕ), (∀ idx ∈ inits, idx ≠ [] ∧ ∀ i ∈ idx, i < X.length) →
      detMCD env.srt cfg (X.map (Spec.affine (-1) b)) fuel inits =
      (detMCD env.srt cfg X fuel inits).map (Except.map (Spec.affFit (-1) b)) := fun inits hi =>
    C39_detMCD (-1) b hdet env.srt cfg htol X hX fuel inits hi
  rw [← hfit]
  unfold detFit
  rw [detInits_reflected env hppf, haff, List.length_map]
  by_cases ha : alphaIsAll cfg.alpha X.length = true
  · rw [if_pos ha, if_pos ha]
    have := hall [] (by simp)
    unfold detMCD at this
    rwa [List.length_map, if_pos ha, if_pos ha] at this
  · rw [if_neg ha, if_neg ha]
    rcases hin : detInits env X with e | inits
    · rfl
    · simp only [Run.andThen]
      refine hall inits fun idx hidx => ?_
      obtain ⟨h2, h⟩ := detInits_ok hin
      obtain ⟨-, h3, h4⟩ := h idx hidx
      exact ⟨by rintro rfl; simp at h4; omega, h3⟩

theorem detEnvSpectral_symmetric (p : ℕ) : Spec.symmetricQuantile (detEnvSpectral p).ppf := ⟨1, fun _ _ _ => rfl⟩

/-- The hypotheses of `C189_reflection` are met in a run that returns a result. -/
example : ∃ fit, detFit (detEnvSpectral 2) c132Cfg (Spec.reflected ![7, 1] c132Good) 1 = some (.ok fit) := by
  obtain ⟨fit, h, -⟩ := c132Good_returns
  refine ⟨Spec.reflectedFit ![7, 1] fit, ?_⟩
  rw [C189_reflection _ (detEnvSpectral_symmetric 2) _ (by norm_num [c132Cfg]) _ _ (by simp [c132Good]), h]
  rfl

/-! ## C188: the violation -/

/-- Full statement of C188: DetMCD gives the same result for every order of the rows. -/
def C188_statement : Prop :=
  ∀ (p : ℕ) (env : DetEnv p), DetContract env → ∀ (cfg : MCDConfig ℝ), 0 < cfg.tol → ∀ (X X' : List (Fin p → ℝ)), X.Perm X' → ∀ fuel,
    Spec.sameRun (Spec.sameMCD X X') (detFit env cfg X fuel) (detFit env cfg X' fuel)

/-- Six points, symmetric about the origin, no three on a line. -/
def c188Data : List (Fin 2 → ℝ) := [![1, 3], ![-1, -3], ![3, 1], ![-3, -1], ![5, -3], ![-5, 3]]

/-- Five of the six rows, no reweighting. -/
noncomputable def c188Cfg : MCDConfig ℝ := { c132Cfg with alpha := .int 5, reweighting := false }

theorem c188Data_gp : Spec.RowsInGeneralPosition c188Data := by
  intro v hv k
  by_contra hcon
  push Not at hcon
  refine hv ?_
  suffices h' : v 0 = 0 ∧ v 1 = 0 by
    funext i
    fin_cases i
    · exact h'.1
    · exact h'.2
  simp only [c188Data, List.countP_cons, List.countP_nil, dotProduct, Fin.sum_univ_two, Matrix.cons_val_zero, Matrix.cons_val_one] at hcon
  by_cases h1 : 1 * v 0 + 3 * v 1 = k <;> by_cases h2 : -1 * v 0 + -3 * v 1 = k <;> by_cases h3 : 3 * v 0 + 1 * v 1 = k <;>
    by_cases h4 : -3 * v 0 + -1 * v 1 = k <;> by_cases h5 : 5 * v 0 + -3 * v 1 = k <;> by_cases h6 : -5 * v 0 + 3 * v 1 = k <;>
    first
    | (constructor <;> linarith)
    | (exfalso; simp only [h1, h2, h3, h4, h5, h6] at hcon; norm_num at hcon; done)

theorem c188Data_median : ∀ x ∈ c188Data, ¬ Spec.IsMedianRow c188Data x := by
  intro x hx h
  have h0 := h 0
  have hm : npMedian (c188Data.map fun y => y 0) = some 0 := by
    rw [npMedian_eq_some_iff]
    refine ⟨-1, 1, ?_, ?_, by norm_num⟩ <;>
    · unfold Spec.IsKthSmallest
      norm_num [c188Data, List.countP_cons]
  rw [hm] at h0
  have := Option.some.inj h0
  simp only [c188Data, List.mem_cons, List.not_mem_nil, or_false] at hx
  rcases hx with rfl | rfl | rfl | rfl | rfl | rfl <;> norm_num at this

/-- Without reweighting the location is that of the best subset, which is the mean of `h` different rows. -/
theorem detFit_location {env : DetEnv p} {cfg : MCDConfig ℝ} (htol : 0 < cfg.tol) (hrew : cfg.reweighting = false) {X : List (Fin p → ℝ)}
    (hall : alphaIsAll cfg.alpha X.length = false) {fuel : ℕ} {fit : CovFit ℝ (Fin p)} (h : detFit env cfg X fuel = some (.ok fit)) :
    ∃ s, Stepped env.srt cfg.alpha X s ∧ fit.location = s.location := by
  unfold detFit at h
  rw [hall] at h
  simp only [Bool.false_eq_true, if_false] at h
  obtain ⟨inits, -, h⟩ := Run.andThen_ok h
  unfold detMCD at h
  rw [hall] at h
  simp only [Bool.false_eq_true, if_false] at h
  obtain ⟨ss, hss, h⟩ := Run.andThen_ok h
  obtain ⟨s, hs, h⟩ := Run.andThen_ok h
  have hst : ∀ t ∈ ss, Stepped env.srt cfg.alpha X t := fun t ht => by
    obtain ⟨idx, -, he⟩ := mapExcept_mem (Option.some.inj hss) t ht
    rcases hg : getSubset X idx 0 with e | s0
    · rw [hg] at he; simp [Except.bind] at he
    · rw [hg] at he
      exact ⟨s0, he⟩
  refine ⟨s, hst s (convergeFrom_stepped htol fuel ss s hst hs).1, ?_⟩
  have h' := Option.some.inj h
  unfold postProcess at h'
  rcases hq : (if cfg.correct then correctCovariance cfg.chi50 X s else .ok s.scale) with e | sc
  · rw [hq] at h'; simp [Except.bind] at h'
  · rw [hq] at h'
    simp only [Except.bind, hrew, Bool.false_eq_true, if_false] at h'
    exact (congrArg CovFit.location (Except.ok.inj h')).symm

/-- An odd number of odd numbers does not add up to 0. -/
theorem sum_odd_ne {l : List ℝ} (h : ∀ x ∈ l, ∃ k : ℤ, x = 2 * k + 1) : ∃ k : ℤ, l.sum = 2 * k + l.length := by
  induction l with
  | nil => exact ⟨0, by simp⟩
  | cons a l ih =>
    obtain ⟨k, hk⟩ := ih fun x hx => h x (List.mem_cons_of_mem _ hx)
    obtain ⟨j, hj⟩ := h a List.mem_cons_self
    refine ⟨k + j, ?_⟩
    rw [List.sum_cons, hk, hj, List.length_cons]
    push_cast
    ring

theorem c188Data_odd : ∀ x ∈ c188Data, ∃ k : ℤ, x 0 = 2 * k + 1 := by
  intro x hx
  simp only [c188Data, List.mem_cons, List.not_mem_nil, or_false] at hx
  rcases hx with rfl | rfl | rfl | rfl | rfl | rfl
  · exact ⟨0, by norm_num⟩
  · exact ⟨-1, by norm_num⟩
  · exact ⟨1, by norm_num⟩
  · exact ⟨-2, by norm_num⟩
  · exact ⟨2, by norm_num⟩
  · exact ⟨-3, by norm_num⟩

theorem c188Data_perm : c188Data.Perm (Spec.reflected 0 c188Data) := by
  have e : Spec.reflected 0 c188Data = [![-1, -3], ![1, 3], ![-3, -1], ![3, 1], ![-5, 3], ![5, -3]] := by
    unfold Spec.reflected c188Data
    simp
  rw [e]
  exact (List.Perm.swap _ _ _).trans (((((List.Perm.swap _ _ _).trans (((List.Perm.swap _ _ _).cons _).cons _))).cons _).cons _)

/-- **C188 is violated**: for six points that are symmetric about the origin and no three of which are on a line, with subsets of five rows, the
result of DetMCD depends on the order of the rows: the best five rows leave out one point of a pair that lies symmetrically, and which one is
decided by its place in the data. -/
theorem C188_violated : ¬ C188_statement := by
  intro h
  have htol : 0 < c188Cfg.tol := by norm_num [c188Cfg, c132Cfg]
  have hall : alphaIsAll c188Cfg.alpha c188Data.length = false := by
    simp [alphaIsAll, c188Cfg, c188Data]
  obtain ⟨fit, hfit, -⟩ := (C132_partial (detEnvSpectral 2) (detEnvSpectral_contract 2) c188Cfg htol (X := c188Data)
    (by simp [Spec.DocumentedAlpha, c188Cfg, c188Data]) hall (by intro _; norm_num [c188Cfg, c132Cfg]) (by intro h; simp [c188Cfg] at h)
    c188Data_gp le_rfl (by simp [c188Data]) 0).2 c188Data_median
  have hs := h 2 (detEnvSpectral 2) (detEnvSpectral_contract 2) c188Cfg htol _ _ c188Data_perm 1
  rw [C189_reflection _ (detEnvSpectral_symmetric 2) _ htol _ _ (by simp [c188Data]), hfit] at hs
  have hloc : fit.location = 0 - fit.location := (show Spec.sameMCD _ _ fit (Spec.reflectedFit 0 fit) from hs).location
  obtain ⟨s, hst, hl⟩ := detFit_location htol rfl hall hfit
  obtain ⟨-, k, hk, hlen⟩ := hst.getH
  have hk5 : k = 5 := by
    have : mcdGetH c188Cfg.alpha c188Data.length (Fintype.card (Fin 2)) = .ok 5 := rfl
    rw [this] at hk
    exact (Except.ok.inj hk).symm
  have hlen5 : s.indices.length = 5 := by rw [hlen, hk5]; rfl
  have hrows : (takeAt c188Data s.indices).length = 5 := by rw [takeAt_length _ _ hst.isSubset.lt, hlen5]
  obtain ⟨j, hj⟩ := sum_odd_ne (l := (takeAt c188Data s.indices).map fun x => x 0) (by
    intro v hv
    obtain ⟨x, hx, rfl⟩ := List.mem_map.1 hv
    exact c188Data_odd x (mem_takeAt hx))
  have h0 : fit.location 0 = 0 := by
    have := congrFun hloc 0
    simp only [Pi.sub_apply, Pi.zero_apply] at this
    linarith
  rw [hl, hst.isSubset.location] at h0
  unfold meanRow mean at h0
  rw [hj, List.length_map, hrows] at h0
  have h1 : (2 * j + 5 : ℝ) = 0 := by
    rcases div_eq_zero_iff.1 h0 with h | h
    · exact_mod_cast h
    · norm_num at h
  have h2 : 2 * j + 5 = 0 := by exact_mod_cast h1
  omega

end Robpy
