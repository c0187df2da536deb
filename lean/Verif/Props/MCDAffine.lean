import Verif.Props.MCD2

/-! # Property C39: affine equivariance of FastMCD and DetMCD -/

namespace Robpy
open Matrix

section
variable {K : Type} [Field K] [LinearOrder K] [IsStrictOrderedRing K] {m : Type} [Fintype m] [DecidableEq m]

/-- The affine map `x ↦ A x + b` on rows. -/
def Spec.affine (A : Matrix m m K) (b : m → K) (x : m → K) : m → K := A *ᵥ x + b

/-- The same rows after the affine map. -/
def affSubset (A : Matrix m m K) (b : m → K) (s : HSubset K m) : HSubset K m :=
  { indices := s.indices, location := A *ᵥ s.location + b, scale := A * s.scale * Aᵀ,
    determinant := A.det ^ 2 * s.determinant, nCSteps := s.nCSteps }

/-- What an affine equivariant fit is mapped to. -/
def Spec.affFit (A : Matrix m m K) (b : m → K) (f : CovFit K m) : CovFit K m :=
  { location := A *ᵥ f.location + b, covariance := A * f.covariance * Aᵀ,
    best := f.best.map (affSubset A b), mask := f.mask }

variable (A : Matrix m m K) (b : m → K)

theorem getSubset_affine (X : List (m → K)) (idx : List ℕ) (k : ℕ) (h0 : idx ≠ [])
    (hl : ∀ i ∈ idx, i < X.length) :
    getSubset (X.map (Spec.affine A b)) idx k = (getSubset X idx k).map (affSubset A b) := by
  by_cases hp : Fintype.card m = 1
  · unfold getSubset npDetCov
    rw [if_pos hp, if_pos hp]; rfl
  · have hlen : ((takeAt X idx).length : K) ≠ 0 := by
      rw [takeAt_length X idx hl]
      have : idx.length ≠ 0 := by simpa using h0
      exact_mod_cast this
    rw [getSubset_eq hp, getSubset_eq hp, takeAt_map]
    simp only [Except.map, affSubset]
    have e1 : meanRow ((takeAt X idx).map (Spec.affine A b)) = A *ᵥ meanRow (takeAt X idx) + b :=
      meanRow_affine A b _ hlen
    have e2 : npCov ((takeAt X idx).map (Spec.affine A b)) = A * npCov (takeAt X idx) * Aᵀ :=
      npCov_affine A b _ hlen
    rw [e1, e2, Matrix.det_mul, Matrix.det_mul, Matrix.det_transpose]
    congr 2
    ring

theorem sqMahalanobis_aff (hA : A.det ≠ 0) (X : List (m → K)) (loc : m → K) (S : Matrix m m K) :
    sqMahalanobis (X.map (Spec.affine A b)) (A *ᵥ loc + b) (A * S * Aᵀ) = sqMahalanobis X loc S :=
  sqMahalanobis_affine A S hA b loc X

variable [FloorSemiring K]

omit [IsStrictOrderedRing K] in
theorem mcdGetH_pos {alpha : Alpha K} {n p k : ℕ} (hn : 0 < n) (h : mcdGetH alpha n p = .ok k) : 0 < k := by
  have hm : 0 < hMin n p := by unfold hMin; omega
  unfold mcdGetH at h
  rcases alpha with _ | z | a
  · obtain rfl := Except.ok.inj h; exact hm
  · simp only at h
    split_ifs at h
    · obtain rfl := Except.ok.inj h; exact lt_of_lt_of_le hm (le_max_right _ _)
    · obtain rfl := Except.ok.inj h; exact lt_of_lt_of_le hm (le_max_right _ _)
  · simp only at h
    split_ifs at h
    obtain rfl := Except.ok.inj h; exact lt_of_lt_of_le hm (le_max_right _ _)

theorem cStep_affine (hA : A.det ≠ 0) (srt : ArgSort K) (alpha : Alpha K) (X : List (m → K)) (hX : X ≠ [])
    (s : HSubset K m) :
    cStep srt alpha (X.map (Spec.affine A b)) (affSubset A b s) =
      (cStep srt alpha X s).map (affSubset A b) := by
  unfold cStep
  have h1 : sqMahalanobis (X.map (Spec.affine A b)) (affSubset A b s).location (affSubset A b s).scale =
      sqMahalanobis X s.location s.scale := sqMahalanobis_aff A b hA X _ _
  rw [h1, List.length_map]
  rcases hd : sqMahalanobis X s.location s.scale with e | d
  · rfl
  · simp only [Except.bind]
    rcases hk : mcdGetH alpha X.length (Fintype.card m) with e | k
    · rfl
    · simp only
      have hdl : d.length = X.length := by rw [(sqMahalanobis_ok hd).2, List.length_map]
      have hpos : 0 < X.length := List.length_pos_iff.2 hX
      refine getSubset_affine A b X _ _ ?_ fun i hi => ?_
      · have hk0 := mcdGetH_pos hpos hk
        intro h0
        have := congrArg List.length h0
        rw [List.length_take, srt.length, hdl, List.length_nil] at this
        omega
      · rw [← hdl]; exact srt.lt d i (List.mem_of_mem_take hi)

theorem multiCSteps_affine (hA : A.det ≠ 0) (srt : ArgSort K) (alpha : Alpha K) (X : List (m → K))
    (hX : X ≠ []) (k : ℕ) (s : HSubset K m) :
    multiCSteps srt alpha (X.map (Spec.affine A b)) k (affSubset A b s) =
      (multiCSteps srt alpha X k s).map (affSubset A b) := by
  induction k generalizing s with
  | zero => rfl
  | succ k ih =>
    unfold multiCSteps
    rw [cStep_affine A b hA srt alpha X hX]
    rcases cStep srt alpha X s with e | s1
    · rfl
    · exact ih s1

omit [IsStrictOrderedRing K] [FloorSemiring K] [Fintype m] [DecidableEq m] in
theorem mapExcept_map_comm {α β : Type} (f f' : α → Except PyErr β) (φ : α → α) (ψ : β → β)
    (l : List α) (h : ∀ a ∈ l, f' (φ a) = (f a).map ψ) :
    mapExcept f' (l.map φ) = (mapExcept f l).map (List.map ψ) := by
  induction l with
  | nil => rfl
  | cons a l ih =>
    rw [List.map_cons]
    unfold mapExcept
    rw [h a (by simp), ih fun x hx => h x (by simp [hx])]
    rcases f a with e | b
    · rfl
    · simp only [Except.map, Except.bind]
      rcases mapExcept f l with e | bs
      · rfl
      · rfl

omit [FloorSemiring K] in
theorem nBest_affine (hA : A.det ≠ 0) (k : ℕ) (l : List (HSubset K m)) :
    nBest k (l.map (affSubset A b)) = (nBest k l).map (affSubset A b) := by
  unfold nBest
  have h := List.map_insertionSort (fun a b : HSubset K m => a.determinant ≤ b.determinant)
    (fun a b : HSubset K m => a.determinant ≤ b.determinant) (affSubset A b) l (by
      intro a _ c _
      have : 0 < A.det ^ 2 := by positivity
      simp only [affSubset]
      exact (mul_le_mul_iff_right₀ this).symm)
  rw [← h, List.map_take]

omit [FloorSemiring K] in
theorem growStep_affine (hA : A.det ≠ 0) {G : Type} (rng : Rng G) (X : List (m → K)) (st : List ℕ × G)
    (h0 : st.1 ≠ []) (hl : ∀ i ∈ st.1, i < X.length) :
    growStep rng (X.map (Spec.affine A b)) st =
      (growStep rng X st).map (Sum.map id fun r => (affSubset A b r.1, r.2)) := by
  unfold growStep
  rw [getSubset_affine A b X _ _ h0 hl, List.length_map]
  rcases getSubset X st.1 0 with e | s
  · rfl
  · simp only [Except.map, Except.bind]
    have hz : (affSubset A b s).determinant = 0 ↔ s.determinant = 0 := by
      simp only [affSubset]
      constructor
      · intro h; exact (mul_eq_zero.1 h).resolve_left (pow_ne_zero 2 hA)
      · intro h; rw [h, mul_zero]
    by_cases hd : s.determinant = 0
    · rw [if_pos hd, if_pos (hz.2 hd)]
      split_ifs
      · rfl
      · rfl
    · rw [if_neg hd, if_neg (mt hz.1 hd)]
      rfl

omit [FloorSemiring K] in
theorem runLoop_grow_affine (hA : A.det ≠ 0) {G : Type} (rng : Rng G) (X : List (m → K)) (fuel : ℕ)
    (st : List ℕ × G) (h0 : st.1 ≠ []) (hl : ∀ i ∈ st.1, i < X.length) :
    runLoop (growStep rng (X.map (Spec.affine A b))) fuel st =
      (runLoop (growStep rng X) fuel st).map (Except.map fun r => (affSubset A b r.1, r.2)) := by
  induction fuel generalizing st with
  | zero => rfl
  | succ fuel ih =>
    unfold runLoop
    rw [growStep_affine A b hA rng X st h0 hl]
    rcases hg : growStep rng X st with e | (st' | r)
    · rfl
    · simp only [Except.map, Sum.map_inl, id_eq]
      -- the next state is again in range
      have hst : st'.1 ≠ [] ∧ ∀ i ∈ st'.1, i < X.length := by
        unfold growStep at hg
        rcases hgs : getSubset X st.1 0 with e | s
        · rw [hgs] at hg; simp [Except.bind] at hg
        · rw [hgs] at hg
          simp only [Except.bind] at hg
          split_ifs at hg with h1 h2
          · simp only [Except.ok.injEq, Sum.inl.injEq] at hg
            subst hg
            have hp := rng.pick_mem st.2 _ h2
            rw [List.mem_filter, List.mem_range] at hp
            refine ⟨by simp, fun i hi => ?_⟩
            rcases List.mem_append.1 hi with hi | hi
            · exact hl i hi
            · rw [List.mem_singleton] at hi; rw [hi]; exact hp.1
          · simp at hg
      exact ih st' hst.1 hst.2
    · rfl

omit [FloorSemiring K] in
theorem initialSubset_affine (hA : A.det ≠ 0) {G : Type} (rng : Rng G) (X : List (m → K)) (fuel : ℕ) (g : G) :
    initialSubset rng (X.map (Spec.affine A b)) fuel g =
      (initialSubset rng X fuel g).map (Except.map fun r => (affSubset A b r.1, r.2)) := by
  unfold initialSubset
  rw [List.length_map]
  split_ifs with h
  · rfl
  · have hle : Fintype.card m + 1 ≤ X.length := by omega
    refine runLoop_grow_affine A b hA rng X fuel _ ?_ (rng.sample_lt g _ _ hle)
    intro h0
    have := rng.sample_length g _ _ hle
    rw [h0] at this
    simp at this

omit [FloorSemiring K] in
theorem initialSubsets_affine (hA : A.det ≠ 0) {G : Type} (rng : Rng G) (X : List (m → K)) (fuel k : ℕ) (g : G) :
    initialSubsets rng (X.map (Spec.affine A b)) fuel k g =
      (initialSubsets rng X fuel k g).map (Except.map fun r => (r.1.map (affSubset A b), r.2)) := by
  induction k generalizing g with
  | zero => rfl
  | succ k ih =>
    unfold initialSubsets
    rw [initialSubset_affine A b hA]
    rcases initialSubset rng X fuel g with _ | (e | r)
    · rfl
    · rfl
    · simp only [Option.map_some, Except.map, Run.andThen]
      rw [ih]
      rcases initialSubsets rng X fuel k r.2 with _ | (e | rs)
      · rfl
      · rfl
      · rfl

omit [IsStrictOrderedRing K] [FloorSemiring K] in
theorem initialSubsets_nil {G : Type} (rng : Rng G) (fuel k : ℕ) (g : G) :
    initialSubsets rng ([] : List (m → K)) fuel (k + 1) g = some (.error .valueError) := by
  unfold initialSubsets initialSubset
  rw [if_pos (by simp)]; rfl

theorem partitionBest_affine (hA : A.det ≠ 0) {G : Type} (srt : ArgSort K) (rng : Rng G) (cfg : MCDConfig K)
    (n0 : ℕ) (X : List (m → K)) (g : G) :
    partitionBest srt rng cfg n0 (X.map (Spec.affine A b)) g =
      (partitionBest srt rng cfg n0 X g).map (Except.map fun r => (r.1.map (affSubset A b), r.2)) := by
  unfold partitionBest
  rw [initialSubsets_affine A b hA, List.length_map]
  rcases hi : initialSubsets rng X (X.length + 1) n0 g with _ | (e | r)
  · rfl
  · rfl
  · simp only [Option.map_some, Except.map, Run.andThen]
    congr 1
    by_cases hX : X = []
    · have hr : r.1 = [] := by
        rcases n0 with _ | n0
        · unfold initialSubsets at hi
          obtain rfl := Except.ok.inj (Option.some.inj hi)
          rfl
        · rw [hX, initialSubsets_nil] at hi; simp at hi
      rw [hr]
      simp [mapExcept, nBest]
    · rw [mapExcept_map_comm (multiCSteps srt cfg.alpha X cfg.nInitialCSteps) _ (affSubset A b) (affSubset A b)
        r.1 fun s _ => multiCSteps_affine A b hA srt cfg.alpha X hX _ s]
      rcases mapExcept (multiCSteps srt cfg.alpha X cfg.nInitialCSteps) r.1 with e | ss
      · rfl
      · simp only [Except.map, nBest_affine A b hA]

theorem partitionsBest_affine (hA : A.det ≠ 0) {G : Type} (srt : ArgSort K) (rng : Rng G) (cfg : MCDConfig K)
    (n0 : ℕ) (ps : List (List (m → K))) (g : G) :
    partitionsBest srt rng cfg n0 (ps.map (List.map (Spec.affine A b))) g =
      (partitionsBest srt rng cfg n0 ps g).map (Except.map fun r => (r.1.map (affSubset A b), r.2)) := by
  induction ps generalizing g with
  | nil => rfl
  | cons X ps ih =>
    rw [List.map_cons]
    unfold partitionsBest
    rw [partitionBest_affine A b hA]
    rcases partitionBest srt rng cfg n0 X g with _ | (e | r)
    · rfl
    · rfl
    · simp only [Option.map_some, Except.map, Run.andThen]
      rw [ih]
      rcases partitionsBest srt rng cfg n0 ps r.2 with _ | (e | rs)
      · rfl
      · rfl
      · simp [Except.map]

omit [IsStrictOrderedRing K] [FloorSemiring K] [Field K] [LinearOrder K] [Fintype m] [DecidableEq m] in
theorem splitBy_map {α β : Type} (f : α → β) (ks : List ℕ) (X : List α) :
    splitBy ks (X.map f) = (splitBy ks X).map (List.map f) := by
  induction ks generalizing X with
  | nil => rfl
  | cons k ks ih => simp [splitBy, ih, List.map_take, ← List.map_drop]

omit [IsStrictOrderedRing K] [FloorSemiring K] in
theorem partitionData_affine (nP : Option ℕ) (X : List (m → K)) :
    partitionData nP (X.map (Spec.affine A b)) =
      (partitionData nP X).map (List.map (List.map (Spec.affine A b))) := by
  unfold partitionData
  rw [List.length_map]
  split_ifs
  · rfl
  · simp [Except.map, splitBy_map]

omit [FloorSemiring K] in
theorem postProcess_affine (hA : A.det ≠ 0) (cfg : MCDConfig K) (X : List (m → K)) (s : HSubset K m) :
    postProcess cfg (X.map (Spec.affine A b)) (affSubset A b s) =
      (postProcess cfg X s).map (Spec.affFit A b) := by
  have hc : (if cfg.correct then correctCovariance cfg.chi50 (X.map (Spec.affine A b)) (affSubset A b s)
      else .ok (affSubset A b s).scale) =
      (if cfg.correct then correctCovariance cfg.chi50 X s else .ok s.scale).map fun S => A * S * Aᵀ := by
    split_ifs
    · unfold correctCovariance
      have h1 : sqMahalanobis (X.map (Spec.affine A b)) (affSubset A b s).location (affSubset A b s).scale =
          sqMahalanobis X s.location s.scale := sqMahalanobis_aff A b hA X _ _
      rw [h1]
      rcases sqMahalanobis X s.location s.scale with e | d
      · rfl
      · simp [Except.map, affSubset, Matrix.mul_smul, Matrix.smul_mul]
    · rfl
  unfold postProcess
  rw [hc]
  rcases (if cfg.correct then correctCovariance cfg.chi50 X s else .ok s.scale) with e | scale
  · rfl
  simp only [Except.map, Except.bind]
  split_ifs with hr
  · unfold reweight
    have h1 : sqMahalanobis (X.map (Spec.affine A b)) (affSubset A b s).location (A * scale * Aᵀ) =
        sqMahalanobis X s.location scale := sqMahalanobis_aff A b hA X _ _
    rw [h1]
    rcases sqMahalanobis X s.location scale with e | d
    · rfl
    · simp only [Except.bind]
      have hm : maskRows (d.map fun v => decide (v < cfg.chi975)) (X.map (Spec.affine A b)) =
          (maskRows (d.map fun v => decide (v < cfg.chi975)) X).map (Spec.affine A b) := by
        unfold maskRows
        rw [List.zip_map_right, List.filter_map, List.map_map, List.map_map]
        congr 1
      rw [hm, List.length_map]
      set rows := maskRows (d.map fun v => decide (v < cfg.chi975)) X
      by_cases hlt : rows.length < 2
      · rw [if_pos hlt, if_pos hlt]
      · rw [if_neg hlt, if_neg hlt]
        have hlen : (rows.length : K) ≠ 0 := by
          have : rows.length ≠ 0 := by omega
          exact_mod_cast this
        have e1 : meanRow (rows.map (Spec.affine A b)) = A *ᵥ meanRow rows + b := meanRow_affine A b _ hlen
        have e2 : npCov (rows.map (Spec.affine A b)) = A * npCov rows * Aᵀ := npCov_affine A b _ hlen
        rw [e1, e2]
        simp only [Spec.affFit, Option.map_some]
        congr 2
        split_ifs
        · rw [Matrix.mul_smul, Matrix.smul_mul]
        · rfl
  · rfl

end

section
variable {m : Type} [Fintype m] [DecidableEq m] (A : Matrix m m ℝ) (b : m → ℝ)

/-- An affine image of a subset obtained by a C-step is one obtained by a C-step. -/
theorem Stepped.affine (hA : A.det ≠ 0) {srt : ArgSort ℝ} {alpha : Alpha ℝ} {X : List (m → ℝ)} (hX : X ≠ [])
    {s : HSubset ℝ m} (h : Stepped srt alpha X s) :
    Stepped srt alpha (X.map (Spec.affine A b)) (affSubset A b s) := by
  obtain ⟨s0, h0⟩ := h
  exact ⟨affSubset A b s0, by rw [cStep_affine A b hA srt alpha X hX, h0]; rfl⟩

theorem convergeAll_affine (hA : A.det ≠ 0) {srt : ArgSort ℝ} {alpha : Alpha ℝ} {tol : ℝ} (htol : 0 < tol)
    {X : List (m → ℝ)} (hX : X ≠ []) (fuel : ℕ) (l : List (HSubset ℝ m)) (best : HSubset ℝ m)
    (hl : ∀ s ∈ l, Stepped srt alpha X s) :
    convergeAll srt alpha tol (X.map (Spec.affine A b)) fuel (l.map (affSubset A b)) (affSubset A b best) =
      (convergeAll srt alpha tol X fuel l best).map (Except.map (affSubset A b)) := by
  induction l generalizing best with
  | nil => rfl
  | cons s l ih =>
    rw [List.map_cons]
    unfold convergeAll
    rcases fuel with _ | fuel
    · rfl
    · have hs := hl s (by simp)
      rw [converge_stepped htol hs, converge_stepped htol (hs.affine A b hA hX)]
      have hz : (affSubset A b s).determinant = 0 ↔ s.determinant = 0 := by
        simp only [affSubset]
        constructor
        · intro h; exact (mul_eq_zero.1 h).resolve_left (pow_ne_zero 2 hA)
        · intro h; rw [h, mul_zero]
      by_cases hd : s.determinant = 0
      · rw [if_pos hd, if_pos (hz.2 hd)]; rfl
      · rw [if_neg hd, if_neg (mt hz.1 hd)]
        simp only [Run.andThen]
        rw [← ih _ fun t ht => hl t (by simp [ht])]
        congr 1
        have hpos : 0 < A.det ^ 2 := by positivity
        by_cases hlt : s.determinant < best.determinant
        · rw [if_pos hlt, if_pos]
          simp only [affSubset]
          exact mul_lt_mul_of_pos_left hlt hpos
        · rw [if_neg hlt, if_neg]
          simp only [affSubset]
          intro h
          exact hlt (lt_of_mul_lt_mul_left h hpos.le)

theorem convergeFrom_affine (hA : A.det ≠ 0) {srt : ArgSort ℝ} {alpha : Alpha ℝ} {tol : ℝ} (htol : 0 < tol)
    {X : List (m → ℝ)} (hX : X ≠ []) (fuel : ℕ) (l : List (HSubset ℝ m))
    (hl : ∀ s ∈ l, Stepped srt alpha X s) :
    convergeFrom srt alpha tol (X.map (Spec.affine A b)) fuel (l.map (affSubset A b)) =
      (convergeFrom srt alpha tol X fuel l).map (Except.map (affSubset A b)) := by
  rcases l with _ | ⟨s, l⟩
  · rfl
  · exact convergeAll_affine A b hA htol hX fuel (s :: l) s hl

/-- **C39**: for the same random draws and any `argsort`, FastMCD on the transformed data `A x + b` has
the same outcome (including exceptions) with the same selected rows and mask, location `A loc + b`
and covariance `A S Aᵀ`; for all data, partitions and settings with a positive tolerance and at least
one initial C-step. -/
theorem C39_fastMCD (hA : A.det ≠ 0) {G : Type} (srt : ArgSort ℝ) (rng : Rng G) (cfg : MCDConfig ℝ)
    (htol : 0 < cfg.tol) (hsteps : 1 ≤ cfg.nInitialCSteps) (X : List (m → ℝ)) (hX : X ≠ []) (fuel : ℕ) (g : G) :
    fastMCD srt rng cfg (X.map (Spec.affine A b)) fuel g =
      (fastMCD srt rng cfg X fuel g).map (Except.map (Spec.affFit A b)) := by
  unfold fastMCD
  rw [List.length_map]
  split_ifs with hall
  · have hlen : (X.length : ℝ) ≠ 0 := by
      have : X.length ≠ 0 := by simpa using hX
      exact_mod_cast this
    have e1 : meanRow (X.map (Spec.affine A b)) = A *ᵥ meanRow X + b := meanRow_affine A b _ hlen
    have e2 : npCov (X.map (Spec.affine A b)) = A * npCov X * Aᵀ := npCov_affine A b _ hlen
    simp only [classicalFit, Option.map_some, Except.map, Spec.affFit, e1, e2, Option.map_none]
  · have hsearch : fastSearch srt rng cfg (X.map (Spec.affine A b)) fuel g =
        (fastSearch srt rng cfg X fuel g).map (Except.map (affSubset A b)) := by
      unfold fastSearch
      rw [partitionData_affine]
      rcases partitionData cfg.nPartitions X with e | ps
      · rfl
      simp only [Except.map, Run.andThen, List.length_map]
      rw [partitionsBest_affine A b hA]
      rcases partitionsBest srt rng cfg (cfg.nInitialSubsets / ps.length) ps g with _ | (e | r)
      · rfl
      · rfl
      simp only [Option.map_some, Except.map]
      rw [mapExcept_map_comm (multiCSteps srt cfg.alpha X cfg.nInitialCSteps) _ (affSubset A b) (affSubset A b)
        r.1 fun s _ => multiCSteps_affine A b hA srt cfg.alpha X hX _ s]
      rcases hss : mapExcept (multiCSteps srt cfg.alpha X cfg.nInitialCSteps) r.1 with e | ss
      · rfl
      simp only [Except.map]
      rw [nBest_affine A b hA]
      refine convergeFrom_affine A b hA htol hX fuel _ fun t ht => ?_
      obtain ⟨a, -, ha⟩ := mapExcept_mem hss t (mem_nBest ht)
      exact multiCSteps_stepped (by omega) ha
    rw [hsearch]
    rcases fastSearch srt rng cfg X fuel g with _ | (e | s)
    · rfl
    · rfl
    · simp only [Option.map_some, Except.map, Run.andThen]
      rw [postProcess_affine A b hA]
      rfl

/-- **C39** for DetMCD from the six initial index sets on: with the same initial sets everything after
them is affine equivariant (the initial sets themselves are only invariant under a common shift and
componentwise scaling, see C131). -/
theorem C39_detMCD (hA : A.det ≠ 0) (srt : ArgSort ℝ) (cfg : MCDConfig ℝ) (htol : 0 < cfg.tol)
    (X : List (m → ℝ)) (hX : X ≠ []) (fuel : ℕ) (inits : List (List ℕ))
    (hinit : ∀ idx ∈ inits, idx ≠ [] ∧ ∀ i ∈ idx, i < X.length) :
    detMCD srt cfg (X.map (Spec.affine A b)) fuel inits =
      (detMCD srt cfg X fuel inits).map (Except.map (Spec.affFit A b)) := by
  unfold detMCD
  rw [List.length_map]
  split_ifs with hall
  · have hlen : (X.length : ℝ) ≠ 0 := by
      have : X.length ≠ 0 := by simpa using hX
      exact_mod_cast this
    have e1 : meanRow (X.map (Spec.affine A b)) = A *ᵥ meanRow X + b := meanRow_affine A b _ hlen
    have e2 : npCov (X.map (Spec.affine A b)) = A * npCov X * Aᵀ := npCov_affine A b _ hlen
    simp only [classicalFit, Option.map_some, Except.map, Spec.affFit, e1, e2, Option.map_none]
  · have hmap : mapExcept (fun idx => (getSubset (X.map (Spec.affine A b)) idx 0).bind
        (cStep srt cfg.alpha (X.map (Spec.affine A b)))) inits =
        (mapExcept (fun idx => (getSubset X idx 0).bind (cStep srt cfg.alpha X)) inits).map
          (List.map (affSubset A b)) := by
      have h := mapExcept_map_comm (fun idx => (getSubset X idx 0).bind (cStep srt cfg.alpha X))
        (fun idx => (getSubset (X.map (Spec.affine A b)) idx 0).bind
          (cStep srt cfg.alpha (X.map (Spec.affine A b)))) id (affSubset A b) inits ?_
      · rwa [List.map_id] at h
      intro idx hi
      simp only [id_eq]
      rw [getSubset_affine A b X idx 0 (hinit idx hi).1 (hinit idx hi).2]
      rcases getSubset X idx 0 with e | s
      · rfl
      · exact cStep_affine A b hA srt cfg.alpha X hX s
    rw [hmap]
    rcases hss : mapExcept (fun idx => (getSubset X idx 0).bind (cStep srt cfg.alpha X)) inits with e | ss
    · rfl
    simp only [Except.map, Run.andThen]
    rw [convergeFrom_affine A b hA htol hX fuel ss fun t ht => ?_]
    · rcases convergeFrom srt cfg.alpha cfg.tol X fuel ss with _ | (e | s)
      · rfl
      · rfl
      · simp only [Option.map_some, Except.map]
        rw [postProcess_affine A b hA]
        rfl
    · obtain ⟨idx, -, hidx⟩ := mapExcept_mem hss t ht
      rcases hg : getSubset X idx 0 with e | s
      · rw [hg] at hidx; simp [Except.bind] at hidx
      · rw [hg] at hidx
        exact ⟨s, hidx⟩

end

/-- A map as in `C39_fastMCD` that is neither orthogonal nor a scaling; default settings have tolerance
1e-8 and two initial C-steps. -/
example : (!![1, 2; 0, 3] : Matrix (Fin 2) (Fin 2) ℝ).det ≠ 0 ∧ (0:ℝ) < 1 / 10 ^ 8 := by
  constructor
  · rw [Matrix.det_fin_two]; norm_num
  · norm_num

end Robpy
