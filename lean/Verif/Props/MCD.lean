import Verif.Lemmas.MCD
import Mathlib.Algebra.Order.Ring.Rat
import Mathlib.Algebra.Field.Rat
import Mathlib.Data.Rat.Floor

/-! # Properties C35-C38, C40: C-steps, convergence, alpha, best candidate, initial subsets -/

namespace Robpy
open Matrix

/-! ## C35 -/

section
variable {m : Type} [Fintype m] [DecidableEq m]

/-- **C35**: a C-step from any `h` distinct rows to `h` rows never increases the determinant of the
covariance matrix. -/
theorem C35_cstep (srt : ArgSort ℝ) (alpha : Alpha ℝ) (X : List (m → ℝ)) (idx : List ℕ) (hn : idx.Nodup)
    (hl : ∀ i ∈ idx, i < X.length) (k : ℕ) (s new : HSubset ℝ m) (hs : getSubset X idx k = .ok s)
    (h : cStep srt alpha X s = .ok new) (hsize : new.indices.length = idx.length) :
    (npCov (takeAt X new.indices)).det ≤ (npCov (takeAt X idx)).det := by
  have h1 := getSubset_isSubset hs hn hl
  obtain ⟨-, rfl⟩ := getSubset_ok hs
  have := (cStep_det_le h1 h hsize).1
  rwa [(cStep_isSubset h).determinant, h1.determinant] at this

/-- **C35**: from the second C-step on the size is always the same, so along any number of C-steps the
determinant can only go down; as soon as it stays the same, location and covariance stay the same. -/
theorem C35_chain (srt : ArgSort ℝ) (alpha : Alpha ℝ) (X : List (m → ℝ)) (s0 s : HSubset ℝ m)
    (h0 : cStep srt alpha X s0 = .ok s) (k : ℕ) (t : HSubset ℝ m)
    (h : multiCSteps srt alpha X k s = .ok t) :
    t.determinant ≤ s.determinant ∧ (t.determinant = s.determinant → t.scale = s.scale ∧ t.location = s.location) := by
  induction k generalizing s0 s with
  | zero =>
    unfold multiCSteps at h
    obtain rfl := Except.ok.inj h
    exact ⟨le_rfl, fun _ => ⟨rfl, rfl⟩⟩
  | succ k ih =>
    unfold multiCSteps at h
    rcases hc : cStep srt alpha X s with e | s1
    · rw [hc] at h; simp [Except.bind] at h
    · rw [hc] at h
      simp only [Except.bind] at h
      have hst : Stepped srt alpha X s := ⟨s0, h0⟩
      have hd : s.determinant ≠ 0 := by
        rw [← hst.scale_det]; exact (cStep_ok hc).1
      obtain ⟨n', hn', hl', -⟩ := hst.next hd
      rw [hc] at hn'
      obtain rfl := Except.ok.inj hn'
      have h1 := cStep_det_le hst.isSubset hc hl'
      have h2 := ih s s1 hc h
      refine ⟨h2.1.trans h1.1, fun heq => ?_⟩
      have e1 : s1.determinant = s.determinant := le_antisymm h1.1 (heq ▸ h2.1)
      have e2 := h2.2 (heq.trans e1.symm)
      have e3 := h1.2 e1
      exact ⟨e2.1.trans e3.1, e2.2.trans e3.2⟩

omit [Fintype m] [DecidableEq m] in
theorem takeAt_getElem {α : Type} (xs : List α) (i : ℕ) (hi : i < xs.length) : takeAt xs [i] = [xs[i]] := by
  simp [takeAt, List.getElem?_eq_getElem hi]

/-- **C35**: the rows selected by a C-step are `h` distinct rows and no other row is closer to the
current centre. -/
theorem C35_smallest (srt : ArgSort ℝ) (alpha : Alpha ℝ) (X : List (m → ℝ)) (s new : HSubset ℝ m)
    (h : cStep srt alpha X s = .ok new) :
    new.indices.Nodup ∧
    (∀ k, mcdGetH alpha X.length (Fintype.card m) = .ok k → new.indices.length = min k X.length) ∧
    ∀ i ∈ new.indices, ∀ j ∉ new.indices, ∀ x y, X[i]? = some x → X[j]? = some y →
      quadForm s.scale⁻¹ (x - s.location) ≤ quadForm s.scale⁻¹ (y - s.location) := by
  refine ⟨(cStep_isSubset h).nodup, fun k hk => cStep_length h hk, ?_⟩
  obtain ⟨-, -, k, -, hg⟩ := cStep_ok h
  obtain ⟨-, rfl⟩ := getSubset_ok hg
  set d := X.map fun x => quadForm s.scale⁻¹ (x - s.location) with hd
  intro i hi j hj x y hx hy
  simp only at hi hj
  have hjm : j ∈ (srt.toFun d).drop k := by
    have h1 : j ∈ srt.toFun d := by
      rw [(srt.perm d).mem_iff, List.mem_range]
      obtain ⟨hlt, -⟩ := List.getElem?_eq_some_iff.1 hy
      simpa [hd] using hlt
    rw [← List.take_append_drop k (srt.toFun d), List.mem_append] at h1
    exact h1.resolve_left hj
  have hs := srt.sorted d
  rw [← List.take_append_drop k (srt.toFun d), takeAt_append, List.pairwise_append] at hs
  refine hs.2.2 _ ?_ _ ?_
  · exact List.mem_filterMap.2 ⟨i, hi, by simp [hd, hx]⟩
  · exact List.mem_filterMap.2 ⟨j, hjm, by simp [hd, hy]⟩

end

/-- Four points in the plane. -/
def squareData : List (Fin 2 → ℝ) := [![0, 0], ![1, 0], ![0, 1], ![1, 1]]

theorem square_det : (npCov (takeAt squareData [0, 1, 2])).det ≠ 0 := by
  have : takeAt squareData [0, 1, 2] = [![0, 0], ![1, 0], ![0, 1]] := rfl
  rw [this, Matrix.det_fin_two]
  simp [npCov, meanRow, mean]
  norm_num

/-- The hypotheses of `C35_cstep` hold for the first three corners of the square (default `alpha`, any
`argsort`). -/
theorem square_cstep (srt : ArgSort ℝ) : ∃ s new : HSubset ℝ (Fin 2),
    getSubset squareData [0, 1, 2] 0 = .ok s ∧ cStep srt .none squareData s = .ok new ∧
    new.indices.length = 3 := by
  have hp : Fintype.card (Fin 2) ≠ 1 := by decide
  have hg := getSubset_eq hp squareData [0, 1, 2] 0
  have hk : mcdGetH (.none : Alpha ℝ) squareData.length (Fintype.card (Fin 2)) = .ok 3 := rfl
  have hc := cStep_eq (srt := srt) (alpha := .none) (X := squareData)
    (s := ⟨[0, 1, 2], meanRow (takeAt squareData [0, 1, 2]), npCov (takeAt squareData [0, 1, 2]),
      (npCov (takeAt squareData [0, 1, 2])).det, 0⟩) square_det hk
  rw [getSubset_eq hp] at hc
  exact ⟨_, _, hg, hc, cStep_length hc hk⟩

/-! ## C36 -/

/-- Full statement of C36 for FastMCD over the field `K`: when the estimator returns, one more C-step
lowers the determinant by less than the tolerance. -/
def C36_statement (K : Type) [Field K] [LinearOrder K] [FloorSemiring K] : Prop :=
  ∀ (p : ℕ) (G : Type) (srt : ArgSort K) (rng : Rng G) (cfg : MCDConfig K) (X : List (Fin p → K))
    (fuel : ℕ) (g : G) (fit : CovFit K (Fin p)) (s new : HSubset K (Fin p)), 0 < cfg.tol →
    fastMCD srt rng cfg X fuel g = some (.ok fit) → fit.best = some s →
    cStep srt cfg.alpha X s = .ok new → s.determinant - new.determinant < cfg.tol

/-- A generator that always returns the first rows (only its contract matters). -/
def rngFirst : Rng Unit where
  sample _ _ k := (List.range k, ())
  pick _ l := (l.headD 0, ())
  sample_length _ _ _ _ := List.length_range
  sample_nodup _ _ _ _ := List.nodup_range
  sample_lt _ _ _ h i hi := lt_of_lt_of_le (List.mem_range.1 hi) h
  pick_mem _ l h := by rcases l with _ | ⟨a, l⟩ <;> simp at h ⊢

/-- Twelve points in the plane. -/
def c36Data : List (Fin 2 → ℚ) :=
  [![3, -6], ![-9, -9], ![9, -4], ![5, -6], ![-3, 2], ![-7, 7], ![-5, 3], ![-4, 5], ![-6, 7], ![-1, 6],
    ![-4, 2], ![-5, -6]]

/-- The default settings, with one initial subset and rounded chi-square constants. -/
def c36Cfg : MCDConfig ℚ where
  alpha := .none
  nInitialSubsets := 1
  nInitialCSteps := 2
  nBestSubsets := 10
  nPartitions := none
  tol := 1 / 10 ^ 8
  correct := true
  reweighting := true
  chi50 := 1386 / 1000
  chi975 := 7378 / 1000
  gammaFactor := 11 / 10

/-- What the violation check needs: a subset is reported and one more C-step lowers its determinant by
more than 14. -/
def c36Check (r : Run (CovFit ℚ (Fin 2))) : Bool :=
  match r with
  | some (.ok fit) =>
    match fit.best with
    | some s =>
      match cStep (argsortStable ℚ) .none c36Data s with
      | .ok new => decide (new.determinant + 14 < s.determinant)
      | .error _ => false
    | none => false
  | _ => false

theorem c36_check : c36Check (fastMCD (argsortStable ℚ) rngFirst c36Cfg c36Data 2 ()) = true := by
  decide +kernel

/-- **C36 is violated**: with the default settings the reported subset has determinant 7481/252; one more
C-step more than halves it.  The test compares `new - old` (which is never positive) with the
tolerance, so the loop always stops in its first pass (`C36_no_steps`). -/
theorem C36_violated : ¬ C36_statement ℚ := by
  intro h
  have hc := c36_check
  unfold c36Check at hc
  split at hc
  · rename_i fit hfit
    split at hc
    · rename_i s hs
      split at hc
      · rename_i new hn
        have := h 2 Unit (argsortStable ℚ) rngFirst c36Cfg c36Data 2 () fit s new (by decide +kernel) hfit hs hn
        have h2 := of_decide_eq_true hc
        have h3 : c36Cfg.tol = 1 / 10 ^ 8 := rfl
        rw [h3] at this
        norm_num at this
        linarith
      · simp at hc
    · simp at hc
  · simp at hc

section
variable {m : Type} [Fintype m] [DecidableEq m]

/-- **C36**, the reason: for a positive tolerance the convergence loop never performs a C-step: it returns
its argument unchanged (or LinAlgError if that subset is singular). -/
theorem C36_no_steps (srt : ArgSort ℝ) (alpha : Alpha ℝ) (tol : ℝ) (htol : 0 < tol) (X : List (m → ℝ))
    (s0 s : HSubset ℝ m) (h : cStep srt alpha X s0 = .ok s) (fuel : ℕ) :
    runLoop (convergeStep srt alpha tol X) (fuel + 1) s =
      if s.determinant = 0 then some (.error .linAlgError) else some (.ok s) :=
  converge_stepped htol ⟨s0, h⟩ fuel

/-- The determinants of all subsets of rows. -/
noncomputable def allDets (X : List (m → ℝ)) : Finset ℝ :=
  (Finset.range X.length).powerset.image fun t => (npCov (takeAt X t.toList)).det

theorem det_mem_allDets {X : List (m → ℝ)} {s : HSubset ℝ m} (h : IsSubset X s) :
    s.determinant ∈ allDets X := by
  refine Finset.mem_image.2 ⟨s.indices.toFinset, ?_, ?_⟩
  · rw [Finset.mem_powerset]
    intro i hi
    exact Finset.mem_range.2 (h.lt i (List.mem_toFinset.1 hi))
  · rw [h.determinant, npCov_perm (takeAt_perm X (List.toFinset_toList h.nodup))]

/-- Number of smaller determinants. -/
noncomputable def below (X : List (m → ℝ)) (d : ℝ) : ℕ := ((allDets X).filter (· < d)).card

theorem below_lt {X : List (m → ℝ)} {s : HSubset ℝ m} (h : IsSubset X s) {d : ℝ} (hd : s.determinant < d) :
    below X s.determinant < below X d := by
  apply Finset.card_lt_card
  refine Finset.ssubset_iff_subset_ne.2 ⟨?_, ?_⟩
  · intro x hx
    rw [Finset.mem_filter] at hx ⊢
    exact ⟨hx.1, hx.2.trans hd⟩
  · intro heq
    have : s.determinant ∈ (allDets X).filter (· < d) := Finset.mem_filter.2 ⟨det_mem_allDets h, hd⟩
    rw [← heq, Finset.mem_filter] at this
    exact lt_irrefl _ this.2

theorem below_le (X : List (m → ℝ)) (d : ℝ) : below X d ≤ 2 ^ X.length := by
  unfold below allDets
  refine (Finset.card_filter_le _ _).trans (Finset.card_image_le.trans ?_)
  rw [Finset.card_powerset, Finset.card_range]

/-- A C-step that does not change location and covariance is followed by one with the same rows. -/
theorem cStep_again {srt : ArgSort ℝ} {alpha : Alpha ℝ} {X : List (m → ℝ)} {s s1 s2 : HSubset ℝ m}
    (h1 : cStep srt alpha X s = .ok s1) (hl : s1.location = s.location) (hsc : s1.scale = s.scale)
    (h2 : cStep srt alpha X s1 = .ok s2) :
    s2.indices = s1.indices ∧ s2.location = s1.location ∧ s2.scale = s1.scale ∧
      s2.determinant = s1.determinant := by
  obtain ⟨-, -, k, hk, hg⟩ := cStep_ok h1
  obtain ⟨-, -, k', hk', hg'⟩ := cStep_ok h2
  rw [hk] at hk'
  obtain rfl := Except.ok.inj hk'
  rw [hl, hsc] at hg'
  obtain ⟨-, rfl⟩ := getSubset_ok hg
  obtain ⟨-, rfl⟩ := getSubset_ok hg'
  exact ⟨rfl, rfl, rfl, rfl⟩

theorem multi_again {srt : ArgSort ℝ} {alpha : Alpha ℝ} {X : List (m → ℝ)} (k : ℕ) {s s1 t new : HSubset ℝ m}
    (h1 : cStep srt alpha X s = .ok s1) (hl : s1.location = s.location) (hsc : s1.scale = s.scale)
    (ht : multiCSteps srt alpha X k s1 = .ok t) (hn : cStep srt alpha X t = .ok new) :
    new.determinant = t.determinant := by
  induction k generalizing s s1 with
  | zero =>
    unfold multiCSteps at ht
    obtain rfl := Except.ok.inj ht
    exact (cStep_again h1 hl hsc hn).2.2.2
  | succ k ih =>
    unfold multiCSteps at ht
    rcases hc : cStep srt alpha X s1 with e | s2
    · rw [hc] at ht; simp [Except.bind] at ht
    · rw [hc] at ht
      simp only [Except.bind] at ht
      obtain ⟨-, e1, e2, -⟩ := cStep_again h1 hl hsc hc
      exact ih hc e1 e2 ht

theorem chain_converged {srt : ArgSort ℝ} {alpha : Alpha ℝ} {X : List (m → ℝ)} (k : ℕ) {s t new : HSubset ℝ m}
    (hs : Stepped srt alpha X s) (hk : below X s.determinant ≤ k)
    (ht : multiCSteps srt alpha X k s = .ok t) (hn : cStep srt alpha X t = .ok new) :
    new.determinant = t.determinant := by
  have next : ∀ {s new : HSubset ℝ m}, Stepped srt alpha X s → cStep srt alpha X s = .ok new →
      new.determinant ≤ s.determinant ∧
      (new.determinant = s.determinant → new.scale = s.scale ∧ new.location = s.location) := by
    intro s new hs hc
    have hd : s.determinant ≠ 0 := by rw [← hs.scale_det]; exact (cStep_ok hc).1
    obtain ⟨n', hn', hl', -⟩ := hs.next hd
    rw [hc] at hn'
    obtain rfl := Except.ok.inj hn'
    exact cStep_det_le hs.isSubset hc hl'
  induction k generalizing s with
  | zero =>
    unfold multiCSteps at ht
    obtain rfl := Except.ok.inj ht
    refine le_antisymm (next hs hn).1 (not_lt.1 fun hlt => ?_)
    have := below_lt (cStep_isSubset hn) hlt
    omega
  | succ k ih =>
    unfold multiCSteps at ht
    rcases hc : cStep srt alpha X s with e | s1
    · rw [hc] at ht; simp [Except.bind] at ht
    · rw [hc] at ht
      simp only [Except.bind] at ht
      obtain ⟨h1, h2⟩ := next hs hc
      rcases lt_or_eq_of_le h1 with hlt | heq
      · have := below_lt (cStep_isSubset hc) hlt
        exact ih ⟨s, hc⟩ (by omega) ht
      · obtain ⟨e1, e2⟩ := h2 heq
        exact multi_again k hc e2 e1 ht hn

/-- The result of the convergence loop over candidates that come from a C-step: the result is one of
them and none has a smaller determinant. -/
theorem convergeAll_stepped {srt : ArgSort ℝ} {alpha : Alpha ℝ} {tol : ℝ} (htol : 0 < tol) {X : List (m → ℝ)}
    (fuel : ℕ) (l : List (HSubset ℝ m)) (best r : HSubset ℝ m) (hl : ∀ s ∈ l, Stepped srt alpha X s)
    (h : convergeAll srt alpha tol X fuel l best = some (.ok r)) :
    (r = best ∨ r ∈ l) ∧ r.determinant ≤ best.determinant ∧ ∀ s ∈ l, r.determinant ≤ s.determinant := by
  induction l generalizing best with
  | nil =>
    unfold convergeAll at h
    obtain rfl := Except.ok.inj (Option.some.inj h)
    exact ⟨Or.inl rfl, le_rfl, by simp⟩
  | cons s l ih =>
    unfold convergeAll at h
    obtain ⟨s', h1, h2⟩ := Run.andThen_ok h
    have hs' : s' = s := by
      rcases fuel with _ | fuel
      · simp [runLoop] at h1
      · rw [converge_stepped htol (hl s (by simp))] at h1
        split_ifs at h1 with hd
        · simp at h1
        · exact (Except.ok.inj (Option.some.inj h1)).symm
    subst hs'
    obtain ⟨i1, i2, i3⟩ := ih _ (fun t ht => hl t (by simp [ht])) h2
    split_ifs at i1 i2 with hlt
    · refine ⟨?_, i2.trans hlt.le, ?_⟩
      · rcases i1 with rfl | i1
        · right; simp
        · right; simp [i1]
      · intro t ht
        rcases List.mem_cons.1 ht with rfl | ht
        · exact i2
        · exact i3 t ht
    · refine ⟨?_, i2, ?_⟩
      · rcases i1 with rfl | i1
        · left; rfl
        · right; simp [i1]
      · intro t ht
        rcases List.mem_cons.1 ht with rfl | ht
        · exact i2.trans (not_lt.1 hlt)
        · exact i3 t ht

theorem convergeFrom_stepped {srt : ArgSort ℝ} {alpha : Alpha ℝ} {tol : ℝ} (htol : 0 < tol) {X : List (m → ℝ)}
    (fuel : ℕ) (l : List (HSubset ℝ m)) (r : HSubset ℝ m) (hl : ∀ s ∈ l, Stepped srt alpha X s)
    (h : convergeFrom srt alpha tol X fuel l = some (.ok r)) :
    r ∈ l ∧ ∀ s ∈ l, r.determinant ≤ s.determinant := by
  rcases l with _ | ⟨s, l⟩
  · simp [convergeFrom] at h
  · obtain ⟨h1, -, h3⟩ := convergeAll_stepped htol fuel _ s r hl h
    refine ⟨?_, h3⟩
    rcases h1 with rfl | h1
    · simp
    · exact h1

omit [Fintype m] [DecidableEq m] in
theorem mem_nBest {k : ℕ} {l : List (HSubset ℝ m)} {s : HSubset ℝ m} (h : s ∈ nBest k l) : s ∈ l := by
  unfold nBest at h
  exact (List.perm_insertionSort _ l).mem_iff.1 (List.mem_of_mem_take h)

/-- The subset reported by FastMCD is one of the candidates obtained by the second round of C-steps. -/
theorem fastMCD_best {G : Type} {srt : ArgSort ℝ} {rng : Rng G} {cfg : MCDConfig ℝ} {X : List (m → ℝ)}
    {fuel : ℕ} {g : G} {fit : CovFit ℝ m} {s : HSubset ℝ m}
    (h : fastMCD srt rng cfg X fuel g = some (.ok fit)) (hb : fit.best = some s) :
    fastSearch srt rng cfg X fuel g = some (.ok s) := by
  unfold fastMCD at h
  split_ifs at h with ha
  · obtain rfl := Except.ok.inj (Option.some.inj h)
    simp [classicalFit] at hb
  · obtain ⟨s', h1, h2⟩ := Run.andThen_ok h
    have h3 := Option.some.inj h2
    unfold postProcess at h3
    rcases hsc : (if cfg.correct then correctCovariance cfg.chi50 X s' else .ok s'.scale) with e | scale
    · rw [hsc] at h3; simp [Except.bind] at h3
    · rw [hsc] at h3
      simp only [Except.bind] at h3
      split_ifs at h3 with hr
      · unfold reweight at h3
        rcases hd : sqMahalanobis X s'.location scale with e | d
        · rw [hd] at h3; simp [Except.bind] at h3
        · rw [hd] at h3
          simp only [Except.bind] at h3
          split_ifs at h3
          all_goals
            obtain rfl := Except.ok.inj h3
            simp only at hb
            rw [h1, Option.some.inj hb]
      · obtain rfl := Except.ok.inj h3
        simp only at hb
        rw [h1, Option.some.inj hb]

/-- **C36**, what does hold: with at least `2^n + 1` initial C-steps the reported subset has converged
exactly, for every data set, any partitions and any random draws.  Missing: the default two initial
C-steps, for which the convergence loop does nothing (see `C36_violated`, `C36_no_steps`). -/
theorem C36_partial {G : Type} (srt : ArgSort ℝ) (rng : Rng G) (cfg : MCDConfig ℝ) (X : List (m → ℝ))
    (fuel : ℕ) (g : G) (fit : CovFit ℝ m) (s new : HSubset ℝ m) (htol : 0 < cfg.tol)
    (hsteps : 2 ^ X.length + 1 ≤ cfg.nInitialCSteps)
    (h : fastMCD srt rng cfg X fuel g = some (.ok fit)) (hb : fit.best = some s)
    (hn : cStep srt cfg.alpha X s = .ok new) : new.determinant = s.determinant := by
  have h1 := fastMCD_best h hb
  unfold fastSearch at h1
  obtain ⟨ps, -, h2⟩ := Run.andThen_ok h1
  obtain ⟨r, -, h3⟩ := Run.andThen_ok h2
  obtain ⟨ss, h4, h5⟩ := Run.andThen_ok h3
  have hm := mapExcept_mem (Option.some.inj h4)
  have hst : ∀ t ∈ nBest cfg.nBestSubsets ss, Stepped srt cfg.alpha X t := fun t ht => by
    obtain ⟨a, -, ha⟩ := hm t (mem_nBest ht)
    exact multiCSteps_stepped (lt_of_lt_of_le (Nat.succ_pos _) hsteps) ha
  obtain ⟨hmem, -⟩ := convergeFrom_stepped htol fuel _ s hst h5
  obtain ⟨a, -, ha⟩ := hm s (mem_nBest hmem)
  obtain ⟨k, hk⟩ : ∃ k, cfg.nInitialCSteps = k + 1 := ⟨cfg.nInitialCSteps - 1, by have := lt_of_lt_of_le (Nat.succ_pos _) hsteps; omega⟩
  rw [hk] at ha
  unfold multiCSteps at ha
  rcases hc : cStep srt cfg.alpha X a with e | a1
  · rw [hc] at ha; simp [Except.bind] at ha
  · rw [hc] at ha
    simp only [Except.bind] at ha
    exact chain_converged k ⟨a, hc⟩ ((below_le X _).trans (by omega)) ha hn

/-- **C76**: the convergence loop ends for every tolerance (also 0 or negative), every data set and every
start that comes from a C-step; a bound on the number of passes is `2^n + 3`. -/
theorem C76_loop_ends (srt : ArgSort ℝ) (alpha : Alpha ℝ) (tol : ℝ) (X : List (m → ℝ)) (s0 s : HSubset ℝ m)
    (h0 : cStep srt alpha X s0 = .ok s) (fuel : ℕ) (hf : 2 ^ X.length + 3 ≤ fuel) :
    ∃ r, runLoop (convergeStep srt alpha tol X) fuel s = some r := by
  have key : ∀ (k fuel : ℕ) (s : HSubset ℝ m), Stepped srt alpha X s → below X s.determinant ≤ k →
      k + 3 ≤ fuel → ∃ r, runLoop (convergeStep srt alpha tol X) fuel s = some r := by
    intro k
    induction k with
    | zero | succ k ih =>
      intro fuel s hs hk hf
      obtain ⟨f1, rfl⟩ : ∃ f, fuel = f + 1 := ⟨fuel - 1, by omega⟩
      unfold runLoop
      rcases hstep : convergeStep srt alpha tol X s with e | (new | r)
      · exact ⟨_, rfl⟩
      · simp only
        -- the step went on
        have hst := hstep
        unfold convergeStep at hst
        rcases hc : cStep srt alpha X s with e | n'
        · rw [hc] at hst; simp [Except.bind] at hst
        rw [hc] at hst
        simp only [Except.bind] at hst
        rcases hi : indicesEqual n'.indices s.indices with e | eq
        · rw [hi] at hst; simp at hst
        rw [hi] at hst
        simp only at hst
        split_ifs at hst with hcond
        · simp at hst
        obtain rfl := Sum.inl.inj (Except.ok.inj hst)
        have hd : s.determinant ≠ 0 := by rw [← hs.scale_det]; exact (cStep_ok hc).1
        obtain ⟨n2, hn2, hl2, hs2⟩ := hs.next hd
        rw [hc] at hn2
        obtain rfl := Except.ok.inj hn2
        obtain ⟨h1, h2⟩ := cStep_det_le hs.isSubset hc hl2
        rcases lt_or_eq_of_le h1 with hlt | heq
        · have hb := below_lt (cStep_isSubset hc) hlt
          first
            | exact absurd hb (by omega)
            | exact ih f1 n' hs2 (by omega) (by omega)
        · obtain ⟨e1, e2⟩ := h2 heq
          obtain ⟨f2, rfl⟩ : ∃ f, f1 = f + 1 := ⟨f1 - 1, by omega⟩
          have hd2 : n'.determinant ≠ 0 := by rw [heq]; exact hd
          obtain ⟨n3, hn3, hl3, -⟩ := hs2.next hd2
          have hidx := (cStep_again hc e2 e1 hn3).1
          refine ⟨.ok n', ?_⟩
          unfold runLoop convergeStep
          rw [hn3]
          simp only [Except.bind, indicesEqual, if_pos hl3, hidx, decide_true, true_or, if_true]
      · exact ⟨_, rfl⟩
  exact key (2 ^ X.length) fuel s ⟨s0, h0⟩ (below_le X _) hf

end

end Robpy
