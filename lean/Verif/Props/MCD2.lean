import Verif.Props.MCD

/-! # Properties C37, C38, C40 of FastMCD / DetMCD -/

namespace Robpy
open Matrix

/-! ## C37 -/

/-- The documented values of `alpha`: an int between n/2 and n, a float between 0.5 and 1, or None. -/
def Spec.DocumentedAlpha {K : Type} [Field K] [LinearOrder K] (alpha : Alpha K) (n : ℕ) : Prop :=
  match alpha with
  | .none => True
  | .int z => (n : ℤ) ≤ 2 * z ∧ z ≤ n
  | .float a => 1 ≤ 2 * a ∧ a ≤ 1

/-- Full statement of C37: a documented alpha is accepted for every part of the data. -/
def C37_statement (K : Type) [Field K] [LinearOrder K] [FloorSemiring K] : Prop :=
  ∀ (alpha : Alpha K) (n p : ℕ) (nPart : Option ℕ) (parts : List (List Unit)),
    Spec.DocumentedAlpha alpha n → partitionData nPart (List.replicate n ()) = .ok parts →
    ∀ part ∈ List.replicate n () :: parts, ∃ h, mcdGetH alpha part.length p = .ok h ∧ part.length ≤ 2 * h

/-- **C37 is violated**: `FastMCD(alpha=3, n_partitions=2)` on 4 rows raises ValueError. -/
theorem C37_violated : ¬ C37_statement ℚ := by
  intro h
  obtain ⟨k, hk, -⟩ := h (.int 3) 4 2 (some 2) [[(), ()], [(), ()]] (by unfold Spec.DocumentedAlpha; decide) rfl
    [(), ()] (by simp)
  have : mcdGetH (.int 3 : Alpha ℚ) [(), ()].length 2 = .error .valueError := rfl
  rw [this] at hk
  simp at hk

section
variable {K : Type} [Field K] [LinearOrder K] [IsStrictOrderedRing K] [FloorSemiring K]

omit [IsStrictOrderedRing K] in
/-- **C37**, what does hold: None and documented floats are accepted for any number of rows (so for every
part), a documented int for the full data (so always for DetMCD and for FastMCD without partitions);
the size is at least half the rows.  Missing: an int together with partitions, see `C37_violated` and
`C37_default_partitions`. -/
theorem C37_partial (alpha : Alpha K) (n p : ℕ) (h : Spec.DocumentedAlpha alpha n) :
    (∃ k, mcdGetH alpha n p = .ok k ∧ n ≤ 2 * k) ∧
    ((∀ z, alpha ≠ .int z) → ∀ n', ∃ k, mcdGetH alpha n' p = .ok k ∧ n' ≤ 2 * k) := by
  have hmin : ∀ n', n' ≤ 2 * hMin n' p := fun n' => by unfold hMin; omega
  have hmax : ∀ a n', n' ≤ 2 * max a (hMin n' p) := fun a n' => by
    have := hmin n'; have := le_max_right a (hMin n' p); omega
  rcases alpha with _ | z | a
  · exact ⟨⟨_, rfl, hmin n⟩, fun _ n' => ⟨_, rfl, hmin n'⟩⟩
  · refine ⟨⟨max z.toNat (hMin n p), ?_, hmax _ _⟩, fun hz => absurd rfl (hz z)⟩
    unfold mcdGetH
    exact if_pos h
  · have : ∀ n', mcdGetH (.float a) n' p = .ok (max ⌊a * (n' : K)⌋₊ (hMin n' p)) := fun n' => by
      unfold mcdGetH; exact if_pos h
    exact ⟨⟨_, this n, hmax _ _⟩, fun _ n' => ⟨_, this n', hmax _ _⟩⟩

variable {m : Type} [Fintype m] [DecidableEq m]

omit [IsStrictOrderedRing K] [FloorSemiring K] in
theorem runLoop_grow_ok {G : Type} {rng : Rng G} {X : List (m → K)} (fuel : ℕ) {st : List ℕ × G}
    {r : HSubset K m × G} (hn : st.1.Nodup) (hl : ∀ i ∈ st.1, i < X.length)
    (h : runLoop (growStep rng X) fuel st = some (.ok r)) :
    IsSubset X r.1 ∧ r.1.determinant ≠ 0 ∧ st.1.length ≤ r.1.indices.length := by
  induction fuel generalizing st with
  | zero => simp [runLoop] at h
  | succ fuel ih =>
    unfold runLoop growStep at h
    rcases hg : getSubset X st.1 0 with e | s
    · rw [hg] at h; simp [Except.bind] at h
    rw [hg] at h
    simp only [Except.bind] at h
    split_ifs at h with h1 h2
    · simp at h
    · simp only at h
      have hp := rng.pick_mem st.2 _ h2
      rw [List.mem_filter, List.mem_range] at hp
      have := ih (st := (_, _)) ?_ ?_ h
      · refine ⟨this.1, this.2.1, le_trans ?_ this.2.2⟩
        simp
      · rw [List.nodup_append]
        refine ⟨hn, by simp, ?_⟩
        intro a ha b hb
        rw [List.mem_singleton] at hb
        rintro rfl
        have := hp.2
        rw [← hb] at this
        simp at this
        exact this ha
      · intro i hi
        rcases List.mem_append.1 hi with hi | hi
        · exact hl i hi
        · rw [List.mem_singleton] at hi
          rw [hi]; exact hp.1
    · simp only [Option.some.injEq, Except.ok.injEq] at h
      subst h
      obtain ⟨-, rfl⟩ := getSubset_ok hg
      exact ⟨⟨hn, hl, rfl, rfl, rfl⟩, h1, le_rfl⟩

omit [IsStrictOrderedRing K] [FloorSemiring K] in
theorem runLoop_grow_error {G : Type} {rng : Rng G} {X : List (m → K)} (hp1 : Fintype.card m ≠ 1) (fuel : ℕ)
    {st : List ℕ × G} {e : PyErr} (hn : st.1.Nodup) (hl : ∀ i ∈ st.1, i < X.length)
    (h : runLoop (growStep rng X) fuel st = some (.error e)) : e = .valueError ∧ (npCov X).det = 0 := by
  induction fuel generalizing st with
  | zero => simp [runLoop] at h
  | succ fuel ih =>
    unfold runLoop growStep at h
    rw [getSubset_eq hp1] at h
    simp only [Except.bind] at h
    split_ifs at h with h1 h2
    · simp only [Option.some.injEq, Except.error.injEq] at h
      refine ⟨h.symm, ?_⟩
      have hsub : List.range X.length ⊆ st.1 := by
        intro i hi
        by_contra hc
        have : i ∈ (List.range X.length).filter (fun i => i ∉ st.1) := List.mem_filter.2 ⟨hi, by simpa using hc⟩
        rw [h2] at this
        simp at this
      have hperm : (List.range X.length).Perm st.1 :=
        (List.nodup_range.subperm hsub).perm_of_length_le (by
          have := (hn.subperm fun i hi => List.mem_range.2 (hl i hi)).length_le
          exact this)
      rw [← takeAt_range X, npCov_perm (takeAt_perm X hperm)]
      exact h1
    · simp only at h
      have hp := rng.pick_mem st.2 _ h2
      rw [List.mem_filter, List.mem_range] at hp
      refine ih (st := (_, _)) ?_ ?_ h
      · rw [List.nodup_append]
        refine ⟨hn, by simp, ?_⟩
        intro a ha b hb
        rw [List.mem_singleton] at hb
        rintro rfl
        have := hp.2
        rw [← hb] at this
        simp at this
        exact this ha
      · intro i hi
        rcases List.mem_append.1 hi with hi | hi
        · exact hl i hi
        · rw [List.mem_singleton] at hi
          rw [hi]; exact hp.1
    · simp at h

omit [IsStrictOrderedRing K] [FloorSemiring K] in
theorem runLoop_grow_some {G : Type} {rng : Rng G} {X : List (m → K)} (fuel : ℕ) {st : List ℕ × G}
    (hn : st.1.Nodup) (hl : ∀ i ∈ st.1, i < X.length) (hf : X.length < fuel + st.1.length) :
    runLoop (growStep rng X) fuel st ≠ none := by
  induction fuel generalizing st with
  | zero =>
    have := (hn.subperm (l₂ := List.range X.length) fun i hi => List.mem_range.2 (hl i hi)).length_le
    rw [List.length_range] at this
    omega
  | succ fuel ih =>
    unfold runLoop growStep
    rcases hg : getSubset X st.1 0 with e | s
    · simp [Except.bind]
    simp only [Except.bind]
    split_ifs with h1 h2
    · simp
    · simp only
      have hp := rng.pick_mem st.2 _ h2
      rw [List.mem_filter, List.mem_range] at hp
      refine ih (st := (_, _)) ?_ ?_ ?_
      · rw [List.nodup_append]
        refine ⟨hn, by simp, ?_⟩
        intro a ha b hb
        rw [List.mem_singleton] at hb
        rintro rfl
        have := hp.2
        rw [← hb] at this
        simp at this
        exact this ha
      · intro i hi
        rcases List.mem_append.1 hi with hi | hi
        · exact hl i hi
        · rw [List.mem_singleton] at hi
          rw [hi]; exact hp.1
      · simp only [List.length_append, List.length_singleton]; omega
    · simp

/-! ## C40 -/

omit [IsStrictOrderedRing K] [FloorSemiring K] in
/-- **C40**: the search for an initial subset ends after at most `n + 1` rounds, whatever the generator
draws.  It returns a non-singular subset of at least `p + 1` distinct rows, or it raises ValueError; the
latter only if there are fewer than `p + 1` rows or the covariance of the complete data is singular. -/
theorem C40_initial_subset {G : Type} (rng : Rng G) (X : List (m → K)) (g : G) (hp1 : Fintype.card m ≠ 1)
    (fuel : ℕ) (hf : X.length < fuel) :
    (∃ r, initialSubset rng X fuel g = some (.ok r) ∧ IsSubset X r.1 ∧ r.1.determinant ≠ 0 ∧
      Fintype.card m + 1 ≤ r.1.indices.length) ∨
    (initialSubset rng X fuel g = some (.error .valueError) ∧
      (X.length < Fintype.card m + 1 ∨ (npCov X).det = 0)) := by
  unfold initialSubset
  split_ifs with hlt
  · exact Or.inr ⟨rfl, Or.inl hlt⟩
  · have hle : Fintype.card m + 1 ≤ X.length := by omega
    have h1 := rng.sample_nodup g _ _ hle
    have h2 := rng.sample_lt g _ _ hle
    have h3 := rng.sample_length g _ _ hle
    rcases hr : runLoop (growStep rng X) fuel (rng.sample g X.length (Fintype.card m + 1)) with _ | (e | r)
    · exact absurd hr (runLoop_grow_some fuel h1 h2 (by omega))
    · obtain ⟨rfl, hd⟩ := runLoop_grow_error hp1 fuel h1 h2 hr
      exact Or.inr ⟨rfl, Or.inr hd⟩
    · obtain ⟨a, b, c⟩ := runLoop_grow_ok fuel h1 h2 hr
      exact Or.inl ⟨r, rfl, a, b, h3 ▸ c⟩

end

/-- Both outcomes of `C40_initial_subset` occur: three affinely independent rows, three equal rows. -/
example : (npCov ([![0, 0], ![1, 0], ![0, 1]] : List (Fin 2 → ℚ))).det ≠ 0 ∧
    (npCov ([![1, 2], ![1, 2], ![1, 2]] : List (Fin 2 → ℚ))).det = 0 := by
  constructor <;> decide +kernel

section
variable {K : Type} [Field K] [LinearOrder K] [IsStrictOrderedRing K] [FloorSemiring K]
variable {m : Type} [Fintype m] [DecidableEq m]

omit [IsStrictOrderedRing K] [FloorSemiring K] in
/-- The list of initial subsets: either as many non-singular subsets as asked for or ValueError. -/
theorem initialSubsets_outcome {G : Type} (rng : Rng G) (X : List (m → K)) (hp1 : Fintype.card m ≠ 1)
    (fuel : ℕ) (hf : X.length < fuel) (k : ℕ) (g : G) :
    (∃ r, initialSubsets rng X fuel k g = some (.ok r) ∧ r.1.length = k ∧
      ∀ s ∈ r.1, IsSubset X s ∧ s.determinant ≠ 0 ∧ Fintype.card m + 1 ≤ s.indices.length) ∨
    initialSubsets rng X fuel k g = some (.error .valueError) := by
  induction k generalizing g with
  | zero => exact Or.inl ⟨([], g), rfl, rfl, by simp⟩
  | succ k ih =>
    unfold initialSubsets
    rcases C40_initial_subset rng X g hp1 fuel hf with ⟨r, hr, h1, h2, h3⟩ | ⟨hr, -⟩
    · rw [hr]
      simp only [Run.andThen]
      rcases ih r.2 with ⟨rs, hrs, hl, hall⟩ | hrs
      · rw [hrs]
        refine Or.inl ⟨_, rfl, by simp [hl], ?_⟩
        intro s hs
        rcases List.mem_cons.1 hs with rfl | hs
        · exact ⟨h1, h2, h3⟩
        · exact hall s hs
      · rw [hrs]; exact Or.inr rfl
    · rw [hr]; exact Or.inr rfl

omit [IsStrictOrderedRing K] in
/-- **C37**, the default setting: on more than 600 rows FastMCD splits the data into five parts, and then
*every* documented integer `alpha` (except `n` itself) raises ValueError, for all data and all draws. -/
theorem C37_default_partitions {G : Type} (srt : ArgSort K) (rng : Rng G) (cfg : MCDConfig K)
    (X : List (m → K)) (fuel : ℕ) (g : G) (z : ℤ) (hp1 : Fintype.card m ≠ 1) (hn : 600 < X.length)
    (hpart : cfg.nPartitions = none) (halpha : cfg.alpha = .int z) (hz : (X.length : ℤ) ≤ 2 * z)
    (hz2 : z < X.length) (hsub : 5 ≤ cfg.nInitialSubsets) (hc : 1 ≤ cfg.nInitialCSteps) :
    fastMCD srt rng cfg X fuel g = some (.error .valueError) := by
  have hall : alphaIsAll cfg.alpha X.length = false := by
    rw [halpha]; unfold alphaIsAll
    simp only [decide_eq_false_iff_not]
    omega
  unfold fastMCD
  rw [hall]
  simp only [Bool.false_eq_true, if_false]
  -- the five parts
  have hnum : numPartitions cfg.nPartitions X.length = 5 := by rw [hpart]; simp [numPartitions, hn]
  obtain ⟨k0, ks, hsz, hk0, hlen⟩ : ∃ k0 ks, splitSizes X.length 5 = k0 :: ks ∧ k0 ≤ X.length / 5 + 1 ∧
      (k0 :: ks).length = 5 := by
    unfold splitSizes
    rcases hmod : X.length % 5 with _ | r
    · exact ⟨_, _, rfl, by omega, by simp⟩
    · refine ⟨_, _, rfl, le_rfl, ?_⟩
      simp
      have : X.length % 5 < 5 := Nat.mod_lt _ (by omega)
      omega
  have hlen2 : ∀ (ks : List ℕ) (Y : List (m → K)), (splitBy ks Y).length = ks.length := by
    intro ks
    induction ks with
    | nil => intro Y; rfl
    | cons k ks ih => intro Y; simp [splitBy, ih]
  have hpd : partitionData cfg.nPartitions X = .ok (X.take k0 :: splitBy ks (X.drop k0)) := by
    unfold partitionData
    rw [hnum, hsz]; rfl
  unfold fastSearch
  rw [hpd]
  simp only [Run.andThen]
  have hl5 : (X.take k0 :: splitBy ks (X.drop k0)).length = 5 := by
    rw [List.length_cons, hlen2]; simpa using hlen
  rw [hl5]
  unfold partitionsBest
  set data := X.take k0 with hdata
  have hdl : data.length ≤ X.length / 5 + 1 := by rw [hdata, List.length_take]; omega
  have hpb : partitionBest srt rng cfg (cfg.nInitialSubsets / 5) data g = some (.error .valueError) := by
    unfold partitionBest
    rcases initialSubsets_outcome rng data hp1 (data.length + 1) (by omega) (cfg.nInitialSubsets / 5) g with
      ⟨r, hr, hrl, hrall⟩ | hr
    · rw [hr]
      simp only [Run.andThen]
      have hpos : 0 < cfg.nInitialSubsets / 5 := Nat.div_pos hsub (by omega)
      rcases hrs : r.1 with _ | ⟨s, rest⟩
      · rw [hrs] at hrl; simp at hrl; omega
      · obtain ⟨hs1, hs2, -⟩ := hrall s (by rw [hrs]; simp)
        have hh : mcdGetH cfg.alpha data.length (Fintype.card m) = .error .valueError := by
          rw [halpha]; unfold mcdGetH
          simp only
          rw [if_neg (by omega), if_neg (by omega)]
        have hcs : cStep srt cfg.alpha data s = .error .valueError := by
          unfold cStep
          rw [sqMahalanobis_eq (by rw [hs1.scale, ← hs1.determinant]; exact hs2), hh]; rfl
        obtain ⟨k, hk⟩ : ∃ k, cfg.nInitialCSteps = k + 1 := ⟨cfg.nInitialCSteps - 1, by omega⟩
        unfold mapExcept
        rw [hk]
        unfold multiCSteps
        rw [hcs]; rfl
    · rw [hr]; rfl
  rw [hpb]
  rfl

/-! ## C38 -/

omit [IsStrictOrderedRing K] [FloorSemiring K] [Fintype m] [DecidableEq m] in
/-- **C38**: selecting the best subsets keeps `min k (number of subsets)` of them and drops only subsets
whose determinant is at least as large as that of every kept one. -/
theorem C38_nBest (k : ℕ) (l : List (HSubset K m)) :
    ∃ rest, (nBest k l ++ rest).Perm l ∧ (nBest k l).length = min k l.length ∧
      (∀ a ∈ nBest k l, ∀ b ∈ rest, a.determinant ≤ b.determinant) ∧
      (nBest k l).Pairwise fun a b => a.determinant ≤ b.determinant := by
  haveI : IsTrans (HSubset K m) fun a b => a.determinant ≤ b.determinant := ⟨fun _ _ _ h1 h2 => le_trans h1 h2⟩
  haveI : Std.Total fun a b : HSubset K m => a.determinant ≤ b.determinant := ⟨fun _ _ => le_total _ _⟩
  have hs := List.pairwise_insertionSort (fun a b : HSubset K m => a.determinant ≤ b.determinant) l
  have hp := List.perm_insertionSort (fun a b : HSubset K m => a.determinant ≤ b.determinant) l
  unfold nBest
  set L := l.insertionSort fun a b => a.determinant ≤ b.determinant
  refine ⟨L.drop k, by rw [List.take_append_drop]; exact hp, by rw [List.length_take, hp.length_eq], ?_, ?_⟩
  · rw [← List.take_append_drop k L, List.pairwise_append] at hs
    exact hs.2.2
  · exact hs.sublist (List.take_sublist _ _)

omit [IsStrictOrderedRing K] in
/-- **C38**: for every tolerance, the reported subset is one of the subsets the loops ended in (or the
reference subset), and none of these has a smaller determinant. -/
theorem C38_best (srt : ArgSort K) (alpha : Alpha K) (tol : K) (X : List (m → K)) (fuel : ℕ)
    (s0 : HSubset K m) (l : List (HSubset K m)) (r : HSubset K m)
    (h : convergeFrom srt alpha tol X fuel (s0 :: l) = some (.ok r)) :
    r.determinant ≤ s0.determinant ∧
    (∀ s ∈ s0 :: l, ∃ t, runLoop (convergeStep srt alpha tol X) fuel s = some (.ok t) ∧
      r.determinant ≤ t.determinant) ∧
    (r = s0 ∨ ∃ s ∈ s0 :: l, runLoop (convergeStep srt alpha tol X) fuel s = some (.ok r)) := by
  have key : ∀ (L : List (HSubset K m)) (best : HSubset K m),
      convergeAll srt alpha tol X fuel L best = some (.ok r) →
      r.determinant ≤ best.determinant ∧
      (∀ s ∈ L, ∃ t, runLoop (convergeStep srt alpha tol X) fuel s = some (.ok t) ∧
        r.determinant ≤ t.determinant) ∧
      (r = best ∨ ∃ s ∈ L, runLoop (convergeStep srt alpha tol X) fuel s = some (.ok r)) := by
    intro L
    induction L with
    | nil =>
      intro best h
      unfold convergeAll at h
      obtain rfl := Except.ok.inj (Option.some.inj h)
      exact ⟨le_rfl, by simp, Or.inl rfl⟩
    | cons s L ih =>
      intro best h
      unfold convergeAll at h
      obtain ⟨t, h1, h2⟩ := Run.andThen_ok h
      obtain ⟨i1, i2, i3⟩ := ih _ h2
      have hbt : r.determinant ≤ best.determinant ∧ r.determinant ≤ t.determinant := by
        split_ifs at i1 with hlt
        · exact ⟨i1.trans hlt.le, i1⟩
        · exact ⟨i1, i1.trans (not_lt.1 hlt)⟩
      refine ⟨hbt.1, ?_, ?_⟩
      · intro s' hs'
        rcases List.mem_cons.1 hs' with rfl | hs'
        · exact ⟨t, h1, hbt.2⟩
        · exact i2 s' hs'
      · rcases i3 with h3 | ⟨s', hs', h3⟩
        · split_ifs at h3 with hlt
          · right; exact ⟨s, by simp, by rw [h1, h3]⟩
          · left; exact h3
        · right; exact ⟨s', by simp [hs'], h3⟩
  exact key _ s0 h

end

section
variable {m : Type} [Fintype m] [DecidableEq m]

/-- **C38**, end to end: on data that is not partitioned the reported determinant is not larger than the
determinant of any of the subsets obtained from the random starts by the initial C-steps. -/
theorem C38_overall {G : Type} (srt : ArgSort ℝ) (rng : Rng G) (cfg : MCDConfig ℝ) (X : List (m → ℝ))
    (fuel : ℕ) (g g' : G) (best : HSubset ℝ m) (starts cands : List (HSubset ℝ m)) (htol : 0 < cfg.tol)
    (hsteps : 1 ≤ cfg.nInitialCSteps) (hpart : numPartitions cfg.nPartitions X.length = 1)
    (hbest : fastSearch srt rng cfg X fuel g = some (.ok best))
    (hstarts : initialSubsets rng X (X.length + 1) cfg.nInitialSubsets g = some (.ok (starts, g')))
    (hcands : mapExcept (multiCSteps srt cfg.alpha X cfg.nInitialCSteps) starts = .ok cands) :
    ∀ c ∈ cands, best.determinant ≤ c.determinant := by
  have hpd : partitionData cfg.nPartitions X = .ok [X] := by
    unfold partitionData
    rw [hpart]
    simp [splitSizes, splitBy, Nat.mod_one]
  unfold fastSearch at hbest
  rw [hpd] at hbest
  simp only [Run.andThen, List.length_singleton, Nat.div_one] at hbest
  unfold partitionsBest partitionBest at hbest
  rw [hstarts] at hbest
  simp only [Run.andThen, hcands, Except.map, partitionsBest, List.append_nil] at hbest
  rcases hss : mapExcept (multiCSteps srt cfg.alpha X cfg.nInitialCSteps) (nBest cfg.nBestSubsets cands) with e | ss
  · rw [hss] at hbest; simp at hbest
  rw [hss] at hbest
  simp only at hbest
  have hstep : ∀ t ∈ ss, Stepped srt cfg.alpha X t := fun t ht => by
    obtain ⟨a, -, ha⟩ := mapExcept_mem hss t ht
    exact multiCSteps_stepped (by omega) ha
  obtain ⟨hmem, hmin⟩ := convergeFrom_stepped htol fuel _ best (fun t ht => hstep t (mem_nBest ht)) hbest
  -- the best is not larger than any element of `ss`
  have hall : ∀ t ∈ ss, best.determinant ≤ t.determinant := by
    intro t ht
    obtain ⟨rest, hp, -, hle, -⟩ := C38_nBest cfg.nBestSubsets ss
    rcases List.mem_append.1 (hp.mem_iff.2 ht) with h | h
    · exact hmin t h
    · exact hle best hmem t h
  -- the best kept candidate
  obtain ⟨rest, hp, hlen, hle, -⟩ := C38_nBest cfg.nBestSubsets cands
  intro c hc
  have hstepc : ∀ t ∈ cands, Stepped srt cfg.alpha X t := fun t ht => by
    obtain ⟨a, -, ha⟩ := mapExcept_mem hcands t ht
    exact multiCSteps_stepped (by omega) ha
  have kept : ∀ k ∈ nBest cfg.nBestSubsets cands, best.determinant ≤ k.determinant := by
    intro k hk
    obtain ⟨b, hb, hkb⟩ := mapExcept_mem' hss k hk
    obtain ⟨k0, hk0⟩ := hstepc k (mem_nBest hk)
    exact (hall b hb).trans (C35_chain srt cfg.alpha X k0 k hk0 _ b hkb).1
  rcases List.mem_append.1 (hp.mem_iff.2 hc) with h | h
  · exact kept c h
  · have hne : nBest cfg.nBestSubsets cands ≠ [] := by
      intro h0
      rw [h0] at hss
      simp only [mapExcept, Except.ok.injEq] at hss
      rw [← hss] at hmem
      simp [nBest] at hmem
    obtain ⟨a, ha⟩ := List.exists_mem_of_ne_nil _ hne
    exact (kept a ha).trans (hle a ha c h)

end

/-- `C37_default_partitions` is about the default partitioning of, e.g., 1000 rows with `alpha = 750`;
`C38_overall` about, e.g., at most 600 rows. -/
example : numPartitions none 1000 = 5 ∧ ((1000 : ℕ) : ℤ) ≤ 2 * 750 ∧ numPartitions none 600 = 1 := by
  decide

end Robpy
