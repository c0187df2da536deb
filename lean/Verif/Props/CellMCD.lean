import Verif.Lemmas.CellStep

/-! # Properties C44, C45, C48 and C117, C118: the C-steps of CellMCD -/

namespace Robpy
open Matrix

section
variable {n p : ℕ}

/-! ## C48 -/

/-- **C48**: the objective computed per pattern is the sum over the rows of the Gaussian terms of their clean
cells, for every flag matrix that marks no missing cell as clean. -/
theorem C48_objective {X : Cells n p} {W : CellFlags n p} (hW : Spec.NoMissing X W) (mu : Fin p → ℝ)
    {S : Matrix (Fin p) (Fin p) ℝ} (hS : S.PosDef) :
    objectiveFunction X W mu S S⁻¹ =
      .ok (some (∑ i, Spec.negTwoLogLik S mu (fun j => (X i j).getD 0) (W i))) :=
  objectiveFunction_eq hW mu hS

/-- **C48**: for every other flag matrix the result is NaN (as is the sum over the rows). -/
theorem C48_nan {X : Cells n p} {W : CellFlags n p} (hW : ¬ Spec.NoMissing X W) (mu : Fin p → ℝ)
    {S : Matrix (Fin p) (Fin p) ℝ} (hS : S.PosDef) : objectiveFunction X W mu S S⁻¹ = .ok none := by
  unfold Spec.NoMissing at hW
  push Not at hW
  obtain ⟨i, j, hij, hx⟩ := hW
  unfold objectiveFunction
  have hterm : ∀ w, ∃ t, patternTerm X W mu S S⁻¹ w = .ok t := fun w => by
    unfold patternTerm; rw [patInv_eq hS]; exact ⟨_, rfl⟩
  choose t ht using hterm
  rw [mapExcept_eq_map (g := t) fun w _ => ht w]
  simp only [Except.map]
  congr 1
  refine optSum_none (List.mem_map.2 ⟨W i, mem_uniqueRows.2 ⟨i, rfl⟩, ?_⟩)
  have := ht (W i)
  unfold patternTerm at this
  rw [patInv_eq hS] at this
  simp only [Except.map, Except.ok.injEq] at this
  rw [← this]
  refine optSum_none (List.mem_map.2 ⟨i, ?_, ?_⟩)
  · rw [List.mem_filter]
    exact ⟨List.mem_finRange i, by simp⟩
  · rw [obsVals_none hij hx]; rfl

/-- A row with a missing cell and a row without: the hypotheses of `C48_objective` hold for the flag matrix
that marks the present cells. -/
example : Spec.NoMissing (fun i j => if i = (0 : Fin 2) ∧ j = (1 : Fin 2) then none else some 1)
    (fun i j => !(decide (i = 0 ∧ j = 1))) ∧ (1 : Matrix (Fin 2) (Fin 2) ℝ).PosDef := by
  refine ⟨?_, Matrix.PosDef.one⟩
  intro i j h
  fin_cases i <;> fin_cases j <;> simp at h ⊢

/-! ## The iteration -/

/-- What holds for every state of the iteration. -/
structure CellInv (X : Cells n p) (q : Fin p → ℝ) (h : ℕ) (s : CellState n p) : Prop where
  posDef : s.cov.PosDef
  inv : s.covInv = s.cov⁻¹
  noMissing : Spec.NoMissing X s.W
  atLeast : Spec.AtLeast h s.W
  objective : s.objective = some (Spec.cellObjective X q s.W s.location s.cov)

/-- Every column has at least `h` present cells. -/
def Enough (X : Cells n p) (h : ℕ) : Prop := ∀ j, h ≤ (Finset.univ.filter fun i => X i j ≠ none).card

theorem cellIter_ok (env : CellEnv p) {minEig : ℝ} (ha : 0 < minEig) (hn : 1 < n) {X : Cells n p}
    {q : Fin p → ℝ} {h : ℕ} (hh : Enough X h) {s : CellState n p} (hs : CellInv X q h s) :
    ∃ s' conv, cellIter env minEig X q h s = .ok (s', conv) ∧ CellInv X q h s' ∧
      (s'.cov - minEig • (1 : Matrix (Fin p) (Fin p) ℝ)).PosSemidef ∧
      Spec.cellObjective X q s'.W s.location s.cov ≤ Spec.cellObjective X q s.W s.location s.cov ∧
      ((s.cov - minEig • (1 : Matrix (Fin p) (Fin p) ℝ)).PosSemidef →
        Spec.cellObjective X q s'.W s'.location s'.cov ≤ Spec.cellObjective X q s'.W s.location s.cov) := by
  obtain ⟨W', w1, w2, w3, w4⟩ := updateW_spec hs.posDef s.location q hh hs.noMissing
  obtain ⟨mu', T, e1, e2, e3⟩ := emStep_spec w2 hn s.location hs.posDef
  have hb := C33_bound env.eigh env.order T minEig
  set cov := truncatedCovariance env.eigh env.order T minEig with hcov
  have hpd : cov.PosDef := by
    have h2 : (minEig • (1 : Matrix (Fin p) (Fin p) ℝ)).PosDef := Matrix.PosDef.one.smul ha
    have := h2.add_posSemidef hb.2
    rwa [add_sub_cancel] at this
  have hpen := penalised_eq w2 q mu' hpd
  refine ⟨{ W := W', location := mu', cov := cov, covInv := cov⁻¹,
            objective := some (Spec.cellObjective X q W' mu' cov) },
    ⨆ jk : Fin p × Fin p, |T jk.1 jk.2 - s.cov jk.1 jk.2|, ?_, ?_, hb.2, w4 hs.atLeast, ?_⟩
  · unfold cellIter
    rw [hs.inv, w1]
    simp only [Except.bind]
    rw [e1]
    simp only
    rw [← hcov, npInv_eq _ hpd.det_pos.ne']
    simp only
    rw [hpen]
    rfl
  · exact ⟨hpd, rfl, w2, w3, rfl⟩
  · intro hS
    have hle := (truncated_optimal env.eigh env.order e2 ha hs.posDef hS).2
    have := e3 cov hpd hle
    show Spec.cellObjective X q W' mu' cov ≤ Spec.cellObjective X q W' s.location s.cov
    unfold Spec.cellObjective
    rw [Finset.sum_add_distrib, Finset.sum_add_distrib]
    exact add_le_add this le_rfl

/-- `CellReach … k s`: `s` is the state after `k` C-steps. -/
inductive CellReach (env : CellEnv p) (minEig : ℝ) (X : Cells n p) (q : Fin p → ℝ) (h : ℕ)
    (s0 : CellState n p) : ℕ → CellState n p → Prop
  | zero : CellReach env minEig X q h s0 0 s0
  | succ {k : ℕ} {s s' : CellState n p} {conv : ℝ} : CellReach env minEig X q h s0 k s →
      cellIter env minEig X q h s = .ok (s', conv) → CellReach env minEig X q h s0 (k + 1) s'

theorem CellReach.unique {env : CellEnv p} {minEig : ℝ} {X : Cells n p} {q : Fin p → ℝ} {h : ℕ}
    {s0 : CellState n p} : ∀ {k : ℕ} {s t : CellState n p}, CellReach env minEig X q h s0 k s →
      CellReach env minEig X q h s0 k t → s = t := by
  intro k
  induction k with
  | zero => intro s t hs ht; cases hs; cases ht; rfl
  | succ k ih =>
    intro s t hs ht
    cases hs with
    | succ hs h1 =>
      cases ht with
      | succ ht h2 =>
        have := ih hs ht
        subst this
        rw [h1] at h2
        exact (Prod.mk.inj (Except.ok.inj h2)).1

/-- The invariant holds in every state of the iteration; from the first C-step on the covariance respects the
eigenvalue bound. -/
theorem CellReach.inv {env : CellEnv p} {minEig : ℝ} (ha : 0 < minEig) (hn : 1 < n) {X : Cells n p}
    {q : Fin p → ℝ} {h : ℕ} (hh : Enough X h) {s0 : CellState n p} (h0 : CellInv X q h s0) {k : ℕ}
    {s : CellState n p} (hs : CellReach env minEig X q h s0 k s) :
    CellInv X q h s ∧ (0 < k → (s.cov - minEig • (1 : Matrix (Fin p) (Fin p) ℝ)).PosSemidef) := by
  induction hs with
  | zero => exact ⟨h0, fun h => absurd h (lt_irrefl 0)⟩
  | succ hr hi ih =>
    obtain ⟨s', conv, e1, e2, e3, -, -⟩ := cellIter_ok env ha hn hh ih.1
    rw [e1] at hi
    rw [← (Prod.mk.inj (Except.ok.inj hi)).1]
    exact ⟨e2, fun _ => e3⟩

/-- From the first C-step on (from the start if the initial covariance respects the eigenvalue bound) the
objective of the states does not increase. -/
theorem CellReach.descent {env : CellEnv p} {minEig : ℝ} (ha : 0 < minEig) (hn : 1 < n) {X : Cells n p}
    {q : Fin p → ℝ} {h : ℕ} (hh : Enough X h) {s0 : CellState n p} (h0 : CellInv X q h s0) {k : ℕ}
    {s s' : CellState n p} {conv : ℝ} (hs : CellReach env minEig X q h s0 k s)
    (hk : 0 < k ∨ (s0.cov - minEig • (1 : Matrix (Fin p) (Fin p) ℝ)).PosSemidef)
    (hi : cellIter env minEig X q h s = .ok (s', conv)) :
    Spec.cellObjective X q s'.W s'.location s'.cov ≤ Spec.cellObjective X q s.W s.location s.cov := by
  obtain ⟨hinv, hps⟩ := hs.inv ha hn hh h0
  have hb : (s.cov - minEig • (1 : Matrix (Fin p) (Fin p) ℝ)).PosSemidef := by
    rcases hk with hk | hk
    · exact hps hk
    · rcases Nat.eq_zero_or_pos k with h1 | h1
      · subst h1; cases hs; exact hk
      · exact hps h1
  obtain ⟨s1, c1, e1, -, -, e4, e5⟩ := cellIter_ok env ha hn hh hinv
  rw [e1] at hi
  rw [← (Prod.mk.inj (Except.ok.inj hi)).1]
  exact (e5 hb).trans e4

theorem objGreater_some (a b : ℝ) : objGreater (some a) (some b) = decide (b < a) := rfl

/-- The loop from a state whose covariance respects the eigenvalue bound: it ends normally, the early return
is not taken, and the result is a state of the iteration. -/
theorem cellLoop_good (env : CellEnv p) {minEig crit : ℝ} (ha : 0 < minEig) (hn : 1 < n) {X : Cells n p}
    {q : Fin p → ℝ} {h : ℕ} (hh : Enough X h) (s0 : CellState n p) (h0 : CellInv X q h s0) :
    ∀ (m k : ℕ) (s : CellState n p), CellReach env minEig X q h s0 k s →
      (0 < k ∨ (s0.cov - minEig • (1 : Matrix (Fin p) (Fin p) ℝ)).PosSemidef) →
      ∃ s' k', cellLoop env minEig crit X q h m s = .ok s' ∧ CellReach env minEig X q h s0 k' s' ∧
        k ≤ k' ∧ k' ≤ k + m ∧ (0 < m → k < k')
  | 0, k, s, hs, _ => ⟨s, k, rfl, hs, le_rfl, le_rfl, fun h => absurd h (lt_irrefl 0)⟩
  | m + 1, k, s, hs, hk => by
    have hinv := (hs.inv ha hn hh h0).1
    obtain ⟨s1, conv, e1, e2, -, -, -⟩ := cellIter_ok env ha hn hh hinv
    have hdes := hs.descent ha hn hh h0 hk e1
    have hs1 := CellReach.succ hs e1
    have hg : objGreater s1.objective s.objective = false := by
      rw [e2.objective, hinv.objective, objGreater_some, decide_eq_false_iff_not, not_lt]
      exact hdes
    rw [cellLoop, e1]
    simp only [Except.bind]
    rw [hg]
    simp only [Bool.false_eq_true, if_false]
    by_cases hc : crit < conv
    · rw [if_pos hc]
      obtain ⟨s', k', f1, f2, f3, f4, -⟩ := cellLoop_good env ha hn hh s0 h0 m (k + 1) s1 hs1
        (Or.inl (Nat.succ_pos k))
      exact ⟨s', k', f1, f2, by omega, by omega, fun _ => by omega⟩
    · rw [if_neg hc]
      exact ⟨s1, k + 1, rfl, hs1, by omega, by omega, fun _ => by omega⟩

/-- Along the iteration the objective is non-increasing, from step `j` on. -/
theorem CellReach.antitone {env : CellEnv p} {minEig : ℝ} (ha : 0 < minEig) (hn : 1 < n) {X : Cells n p}
    {q : Fin p → ℝ} {h : ℕ} (hh : Enough X h) {s0 : CellState n p} (h0 : CellInv X q h s0) {j : ℕ}
    (hj : 0 < j ∨ (s0.cov - minEig • (1 : Matrix (Fin p) (Fin p) ℝ)).PosSemidef) {t : CellState n p}
    (ht : CellReach env minEig X q h s0 j t) : ∀ {k : ℕ} {s : CellState n p}, j ≤ k →
      CellReach env minEig X q h s0 k s →
      Spec.cellObjective X q s.W s.location s.cov ≤ Spec.cellObjective X q t.W t.location t.cov := by
  intro k
  induction k with
  | zero =>
    intro s hjk hs
    have : j = 0 := by omega
    subst this
    rw [hs.unique ht]
  | succ k ih =>
    intro s hjk hs
    rcases Nat.lt_or_ge k j with h1 | h1
    · have : j = k + 1 := by omega
      subst this
      rw [hs.unique ht]
    · cases hs with
      | succ hr hi =>
        refine (hr.descent ha hn hh h0 ?_ hi).trans (ih h1 hr)
        rcases hj with hj | hj
        · exact Or.inl (by omega)
        · exact Or.inr hj

/-! ## The start of the iteration -/

theorem initialW_noMissing (X : Cells n p) : Spec.NoMissing X (initialW X) := by
  intro i j h
  exact Option.isSome_iff_ne_none.1 h

theorem initialW_atLeast {X : Cells n p} {h : ℕ} (hh : Enough X h) : Spec.AtLeast h (initialW X) := by
  intro j
  refine (hh j).trans (le_of_eq ?_)
  congr 1
  ext i
  simp [initialW, Option.isSome_iff_ne_none]

/-- The state before the first C-step. -/
noncomputable def cellStart (env : CellEnv p) (X : Cells n p) (loc0 : Fin p → ℝ)
    (cov0 : Matrix (Fin p) (Fin p) ℝ) : CellState n p :=
  { W := initialW X, location := loc0, cov := cov0, covInv := cov0⁻¹,
    objective := some (Spec.cellObjective X (cellQ env cov0⁻¹) (initialW X) loc0 cov0) }

theorem cellStart_inv (env : CellEnv p) {X : Cells n p} {h : ℕ} (hh : Enough X h) (loc0 : Fin p → ℝ)
    {cov0 : Matrix (Fin p) (Fin p) ℝ} (hS : cov0.PosDef) :
    CellInv X (cellQ env cov0⁻¹) h (cellStart env X loc0 cov0) :=
  ⟨hS, rfl, initialW_noMissing X, initialW_atLeast hh, rfl⟩

theorem cSteps_eq (env : CellEnv p) {cfg : CellConfig} (hm : 1 ≤ cfg.maxSteps) (hc : cfg.crit < 1) (alpha : ℝ)
    (X : Cells n p) (loc0 : Fin p → ℝ) {cov0 : Matrix (Fin p) (Fin p) ℝ} (hS : cov0.PosDef) :
    cStepsUntilConvergence env cfg alpha X loc0 cov0 cov0⁻¹ =
      cellLoop env cfg.minEig cfg.crit X (cellQ env cov0⁻¹) (cellH alpha n) cfg.maxSteps.toNat
        (cellStart env X loc0 cov0) := by
  unfold cStepsUntilConvergence
  rw [if_neg (by omega), penalised_eq (initialW_noMissing X) _ _ hS]
  simp only [Except.bind]
  rw [if_neg (by omega), if_neg (by rintro (h | h) <;> [omega; linarith])]
  rfl

/-- The whole run: it ends normally; either the result is the state after some C-step, or the first C-step
increased the objective and the result is the start with the flags of that C-step. -/
theorem cSteps_run (env : CellEnv p) {cfg : CellConfig} (ha : 0 < cfg.minEig) (hm : 1 ≤ cfg.maxSteps)
    (hc : cfg.crit < 1) (hn : 1 < n) {alpha : ℝ} {X : Cells n p} (hh : Enough X (cellH alpha n))
    (loc0 : Fin p → ℝ) {cov0 : Matrix (Fin p) (Fin p) ℝ} (hS : cov0.PosDef) :
    ∃ s, cStepsUntilConvergence env cfg alpha X loc0 cov0 cov0⁻¹ = .ok s ∧
      ((∃ k : ℕ, 1 ≤ k ∧ (k : ℤ) ≤ cfg.maxSteps ∧
          CellReach env cfg.minEig X (cellQ env cov0⁻¹) (cellH alpha n) (cellStart env X loc0 cov0) k s ∧
          ∀ j ≤ k, ∀ t,
            CellReach env cfg.minEig X (cellQ env cov0⁻¹) (cellH alpha n) (cellStart env X loc0 cov0) j t →
            Spec.cellObjective X (cellQ env cov0⁻¹) s.W s.location s.cov ≤
              Spec.cellObjective X (cellQ env cov0⁻¹) t.W t.location t.cov) ∨
        ∃ s1, CellReach env cfg.minEig X (cellQ env cov0⁻¹) (cellH alpha n) (cellStart env X loc0 cov0) 1 s1 ∧
          Spec.cellObjective X (cellQ env cov0⁻¹) (initialW X) loc0 cov0 <
            Spec.cellObjective X (cellQ env cov0⁻¹) s1.W s1.location s1.cov ∧
          Spec.cellObjective X (cellQ env cov0⁻¹) s1.W loc0 cov0 ≤
            Spec.cellObjective X (cellQ env cov0⁻¹) (initialW X) loc0 cov0 ∧
          s = { cellStart env X loc0 cov0 with W := s1.W }) := by
  rw [cSteps_eq env hm hc alpha X loc0 hS]
  set s0 := cellStart env X loc0 cov0 with hs0
  set q := cellQ env cov0⁻¹ with hq
  have h0 : CellInv X q (cellH alpha n) s0 := cellStart_inv env hh loc0 hS
  obtain ⟨m, hm'⟩ : ∃ m, cfg.maxSteps.toNat = m + 1 := ⟨cfg.maxSteps.toNat - 1, by omega⟩
  rw [hm']
  obtain ⟨s1, conv, e1, e2, -, e4, -⟩ := cellIter_ok env ha hn hh h0
  have hr1 := CellReach.succ (CellReach.zero (s0 := s0)) e1
  rw [cellLoop, e1]
  simp only [Except.bind]
  rw [e2.objective, h0.objective, objGreater_some]
  by_cases hgt : Spec.cellObjective X q s0.W s0.location s0.cov < Spec.cellObjective X q s1.W s1.location s1.cov
  · rw [if_pos (decide_eq_true hgt)]
    exact ⟨_, rfl, Or.inr ⟨s1, hr1, hgt, e4, rfl⟩⟩
  · rw [if_neg (by simpa using hgt)]
    have hmin : ∀ k s, 1 ≤ k → CellReach env cfg.minEig X q (cellH alpha n) s0 k s → ∀ j ≤ k, ∀ t,
        CellReach env cfg.minEig X q (cellH alpha n) s0 j t →
        Spec.cellObjective X q s.W s.location s.cov ≤ Spec.cellObjective X q t.W t.location t.cov := by
      intro k s hk hs j hj t ht
      rcases Nat.eq_zero_or_pos j with h | h
      · subst h
        cases ht
        exact (CellReach.antitone ha hn hh h0 (Or.inl Nat.one_pos) hr1 hk hs).trans (not_lt.1 hgt)
      · exact CellReach.antitone ha hn hh h0 (Or.inl h) ht hj hs
    by_cases hcr : cfg.crit < conv
    · rw [if_pos hcr]
      obtain ⟨s', k', f1, f2, f3, f4, -⟩ := cellLoop_good env (crit := cfg.crit) ha hn hh s0 h0 m 1 s1 hr1
        (Or.inl Nat.one_pos)
      exact ⟨s', f1, Or.inl ⟨k', f3, by omega, f2, hmin k' s' f3 f2⟩⟩
    · rw [if_neg hcr]
      exact ⟨s1, rfl, Or.inl ⟨1, le_rfl, by omega, hr1, hmin 1 s1 le_rfl hr1⟩⟩

/-! ## C44 -/

theorem pyRound_le {x : ℝ} {m : ℤ} (h : x ≤ m) : pyRound x ≤ m := by
  have h1 : ⌊x⌋ ≤ m := by
    have := (Int.floor_le x).trans h
    exact_mod_cast this
  have h2 : (1 / 2 : ℝ) ≤ x - ⌊x⌋ → ⌊x⌋ + 1 ≤ m := by
    intro hx
    have : (⌊x⌋ : ℝ) < m := by linarith
    exact_mod_cast this
  unfold pyRound
  split_ifs with a b c
  · exact h1
  · exact h2 b.le
  · exact h1
  · exact h2 (not_lt.1 a)

/-- Data that pass the check with a cutoff of at most 3 keep at least `h` cells per column after the cells
beyond 3 have been cleared. -/
theorem cellCheck_enough {cutoff alpha : ℝ} (hc : cutoff ≤ 3) (hn : 0 < n) {X : Cells n p}
    (h : cellCheck cutoff alpha X = .ok ()) : Enough (clearBeyond3 X) (cellH alpha n) := by
  classical
  unfold cellCheck at h
  split_ifs at h with a b c
  push Not at b
  intro j
  have hb := b j
  have hn' : (0 : ℝ) < n := by exact_mod_cast hn
  rw [div_le_iff₀ hn'] at hb
  set pres := Finset.univ.filter fun i => clearBeyond3 X i j ≠ none with hp
  have hcard : n ≤ pres.card + badCells cutoff X j := by
    have hsub : Finset.univ ⊆ pres ∪
        Finset.univ.filter fun i => X i j = none ∨ ∃ x, X i j = some x ∧ cutoff < |x| := by
      intro i _
      rw [Finset.mem_union, hp, Finset.mem_filter, Finset.mem_filter]
      cases hx : X i j with
      | none => exact Or.inr ⟨Finset.mem_univ i, Or.inl rfl⟩
      | some x =>
        by_cases h3 : 3 < |x|
        · exact Or.inr ⟨Finset.mem_univ i, Or.inr ⟨x, rfl, hc.trans_lt h3⟩⟩
        · exact Or.inl ⟨Finset.mem_univ i, by simp [clearBeyond3, hx, h3]⟩
    have := (Finset.card_le_card hsub).trans (Finset.card_union_le _ _)
    rw [Finset.card_univ, Fintype.card_fin] at this
    exact this
  have hle : alpha * n ≤ ((pres.card : ℤ) : ℝ) := by
    have : (n : ℝ) ≤ pres.card + badCells cutoff X j := by exact_mod_cast hcard
    push_cast
    nlinarith
  have := pyRound_le hle
  unfold cellH
  omega

/-- **C44**, the claim: for all data that passed the check, in every state of the iteration the update of `W`
marks no missing cell as clean and leaves at least `h` clean cells in each column. -/
def C44_statement : Prop :=
  ∀ (n p : ℕ) (env : CellEnv p) (cfg : CellConfig) (alpha : ℝ) (X : Cells n p) (loc0 : Fin p → ℝ)
    (cov0 : Matrix (Fin p) (Fin p) ℝ), 0 < cfg.minEig → 1 < n → 1 / 2 ≤ alpha → alpha ≤ 1 → cov0.PosDef →
    cellCheck cfg.cutoff alpha X = .ok () → ∀ (k : ℕ) (s : CellState n p),
      CellReach env cfg.minEig (clearBeyond3 X) (cellQ env cov0⁻¹) (cellH alpha n)
        (cellStart env (clearBeyond3 X) loc0 cov0) k s →
      ∀ W', updateW (clearBeyond3 X) s.cov s.covInv s.location (cellQ env cov0⁻¹) (cellH alpha n) s.W = .ok W' →
        Spec.NoMissing (clearBeyond3 X) W' ∧ Spec.AtLeast (cellH alpha n) W'

/-- **C44** when the cutoff of the check is at most 3 (a `quantile` up to 0.9973): the invariant holds in every
state of the iteration, and the update of `W` never fails.  Missing for the full claim: larger cutoffs, where
it is false (`C44_violated`). -/
theorem C44_flags_partial (env : CellEnv p) {cfg : CellConfig} (hcut : cfg.cutoff ≤ 3) {alpha : ℝ}
    {X : Cells n p} (loc0 : Fin p → ℝ) {cov0 : Matrix (Fin p) (Fin p) ℝ} (ha : 0 < cfg.minEig) (hn : 1 < n)
    (hS : cov0.PosDef) (hck : cellCheck cfg.cutoff alpha X = .ok ()) {k : ℕ} {s : CellState n p}
    (hs : CellReach env cfg.minEig (clearBeyond3 X) (cellQ env cov0⁻¹) (cellH alpha n)
      (cellStart env (clearBeyond3 X) loc0 cov0) k s) :
    (Spec.NoMissing (clearBeyond3 X) s.W ∧ Spec.AtLeast (cellH alpha n) s.W) ∧
    ∃ W', updateW (clearBeyond3 X) s.cov s.covInv s.location (cellQ env cov0⁻¹) (cellH alpha n) s.W = .ok W' ∧
      Spec.NoMissing (clearBeyond3 X) W' ∧ Spec.AtLeast (cellH alpha n) W' := by
  have hh := cellCheck_enough hcut (by omega) hck
  have hinv := (hs.inv ha hn hh (cellStart_inv env hh loc0 hS)).1
  obtain ⟨W', w1, w2, w3, -⟩ := updateW_spec hinv.posDef s.location (cellQ env cov0⁻¹) hh hinv.noMissing
  exact ⟨⟨hinv.noMissing, hinv.atLeast⟩, W', by rw [hinv.inv]; exact w1, w2, w3⟩

/-- **C44**: the flags that the C-steps return, also after the early return. -/
theorem C44_result_partial (env : CellEnv p) {cfg : CellConfig} (hcut : cfg.cutoff ≤ 3) {alpha : ℝ}
    {X : Cells n p} (loc0 : Fin p → ℝ) {cov0 : Matrix (Fin p) (Fin p) ℝ} (ha : 0 < cfg.minEig) (hn : 1 < n)
    (hm : 1 ≤ cfg.maxSteps) (hc : cfg.crit < 1)
    (hS : cov0.PosDef) (hck : cellCheck cfg.cutoff alpha X = .ok ()) {s : CellState n p}
    (hs : cStepsUntilConvergence env cfg alpha (clearBeyond3 X) loc0 cov0 cov0⁻¹ = .ok s) :
    Spec.NoMissing (clearBeyond3 X) s.W ∧ Spec.AtLeast (cellH alpha n) s.W := by
  have hh := cellCheck_enough hcut (by omega) hck
  have h0 := cellStart_inv env hh loc0 hS
  obtain ⟨s', e, hr⟩ := cSteps_run env ha hm hc hn hh loc0 hS
  rw [e] at hs
  have := Except.ok.inj hs
  subst this
  rcases hr with ⟨k, -, -, hk, -⟩ | ⟨s1, h1, -, -, rfl⟩
  · have := (hk.inv ha hn hh h0).1
    exact ⟨this.noMissing, this.atLeast⟩
  · have := (h1.inv ha hn hh h0).1
    exact ⟨this.noMissing, this.atLeast⟩

/-! ## C45 and C117 -/

/-- **C45**, the claim: what the C-steps return is the state after one of them, and its objective is not larger
than that of any earlier one. -/
def C45_statement : Prop :=
  ∀ (n p : ℕ) (env : CellEnv p) (cfg : CellConfig) (alpha : ℝ) (X : Cells n p) (loc0 : Fin p → ℝ)
    (cov0 : Matrix (Fin p) (Fin p) ℝ), 0 < cfg.minEig → 1 < n → 1 / 2 ≤ alpha → alpha ≤ 1 → cov0.PosDef →
    Enough X (cellH alpha n) → ∀ s, cStepsUntilConvergence env cfg alpha X loc0 cov0 cov0⁻¹ = .ok s →
      ∃ (k : ℕ) (t : CellState n p),
        CellReach env cfg.minEig X (cellQ env cov0⁻¹) (cellH alpha n) (cellStart env X loc0 cov0) k t ∧
        s.W = t.W ∧ s.location = t.location ∧ s.cov = t.cov ∧
        ∀ j ≤ k, ∀ u,
          CellReach env cfg.minEig X (cellQ env cov0⁻¹) (cellH alpha n) (cellStart env X loc0 cov0) j u →
          Spec.cellObjective X (cellQ env cov0⁻¹) s.W s.location s.cov ≤
            Spec.cellObjective X (cellQ env cov0⁻¹) u.W u.location u.cov

/-- **C45** when the initial covariance respects the lower bound on the eigenvalues: the run ends normally
after at least one C-step, with the state of its last C-step, whose objective is the smallest so far.
Missing for the full claim: other initial covariances, where it is false (`C45_violated`). -/
theorem C45_consistent_partial (env : CellEnv p) {cfg : CellConfig} (ha : 0 < cfg.minEig)
    (hm : 1 ≤ cfg.maxSteps) (hc : cfg.crit < 1) (hn : 1 < n) {alpha : ℝ} {X : Cells n p}
    (hh : Enough X (cellH alpha n)) (loc0 : Fin p → ℝ) {cov0 : Matrix (Fin p) (Fin p) ℝ} (hS : cov0.PosDef)
    (hb : (cov0 - cfg.minEig • (1 : Matrix (Fin p) (Fin p) ℝ)).PosSemidef) :
    ∃ s, cStepsUntilConvergence env cfg alpha X loc0 cov0 cov0⁻¹ = .ok s ∧
      ∃ k : ℕ, 1 ≤ k ∧ (k : ℤ) ≤ cfg.maxSteps ∧
        CellReach env cfg.minEig X (cellQ env cov0⁻¹) (cellH alpha n) (cellStart env X loc0 cov0) k s ∧
        ∀ j ≤ k, ∀ u,
          CellReach env cfg.minEig X (cellQ env cov0⁻¹) (cellH alpha n) (cellStart env X loc0 cov0) j u →
          Spec.cellObjective X (cellQ env cov0⁻¹) s.W s.location s.cov ≤
            Spec.cellObjective X (cellQ env cov0⁻¹) u.W u.location u.cov := by
  obtain ⟨s, e, hr⟩ := cSteps_run env ha hm hc hn hh loc0 hS
  refine ⟨s, e, ?_⟩
  rcases hr with h | ⟨s1, h1, hlt, -, -⟩
  · exact h
  · exfalso
    have h0 := cellStart_inv env hh loc0 hS
    exact absurd (CellReach.antitone ha hn hh h0 (Or.inr hb) CellReach.zero (Nat.zero_le 1) h1) (not_le.2 hlt)

/-- **C45**, the objective for every positive definite start: whatever branch is taken, the objective of the
returned location, covariance and flags is not larger than at the start. -/
theorem C45_objective_partial (env : CellEnv p) {cfg : CellConfig} (ha : 0 < cfg.minEig)
    (hm : 1 ≤ cfg.maxSteps) (hc : cfg.crit < 1) (hn : 1 < n) {alpha : ℝ} {X : Cells n p}
    (hh : Enough X (cellH alpha n)) (loc0 : Fin p → ℝ) {cov0 : Matrix (Fin p) (Fin p) ℝ} (hS : cov0.PosDef) :
    ∃ s, cStepsUntilConvergence env cfg alpha X loc0 cov0 cov0⁻¹ = .ok s ∧
      Spec.cellObjective X (cellQ env cov0⁻¹) s.W s.location s.cov ≤
        Spec.cellObjective X (cellQ env cov0⁻¹) (initialW X) loc0 cov0 := by
  obtain ⟨s, e, hr⟩ := cSteps_run env ha hm hc hn hh loc0 hS
  refine ⟨s, e, ?_⟩
  rcases hr with ⟨k, -, -, -, h⟩ | ⟨s1, -, -, hle, rfl⟩
  · have := h 0 (Nat.zero_le k) (cellStart env X loc0 cov0) CellReach.zero
    simp only [cellStart] at this
    exact this
  · simp only [cellStart]
    exact hle

/-- **C117**: from the first C-step on, no C-step increases the objective. -/
theorem C117_descent (env : CellEnv p) {minEig : ℝ} (ha : 0 < minEig) (hn : 1 < n) {alpha : ℝ} {X : Cells n p}
    (hh : Enough X (cellH alpha n)) (loc0 : Fin p → ℝ) {cov0 : Matrix (Fin p) (Fin p) ℝ} (hS : cov0.PosDef)
    {k : ℕ} (hk : 1 ≤ k) {s s' : CellState n p}
    (hs : CellReach env minEig X (cellQ env cov0⁻¹) (cellH alpha n) (cellStart env X loc0 cov0) k s)
    (hs' : CellReach env minEig X (cellQ env cov0⁻¹) (cellH alpha n) (cellStart env X loc0 cov0) (k + 1) s') :
    Spec.cellObjective X (cellQ env cov0⁻¹) s'.W s'.location s'.cov ≤
      Spec.cellObjective X (cellQ env cov0⁻¹) s.W s.location s.cov :=
  CellReach.antitone ha hn hh (cellStart_inv env hh loc0 hS) (Or.inl hk) hs (Nat.le_succ k) hs'

/-- **C117**: one column of the update of `W` is the best admissible choice for that column. -/
theorem C117_column {X : Cells n p} {S : Matrix (Fin p) (Fin p) ℝ} (hS : S.PosDef) (mu q : Fin p → ℝ)
    {h : ℕ} (hh : Enough X h) {W : CellFlags n p} (hW : Spec.NoMissing X W) (j : Fin p) :
    ∃ W', updateColumn X S S⁻¹ mu q h W j = .ok W' ∧ (∀ i k, k ≠ j → W' i k = W i k) ∧
      ∀ V : CellFlags n p, (∀ i k, k ≠ j → V i k = W i k) → Spec.NoMissing X V →
        h ≤ (Finset.univ.filter fun i => V i j = true).card →
        Spec.cellObjective X q W' mu S ≤ Spec.cellObjective X q V mu S := by
  obtain ⟨W', w1, -, w3, -, w5⟩ := updateColumn_spec hS mu q hW j (hh j)
  refine ⟨W', w1, w3, fun V hV hV1 hV2 => ?_⟩
  have hVeq : V = setColumn W j fun i => V i j := by
    funext i k
    unfold setColumn
    by_cases hk : k = j
    · subst hk; simp
    · rw [Function.update_of_ne hk]; exact hV i k hk
  rw [hVeq]
  exact w5 (fun i => V i j) (fun i hi => hV1 i j hi) hV2

/-! ## C118 -/

/-- **C118**, the claim: data with enough present cells and a positive definite start give a result for every
`max_c_steps ≥ 0` and every positive `crit`. -/
def C118_statement : Prop :=
  ∀ (n p : ℕ) (env : CellEnv p) (cfg : CellConfig) (alpha : ℝ) (X : Cells n p) (loc0 : Fin p → ℝ)
    (cov0 : Matrix (Fin p) (Fin p) ℝ), 0 < cfg.minEig → 1 < n → 1 / 2 ≤ alpha → alpha ≤ 1 → cov0.PosDef →
    Enough X (cellH alpha n) → 0 ≤ cfg.maxSteps → 0 < cfg.crit →
    ∃ s, cStepsUntilConvergence env cfg alpha X loc0 cov0 cov0⁻¹ = .ok s

/-- **C118**: with at least one C-step and `crit` below 1 the C-steps end normally, and the covariance they
return is positive definite with the inverse returned beside it.  Missing: `max_c_steps = 0` and `crit ≥ 1`,
which raise (`C118_unbound`). -/
theorem C118_result_partial (env : CellEnv p) {cfg : CellConfig} (ha : 0 < cfg.minEig)
    (hm : 1 ≤ cfg.maxSteps) (hc : cfg.crit < 1) (hn : 1 < n) {alpha : ℝ} {X : Cells n p}
    (hh : Enough X (cellH alpha n)) (loc0 : Fin p → ℝ) {cov0 : Matrix (Fin p) (Fin p) ℝ} (hS : cov0.PosDef) :
    ∃ s, cStepsUntilConvergence env cfg alpha X loc0 cov0 cov0⁻¹ = .ok s ∧ s.cov.PosDef ∧ s.cov * s.covInv = 1 := by
  obtain ⟨s, e, hr⟩ := cSteps_run env ha hm hc hn hh loc0 hS
  have h0 := cellStart_inv env hh loc0 hS
  refine ⟨s, e, ?_⟩
  rcases hr with ⟨k, -, -, hk, -⟩ | ⟨s1, -, -, -, rfl⟩
  · have := (hk.inv ha hn hh h0).1
    exact ⟨this.posDef, by rw [this.inv]; exact Matrix.mul_nonsing_inv _ this.posDef.det_pos.ne'.isUnit⟩
  · exact ⟨hS, Matrix.mul_nonsing_inv _ hS.det_pos.ne'.isUnit⟩

/-- **C118**: without a C-step the call raises UnboundLocalError, whatever the data. -/
theorem C118_unbound (env : CellEnv p) {cfg : CellConfig} (hm : 0 ≤ cfg.maxSteps)
    (h : cfg.maxSteps = 0 ∨ 1 ≤ cfg.crit) (alpha : ℝ) (X : Cells n p) (loc0 : Fin p → ℝ)
    {cov0 : Matrix (Fin p) (Fin p) ℝ} (hS : cov0.PosDef) :
    cStepsUntilConvergence env cfg alpha X loc0 cov0 cov0⁻¹ = .error .unboundLocalError := by
  unfold cStepsUntilConvergence
  rw [if_neg (by omega), penalised_eq (initialW_noMissing X) _ _ hS]
  simp only [Except.bind]
  rw [if_neg (by omega), if_pos h]

end

end Robpy
