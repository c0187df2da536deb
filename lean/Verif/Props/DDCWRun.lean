import Verif.Props.DDCWWitness

/-! A complete run of `InitialDDCW` that returns: four rows and two uncorrelated variables. -/

namespace Robpy
open Matrix

/-- An `eigh` that returns the unit vectors for a diagonal matrix. -/
noncomputable def eighOfDiag {p : ℕ} (A : Matrix (Fin p) (Fin p) ℝ) (h : A.IsSymm) : Eigh A :=
  open Classical in
  if hd : A = diagonal A.diag then { w := A.diag, V := 1, orth := by simp, decomp := by simpa using hd }
  else eighSpectral A h

theorem eighOfDiag_eq {p : ℕ} {A : Matrix (Fin p) (Fin p) ℝ} (h : A.IsSymm) (hd : A = diagonal A.diag) :
    (eighOfDiag A h).V = 1 ∧ (eighOfDiag A h).w = A.diag := by
  unfold eighOfDiag
  rw [dif_pos hd]
  exact ⟨rfl, rfl⟩

/-- As `envPlain`, with a large cutoff for `DDC`. -/
noncomputable def envRun : DDCWEnv 2 := { envPlain 2 with eigh := eighOfDiag, ddcCutoff := 1000 }

/-- Four rows, two uncorrelated variables. -/
def cellsRun : Cells 4 2 := ![![some (-2), some 1], ![some (-1), some (-2)], ![some 1, some 2], ![some 2, some (-1)]]

/-- The rows in standardised units. -/
noncomputable def rowsRun : List (Fin 2 → ℝ) := [![-1, 1 / 2], ![-1 / 2, -1], ![1 / 2, 1], ![1, -1 / 2]]

theorem rowsRun_cov (k : ℝ) : npCov (rowsRun.map fun z i => k * z i) = diagonal fun _ => k ^ 2 * (5 / 6) := by
  ext i j
  fin_cases i <;> fin_cases j <;> norm_num [npCov, meanRow, mean, rowsRun] <;> ring

theorem wrapRun_column (j : Fin 2) : wrapColumn 1.5 4 1.540793 0.8622731 true 0 2 (rowsRun.map fun z => z j)
    = rowsRun.map fun z => 1 / Real.sqrt (5 / 32) * z j := by
  have hpos : 0 < Real.sqrt (5 / 32) := Real.sqrt_pos.2 (by norm_num)
  have hz : zWrapped 1.5 4 1.540793 0.8622731 0 2 (rowsRun.map fun z => z j) = rowsRun.map fun z => z j / 2 := by
    unfold zWrapped
    rw [List.map_map]
    apply List.map_congr_left
    intro z hz
    have hb : |z j| ≤ 1 := by
      simp only [rowsRun, List.mem_cons, List.not_mem_nil, or_false] at hz
      rcases hz with rfl | rfl | rfl | rfl <;> fin_cases j <;> norm_num [abs_le]
    show wrapPsi _ _ _ _ ((z j - 0) / noZero 2) = z j / 2
    have : noZero (2:ℝ) = 2 := by unfold noZero; norm_num
    rw [this, sub_zero]
    unfold wrapPsi
    rw [if_pos]
    rw [abs_div, abs_of_pos (by norm_num : (0:ℝ) < 2)]
    linarith
  have hm : mean (rowsRun.map fun z => z j / 2) = 0 := by
    fin_cases j <;> norm_num [mean, rowsRun]
  have hv : var (rowsRun.map fun z => z j / 2) = 5 / 32 := by
    unfold var
    rw [hm]
    fin_cases j <;> norm_num [mean, rowsRun]
  unfold wrapColumn
  simp only [hz, hm, hv, if_true]
  have : noZero (Real.sqrt (5 / 32)) = Real.sqrt (5 / 32) := by unfold noZero; rw [if_neg hpos.ne']
  rw [this, List.map_map]
  apply List.map_congr_left
  intro z _
  simp only [Function.comp_apply]
  field_simp
  ring

theorem wrapRun {κ : Type} (f : κ → Fin 2) :
    wrapRows (flooredEst envRun.est (1 / 100)) envRun.b envRun.c envRun.q1 envRun.q2
      (rowsRun.map fun z i => z (f i)) = rowsRun.map fun z (i : κ) => 1 / Real.sqrt (5 / 32) * z (f i) := by
  unfold wrapRows
  have e : ∀ i : κ, (rowsRun.map fun z i => z (f i)).map (fun z : κ → ℝ => z i) = rowsRun.map fun z => z (f i) := by
    intro i; rw [List.map_map]; rfl
  have hest : ∀ l, flooredEst envRun.est (1 / 100) l = (some 0, some 2) := by
    intro l
    show ((some 0 : Option ℝ), some (if (2:ℝ) < 1 / 100 then 1 / 100 else 2)) = _
    rw [if_neg (by norm_num)]
  simp only [e, hest, Option.getD_some]
  have hcol : ∀ i : κ, wrapColumn envRun.b envRun.c envRun.q1 envRun.q2 true 0 2 (rowsRun.map fun z => z (f i))
    = rowsRun.map fun z => 1 / Real.sqrt (5 / 32) * z (f i) := fun i => wrapRun_column (f i)
  simp only [hcol]
  rfl

theorem stageRun : ddcwStage envRun (1 / 100) (fun _ => some 2) (List.ofFn fun k i =>
    (cellsRun k i).map fun x => x / 2) = .ok (diagonal fun _ => 4) := by
  classical
  have hrows : completeRows (List.ofFn fun k i => (cellsRun k i).map fun x => x / 2) = some rowsRun := by
    unfold completeRows
    rw [if_pos]
    · congr 1
      rw [List.map_ofFn]
      show [_, _, _, _] = _
      unfold rowsRun
      congr 1
      · ext j; fin_cases j <;> norm_num [cellsRun]
      congr 1
      · ext j; fin_cases j <;> norm_num [cellsRun]
      congr 1
      · ext j; fin_cases j <;> norm_num [cellsRun]
      congr 1
      · ext j; fin_cases j <;> norm_num [cellsRun]
    · intro r hr j
      rw [List.mem_ofFn] at hr
      obtain ⟨k, rfl⟩ := hr
      fin_cases k <;> fin_cases j <;> simp [cellsRun]
  have hc1 : npCov rowsRun = diagonal fun _ => 5 / 6 := by
    have := rowsRun_cov 1
    simpa using this
  obtain ⟨hV, hw⟩ := eighOfDiag_eq (npCov_isSymm rowsRun) (by rw [hc1]; simp)
  have hV' : (envRun.eigh (npCov rowsRun) (npCov_isSymm rowsRun)).V = 1 := hV
  have hw' : ∀ i, (envRun.eigh (npCov rowsRun) (npCov_isSymm rowsRun)).w i = 5 / 6 := by
    intro i
    refine (congrFun hw i).trans ?_
    rw [hc1]; simp
  have hall : ∀ i, 1 / 100 < (envRun.eigh (npCov rowsRun) (npCov_isSymm rowsRun)).w i := by
    intro i; rw [hw']; norm_num
  unfold ddcwStage
  rw [hrows]
  simp only
  rw [if_neg (by simp [rowsRun])]
  generalize hE : envRun.eigh (npCov rowsRun) (npCov_isSymm rowsRun) = e at *
  have hP : projectRows (1 / 100) e rowsRun = rowsRun.map fun z i => z i.1 := by
    unfold projectRows
    apply List.map_congr_left
    intro z _
    funext i
    rw [hV']
    simp [Matrix.one_apply]
  rw [hP]
  have hcard : Fintype.card {i // 1 / 100 < e.w i} = 2 := by
    rw [Fintype.card_subtype, Finset.filter_true_of_mem fun i _ => hall i]; rfl
  rw [if_neg (by rw [hcard]; norm_num), if_neg (by
    rintro ⟨i, h⟩
    rcases h with h | h
    · cases h
    · cases h)]
  rw [wrapRun]
  have hcov : ∀ V : Matrix (Fin 2) {i // 1 / 100 < e.w i} ℝ, (∀ j i, V j i = e.V j i.1) → V *
      npCov (rowsRun.map fun z (i : {i // 1 / 100 < e.w i}) => 1 / Real.sqrt (5 / 32) * z i.1) * Vᵀ
      = diagonal fun _ => (1 / Real.sqrt (5 / 32)) ^ 2 * (5 / 6) := by
    intro V hVe
    rw [← rowsRun_cov]
    ext i j
    rw [Matrix.mul_apply, Finset.sum_eq_single ⟨j, hall j⟩]
    · rw [Matrix.mul_apply, Finset.sum_eq_single ⟨i, hall i⟩]
      · simp only [hVe, hV', Matrix.transpose_apply, Matrix.one_apply_eq, one_mul, mul_one]
        simp only [npCov, meanRow, List.map_map, List.length_map]
        rfl
      · intro b _ hb
        rw [hVe, hV', Matrix.one_apply_ne (fun h => hb (Subtype.ext h.symm)), zero_mul]
      · intro h; exact absurd (Finset.mem_univ _) h
    · intro b _ hb
      rw [Matrix.transpose_apply, hVe, hV', Matrix.one_apply_ne (fun h => hb (Subtype.ext h.symm)), mul_zero]
    · intro h; exact absurd (Finset.mem_univ _) h
  rw [hcov _ fun _ _ => rfl]
  have hk : (1 / Real.sqrt (5 / 32)) ^ 2 * (5 / 6) = 16 / 3 := by
    rw [div_pow, Real.sq_sqrt (by norm_num)]; norm_num
  rw [hk]
  rw [if_neg (by rintro ⟨j, h⟩; rw [Matrix.diagonal_apply_eq] at h; norm_num at h)]
  have hcorr : covarianceToCorrelation (diagonal fun _ : Fin 2 => (16 / 3 : ℝ)) = 1 := by
    ext i j
    unfold covarianceToCorrelation
    by_cases hij : i = j
    · subst hij
      rw [Matrix.diagonal_apply_eq, Matrix.one_apply_eq, Real.mul_self_sqrt (by norm_num)]
      norm_num
    · rw [Matrix.diagonal_apply_ne _ hij, Matrix.one_apply_ne hij, zero_div]
  rw [hcorr, C33_unchanged _ _ _ _ Matrix.isSymm_one (by
    have : (1 : Matrix (Fin 2) (Fin 2) ℝ) - (1 / 100 : ℝ) • 1 = (99 / 100 : ℝ) • 1 := by
      rw [← one_smul ℝ (1 : Matrix (Fin 2) (Fin 2) ℝ), smul_smul, ← sub_smul]; norm_num
    rw [this]
    exact Matrix.PosSemidef.one.smul (by norm_num))]
  congr 1
  ext i j
  by_cases hij : i = j
  · subst hij; rw [Matrix.one_apply_eq, Matrix.diagonal_apply_eq]; norm_num
  · rw [Matrix.one_apply_ne hij, Matrix.diagonal_apply_ne _ hij]; simp

/-- The scale of residuals without outliers. -/
theorem osm_quadratic {l : List ℝ} {s Q : ℝ} (hs1 : 3 / 4 ≤ s) (hm : npMedian l = some 0) (hs : madRaw l = some s)
    (hb : ∀ x ∈ l, |x| ≤ 2 * s) (hq : mean (l.map fun x => x ^ 2) = Q) :
    ∃ a, cellwiseOSM (l.map some) = .ok (a, some (Real.sqrt (1 / 0.845 * Q))) := by
  have hqp := normalQuartile_pos (K := ℝ)
  have h1 : s ≤ s / normalQuartile := by
    rw [le_div_iff₀ hqp]; unfold normalQuartile; nlinarith
  have hpos : (0:ℝ) < s / normalQuartile := by linarith
  refine ⟨oneStepLocation (.tukey 3) (1 / 10 ^ 12) l, ?_⟩
  unfold cellwiseOSM oneStepM
  rw [if_neg (by simp)]
  have e : (l.map some).filterMap id = l := by simp
  simp only [e]
  congr 2
  unfold oneStepScale
  rw [hm, hs]
  simp only
  rw [if_neg (by
    rw [not_lt]
    have : (1:ℝ) / 10 ^ 12 ≤ 3 / 4 := by norm_num
    linarith)]
  congr 1
  have hpsi : (l.map fun x => (Rho.huber (2.5:ℝ)).psi ((x - 0) / (s / normalQuartile)) ^ 2)
      = (l.map fun x => x ^ 2).map fun y => (1 / (s / normalQuartile)) ^ 2 * y := by
    rw [List.map_map]
    apply List.map_congr_left
    intro x hx
    show huberPsi 2.5 _ ^ 2 = _
    unfold huberPsi
    rw [if_pos (by
      rw [sub_zero, abs_div, abs_of_pos hpos, div_le_iff₀ hpos]
      have := hb x hx
      nlinarith)]
    simp only [Function.comp_apply]
    rw [sub_zero]; ring
  rw [hpsi]
  have hmean : mean ((l.map fun x => x ^ 2).map fun y => (1 / (s / normalQuartile)) ^ 2 * y)
      = (1 / (s / normalQuartile)) ^ 2 * Q := by
    rw [← hq]
    unfold mean
    rw [List.sum_map_mul_left, List.length_map, List.map_id']
    ring
  rw [hmean]
  have e2 : 1 / 0.845 * ((1 / (s / normalQuartile)) ^ 2 * Q)
      = (1 / (s / normalQuartile)) ^ 2 * (1 / 0.845 * Q) := by ring
  rw [e2, Real.sqrt_mul (sq_nonneg _), Real.sqrt_sq (by positivity), ← mul_assoc, mul_one_div_cancel hpos.ne', one_mul]

/-- The scale of the residuals of both columns is not small. -/
theorem osmRun {l : List ℝ} (hm : npMedian l = some 0) (hs : madRaw l = some (3 / 4)) (hb : ∀ x ∈ l, |x| ≤ 1)
    (hq : mean (l.map fun x => x ^ 2) = 5 / 8) :
    ∃ a v, cellwiseOSM (l.map some) = .ok (a, some v) ∧ 1 / 2 ≤ v := by
  obtain ⟨a, ha⟩ := osm_quadratic (by norm_num) hm hs (fun x hx => (hb x hx).trans (by norm_num)) hq
  refine ⟨a, _, ha, ?_⟩
  apply Real.le_sqrt_of_sq_le
  norm_num

/-- `DDC` on these data: it flags nothing. -/
theorem ddcRun : ∃ d, ddcwDDC envRun cellsRun = .ok d ∧ (∀ j, d.location j = some 0 ∧ d.scale j = some 2) ∧
    (∀ k i, d.cellwise k i = false) ∧ ∀ k, d.rowOut k = false := by
  classical
  have hz : ∀ k : Fin 4, _ := fun k => zCells_value (env := envRun) (l0 := 0) (l1 := 0) (s0 := 2) (s1 := 2) (by norm_num)
    (by norm_num) (X := cellsRun) k
  set L : List (Option ℝ) := [some 0, some 0] with hL
  set S : List (Option ℝ) := [some 2, some 2] with hS
  have hcheck : ddcCheck (ddcwNumbers envRun) (frameOf cellsRun) = .ok () := by
    unfold ddcCheck
    rw [if_neg (by simp [frameOf]), if_neg]
    rw [List.any_eq_true]
    rintro ⟨i, hi, h⟩
    have hi2 : i < 2 := List.mem_range.1 hi
    have h4 : distinctCells (ddcwNumbers envRun) (frameOf cellsRun) i = 4 := by
      interval_cases i
      · exact distinctCells_four (a := -2) (b := -1) (c := 1) (d := 2) rfl (by norm_num)
      · exact distinctCells_four (a := 1) (b := -2) (c := 2) (d := -1) rfl (by norm_num)
    rw [h4] at h
    simp at h
  have hsc : fitScaler (ddcwNumbers envRun) (replaceInf (ddcwNumbers envRun) (frameOf cellsRun)) (List.range 2) [] []
      = (.ok (), L, S) := rfl
  -- the standardised cells
  let A : Fin 2 → ℕ → ℝ := fun i k => ((cellsRun (Fin.ofNat 4 k) i).getD 0 - 0) / 2
  have hzA : ∀ k < 4, ∀ i : Fin 2, zCells (ddcwNumbers envRun) L S (frameOf cellsRun) k i = some (A i k) := by
    intro k hk i
    have h := hz ⟨k, hk⟩
    have hk' : Fin.ofNat 4 k = ⟨k, hk⟩ := Fin.ext (Nat.mod_eq_of_lt hk)
    have hsome : ∀ (k : Fin 4) (i : Fin 2), cellsRun k i = some ((cellsRun k i).getD 0) := by
      intro k i; fin_cases k <;> fin_cases i <;> rfl
    fin_cases i
    · refine h.1.trans ?_
      show _ = some (((cellsRun (Fin.ofNat 4 k) 0).getD 0 - 0) / 2)
      rw [hk', hsome ⟨k, hk⟩ 0]; rfl
    · refine h.2.trans ?_
      show _ = some (((cellsRun (Fin.ofNat 4 k) 1).getD 0 - 0) / 2)
      rw [hk', hsome ⟨k, hk⟩ 1]; rfl
  have hA1 : ∀ i k, |A i k| ≤ 1 := by
    intro i k
    have : ∀ (i : Fin 2) (m : Fin 4), |((cellsRun m i).getD 0 - 0) / 2| ≤ (1:ℝ) := by
      intro i m
      fin_cases m <;> fin_cases i <;> norm_num [cellsRun, abs_le]
    exact this i _
  have hu : ∀ k < 4, ∀ i : Fin 2, univariateFlag (ddcwNumbers envRun) (some envRun.ddcCutoff)
      (zCells (ddcwNumbers envRun) L S (frameOf cellsRun) k i) = some (A i k) := by
    intro k hk i
    rw [hzA k hk i]
    unfold univariateFlag
    rw [if_neg]
    show ¬ liftRel (· < ·) (some 1000) (some |A i k|) = true
    unfold liftRel
    simp only [decide_eq_true_eq, not_lt]
    linarith [hA1 i k]
  have hcol : ∀ i : Fin 2, (colList 4 (zCells (ddcwNumbers envRun) L S (frameOf cellsRun)) i).filter
      (ddcwNumbers envRun).ok = ((List.range 4).map (A i)).map some := by
    intro i
    have e : colList 4 (zCells (ddcwNumbers envRun) L S (frameOf cellsRun)) i = ((List.range 4).map (A i)).map some := by
      unfold colList
      rw [List.map_map]
      apply List.map_congr_left
      intro k hk
      exact hzA k (List.mem_range.1 hk) i
    rw [e, List.filter_eq_self]
    intro x hx
    obtain ⟨y, -, rfl⟩ := List.mem_map.1 hx
    rfl
  have hosm : ∀ i : Fin 2, ∃ a v, cellwiseOSM (((List.range 4).map (A i)).map some) = .ok (a, some v) ∧ 1 / 2 ≤ v := by
    intro i
    have hr : List.range 4 = [0, 1, 2, 3] := rfl
    have hl : (List.range 4).map (A i) = if i = 0 then [-1, -1 / 2, 1 / 2, 1] else [1 / 2, -1, 1, -1 / 2] := by
      rw [hr]
      fin_cases i <;> norm_num [A, cellsRun, Fin.ofNat]
    rw [hl]
    have key : ∀ l : List ℝ, l.Perm [-1, -1 / 2, 1 / 2, 1] → ∃ a v, cellwiseOSM (l.map some) = .ok (a, some v) ∧ 1 / 2 ≤ v := by
      intro l hp
      have hm : npMedian l = some 0 := by
        rw [npMedian_perm hp]
        exact npMedian_eq_some_iff.2 ⟨-1 / 2, 1 / 2, by norm_num [Spec.IsKthSmallest, List.countP_cons],
          by norm_num [Spec.IsKthSmallest, List.countP_cons], by norm_num⟩
      refine osmRun hm ?_ ?_ ?_
      · unfold madRaw
        rw [hm]
        simp only [sub_zero]
        rw [npMedian_perm (hp.map _)]
        simp only [List.map_cons, List.map_nil]
        norm_num [abs_div]
        exact npMedian_eq_some_iff.2 ⟨1 / 2, 1, by norm_num [Spec.IsKthSmallest, List.countP_cons],
          by norm_num [Spec.IsKthSmallest, List.countP_cons], by norm_num⟩
      · intro x hx
        have := hp.mem_iff.1 hx
        simp only [List.mem_cons, List.not_mem_nil, or_false] at this
        rcases this with rfl | rfl | rfl | rfl <;> norm_num [abs_div]
      · unfold mean
        rw [(hp.map _).sum_eq, (hp.map _).length_eq]
        norm_num
    fin_cases i
    · exact key _ (List.Perm.refl _)
    · refine key _ ?_
      show [(1 / 2 : ℝ), -1, 1, -1 / 2].Perm [-1, -1 / 2, 1 / 2, 1]
      refine (List.Perm.swap (-1) (1 / 2) _).trans (List.Perm.cons _ ?_)
      refine (List.Perm.cons _ (List.Perm.swap _ _ _)).trans ?_
      exact List.Perm.swap _ _ _
  obtain ⟨d, rs, t, hd, hls, hrs, hres, hcw, ht, hrow, -⟩ := ddcwDDC_unrelated (env := envRun) (X := cellsRun) hcheck hsc
    (by
      intro i hi j hj hij
      refine ⟨0, by norm_num, ?_⟩
      have e : commonRows (ddcwNumbers envRun) 4 (fun k i => univariateFlag (ddcwNumbers envRun) (some envRun.ddcCutoff)
          (zCells (ddcwNumbers envRun) L S (frameOf cellsRun) k i)) i j
          = cellPairs ((List.range 4).map fun k => (A ⟨i, hi⟩ k, A ⟨j, hj⟩ k)) := by
        unfold commonRows cellPairs
        rw [List.map_map]
        have e : ((List.range 4).map fun k => (univariateFlag (ddcwNumbers envRun) (some envRun.ddcCutoff)
            (zCells (ddcwNumbers envRun) L S (frameOf cellsRun) k i), univariateFlag (ddcwNumbers envRun)
            (some envRun.ddcCutoff) (zCells (ddcwNumbers envRun) L S (frameOf cellsRun) k j)))
            = (List.range 4).map ((fun q : ℝ × ℝ => ((some q.1 : Option ℝ), (some q.2 : Option ℝ))) ∘
              fun k => (A ⟨i, hi⟩ k, A ⟨j, hj⟩ k)) := by
          apply List.map_congr_left
          intro k hk
          have h1 := hu k (List.mem_range.1 hk) ⟨i, hi⟩
          have h2 := hu k (List.mem_range.1 hk) ⟨j, hj⟩
          simp only at h1 h2
          rw [h1, h2]; rfl
        rw [e, List.filter_eq_self]
        intro q hq
        obtain ⟨k, -, rfl⟩ := List.mem_map.1 hq
        rfl
      rw [e]
      have h2 := pairCorr_small (round3 := envRun.round3) (cdf := envRun.cdf)
        (est := fun l => .ok (envRun.est (l.filterMap id)))
        (l := (List.range 4).map fun k => (A ⟨i, hi⟩ k, A ⟨j, hj⟩ k)) (by simp) (by
          intro q hq
          obtain ⟨k, -, rfl⟩ := List.mem_map.1 hq
          exact ⟨(hA1 _ _).trans (by norm_num), (hA1 _ _).trans (by norm_num)⟩)
      refine h2.trans ?_
      congr 1
      have hr : List.range 4 = [0, 1, 2, 3] := rfl
      rw [hr]
      unfold pearson centredSum mean
      interval_cases i <;> interval_cases j <;> first
        | exact absurd rfl hij
        | norm_num [A, cellsRun, Fin.ofNat])
    (by
      intro i hi
      obtain ⟨a, v, hv, hv2⟩ := hosm ⟨i, hi⟩
      have := hcol ⟨i, hi⟩
      simp only at this
      rw [this]
      exact ⟨a, v, hv, by linarith⟩)
    (by
      intro k hk
      have h := hzA k hk 0
      exact ⟨0, by norm_num, by
        intro h'
        have h'' : zCells (ddcwNumbers envRun) L S (frameOf cellsRun) k ((0 : Fin 2) : ℕ) = none := h'
        rw [h''] at h; cases h⟩)
  have hrv : ∀ i : Fin 2, ∃ v, rs i = some v ∧ 1 / 2 ≤ v := by
    intro i
    obtain ⟨a, v, hv, hv2⟩ := hosm i
    have := hrs i i.2
    rw [hcol i, hv] at this
    exact ⟨v, (Except.ok.inj this).symm, hv2⟩
  have hdiv : ∀ (k : ℕ) (_ : k < 4) (i : Fin 2), ∃ r : ℝ, |r| ≤ 2 ∧ (ddcwNumbers envRun).div
      (zCells (ddcwNumbers envRun) L S (frameOf cellsRun) k i) (rs i) = some r := by
    intro k hk i
    obtain ⟨v, hv, hv2⟩ := hrv i
    have hv0 : 0 < v := by linarith
    refine ⟨A i k / v, ?_, ?_⟩
    · rw [abs_div, abs_of_pos hv0, div_le_iff₀ hv0]
      linarith [hA1 i k]
    · rw [hzA k hk i, hv]
      show (if some v = some 0 then none else some (A i k / v)) = _
      rw [if_neg (by simpa using hv0.ne')]
  have hmean : ∀ k < 4, (ddcwNumbers envRun).nanmean ((List.range 2).map fun i => (ddcwNumbers envRun).chi2cdf
      ((ddcwNumbers envRun).mul ((ddcwNumbers envRun).div (zCells (ddcwNumbers envRun) L S (frameOf cellsRun) k i) (rs i))
        ((ddcwNumbers envRun).div (zCells (ddcwNumbers envRun) L S (frameOf cellsRun) k i) (rs i)))) = some 0 := by
    intro k hk
    have e : ((List.range 2).map fun i => (ddcwNumbers envRun).chi2cdf
      ((ddcwNumbers envRun).mul ((ddcwNumbers envRun).div (zCells (ddcwNumbers envRun) L S (frameOf cellsRun) k i) (rs i))
        ((ddcwNumbers envRun).div (zCells (ddcwNumbers envRun) L S (frameOf cellsRun) k i) (rs i)))) = [some 0, some 0] := by
      have hcell : ∀ i : Fin 2, (ddcwNumbers envRun).chi2cdf
          ((ddcwNumbers envRun).mul ((ddcwNumbers envRun).div (zCells (ddcwNumbers envRun) L S (frameOf cellsRun) k i) (rs i))
          ((ddcwNumbers envRun).div (zCells (ddcwNumbers envRun) L S (frameOf cellsRun) k i) (rs i))) = some 0 := by
        intro i
        obtain ⟨r, -, hr⟩ := hdiv k hk i
        rw [hr]; rfl
      exact congrArg₂ (fun a b => [a, b]) (hcell 0) (hcell 1)
    rw [e]
    have e3 : (ddcwNumbers envRun).nanmean [some 0, some 0]
        = if ([some (0:ℝ), some 0].filterMap id).isEmpty = true then none else some (mean ([some (0:ℝ), some 0].filterMap id)) := rfl
    have e4 : [some (0:ℝ), some 0].filterMap id = [0, 0] := rfl
    rw [e3, e4]
    norm_num [mean]
  have ht2 : t.2 = some 0 := by
    have e : ((List.range 4).map fun k => (ddcwNumbers envRun).nanmean ((List.range 2).map fun i =>
        (ddcwNumbers envRun).chi2cdf ((ddcwNumbers envRun).mul
          ((ddcwNumbers envRun).div (zCells (ddcwNumbers envRun) L S (frameOf cellsRun) k i) (rs i))
          ((ddcwNumbers envRun).div (zCells (ddcwNumbers envRun) L S (frameOf cellsRun) k i) (rs i)))))
        = [(0:ℝ), 0, 0, 0].map some := by
      rw [List.map_congr_left (g := fun _ => some (0:ℝ)) fun k hk => hmean k (List.mem_range.1 hk)]
      rfl
    rw [e] at ht
    have hmed : npMedian [(0:ℝ), 0, 0, 0] = some 0 := npMedian_eq_some_iff.2
      ⟨0, 0, by norm_num [Spec.IsKthSmallest, List.countP_cons], by norm_num [Spec.IsKthSmallest, List.countP_cons],
        by norm_num⟩
    have hmad : madRaw [(0:ℝ), 0, 0, 0] = some 0 := by
      unfold madRaw; rw [hmed]; simpa using hmed
    obtain ⟨w, hw, -, -, h0⟩ := C08_scale (.huber 2.5) (by norm_num [Rho.const]) 0.845 (1 / 10 ^ 12) (by norm_num)
      [0, 0, 0, 0] 0 hmad
    unfold cellwiseOSM oneStepM at ht
    rw [if_neg (by simp)] at ht
    have e2 : ([(0:ℝ), 0, 0, 0].map some).filterMap id = [0, 0, 0, 0] := by simp
    simp only [e2, hw, h0 (by norm_num)] at ht
    rw [← Except.ok.inj ht]
  refine ⟨d, hd, ?_, ?_, ?_⟩
  · intro j
    have := hls j
    fin_cases j <;> exact this
  · intro k i
    rw [hcw, hres]
    obtain ⟨r, hr2, hr⟩ := hdiv k k.2 i
    rw [hr]
    show decide ((1000:ℝ) < |r|) = false
    rw [decide_eq_false_iff_not]
    linarith
  · intro k
    rw [hrow, ht2]
    have hnone : ∀ x, (ddcwNumbers envRun).div x (some 0) = none := by
      intro x
      show (if some (0:ℝ) = some 0 then none else _) = none
      rw [if_pos rfl]
    rw [hnone]
    rfl

/-- `InitialDDCW().fit` on these data returns location 0 and covariance 4 I. -/
theorem fitRun : ddcwFit envRun 0.75 (1 / 100) cellsRun
    = .ok (fun _ => 0, diagonal (fun _ => 4), (diagonal fun _ => 4)⁻¹) := by
  classical
  obtain ⟨d, hd, hls, hcw, hrow⟩ := ddcRun
  have hal : cellAlpha 0.75 4 = .ok (0.75 : ℝ) := by
    unfold cellAlpha
    rw [if_pos (by norm_num)]
    norm_num
  have hsome : ∀ (k : Fin 4) (i : Fin 2), ∃ x, cellsRun k i = some x := by
    intro k i; fin_cases k <;> fin_cases i <;> exact ⟨_, rfl⟩
  have hsc : d.scale = fun _ => some 2 := by funext j; exact (hls j).2
  have hflag : ∀ k i, ddcwFlags envRun.argsort 0.75 d k i = false := by
    intro k i
    unfold ddcwFlags capColumn
    have e : (Finset.univ.filter fun k => d.cellwise k i = true) = ∅ := by
      rw [Finset.filter_eq_empty_iff]
      intro k _; rw [hcw]; simp
    rw [if_neg]
    · exact hcw k i
    · rw [e]; norm_num
  have hstd : ∀ x, stdCell (some x) (some 0) (some 2) = some (x / 2) := by
    intro x
    show (if (2:ℝ) = 0 then none else some ((x - 0) / 2)) = _
    rw [if_neg (by norm_num), sub_zero]
  have hZimp : ddcwImputed envRun.argsort 0.75 d cellsRun = fun k i => (cellsRun k i).map fun x => x / 2 := by
    funext k i
    unfold ddcwImputed
    obtain ⟨x, hx⟩ := hsome k i
    rw [hflag, hx, (hls i).1, (hls i).2]
    simp only [Bool.false_or, Option.isNone_some, Bool.false_eq_true, if_false]
    exact hstd x
  have hZ : (fun k i => stdCell (cellsRun k i) (d.location i) (d.scale i)) = fun k i => (cellsRun k i).map fun x => x / 2 := by
    funext k i
    obtain ⟨x, hx⟩ := hsome k i
    rw [hx, (hls i).1, (hls i).2]
    exact hstd x
  have hstage : ∀ f : Fin 4 → Bool, (∀ k, f k = false) → ddcwStage envRun (1 / 100) d.scale
      (((List.finRange 4).filter fun k => !f k).map (ddcwImputed envRun.argsort 0.75 d cellsRun))
      = .ok (diagonal fun _ => 4) := by
    intro f hf
    have e : (List.finRange 4).filter (fun k => !f k) = List.finRange 4 := by
      rw [List.filter_eq_self]
      intro k _; rw [hf]; rfl
    rw [e, hZimp, hsc, ← List.ofFn_eq_map]
    exact stageRun
  have hdet : (diagonal fun _ : Fin 2 => (4:ℝ)).det = 16 := by
    rw [Matrix.det_diagonal]; norm_num
  have hinv : npInv (diagonal fun _ : Fin 2 => (4:ℝ)) = .ok (diagonal fun _ => 1 / 4) := by
    unfold npInv
    rw [if_neg (by rw [hdet]; norm_num), hdet]
    congr 1
    ext i j
    fin_cases i <;> fin_cases j <;> norm_num [Matrix.adjugate_fin_two]
  have hRD : ∀ k : Fin 4, ddcwDistance (diagonal fun _ : Fin 2 => (1 / 4 : ℝ))
      ((fun k i => stdCell (cellsRun k i) (d.location i) (d.scale i)) k) = some (5 / 16) := by
    intro k
    rw [hZ]
    unfold ddcwDistance
    rw [if_pos (by
      intro j
      obtain ⟨x, hx⟩ := hsome k j
      simp [hx])]
    congr 1
    fin_cases k <;> norm_num [quadForm, Matrix.vecMul, dotProduct, Fin.sum_univ_two, cellsRun, clip2, Matrix.diagonal]
  have hcase : ∀ k : Fin 4, casewiseOutlier envRun.chi50 envRun.chi99 (fun k => ddcwDistance
      (diagonal fun _ : Fin 2 => (1 / 4 : ℝ)) ((fun k i => stdCell (cellsRun k i) (d.location i) (d.scale i)) k)) k = false := by
    intro k
    have e : (fun k => ddcwDistance (diagonal fun _ : Fin 2 => (1 / 4 : ℝ))
        ((fun k i => stdCell (cellsRun k i) (d.location i) (d.scale i)) k)) = fun _ : Fin 4 => some (5 / 16) := by
      funext k; exact hRD k
    rw [e]
    unfold casewiseOutlier
    have e2 : List.ofFn (fun _ : Fin 4 => some (5 / 16 : ℝ)) = [(5 / 16 : ℝ), 5 / 16, 5 / 16, 5 / 16].map some := rfl
    rw [e2, allSome_map_some]
    have hmed : npMedian [(5 / 16 : ℝ), 5 / 16, 5 / 16, 5 / 16] = some (5 / 16) := npMedian_eq_some_iff.2
      ⟨5 / 16, 5 / 16, by norm_num [Spec.IsKthSmallest, List.countP_cons], by norm_num [Spec.IsKthSmallest, List.countP_cons],
        by norm_num⟩
    simp only [hmed]
    norm_num [envRun, envPlain]
  have hcalc : ddcwCalc envRun 0.75 (1 / 100) cellsRun = .ok (fun _ => 0, diagonal fun _ => 4) := by
    unfold ddcwCalc
    rw [hal, show Except.bind (.ok (0.75:ℝ)) (fun alpha => (ddcwDDC envRun cellsRun).bind fun d =>
      ddcwFrom envRun alpha (1 / 100) d cellsRun) = (ddcwDDC envRun cellsRun).bind fun d =>
      ddcwFrom envRun 0.75 (1 / 100) d cellsRun from rfl, hd]
    show ddcwFrom envRun 0.75 (1 / 100) d cellsRun = _
    unfold ddcwFrom
    simp only
    rw [hstage d.rowOut hrow]
    show (npInv (diagonal fun _ : Fin 2 => (4:ℝ))).bind _ = _
    rw [hinv]
    show (ddcwStage envRun (1 / 100) d.scale _).map _ = _
    rw [hstage _ hcase]
    show Except.ok (_, _) = _
    congr 2
    funext j
    rw [(hls j).1]; rfl
  unfold ddcwFit
  rw [hcalc]
  have hcomp : completeRows (List.ofFn cellsRun) = some [![-2, 1], ![-1, -2], ![1, 2], ![2, -1]] := by
    unfold completeRows
    rw [if_pos]
    · congr 1
      rw [List.map_ofFn]
      show [_, _, _, _] = _
      congr 1
      · ext j; fin_cases j <;> rfl
      congr 1
      · ext j; fin_cases j <;> rfl
      congr 1
      · ext j; fin_cases j <;> rfl
      congr 1
      · ext j; fin_cases j <;> rfl
    · intro r hr j
      rw [List.mem_ofFn] at hr
      obtain ⟨k, rfl⟩ := hr
      obtain ⟨x, hx⟩ := hsome k j
      rw [hx]; simp
  unfold Except.bind
  simp only [hcomp]
  rw [if_neg]
  rw [Matrix.det_fin_two]
  norm_num [npCov, meanRow, mean]

/-- The hypothesis of `C126_positive` is met. -/
example : ∃ r, ddcwFit envRun 0.75 (1 / 100) cellsRun = .ok r := ⟨_, fitRun⟩

/-- **C126** on this run: eigenvalues of the result in the units of the scales (4 I, scales 2) are 1. -/
example : (diagonal fun _ : Fin 2 => (4:ℝ)).PosDef := (C126_positive (by norm_num) fitRun).1

/-! ## A case for C128 -/

/-- As `envPlain`, with an estimator that returns the scale 1/1000, and the cutoff 10. -/
noncomputable def envLine : DDCWEnv 2 := { envPlain 2 with est := fun _ => (some 0, some (1 / 1000)), ddcCutoff := 10 }

/-- Four points on the line through the origin with direction (1, 1). -/
def cellsLine : Cells 4 2 := ![![some (-2), some (-2)], ![some (-1), some (-1)], ![some 1, some 1], ![some 2, some 2]]

/-- The hypotheses of `C128_line` are met by a run of `DDC` that returns. -/
theorem lineRun : (∃ (base dir : Fin 2 → ℝ) (t : Fin 4 → ℝ), ∀ k j, cellsLine k j = some (base j + t k * dir j)) ∧
    ∃ d, ddcwDDC envLine cellsLine = .ok d ∧ ∀ k j, d.cellwise k j = false := by
  classical
  refine ⟨⟨0, fun _ => 1, ![-2, -1, 1, 2], by intro k j; fin_cases k <;> fin_cases j <;> simp [cellsLine]⟩, ?_⟩
  have hz : ∀ k : Fin 4, _ := fun k => zCells_value (env := envLine) (l0 := 0) (l1 := 0) (s0 := 1 / 1000) (s1 := 1 / 1000)
    (by norm_num) (by norm_num) (X := cellsLine) k
  set L : List (Option ℝ) := [some 0, some 0] with hL
  set S : List (Option ℝ) := [some (1 / 1000), some (1 / 1000)] with hS
  have hcheck : ddcCheck (ddcwNumbers envLine) (frameOf cellsLine) = .ok () := by
    unfold ddcCheck
    rw [if_neg (by simp [frameOf]), if_neg]
    rw [List.any_eq_true]
    rintro ⟨i, hi, h⟩
    have hi2 : i < 2 := List.mem_range.1 hi
    have h4 : distinctCells (ddcwNumbers envLine) (frameOf cellsLine) i = 4 := by
      interval_cases i
      · exact distinctCells_four (a := -2) (b := -1) (c := 1) (d := 2) rfl (by norm_num)
      · exact distinctCells_four (a := -2) (b := -1) (c := 1) (d := 2) rfl (by norm_num)
    rw [h4] at h
    simp at h
  have hsc : fitScaler (ddcwNumbers envLine) (replaceInf (ddcwNumbers envLine) (frameOf cellsLine)) (List.range 2) [] []
      = (.ok (), L, S) := rfl
  let A : ℕ → ℝ := fun k => ((cellsLine (Fin.ofNat 4 k) 0).getD 0 - 0) / (1 / 1000)
  have hzA : ∀ k < 4, ∀ i : Fin 2, zCells (ddcwNumbers envLine) L S (frameOf cellsLine) k i = some (A k) := by
    intro k hk i
    have h := hz ⟨k, hk⟩
    have hk' : Fin.ofNat 4 k = ⟨k, hk⟩ := Fin.ext (Nat.mod_eq_of_lt hk)
    have hsome : ∀ (k : Fin 4) (i : Fin 2), cellsLine k i = some ((cellsLine k 0).getD 0) := by
      intro k i; fin_cases k <;> fin_cases i <;> rfl
    fin_cases i
    · refine h.1.trans ?_
      show _ = some (((cellsLine (Fin.ofNat 4 k) 0).getD 0 - 0) / (1 / 1000))
      rw [hk', hsome ⟨k, hk⟩ 0]; rfl
    · refine h.2.trans ?_
      show _ = some (((cellsLine (Fin.ofNat 4 k) 0).getD 0 - 0) / (1 / 1000))
      rw [hk', hsome ⟨k, hk⟩ 1]; rfl
  have hAb : ∀ k, 1000 ≤ |A k| ∧ |A k| ≤ 2000 := by
    intro k
    have : ∀ (m : Fin 4), 1000 ≤ |((cellsLine m 0).getD 0 - 0) / (1 / 1000)| ∧
        |((cellsLine m 0).getD 0 - 0) / (1 / 1000)| ≤ (2000:ℝ) := by
      intro m
      fin_cases m <;> norm_num [cellsLine]
    exact this _
  have hl : (List.range 4).map A = [-2000, -1000, 1000, 2000] := by
    have hr : List.range 4 = [0, 1, 2, 3] := rfl
    rw [hr]
    norm_num [A, cellsLine, Fin.ofNat]
  have hcol : ∀ i : Fin 2, (colList 4 (zCells (ddcwNumbers envLine) L S (frameOf cellsLine)) i).filter
      (ddcwNumbers envLine).ok = ((List.range 4).map A).map some := by
    intro i
    have e : colList 4 (zCells (ddcwNumbers envLine) L S (frameOf cellsLine)) i = ((List.range 4).map A).map some := by
      unfold colList
      rw [List.map_map]
      apply List.map_congr_left
      intro k hk
      exact hzA k (List.mem_range.1 hk) i
    rw [e, List.filter_eq_self]
    intro x hx
    obtain ⟨y, -, rfl⟩ := List.mem_map.1 hx
    rfl
  have hosm : ∃ a v, cellwiseOSM (((List.range 4).map A).map some) = .ok (a, some v) ∧ 1000 ≤ v := by
    rw [hl]
    have hm : npMedian [(-2000:ℝ), -1000, 1000, 2000] = some 0 :=
      npMedian_eq_some_iff.2 ⟨-1000, 1000, by norm_num [Spec.IsKthSmallest, List.countP_cons],
        by norm_num [Spec.IsKthSmallest, List.countP_cons], by norm_num⟩
    have hmad : madRaw [(-2000:ℝ), -1000, 1000, 2000] = some 1500 := by
      unfold madRaw
      rw [hm]
      simp only [List.map_cons, List.map_nil]
      norm_num
      exact npMedian_eq_some_iff.2 ⟨1000, 2000, by norm_num [Spec.IsKthSmallest, List.countP_cons],
        by norm_num [Spec.IsKthSmallest, List.countP_cons], by norm_num⟩
    obtain ⟨a, ha⟩ := osm_quadratic (Q := 2500000) (by norm_num) hm hmad (by
      intro x hx
      simp only [List.mem_cons, List.not_mem_nil, or_false] at hx
      rcases hx with rfl | rfl | rfl | rfl <;> norm_num) (by norm_num [mean])
    refine ⟨a, _, ha, ?_⟩
    apply Real.le_sqrt_of_sq_le
    norm_num
  obtain ⟨a, v, hv, hv2⟩ := hosm
  obtain ⟨d, rs, t, hd, hls, hrs, hres, hcw, -⟩ := ddcwDDC_unrelated (env := envLine) (X := cellsLine) hcheck hsc
    (by
      intro i hi j hj hij
      refine ⟨0, by norm_num, ?_⟩
      have e : commonRows (ddcwNumbers envLine) 4 (fun k i => univariateFlag (ddcwNumbers envLine) (some envLine.ddcCutoff)
          (zCells (ddcwNumbers envLine) L S (frameOf cellsLine) k i)) i j = [] := by
        unfold commonRows
        rw [List.filter_eq_nil_iff]
        intro q hq
        obtain ⟨k, hk, rfl⟩ := List.mem_map.1 hq
        have h1 := hzA k (List.mem_range.1 hk) ⟨i, hi⟩
        simp only at h1
        have h2 : univariateFlag (ddcwNumbers envLine) (some envLine.ddcCutoff)
            (zCells (ddcwNumbers envLine) L S (frameOf cellsLine) k i) = none := by
          rw [h1]
          unfold univariateFlag
          rw [if_pos]
          · rfl
          · show decide ((10:ℝ) < |A k|) = true
            rw [decide_eq_true_eq]
            linarith [(hAb k).1]
        beta_reduce
        rw [h2]
        simp [DDCEnv.ok, ddcwNumbers, realEnv]
      rw [e]
      rfl)
    (by
      intro i hi
      have := hcol ⟨i, hi⟩
      simp only at this
      rw [this]
      exact ⟨a, v, hv, by linarith⟩)
    (by
      intro k hk
      have h := hzA k hk 0
      exact ⟨0, by norm_num, by
        intro h'
        have h'' : zCells (ddcwNumbers envLine) L S (frameOf cellsLine) k ((0 : Fin 2) : ℕ) = none := h'
        rw [h''] at h; cases h⟩)
  refine ⟨d, hd, ?_⟩
  intro k i
  have hrv : rs i = some v := by
    have := hrs i i.2
    rw [hcol i, hv] at this
    exact (Except.ok.inj this).symm
  have hv0 : 0 < v := by linarith
  rw [hcw, hres, hzA k k.2 i, hrv]
  show (ddcwNumbers envLine).lt _ ((ddcwNumbers envLine).abs (if some v = some 0 then none else some (A k / v))) = false
  rw [if_neg (by simpa using hv0.ne')]
  show decide ((10:ℝ) < |A k / v|) = false
  rw [decide_eq_false_iff_not, not_lt, abs_div, abs_of_pos hv0, div_le_iff₀ hv0]
  linarith [(hAb k).2]

example : ∃ e, ddcwCalc envLine 0.75 (1 / 100) cellsLine = .error e := by
  obtain ⟨⟨base, dir, t, h⟩, d, hd, hc⟩ := lineRun
  refine C128_line (by norm_num) (by norm_num) h ?_
  intro d' hd'
  rw [hd] at hd'
  rw [← Except.ok.inj hd']
  exact hc

end Robpy
