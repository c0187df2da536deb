import Verif.Props.PCALocantore
import Verif.Props.Outlyingness
import Verif.Props.Covariance
import Verif.Lemmas.Sort

/-! Concrete runs of `ROBPCA`: C60 and C93 are violated. -/

namespace Robpy
open Matrix

variable {p r : ℕ}

/-- What is used of the result of sklearn's `PCA`: orthonormal loadings which make the covariance diagonal. -/
def Spec.PCALoadings (X : List (Fin p → ℝ)) (L : Matrix (Fin p) (Fin r) ℝ) : Prop :=
  Lᵀ * L = 1 ∧ ∀ i j, i ≠ j → (Lᵀ * npCov X * L) i j = 0

/-- `stahel_donoho` does not fail on at least two rows. -/
theorem stahelDonoho_ok {S : Type} (ch : Choice S) (svd : List (Fin p → ℝ) → Fin p → ℝ) (fresh : ℕ → S)
    (X : List (Fin p → ℝ)) (hX : 2 ≤ X.length) (nDir : ℕ) (hD : nDir ≠ 0) (seed : Option S) :
    ∃ out, stahelDonoho ch svd fresh X 2 nDir seed = .ok out ∧ out.length = X.length := by
  unfold stahelDonoho
  rw [if_neg hD]
  obtain ⟨D, hDD⟩ := mapExcept_all_ok (f := fun i => randomDirection ch svd X 2 (seed.getD (fresh i))) (List.range nDir)
    fun i _ => by
      have hl : (takeAt X (ch.pick (seed.getD (fresh i)) X.length 2)).length = 2 := by
        rw [takeAt_length _ _ fun j hj => ch.lt _ _ _ hX j hj, ch.length _ _ _ hX]
      unfold randomDirection
      rw [if_neg (by omega)]
      rcases ht : takeAt X (ch.pick (seed.getD (fresh i)) X.length 2) with _ | ⟨a, _ | ⟨b, l⟩⟩
      · rw [ht] at hl; simp at hl
      · rw [ht] at hl; simp at hl
      · exact ⟨_, rfl⟩
  exact ⟨_, by rw [hDD]; rfl, by simp [sdFromDirections]⟩

/-- `argsort` of an increasing list. -/
theorem argsort_strict (A : ArgSort ℝ) (l : List ℝ) (h : l.Pairwise (· < ·)) : A.toFun l = List.range l.length := by
  have hp := A.perm l
  have hs := A.sorted l
  refine List.Perm.eq_of_pairwise (le := (· ≤ ·)) (fun _ _ _ _ h1 h2 => le_antisymm h1 h2) ?_
    (List.pairwise_lt_range.imp fun h => h.le) hp
  have hlt : ∀ i ∈ A.toFun l, i < l.length := fun i hi => List.mem_range.1 (hp.mem_iff.1 hi)
  generalize A.toFun l = idx at hs hlt
  clear hp
  induction idx with
  | nil => exact List.Pairwise.nil
  | cons a t ih =>
    have ha := hlt a (by simp)
    have hc : takeAt l (a :: t) = l[a] :: takeAt l t := by simp [takeAt, List.getElem?_eq_getElem ha]
    rw [hc, List.pairwise_cons] at hs
    refine List.Pairwise.cons (fun b hb => ?_) (ih hs.2 fun i hi => hlt i (by simp [hi]))
    have hb' := hlt b (by simp [hb])
    by_contra hba
    push Not at hba
    have h1 := List.pairwise_iff_getElem.1 h b a hb' ha hba
    have h2 := hs.1 l[b] (by
      unfold takeAt
      exact List.mem_filterMap.2 ⟨b, hb, List.getElem?_eq_getElem hb'⟩)
    linarith

theorem sortedEigen_perm {D : RobpcaDeps} {X Y : List (Fin r → ℝ)} (h : X.Perm Y) : sortedEigen D X = sortedEigen D Y := by
  unfold sortedEigen
  rw [npCov_perm h, h.length_eq]

/-- Eigenvectors of a covariance which is diagonal with increasing entries. -/
theorem sortedEigen_diag {D : RobpcaDeps} (hD : @RobpcaDeps.eigh D = @eighDiag) {X : List (Fin r → ℝ)} (hr : 2 ≤ r)
    (hX : 2 ≤ X.length) {d : Fin r → ℝ} (hd : StrictMono d) (hc : npCov X = Matrix.diagonal d) :
    sortedEigen D X = .ok ((List.ofFn d).reverse, (colsOf (1 : Matrix (Fin r) (Fin r) ℝ)).reverse, npCov X) := by
  unfold sortedEigen
  rw [if_neg (by omega), hD]
  obtain ⟨h1, h2⟩ := eighDiag_eq hd.monotone hc
  have h3 : D.argsort.toFun (List.ofFn d) = List.range r := by
    have := argsort_strict D.argsort (List.ofFn d) (List.pairwise_ofFn.2 fun i j hij => hd hij)
    rwa [List.length_ofFn] at this
  simp only [h1, h2, h3]
  have h4 : ∀ {α : Type} (l : List α), l.length = r → takeAt l (List.range r).reverse = l.reverse := fun l hl => by
    have := takeAt_range l
    rw [hl] at this
    unfold takeAt at this ⊢
    rw [List.filterMap_reverse, this]
  rw [h4 _ (List.length_ofFn), h4 _ (colsOf_length _)]

/-- With `alpha = 1` and unit loadings the h-subset holds all rows. -/
theorem robpcaFit_all {S : Type} (ch : Choice S) (svd : ∀ {r : ℕ}, List (Fin r → ℝ) → Fin r → ℝ) (fresh : ℕ → S)
    (seed : Option S) (a1 : ArgSort (WithTop (WithTop ℝ))) (a2 : ArgSort ℝ)
    (eigh : ∀ {r : ℕ} (A : Matrix (Fin r) (Fin r) ℝ), EighAsc A) (chi z : ℝ) (corrRaw : ℕ → ℕ → ℝ) (corr : ℝ → ℝ)
    (mcdCov : ∀ {k : ℕ}, List (Fin k → ℝ) → Except PyErr (Matrix (Fin k) (Fin k) ℝ)) (thr : ℝ) (fin : Bool)
    (st : PCAState p) (X : List (Fin p → ℝ)) (hX : 2 ≤ X.length) (k : ℕ) (C : List (Fin p → ℝ)) (ev : List ℝ)
    (h : robpcaCore (stdDeps ch svd fresh seed a1 a2 eigh chi z corrRaw corr mcdCov) thr fin st.nComponents
      (X.map fun x => x - meanRow X) (X.map fun x => x - meanRow X) = .ok (k, C, ev)) :
    ∃ st', robpcaFit (stdDeps ch svd fresh seed a1 a2 eigh chi z corrRaw corr mcdCov) 1 thr fin
      (1 : Matrix (Fin p) (Fin p) ℝ) st X = .ok st' ∧ st'.nComponents = some k ∧
      st'.components_ = some (C.map (loadColumn 1)) ∧ st'.explainedVariance_ = some ev := by
  set D := stdDeps ch svd fresh seed a1 a2 eigh chi z corrRaw corr mcdCov with hDdef
  have hT : (X.map fun x => (x - meanRow X) ᵥ* (1 : Matrix (Fin p) (Fin p) ℝ)) = X.map fun x => x - meanRow X := by simp
  set T := X.map fun x => x - meanRow X with hTdef
  have hTl : T.length = X.length := by simp [hTdef]
  obtain ⟨out, ho, hol⟩ := stahelDonoho_ok ch svd fresh T (by omega) 250 (by norm_num) seed
  have hH : robpcaH 1 X.length st.nComponents = .ok (max X.length ((X.length + st.nComponents.getD 10 + 1) / 2)) := by
    unfold robpcaH
    rw [if_neg (by norm_num)]
    simp
  have hperm := a1.perm (out.map nanLast)
  rw [List.length_map, hol, hTl] at hperm
  have htake : (a1.toFun (out.map nanLast)).take (max X.length ((X.length + st.nComponents.getD 10 + 1) / 2)) =
      a1.toFun (out.map nanLast) := by
    rw [List.take_of_length_le]
    rw [hperm.length_eq, List.length_range]
    exact le_max_left _ _
  have hsel : (takeAt T (a1.toFun (out.map nanLast))).Perm T := by
    refine (takeAt_perm T hperm).trans ?_
    rw [← hTl, takeAt_range]
  have hcore : robpcaCore D thr fin st.nComponents T (takeAt T (a1.toFun (out.map nanLast))) = .ok (k, C, ev) := by
    rw [← h]
    unfold robpcaCore
    rw [sortedEigen_perm hsel]
  have ho' : D.outl T = .ok out := ho
  have hfit : ∃ st', robpcaFit D 1 thr fin (1 : Matrix (Fin p) (Fin p) ℝ) st X = .ok st' ∧
      st'.nComponents = some k ∧ st'.components_ = some (C.map (loadColumn 1)) ∧ st'.explainedVariance_ = some ev := by
    unfold robpcaFit
    have ha : D.argsortExt = a1 := rfl
    simp only [hT, ho', hH, Except.bind, ha, htake, hcore]
    exact ⟨_, rfl, rfl, rfl, rfl⟩
  exact hfit

/-! ## C60 -/

/-- **C60**, full statement: whatever value one observation out of at least five has, the centre stays within a bound which does
not depend on it. -/
def C60_statement : Prop :=
  ∀ (p r : ℕ) (S : Type) (ch : Choice S) (svd : ∀ {r : ℕ}, List (Fin r → ℝ) → Fin r → ℝ) (fresh : ℕ → S)
    (seed : Option S) (a1 : ArgSort (WithTop (WithTop ℝ))) (a2 : ArgSort ℝ)
    (eigh : ∀ {r : ℕ} (A : Matrix (Fin r) (Fin r) ℝ), EighAsc A) (chi z : ℝ) (corrRaw : ℕ → ℕ → ℝ) (corr : ℝ → ℝ)
    (mcdCov : ∀ {k : ℕ}, List (Fin k → ℝ) → Except PyErr (Matrix (Fin k) (Fin k) ℝ)) (alpha thr : ℝ) (fin : Bool)
    (st : PCAState p) (X : List (Fin p → ℝ)) (i : ℕ), 5 ≤ X.length → i < X.length → 0 < z →
    ∃ B : ℝ, ∀ (x : Fin p → ℝ) (L : Matrix (Fin p) (Fin r) ℝ) (st' : PCAState p), Spec.PCALoadings (X.set i x) L →
      robpcaFit (stdDeps ch svd fresh seed a1 a2 eigh chi z corrRaw corr mcdCov) alpha thr fin L st (X.set i x) = .ok st' →
      ∃ loc, st'.location_ = some (some loc) ∧ ∀ j, |loc j| ≤ B

/-- Six observations, the first of which is an outlier for large `t`. -/
def c60Data (t : ℝ) : List (Fin 2 → ℝ) := [![0, t], ![0, 0], ![1, 0], ![-1, 0], ![8, 0], ![-8, 0]]

theorem c60_mean (t : ℝ) : meanRow (c60Data t) = ![0, t / 6] := by
  funext j
  fin_cases j <;> simp [meanRow, mean, c60Data]

theorem c60_centered (t : ℝ) : ((c60Data t).map fun x => x - meanRow (c60Data t)) =
    [![0, t - t / 6], ![0, 0 - t / 6], ![1, 0 - t / 6], ![-1, 0 - t / 6], ![8, 0 - t / 6], ![-8, 0 - t / 6]] := by
  rw [c60_mean]
  simp [c60Data]

theorem c60_centered_mean (t : ℝ) : meanRow ((c60Data t).map fun x => x - meanRow (c60Data t)) = 0 := by
  rw [c60_centered]
  funext j
  fin_cases j <;> simp [meanRow, mean]
  ring

theorem c60_cov (t : ℝ) : npCov ((c60Data t).map fun x => x - meanRow (c60Data t)) = Matrix.diagonal ![26, t ^ 2 / 6] := by
  ext i j
  unfold npCov
  simp only [c60_centered_mean]
  rw [c60_centered]
  fin_cases i <;> fin_cases j <;> simp <;> ring

theorem c60_cov0 (t : ℝ) : npCov (c60Data t) = Matrix.diagonal ![26, t ^ 2 / 6] := by
  ext i j
  unfold npCov
  simp only [c60_mean]
  unfold c60Data
  fin_cases i <;> fin_cases j <;> simp <;> ring

theorem orthDist_e2 (u v : ℝ) : orthDistRow 0 [![(0:ℝ), 1]] ![u, v] = |u| := by
  have h : orthDistRow 0 [![(0:ℝ), 1]] ![u, v] = Real.sqrt (u * u) := by
    unfold orthDistRow vecNorm backRow scoresRow
    simp [Fin.sum_univ_two]
  rw [h, Real.sqrt_mul_self_eq_abs]

theorem rpow_eight : (8 : ℝ) ^ (2 / 3 : ℝ) = 4 := by
  have : (8 : ℝ) = 2 ^ (3 : ℝ) := by norm_num
  rw [this, ← Real.rpow_mul (by norm_num)]
  norm_num

theorem c60_cutoff : ∃ c, getOdCutoff 5 2 (fun _ _ => 1) (fun _ => 1) [0, 0, 1, 1, 8, 8] = some c ∧ 0 < c := by
  have hpow : ([(0:ℝ), 0, 1, 1, 8, 8].map fun d => d ^ (2 / 3 : ℝ)) = [0, 0, 1, 1, 4, 4] := by
    simp only [List.map_cons, List.map_nil, rpow_eight, Real.one_rpow]
    rw [Real.zero_rpow (by norm_num)]
  have hraw : rawEstimates 4 [(0:ℝ), 0, 1, 1, 4, 4] = some (1 / 4, 1 / 2) := by
    unfold rawEstimates
    rw [npSort_eq_self (by norm_num)]
    norm_num [List.range_succ, rawStep, window, var, mean]
  have hcalc : mcdCalculate 5 (fun _ _ => 1) (fun _ => 1) 4 [(0:ℝ), 0, 1, 1, 4, 4] = some
      { rawVariance := 1 / 4 * 1, rawLocation := 1 / 2, variance := some (1 / 4), location := some (1 / 2) } := by
    unfold mcdCalculate
    rw [if_neg (by simp), hraw]
    norm_num [reweighting, rewMask, List.filter_cons, var, mean]
  refine ⟨(1 / 2 + Real.sqrt (1 / 4) * 2) ^ (3 / 2 : ℝ), ?_, by positivity⟩
  unfold getOdCutoff
  rw [hpow]
  simp only [List.length_cons, List.length_nil]
  norm_num only
  norm_num only at hcalc
  rw [hcalc]

/-- **C60** is violated by the code: the reported centre is the mean. -/
theorem C60_violated : ¬ C60_statement := by
  intro h
  obtain ⟨B, hB⟩ := h 2 2 Bool c61Rng.toChoice (fun _ => 0) (fun _ => false) none (argsortStable _) (argsortStable _) eighDiag
    5 2 (fun _ _ => 1) (fun _ => 1) (fun _ => .error .valueError) 1 (4 / 5) false ⟨some 1, none, none, none⟩ (c60Data 0) 0
    (by simp [c60Data]) (by simp [c60Data]) (by norm_num)
  set t : ℝ := 13 + 6 * |B| with ht
  have htB : B < t / 6 := by have := le_abs_self B; rw [ht]; linarith
  have ht13 : 13 ≤ t := by have := abs_nonneg B; rw [ht]; linarith
  have hset : (c60Data 0).set 0 ![0, t] = c60Data t := by simp [c60Data]
  have hL : Spec.PCALoadings (c60Data t) (1 : Matrix (Fin 2) (Fin 2) ℝ) := by
    refine ⟨by simp, fun i j hij => ?_⟩
    rw [c60_cov0]
    simp [hij]
  have hmono : StrictMono (![26, t ^ 2 / 6] : Fin 2 → ℝ) := by
    intro i j hij
    fin_cases i <;> fin_cases j <;> simp at hij ⊢
    nlinarith
  obtain ⟨cut, hcut, hpos⟩ := c60_cutoff
  have hcore : ∃ k C ev, robpcaCore (stdDeps c61Rng.toChoice (fun _ => 0) (fun _ => false) none (argsortStable _) (argsortStable _)
      eighDiag 5 2 (fun _ _ => 1) (fun _ => 1) (fun _ => .error .valueError)) (4 / 5) false (some 1)
      ((c60Data t).map fun x => x - meanRow (c60Data t)) ((c60Data t).map fun x => x - meanRow (c60Data t)) =
      .ok (k, C, ev) := by
    unfold robpcaCore
    rw [sortedEigen_diag rfl le_rfl (by simp [c60Data]) hmono (c60_cov t)]
    simp only [Except.bind, pickK, colsOf_one_two, List.take_succ_cons, List.take_zero, c60_centered_mean]
    have hod : ((c60Data t).map fun x => x - meanRow (c60Data t)).map (orthDistRow 0 [![(0:ℝ), 1]]) = [0, 0, 1, 1, 8, 8] := by
      rw [c60_centered]
      simp only [List.map_cons, List.map_nil, orthDist_e2]
      norm_num
    rw [hod]
    simp only [stdDeps, hcut]
    have hlen : 2 ≤ (((c60Data t).map fun x => x - meanRow (c60Data t)).filter fun x =>
        belowCutoff (some cut) (orthDistRow 0 [![(0:ℝ), 1]] x)).length := by
      rw [c60_centered]
      have h0 : belowCutoff (some cut) 0 = true := by simp [belowCutoff, hpos]
      simp only [List.filter_cons, orthDist_e2, abs_zero, h0, if_true, List.length_cons]
      omega
    unfold sortedEigen
    rw [if_neg fun hc => absurd hlen (by rcases hc with hc | hc <;> [exact absurd hc (by norm_num); exact not_le.2 (Nat.lt_succ_of_le hc)])]
    exact ⟨_, _, _, rfl⟩
  obtain ⟨k, C, ev, hcore⟩ := hcore
  obtain ⟨st', hst', -⟩ := robpcaFit_all c61Rng.toChoice (fun _ => 0) (fun _ => false) none (argsortStable _) (argsortStable _)
    eighDiag 5 2 (fun _ _ => 1) (fun _ => 1) (fun _ => .error .valueError) (4 / 5) false ⟨some 1, none, none, none⟩ (c60Data t)
    (by simp [c60Data]) k C ev hcore
  obtain ⟨loc, hl1, hl2⟩ := hB ![0, t] 1 st' (by rw [hset]; exact hL) (by rw [hset]; exact hst')
  have hl3 := C60_location _ _ _ _ _ _ _ _ (by simp [c60Data]) hst'
  rw [hl3] at hl1
  have hl4 := congrFun (Option.some.inj (Option.some.inj hl1)) 1
  have hl5 := hl2 1
  rw [← hl4] at hl5
  simp [c60Data] at hl5
  rw [abs_of_pos (by linarith)] at hl5
  linarith

/-! ## C93 -/

/-- **C93**, full statement for ROBPCA. -/
def C93_statement : Prop :=
  ∀ (p r : ℕ) (S : Type) (ch : Choice S) (svd : ∀ {r : ℕ}, List (Fin r → ℝ) → Fin r → ℝ) (fresh : ℕ → S)
    (seed : Option S) (a1 : ArgSort (WithTop (WithTop ℝ))) (a2 : ArgSort ℝ)
    (eigh : ∀ {r : ℕ} (A : Matrix (Fin r) (Fin r) ℝ), EighAsc A) (chi z : ℝ) (corrRaw : ℕ → ℕ → ℝ) (corr : ℝ → ℝ)
    (mcdCov : ∀ {k : ℕ}, List (Fin k → ℝ) → Except PyErr (Matrix (Fin k) (Fin k) ℝ)) (alpha thr : ℝ) (fin : Bool)
    (st st' : PCAState p) (X : List (Fin p → ℝ)) (L : Matrix (Fin p) (Fin r) ℝ), Spec.PCALoadings X L →
    (∀ k, st.nComponents = some k → k ≤ r) →
    robpcaFit (stdDeps ch svd fresh seed a1 a2 eigh chi z corrRaw corr mcdCov) alpha thr fin L st X = .ok st' →
    ∃ k C ev, st'.nComponents = some k ∧ st'.components_ = some C ∧ st'.explainedVariance_ = some ev ∧ C.length = k ∧
      ev.length = k

/-- Ten observations; the first six lie on a line. -/
def c93Data : List (Fin 3 → ℝ) :=
  [![0, 0, 0], ![0, 0, 0], ![1, 0, 0], ![-1, 0, 0], ![1, 0, 0], ![-1, 0, 0], ![8, 20, 30], ![-8, -20, 30], ![-8, 20, -30],
    ![8, -20, -30]]

theorem c93_mean : meanRow c93Data = 0 := by
  funext j
  fin_cases j <;> simp [meanRow, mean, c93Data]

theorem c93_centered : (c93Data.map fun x => x - meanRow c93Data) = c93Data := by simp [c93_mean]

theorem c93_cov : npCov c93Data = Matrix.diagonal ![260 / 9, 1600 / 9, 3600 / 9] := by
  ext i j
  unfold npCov
  simp only [c93_mean]
  unfold c93Data
  fin_cases i <;> fin_cases j <;> simp <;> norm_num

theorem colsOf_one_three : (colsOf (1 : Matrix (Fin 3) (Fin 3) ℝ)).reverse = [![0, 0, 1], ![0, 1, 0], ![1, 0, 0]] := by
  have h1 : (fun j => (1 : Matrix (Fin 3) (Fin 3) ℝ) j 0) = ![1, 0, 0] := by funext j; fin_cases j <;> rfl
  have h2 : (fun j => (1 : Matrix (Fin 3) (Fin 3) ℝ) j 1) = ![0, 1, 0] := by funext j; fin_cases j <;> rfl
  have h3 : (fun j => (1 : Matrix (Fin 3) (Fin 3) ℝ) j 2) = ![0, 0, 1] := by funext j; fin_cases j <;> rfl
  simp [colsOf, List.finRange_succ, h1, h2, h3]

theorem orthDist_e3 (u v w : ℝ) : orthDistRow 0 [![(0:ℝ), 0, 1], ![0, 1, 0]] ![u, v, w] = |u| := by
  have h : orthDistRow 0 [![(0:ℝ), 0, 1], ![0, 1, 0]] ![u, v, w] = Real.sqrt (u * u) := by
    unfold orthDistRow vecNorm backRow scoresRow
    simp [Fin.sum_univ_three]
  rw [h, Real.sqrt_mul_self_eq_abs]

theorem c93_cutoff : ∃ c, getOdCutoff 5 2 (fun _ _ => 1) (fun _ => 1) [0, 0, 1, 1, 1, 1, 8, 8, 8, 8] = some c ∧ 1 < c ∧ c < 8 := by
  have hpow : ([(0:ℝ), 0, 1, 1, 1, 1, 8, 8, 8, 8].map fun d => d ^ (2 / 3 : ℝ)) = [0, 0, 1, 1, 1, 1, 4, 4, 4, 4] := by
    simp only [List.map_cons, List.map_nil, rpow_eight, Real.one_rpow]
    rw [Real.zero_rpow (by norm_num)]
  have hraw : rawEstimates 6 [(0:ℝ), 0, 1, 1, 1, 1, 4, 4, 4, 4] = some (2 / 9, 2 / 3) := by
    unfold rawEstimates
    rw [npSort_eq_self (by norm_num)]
    norm_num [List.range_succ, rawStep, window, var, mean]
  have hcalc : mcdCalculate 5 (fun _ _ => 1) (fun _ => 1) 6 [(0:ℝ), 0, 1, 1, 1, 1, 4, 4, 4, 4] = some
      { rawVariance := 2 / 9 * 1, rawLocation := 2 / 3, variance := some (2 / 9), location := some (2 / 3) } := by
    unfold mcdCalculate
    rw [if_neg (by simp), hraw]
    norm_num [reweighting, rewMask, List.filter_cons, var, mean]
  have hs1 : 1 / 6 < Real.sqrt (2 / 9) := Real.lt_sqrt_of_sq_lt (by norm_num)
  have hs2 : Real.sqrt (2 / 9) < 1 := by rw [Real.sqrt_lt' (by norm_num)]; norm_num
  refine ⟨(2 / 3 + Real.sqrt (2 / 9) * 2) ^ (3 / 2 : ℝ), ?_, ?_, ?_⟩
  · unfold getOdCutoff
    rw [hpow]
    simp only [List.length_cons, List.length_nil]
    norm_num only
    norm_num only at hcalc
    rw [hcalc]
  · exact Real.one_lt_rpow (by linarith) (by norm_num)
  · have h8 : (8 : ℝ) = 4 ^ (3 / 2 : ℝ) := by
      have : (4 : ℝ) = 2 ^ (2 : ℝ) := by norm_num
      rw [this, ← Real.rpow_mul (by norm_num)]
      norm_num
    rw [h8]
    exact Real.rpow_lt_rpow (by positivity) (by linarith) (by norm_num)

/-- The objects used in the run. -/
noncomputable def c93Deps : RobpcaDeps :=
  stdDeps c61Rng.toChoice (fun _ => 0) (fun _ => false) none (argsortStable _) (argsortStable _) eighDiag 5 2 (fun _ _ => 1)
    (fun _ => 1) (fun _ => .error .valueError)

theorem c93_loadings : Spec.PCALoadings c93Data (1 : Matrix (Fin 3) (Fin 3) ℝ) := by
  refine ⟨by simp, fun i j hij => ?_⟩
  rw [c93_cov]
  simp [hij]

/-- `fit` succeeds on the ten observations. -/
theorem c93_run (fin : Bool) : ∃ st', robpcaFit c93Deps 1 (4 / 5) fin (1 : Matrix (Fin 3) (Fin 3) ℝ) ⟨some 2, none, none, none⟩ c93Data =
    .ok st' ∧ st'.nComponents = some 1 ∧ st'.explainedVariance_ = some [3600 / 9, 1600 / 9] := by
  obtain ⟨cut, hcut, h1, h8⟩ := c93_cutoff
  have hmono : StrictMono (![260 / 9, 1600 / 9, 3600 / 9] : Fin 3 → ℝ) := by
    intro i j hij
    fin_cases i <;> fin_cases j <;> simp at hij ⊢ <;> norm_num
  have hcore : ∃ C, robpcaCore (stdDeps c61Rng.toChoice (fun _ => 0) (fun _ => false) none (argsortStable _) (argsortStable _)
      eighDiag 5 2 (fun _ _ => 1) (fun _ => 1) (fun _ => .error .valueError)) (4 / 5) fin (some 2)
      (c93Data.map fun x => x - meanRow c93Data) (c93Data.map fun x => x - meanRow c93Data) =
      .ok (1, C, [3600 / 9, 1600 / 9]) := by
    rw [c93_centered]
    unfold robpcaCore
    rw [sortedEigen_diag rfl (by norm_num) (by simp [c93Data]) hmono c93_cov]
    simp only [Except.bind, pickK, colsOf_one_three, List.take_succ_cons, List.take_zero, c93_mean]
    have hod : c93Data.map (orthDistRow 0 [![(0:ℝ), 0, 1], ![0, 1, 0]]) = [0, 0, 1, 1, 1, 1, 8, 8, 8, 8] := by
      simp only [c93Data, List.map_cons, List.map_nil, orthDist_e3]
      norm_num
    rw [hod]
    simp only [stdDeps, hcut]
    have hkeep : (c93Data.filter fun x => belowCutoff (some cut) (orthDistRow 0 [![(0:ℝ), 0, 1], ![0, 1, 0]] x)) =
        [![0, 0, 0], ![0, 0, 0], ![1, 0, 0], ![-1, 0, 0], ![1, 0, 0], ![-1, 0, 0]] := by
      have e0 : belowCutoff (some cut) 0 = true := by simp [belowCutoff]; linarith
      have e1 : belowCutoff (some cut) 1 = true := by simp [belowCutoff, h1]
      have e8 : belowCutoff (some cut) 8 = false := by simp [belowCutoff, h8.le]
      have a8 : |(8:ℝ)| = 8 := by norm_num
      simp only [c93Data, List.filter_cons, orthDist_e3, abs_zero, abs_neg, abs_one, a8, e0, e1, e8, if_true, List.filter_nil]
      simp
    rw [hkeep]
    have hcov : npCov [![(0:ℝ), 0, 0], ![0, 0, 0], ![1, 0, 0], ![-1, 0, 0], ![1, 0, 0], ![-1, 0, 0]] =
        Matrix.diagonal ![4 / 5, 0, 0] := by
      ext i j
      fin_cases i <;> fin_cases j <;> simp [npCov, meanRow, mean] <;> norm_num
    have hrank : (Matrix.diagonal ![(4:ℝ) / 5, 0, 0]).rank = 1 := by
      rw [Matrix.rank_diagonal]
      rw [Fintype.card_eq_one_iff]
      refine ⟨⟨0, by simp⟩, ?_⟩
      rintro ⟨i, hi⟩
      fin_cases i <;> simp at hi ⊢
    unfold sortedEigen
    rw [if_neg (by simp)]
    simp only [hcov, hrank]
    norm_num
    exact ⟨_, rfl⟩
  obtain ⟨C, hcore⟩ := hcore
  obtain ⟨st', hst', hk, -, hev⟩ := robpcaFit_all c61Rng.toChoice (fun _ => 0) (fun _ => false) none (argsortStable _)
    (argsortStable _) eighDiag 5 2 (fun _ _ => 1) (fun _ => 1) (fun _ => .error .valueError) (4 / 5) fin
    ⟨some 2, none, none, none⟩ c93Data (by simp [c93Data]) 1 C _ hcore
  exact ⟨st', hst', hk, hev⟩

/-- **C93** is violated by the code: the number of components is reduced to a rank after the explained variances are stored. -/
theorem C93_violated : ¬ C93_statement := by
  intro h
  obtain ⟨st', hst', hk, hev⟩ := c93_run true
  obtain ⟨k, C', ev, g1, -, g3, -, g5⟩ := h 3 3 Bool c61Rng.toChoice (fun _ => 0) (fun _ => false) none (argsortStable _)
    (argsortStable _) eighDiag 5 2 (fun _ _ => 1) (fun _ => 1) (fun _ => .error .valueError) 1 (4 / 5) true _ st' c93Data 1 c93_loadings
    (by simp) hst'
  rw [hk] at g1
  rw [hev] at g3
  obtain rfl := Option.some.inj g1
  obtain rfl := Option.some.inj g3
  simp at g5

/-! The hypotheses of the theorems about `ROBPCA.fit` are met by the run on `c93Data`. -/

example : ∃ (st' : PCAState 3) (C : List (Fin 3 → ℝ)) (ev : List ℝ), st'.components_ = some C ∧ Spec.Orthonormal C ∧
    C.length = 1 ∧ st'.explainedVariance_ = some ev ∧ ev.Pairwise (· ≥ ·) ∧ st'.location_ = some (some 0) := by
  obtain ⟨st', hst', hk, -⟩ := c93_run true
  obtain ⟨C, hC, ho⟩ := C92_robpca _ _ _ _ _ c93_loadings.1 _ _ _ hst'
  obtain ⟨ev, hev, hp⟩ := C95_robpca_partial _ _ _ _ _ _ _ _ hst'
  obtain ⟨k, C', -, h1, h2, -, -, h3, -⟩ := C93_robpca_partial _ _ _ _ _ _ _ _ hst'
  rw [hk] at h1
  rw [hC] at h2
  obtain rfl := Option.some.inj h1
  obtain rfl := Option.some.inj h2
  have hl := C60_location _ _ _ _ _ _ _ _ (by simp [c93Data]) hst'
  refine ⟨st', C, ev, hC, ho, h3 (.inr one_ne_zero), hev, hp, ?_⟩
  rw [hl]
  exact congrArg (fun v => some (some v)) c93_mean

example (b : Fin 3 → ℝ) : ∃ st', robpcaFit c93Deps 1 (4 / 5) true (1 : Matrix (Fin 3) (Fin 3) ℝ) ⟨some 2, none, none, none⟩
    (c93Data.map fun x => x + b) = .ok st' ∧ st'.location_ = some (some b) := by
  obtain ⟨st', hst', -⟩ := c93_run true
  have hl := C60_location _ _ _ _ _ _ _ _ (by simp [c93Data]) hst'
  have hm : (fun j => (c93Data.map fun x => x j).sum / (c93Data.length : ℝ)) = 0 := c93_mean
  rw [hm] at hl
  refine ⟨_, (C96_robpca _ _ _ _ _ _ b c93Data (by simp [c93Data])).trans (by rw [hst']; rfl), ?_⟩
  simp [Spec.shiftCentre, hl]

end Robpy
