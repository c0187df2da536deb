import Verif.Props.MCDBreakdown

/-! C195: FastMCD without initial C-steps. -/

namespace Robpy
open Matrix
variable {p : ℕ}

/-- Candidates that are the draws themselves: `p + 1` rows with a non-singular covariance. -/
def isDraw (s : HSubset ℝ (Fin p)) : Prop := s.indices.length = p + 1 ∧ s.scale.det ≠ 0

theorem initialSubsets_gp {Γ : Type} (rng : Rng Γ) (hp : 2 ≤ p) {X P : List (Fin p → ℝ)} (hX : Spec.RowsInGeneralPosition X)
    (hP : P.Subperm X) (hl : p + 1 ≤ P.length) (k : ℕ) (g : Γ) :
    ∃ r, initialSubsets rng P (P.length + 1) k g = some (.ok r) ∧ r.1.length = k ∧ ∀ s ∈ r.1, isDraw s := by
  induction k generalizing g with
  | zero => exact ⟨([], g), rfl, rfl, by simp⟩
  | succ k ih =>
    have h1 := rng.sample_nodup g _ _ hl
    have h2 := rng.sample_lt g _ _ hl
    have h3 := rng.sample_length g _ _ hl
    have hdet : (npCov (takeAt P (rng.sample g P.length (p + 1)).1)).det ≠ 0 :=
      gp_npCov hX ((takeAt_subperm P _ h1 h2).trans hP) (by rw [takeAt_length _ _ h2, h3]; omega)
    have hini : initialSubset rng P (P.length + 1) g = some (.ok (⟨(rng.sample g P.length (p + 1)).1,
        meanRow (takeAt P (rng.sample g P.length (p + 1)).1), npCov (takeAt P (rng.sample g P.length (p + 1)).1),
        (npCov (takeAt P (rng.sample g P.length (p + 1)).1)).det, 0⟩, (rng.sample g P.length (p + 1)).2)) := by
      unfold initialSubset
      rw [Fintype.card_fin, if_neg (by omega)]
      simp only [runLoop, growStep]
      rw [getSubset_eq (by rw [Fintype.card_fin]; omega)]
      simp [Except.bind, hdet]
    obtain ⟨rs, hrs, hlen, hall⟩ := ih (rng.sample g P.length (p + 1)).2
    refine ⟨(_ :: rs.1, rs.2), by simp only [initialSubsets, hini, Run.andThen, hrs]; rfl, by simp [hlen], ?_⟩
    intro s hs
    rcases List.mem_cons.1 hs with rfl | hs
    · exact ⟨h3, hdet⟩
    · exact hall s hs

theorem mapExcept_zero (srt : ArgSort ℝ) (alpha : Alpha ℝ) (X : List (Fin p → ℝ)) (l : List (HSubset ℝ (Fin p))) :
    mapExcept (multiCSteps srt alpha X 0) l = .ok l := by
  induction l with
  | nil => rfl
  | cons a l ih =>
    unfold mapExcept
    rw [ih]
    rfl

theorem nBest_ne_nil {k : ℕ} (hk : 1 ≤ k) {l : List (HSubset ℝ (Fin p))} (hl : l ≠ []) : nBest k l ≠ [] := by
  obtain ⟨-, -, h, -⟩ := C38_nBest k l
  intro h0
  rw [h0] at h
  have := List.length_pos_iff.2 hl
  simp only [List.length_nil] at h
  omega

theorem partitionsBest_gp {Γ : Type} (srt : ArgSort ℝ) (rng : Rng Γ) (cfg : MCDConfig ℝ) (hc : cfg.nInitialCSteps = 0) (hb : 1 ≤ cfg.nBestSubsets)
    (hp : 2 ≤ p) {X : List (Fin p → ℝ)} (hX : Spec.RowsInGeneralPosition X) {n0 : ℕ} (hn0 : 1 ≤ n0) (ps : List (List (Fin p → ℝ)))
    (hps : ∀ P ∈ ps, P.Subperm X ∧ p + 1 ≤ P.length) (g : Γ) :
    ∃ r, partitionsBest srt rng cfg n0 ps g = some (.ok r) ∧ (ps ≠ [] → r.1 ≠ []) ∧ ∀ s ∈ r.1, isDraw s := by
  induction ps generalizing g with
  | nil => exact ⟨([], g), rfl, by simp, by simp⟩
  | cons P ps ih =>
    obtain ⟨hP, hl⟩ := hps P (by simp)
    obtain ⟨r, hr, hlen, hall⟩ := initialSubsets_gp rng hp hX hP hl n0 g
    obtain ⟨rs, hrs, -, hall'⟩ := ih (fun Q hQ => hps Q (by simp [hQ])) r.2
    have hne : r.1 ≠ [] := by
      intro h0
      rw [h0] at hlen
      simp at hlen
      omega
    refine ⟨(nBest cfg.nBestSubsets r.1 ++ rs.1, rs.2), by simp only [partitionsBest, partitionBest, hr, Run.andThen, hc, mapExcept_zero, Except.map, hrs], fun _ h0 => ?_, ?_⟩
    · exact nBest_ne_nil hb hne (List.append_eq_nil_iff.1 h0).1
    · intro s hs
      rcases List.mem_append.1 hs with h | h
      · exact hall s (mem_nBest h)
      · exact hall' s h

/-- **C195** (full statement): on rows in general position FastMCD returns estimates for every number of initial C-steps, 0 included. -/
def C195_statement : Prop :=
  ∀ (p : ℕ) (Γ : Type) (srt : ArgSort ℝ) (rng : Rng Γ) (cfg : MCDConfig ℝ) (X : List (Fin p → ℝ)) (fuel : ℕ) (g : Γ), 2 ≤ p →
    Spec.RowsInGeneralPosition X → 2 * (p + 1) ≤ X.length → X.length ≤ 600 → cfg.alpha = .none → cfg.nPartitions = none →
    1 ≤ cfg.nInitialSubsets → 1 ≤ cfg.nBestSubsets → 0 < cfg.tol → 0 < cfg.chi50 → cfg.chi50 < cfg.chi975 → 0 < cfg.gammaFactor →
    cfg.correct = true → ∃ fit, fastMCD srt rng cfg X (fuel + 1) g = some (.ok fit)

/-- **C195** (partial): the statement for one or more initial C-steps.  Missing: 0, see `C195_no_c_steps`. -/
theorem C195_some_partial {Γ : Type} (srt : ArgSort ℝ) (rng : Rng Γ) (cfg : MCDConfig ℝ) (X : List (Fin p → ℝ)) (fuel : ℕ) (g : Γ) (hp : 2 ≤ p)
    (hX : Spec.RowsInGeneralPosition X) (hlen : 2 * (p + 1) ≤ X.length) (hn : X.length ≤ 600) (halpha : cfg.alpha = .none)
    (hpart : cfg.nPartitions = none) (hini : 1 ≤ cfg.nInitialSubsets) (hnb : 1 ≤ cfg.nBestSubsets) (htol : 0 < cfg.tol)
    (hchi : 0 < cfg.chi50) (hchi2 : cfg.chi50 < cfg.chi975) (hgam : 0 < cfg.gammaFactor) (hcorr : cfg.correct = true)
    (hsteps : cfg.nInitialCSteps ≠ 0) : ∃ fit, fastMCD srt rng cfg X (fuel + 1) g = some (.ok fit) :=
  C173_partial srt rng cfg X [] X fuel g hp hX (List.Perm.refl _) (by simp; omega) halpha hpart hini (by omega) hnb htol hchi hchi2 hgam
    hcorr hn

/-- **C195**: without initial C-steps every fit on rows in general position raises ValueError, for all draws and any number of parts, as
soon as `h` is larger than `p + 1`: the draw has `p + 1` rows and the first C-step selects `h`, and index arrays of different lengths
cannot be compared. -/
theorem C195_no_c_steps {Γ : Type} (srt : ArgSort ℝ) (rng : Rng Γ) (cfg : MCDConfig ℝ) (X : List (Fin p → ℝ)) (fuel : ℕ) (g : Γ) (hp : 2 ≤ p)
    (hX : Spec.RowsInGeneralPosition X) (hsteps : cfg.nInitialCSteps = 0) (hnb : 1 ≤ cfg.nBestSubsets)
    (hpart : cfg.nPartitions ≠ some 0) (hini : numPartitions cfg.nPartitions X.length ≤ cfg.nInitialSubsets)
    (hsize : ∀ parts, partitionData cfg.nPartitions X = .ok parts → ∀ P ∈ parts, p + 1 ≤ P.length)
    (hall : alphaIsAll cfg.alpha X.length = false) (h : ℕ) (hh : mcdGetH cfg.alpha X.length p = .ok h) (hhp : p + 1 < h) (hhn : h ≤ X.length) :
    fastMCD srt rng cfg X (fuel + 1) g = some (.error .valueError) := by
  obtain ⟨parts, hparts, hflat, hk1, hk2, hk3, -⟩ := C78_parts cfg.nPartitions X hpart
  have hlen : parts.length = numPartitions cfg.nPartitions X.length := by
    rcases hP : cfg.nPartitions with _ | k
    · by_cases h6 : 600 < X.length
      · rw [hk2 hP h6]
        simp [numPartitions, h6]
      · rw [hk3 hP (by omega)]
        simp [numPartitions, h6]
    · exact hk1 k hP
  have hne : parts ≠ [] := by
    rintro rfl
    rw [List.flatten_nil] at hflat
    rw [← hflat] at hhn
    simp at hhn
    omega
  have hn0 : 1 ≤ cfg.nInitialSubsets / parts.length := by
    rw [Nat.le_div_iff_mul_le (List.length_pos_iff.2 hne)]
    omega
  obtain ⟨r, hr, hr1, hr2⟩ := partitionsBest_gp srt rng cfg hsteps hnb hp hX hn0 parts
    (fun P hP => ⟨by rw [← hflat]; exact (List.sublist_flatten_of_mem hP).subperm, hsize parts hparts P hP⟩) g
  obtain ⟨s, l, hl⟩ := List.exists_cons_of_ne_nil (nBest_ne_nil hnb (hr1 hne))
  obtain ⟨hs1, hs2⟩ := hr2 s (mem_nBest (by rw [hl]; simp))
  have hstep := cStep_eq (srt := srt) (s := s) hs2 (by rw [Fintype.card_fin]; exact hh)
  rw [getSubset_eq (by rw [Fintype.card_fin]; omega)] at hstep
  have hnew := cStep_length hstep (by rw [Fintype.card_fin]; exact hh)
  rw [min_eq_left hhn] at hnew
  simp only at hnew
  have hrun : runLoop (convergeStep srt cfg.alpha cfg.tol X) (fuel + 1) s = some (.error .valueError) := by
    simp only [runLoop, convergeStep, hstep, Except.bind, indicesEqual]
    rw [if_neg (by rw [hnew, hs1]; omega), if_neg (by rw [hnew]; omega), if_neg (by rw [hs1]; omega)]
  unfold fastMCD fastSearch
  rw [hall, hparts]
  simp only [Bool.false_eq_true, if_false, Run.andThen, hr, hsteps, mapExcept_zero, hl, convergeFrom, convergeAll, hrun]

/-- The full statement is violated. -/
theorem C195_violated : ¬ C195_statement := by
  intro h
  obtain ⟨fit, hfit⟩ := h 2 Unit (argsortStable ℝ) rngFirst { c173Cfg with nInitialCSteps := 0 } c172Good 0 () le_rfl c172_gp
    (by simp [c172Good]) (by simp [c172Good]) rfl rfl (by norm_num [c173Cfg]) (by norm_num [c173Cfg]) (by norm_num [c173Cfg])
    (by norm_num [c173Cfg]) (by norm_num [c173Cfg]) (by norm_num [c173Cfg]) rfl
  have hnone := C195_no_c_steps (argsortStable ℝ) rngFirst { c173Cfg with nInitialCSteps := 0 } c172Good 0 () le_rfl c172_gp rfl
    (by norm_num [c173Cfg]) (by simp [c173Cfg]) (by simp [c173Cfg, numPartitions, c172Good]) (by
      intro parts hparts P hP
      obtain ⟨parts', h1, -, -, -, h2, -⟩ := C78_parts (none : Option ℕ) c172Good (by simp)
      rw [show ({ c173Cfg with nInitialCSteps := 0 } : MCDConfig ℝ).nPartitions = none from rfl, h1] at hparts
      rw [← Except.ok.inj hparts, h2 rfl (by simp [c172Good])] at hP
      rw [List.mem_singleton.1 hP]
      simp [c172Good]) rfl 5 rfl (by norm_num) (by simp [c172Good])
  rw [hnone] at hfit
  cases hfit

/-- The eight points of a parabola meet the hypotheses of `C195_some_partial` with one initial C-step. -/
example : ∃ fit, fastMCD (argsortStable ℝ) rngFirst { c173Cfg with nInitialCSteps := 1 } c172Good 1 () = some (.ok fit) :=
  C195_some_partial (argsortStable ℝ) rngFirst { c173Cfg with nInitialCSteps := 1 } c172Good 0 () le_rfl c172_gp
    (by simp [c172Good]) (by simp [c172Good]) rfl rfl (by norm_num [c173Cfg]) (by norm_num [c173Cfg]) (by norm_num [c173Cfg])
    (by norm_num [c173Cfg]) (by norm_num [c173Cfg]) (by norm_num [c173Cfg]) rfl (by simp)

end Robpy
