import Verif.Props.MCD2
import Verif.Lemmas.Median

/-! # Properties C77-C80 of FastMCD / DetMCD: alpha = 1 or n, partitions, post processing,
number of initial subsets; and the exact size of the h subset (C37) -/

namespace Robpy
open Matrix

/-! ## C37: the exact size -/

/-- The size asked for by a documented `alpha` for `n` rows: the int itself, the integer part of
`alpha * n`, or nothing. -/
def Spec.RequestedSize {K : Type} [Field K] [LinearOrder K] [IsStrictOrderedRing K] (alpha : Alpha K) (n k : ℕ) : Prop :=
  match alpha with
  | .none => k = 0
  | .int z => (k : ℤ) = z
  | .float a => (k : K) ≤ a * n ∧ a * n < k + 1

section
variable {K : Type} [Field K] [LinearOrder K] [IsStrictOrderedRing K] [FloorSemiring K]

/-- **C37**, the size for the full data: the requested one, raised to the integer part of `(n + p + 1)/2`
if smaller. -/
theorem C37_size (alpha : Alpha K) (n p k : ℕ) (h : Spec.DocumentedAlpha alpha n)
    (hk : Spec.RequestedSize alpha n k) :
    ∃ r, (2 * r = n + p + 1 ∨ 2 * r + 1 = n + p + 1) ∧ mcdGetH alpha n p = .ok (max k r) := by
  refine ⟨hMin n p, by unfold hMin; omega, ?_⟩
  rcases alpha with _ | z | a
  · have hk : k = 0 := hk
    subst hk
    simp [mcdGetH]
  · have hk : (k : ℤ) = z := hk
    subst hk
    unfold mcdGetH
    exact if_pos h
  · have hf : ⌊a * (n : K)⌋₊ = k :=
      (Nat.floor_eq_iff (le_trans (Nat.cast_nonneg k) hk.1)).2 hk
    unfold mcdGetH
    have h' : 1 ≤ 2 * a ∧ a ≤ 1 := h
    simp only
    rw [if_pos h', hf]

end

example : Spec.DocumentedAlpha (.float (3 / 4) : Alpha ℚ) 10 ∧ Spec.RequestedSize (.float (3 / 4) : Alpha ℚ) 10 7 := by
  unfold Spec.DocumentedAlpha Spec.RequestedSize; constructor <;> constructor <;> norm_num

section
variable {K : Type} [Field K] [LinearOrder K] [IsStrictOrderedRing K] [FloorSemiring K]
variable {m : Type} [Fintype m] [DecidableEq m]

/-! ## C77 -/

/-- The number passed as `alpha`, if any. -/
def Spec.alphaValue (alpha : Alpha K) : Option K :=
  match alpha with
  | .none => none
  | .int z => some z
  | .float a => some a

omit [FloorSemiring K] in
theorem alphaIsAll_iff (alpha : Alpha K) (n : ℕ) :
    alphaIsAll alpha n = true ↔ Spec.alphaValue alpha = some 1 ∨ Spec.alphaValue alpha = some (n : K) := by
  rcases alpha with _ | z | a
  · simp [alphaIsAll, Spec.alphaValue]
  · simp only [alphaIsAll, Spec.alphaValue, decide_eq_true_eq, Option.some.injEq]
    have h1 : (z : K) = 1 ↔ z = 1 := by exact_mod_cast Iff.rfl
    have h2 : (z : K) = (n : K) ↔ z = n := by exact_mod_cast Iff.rfl
    rw [h1, h2]
  · simp [alphaIsAll, Spec.alphaValue]

/-- **C77**: if `alpha` equals 1 or the number of rows (int or float), FastMCD and DetMCD return the mean
and the classical covariance of all rows, whatever the other settings and the random draws. -/
theorem C77_classical {G : Type} (srt : ArgSort K) (rng : Rng G) (cfg : MCDConfig K) (X : List (m → K))
    (fuel : ℕ) (g : G) (inits : List (List ℕ))
    (h : Spec.alphaValue cfg.alpha = some 1 ∨ Spec.alphaValue cfg.alpha = some (X.length : K)) :
    ∃ fit, fastMCD srt rng cfg X fuel g = some (.ok fit) ∧ detMCD srt cfg X fuel inits = some (.ok fit) ∧
      (∀ j, fit.location j = (X.map fun x => x j).sum / X.length) ∧
      ∀ i j, fit.covariance i j =
        (X.map fun x => (x i - fit.location i) * (x j - fit.location j)).sum / ((X.length : K) - 1) := by
  have ha := (alphaIsAll_iff cfg.alpha X.length).2 h
  refine ⟨classicalFit X, by unfold fastMCD; rw [ha]; rfl, by unfold detMCD; rw [ha]; rfl, fun j => ?_, fun i j => rfl⟩
  simp [classicalFit, meanRow, mean]

/-- **C77**, converse: for any other `alpha` a fit that succeeds reports an h subset. -/
theorem C77_only {G : Type} (srt : ArgSort K) (rng : Rng G) (cfg : MCDConfig K) (X : List (m → K))
    (fuel : ℕ) (g : G) (fit : CovFit K m)
    (h1 : Spec.alphaValue cfg.alpha ≠ some 1) (h2 : Spec.alphaValue cfg.alpha ≠ some (X.length : K))
    (h : fastMCD srt rng cfg X fuel g = some (.ok fit)) :
    ∃ s, fastSearch srt rng cfg X fuel g = some (.ok s) ∧ postProcess cfg X s = .ok fit := by
  have ha : alphaIsAll cfg.alpha X.length = false := by
    rw [← Bool.not_eq_true, alphaIsAll_iff]; tauto
  unfold fastMCD at h
  rw [ha] at h
  obtain ⟨s, hs, h⟩ := Run.andThen_ok (by simpa using h)
  exact ⟨s, hs, Option.some.inj h⟩

/-! ## C78 -/

theorem splitBy_flatten {α : Type} (ks : List ℕ) (X : List α) (h : ks.sum = X.length) :
    (splitBy ks X).flatten = X ∧ (splitBy ks X).map List.length = ks := by
  induction ks generalizing X with
  | nil =>
    simp only [List.sum_nil] at h
    rw [List.eq_nil_of_length_eq_zero h.symm]; simp [splitBy]
  | cons k ks ih =>
    rw [List.sum_cons] at h
    obtain ⟨i1, i2⟩ := ih (X.drop k) (by rw [List.length_drop]; omega)
    constructor
    · simp only [splitBy, List.flatten_cons, i1, List.take_append_drop]
    · simp only [splitBy, List.map_cons, i2, List.length_take]
      rw [min_eq_left (by omega)]

theorem splitSizes_sum (n k : ℕ) (hk : 0 < k) : (splitSizes n k).sum = n := by
  unfold splitSizes
  rw [List.sum_append, List.sum_replicate, List.sum_replicate, smul_eq_mul, smul_eq_mul]
  have h1 : n % k < k := Nat.mod_lt _ hk
  obtain ⟨d, hd⟩ : ∃ d, k = n % k + d := ⟨k - n % k, by omega⟩
  have h2 : k - n % k = d := by omega
  rw [h2]
  have h3 := Nat.div_add_mod n k
  calc n % k * (n / k + 1) + d * (n / k) = (n % k + d) * (n / k) + n % k := by ring
    _ = n := by rw [← hd]; exact h3

/-- **C78**: the parts, in order, are exactly the data: no row is lost, repeated or moved; there are as
many parts as asked for (by default five for more than 600 rows, otherwise one) and their sizes differ
by at most one. -/
theorem C78_parts {α : Type} (nP : Option ℕ) (X : List α) (hk : nP ≠ some 0) :
    ∃ parts, partitionData nP X = .ok parts ∧ parts.flatten = X ∧
      (∀ k, nP = some k → parts.length = k) ∧
      (nP = none → 600 < X.length → parts.length = 5) ∧ (nP = none → X.length ≤ 600 → parts = [X]) ∧
      ∀ a ∈ parts, ∀ b ∈ parts, a.length ≤ b.length + 1 := by
  set k := numPartitions nP X.length with hkdef
  have hk0 : 0 < k := by
    rcases nP with _ | k'
    · simp only [numPartitions] at hkdef
      split_ifs at hkdef <;> omega
    · rcases k' with _ | k'
      · exact absurd rfl hk
      · simp only [numPartitions] at hkdef; omega
  have hlen : (splitSizes X.length k).length = k := by
    have : X.length % k < k := Nat.mod_lt _ hk0
    simp [splitSizes]; omega
  obtain ⟨h1, h2⟩ := splitBy_flatten (splitSizes X.length k) X (splitSizes_sum _ _ hk0)
  have hl : (splitBy (splitSizes X.length k) X).length = k := by
    rw [← List.length_map (f := List.length), h2, hlen]
  refine ⟨splitBy (splitSizes X.length k) X, ?_, h1, ?_, ?_, ?_, ?_⟩
  · unfold partitionData; rw [if_neg (by omega)]
  · rintro k' rfl; rw [hl]; rfl
  · rintro rfl h; rw [hl, hkdef]; simp [numPartitions, h]
  · rintro rfl h
    have : k = 1 := by rw [hkdef]; simp [numPartitions, h]
    rw [this] at hl h1 ⊢
    rcases hsp : splitBy (splitSizes X.length 1) X with _ | ⟨a, _ | ⟨b, l⟩⟩
    · rw [hsp] at hl; simp at hl
    · rw [hsp] at h1; simpa using h1
    · rw [hsp] at hl; simp at hl
  · have hb : ∀ a ∈ splitBy (splitSizes X.length k) X, X.length / k ≤ a.length ∧ a.length ≤ X.length / k + 1 := by
      intro a ha
      have : a.length ∈ splitSizes X.length k := h2 ▸ List.mem_map_of_mem ha
      unfold splitSizes at this
      rcases List.mem_append.1 this with h | h
      · rw [List.eq_of_mem_replicate h]; omega
      · rw [List.eq_of_mem_replicate h]; omega
    intro a ha b hb'
    have := hb a ha
    have := hb b hb'
    omega

/-- **C78**: zero partitions are rejected. -/
theorem C78_zero {α : Type} (X : List α) : partitionData (some 0) X = .error .valueError := rfl

/-- Seven rows in three parts. -/
example : partitionData (some 3) [1, 2, 3, 4, 5, 6, 7] = .ok [[1, 2, 3], [4, 5], [6, 7]] := rfl

/-! ## C79 -/

omit [LinearOrder K] [IsStrictOrderedRing K] [FloorSemiring K] in
theorem quadForm_inv_smul (c : K) (hc : c ≠ 0) (S : Matrix m m K) (v : m → K) :
    quadForm (c • S)⁻¹ v = c⁻¹ * quadForm S⁻¹ v := by
  by_cases hd : S.det = 0
  · have h1 : ¬ IsUnit S.det := by rw [hd]; simp
    have h2 : ¬ IsUnit (c • S).det := by
      rw [det_smul, hd]; simp
    rw [nonsing_inv_apply_not_isUnit _ h1, nonsing_inv_apply_not_isUnit _ h2]
    simp [quadForm]
  · have : (c • S)⁻¹ = c⁻¹ • S⁻¹ := by
      apply Matrix.inv_eq_right_inv
      rw [Matrix.smul_mul, Matrix.mul_smul, smul_smul, mul_inv_cancel₀ hc, one_smul,
        Matrix.mul_nonsing_inv _ (isUnit_iff_ne_zero.2 hd)]
    rw [this]
    simp [quadForm, Matrix.vecMul_smul, smul_eq_mul]

omit [FloorSemiring K] in
/-- **C79**, consistency correction: with the corrected covariance the median of the squared distances of
all rows is exactly the median `chi50` of the chi-square law (unless the median distance is zero). -/
theorem C79_correction (chi50 : K) (hchi : chi50 ≠ 0) (X : List (m → K)) (hX : X ≠ []) (hm : Nonempty m)
    (s : HSubset K m) (S : Matrix m m K) (h : correctCovariance chi50 X s = .ok S) (d : List K)
    (hd : sqMahalanobis X s.location S = .ok d) : npMedian d = some chi50 := by
  unfold correctCovariance at h
  rcases h0 : sqMahalanobis X s.location s.scale with e | d0
  · rw [h0] at h; simp [Except.map] at h
  rw [h0] at h
  have hS := (Except.ok.inj h).symm
  simp only at hS
  subst hS
  obtain ⟨-, hd0⟩ := sqMahalanobis_ok h0
  obtain ⟨hdet, rfl⟩ := sqMahalanobis_ok hd
  obtain ⟨μ, hμ⟩ := npMedian_isSome (xs := d0) (by rw [hd0]; simpa using hX)
  rw [hμ] at hdet ⊢
  simp only [Option.getD_some] at hdet ⊢
  have hc : μ / chi50 ≠ 0 := by
    intro hc
    rw [hc, zero_smul, Matrix.det_zero] at hdet
    exact hdet rfl
  have : (X.map fun x => quadForm ((μ / chi50) • s.scale)⁻¹ (x - s.location)) =
      d0.map fun v => (μ / chi50)⁻¹ * v := by
    rw [hd0, List.map_map]
    apply List.map_congr_left
    intro x _
    rw [quadForm_inv_smul _ hc]; rfl
  rw [this, npMedian_scale, hμ]
  have hμ0 : μ ≠ 0 := fun h => hc (by rw [h, zero_div])
  simp only [Option.map_some, Option.some.injEq]
  field_simp

/-- The covariance the reweighting step starts from: the covariance of the best subset, multiplied by the
positive number that makes the median squared distance equal to `chi50` if the correction is on. -/
def Spec.RawScale (cfg : MCDConfig K) (X : List (m → K)) (s : HSubset K m) (S : Matrix m m K) : Prop :=
  (cfg.correct = false → S = s.scale) ∧
  (cfg.correct = true → ∃ μ, npMedian (X.map fun x => quadForm s.scale⁻¹ (x - s.location)) = some μ ∧
    S = (μ / cfg.chi50) • s.scale)

omit [FloorSemiring K] in
theorem postProcess_scale {cfg : MCDConfig K} {X : List (m → K)} (hX : X ≠ []) {s : HSubset K m}
    {S : Matrix m m K}
    (h : (if cfg.correct then correctCovariance cfg.chi50 X s else .ok s.scale) = .ok S) :
    Spec.RawScale cfg X s S := by
  split_ifs at h with hc
  · refine ⟨fun h' => by simp [hc] at h', fun _ => ?_⟩
    unfold correctCovariance at h
    rcases h0 : sqMahalanobis X s.location s.scale with e | d0
    · rw [h0] at h; simp [Except.map] at h
    rw [h0] at h
    have hS := (Except.ok.inj h).symm
    obtain ⟨-, hd0⟩ := sqMahalanobis_ok h0
    obtain ⟨μ, hμ⟩ := npMedian_isSome (xs := d0) (by rw [hd0]; simpa using hX)
    refine ⟨μ, by rw [← hd0]; exact hμ, ?_⟩
    rw [hS]; simp only [hμ, Option.getD_some]
  · exact ⟨fun _ => (Except.ok.inj h).symm, fun h' => absurd h' hc⟩

omit [Field K] [LinearOrder K] [IsStrictOrderedRing K] [FloorSemiring K] [Fintype m] [DecidableEq m] in
theorem maskRows_map {α : Type} (p : α → Bool) (X : List α) : maskRows (X.map p) X = X.filter p := by
  unfold maskRows
  induction X with
  | nil => rfl
  | cons a X ih =>
    rw [List.map_cons, List.zip_cons_cons, List.filter_cons, List.filter_cons]
    cases h : p a <;> simp_all

omit [FloorSemiring K] in
/-- **C79**, reweighting: the reported location and covariance are the mean and the covariance (times the
correction factor) of exactly the rows whose squared distance from the raw fit is below `chi975`, and the
mask marks exactly these rows. -/
theorem C79_reweighted (cfg : MCDConfig K) (X : List (m → K)) (hX : X ≠ []) (s : HSubset K m)
    (fit : CovFit K m) (hr : cfg.reweighting = true) (h : postProcess cfg X s = .ok fit) :
    ∃ S rows, Spec.RawScale cfg X s S ∧
      rows = X.filter (fun x => decide (quadForm S⁻¹ (x - s.location) < cfg.chi975)) ∧
      fit.mask = some (X.map fun x => decide (quadForm S⁻¹ (x - s.location) < cfg.chi975)) ∧
      (∀ j, fit.location j = (rows.map fun x => x j).sum / rows.length) ∧
      ∀ i j, fit.covariance i j = (if cfg.correct then cfg.gammaFactor else 1) *
        ((rows.map fun x => (x i - fit.location i) * (x j - fit.location j)).sum / ((rows.length : K) - 1)) := by
  unfold postProcess at h
  rcases hS : (if cfg.correct then correctCovariance cfg.chi50 X s else .ok s.scale) with e | S
  · rw [hS] at h; simp [Except.bind] at h
  rw [hS] at h
  simp only [Except.bind, hr, if_true] at h
  unfold reweight at h
  rcases hd : sqMahalanobis X s.location S with e | d
  · rw [hd] at h; simp [Except.bind] at h
  obtain ⟨-, rfl⟩ := sqMahalanobis_ok hd
  rw [hd] at h
  simp only [Except.bind, List.map_map] at h
  refine ⟨S, _, postProcess_scale hX hS, rfl, ?_⟩
  split_ifs at h with h1 hc
  all_goals
    obtain rfl := Except.ok.inj h
    refine ⟨by simp [Function.comp_def], fun j => ?_, fun i j => ?_⟩
    · simp only
      rw [show ((fun v => decide (v < cfg.chi975)) ∘ fun x => quadForm S⁻¹ (x - s.location)) =
        (fun x => decide (quadForm S⁻¹ (x - s.location) < cfg.chi975)) from rfl, maskRows_map]
      simp [meanRow, mean]
    · simp only
      rw [show ((fun v => decide (v < cfg.chi975)) ∘ fun x => quadForm S⁻¹ (x - s.location)) =
        (fun x => decide (quadForm S⁻¹ (x - s.location) < cfg.chi975)) from rfl, maskRows_map]
      simp [npCov, hc]

omit [FloorSemiring K] in
/-- **C79**, without reweighting: the raw location and the raw (corrected) covariance are reported. -/
theorem C79_raw (cfg : MCDConfig K) (X : List (m → K)) (hX : X ≠ []) (s : HSubset K m)
    (fit : CovFit K m) (hr : cfg.reweighting = false) (h : postProcess cfg X s = .ok fit) :
    fit.location = s.location ∧ Spec.RawScale cfg X s fit.covariance ∧ fit.mask = none := by
  unfold postProcess at h
  rcases hS : (if cfg.correct then correctCovariance cfg.chi50 X s else .ok s.scale) with e | S
  · rw [hS] at h; simp [Except.bind] at h
  rw [hS] at h
  simp only [Except.bind, hr] at h
  obtain rfl := Except.ok.inj h
  exact ⟨rfl, postProcess_scale hX hS, rfl⟩

omit [FloorSemiring K] in
/-- **C79**: with the correction on, the reweighting step uses at least half of the rows (`chi50 < chi975`
holds for the chi-square quantiles). -/
theorem C79_half_kept (cfg : MCDConfig K) (X : List (m → K)) (hX : X ≠ []) (hm : Nonempty m) (s : HSubset K m)
    (fit : CovFit K m) (hr : cfg.reweighting = true) (hc : cfg.correct = true) (h0 : cfg.chi50 ≠ 0)
    (hchi : cfg.chi50 < cfg.chi975) (h : postProcess cfg X s = .ok fit) (mask : List Bool)
    (hmask : fit.mask = some mask) : X.length ≤ 2 * mask.count true := by
  unfold postProcess at h
  rw [if_pos hc] at h
  rcases hS : correctCovariance cfg.chi50 X s with e | S
  · rw [hS] at h; simp [Except.bind] at h
  rw [hS] at h
  simp only [Except.bind, hr, if_true] at h
  unfold reweight at h
  rcases hd : sqMahalanobis X s.location S with e | d
  · rw [hd] at h; simp [Except.bind] at h
  have hmed := C79_correction cfg.chi50 h0 X hX hm s S hS d hd
  have hlen : d.length = X.length := by rw [(sqMahalanobis_ok hd).2]; simp
  have hhalf := (npMedian_half hmed).1
  rw [hd] at h
  simp only [Except.bind] at h
  have hle : d.countP (fun x => decide (x ≤ cfg.chi50)) ≤ d.countP (fun v => decide (v < cfg.chi975)) := by
    apply List.countP_mono_left
    intro x _ hx
    simp only [decide_eq_true_eq] at hx ⊢
    exact lt_of_le_of_lt hx hchi
  have hmk : mask = d.map fun v => decide (v < cfg.chi975) := by
    split_ifs at h
    all_goals
      obtain rfl := Except.ok.inj h
      exact (Option.some.inj hmask).symm
  have hcount : mask.count true = d.countP (fun v => decide (v < cfg.chi975)) := by
    rw [hmk, List.count, List.countP_map]
    congr 1; funext v; simp
  omega

end

/-- The run keeps 8 rows. -/
def c79Check (r : Run (CovFit ℚ (Fin 2))) : Bool :=
  match r with
  | some (.ok fit) =>
    match fit.mask with
    | some mask => decide (mask.count true = 8)
    | none => false
  | _ => false

theorem c79_check : c79Check (fastMCD (argsortStable ℚ) rngFirst c36Cfg c36Data 2 ()) = true := by
  decide +kernel

/-- The post processing of the run in `C36_violated` succeeds, so `C79_reweighted` and `C79_half_kept` apply
to it: 8 of the 12 rows are kept. -/
example : ∃ s fit mask, postProcess c36Cfg c36Data s = .ok fit ∧ fit.mask = some mask ∧ mask.count true = 8 := by
  have hc := c79_check
  unfold c79Check at hc
  split at hc
  · rename_i fit hfit
    split at hc
    · rename_i mask hmask
      obtain ⟨s, -, hs⟩ := C77_only (argsortStable ℚ) rngFirst c36Cfg c36Data 2 () fit
        (by simp [c36Cfg, Spec.alphaValue]) (by simp [c36Cfg, Spec.alphaValue]) hfit
      exact ⟨s, fit, mask, hs, hmask, of_decide_eq_true hc⟩
    · simp at hc
  · simp at hc

/-! ## C80 -/

/-- Full statement of C80: at least one initial subset, at least one kept subset and at least one part
never lead to IndexError. -/
def C80_statement (K : Type) [Field K] [LinearOrder K] [FloorSemiring K] : Prop :=
  ∀ (p : ℕ) (G : Type) (srt : ArgSort K) (rng : Rng G) (cfg : MCDConfig K) (X : List (Fin p → K))
    (fuel : ℕ) (g : G), 1 ≤ cfg.nInitialSubsets → 1 ≤ cfg.nBestSubsets →
    fastMCD srt rng cfg X fuel g ≠ some (.error .indexError)

section
variable {K : Type} [Field K] [LinearOrder K] [IsStrictOrderedRing K] [FloorSemiring K]
variable {m : Type} [Fintype m] [DecidableEq m]

omit [IsStrictOrderedRing K] in
/-- **C80**, the reason of the violation: with fewer initial subsets than parts, no subset is drawn at all
and FastMCD raises IndexError, for all data and draws. -/
theorem C80_too_few {G : Type} (srt : ArgSort K) (rng : Rng G) (cfg : MCDConfig K) (X : List (m → K))
    (fuel : ℕ) (g : G) (parts : List (List (m → K))) (ha : alphaIsAll cfg.alpha X.length = false)
    (hp : partitionData cfg.nPartitions X = .ok parts) (hlt : cfg.nInitialSubsets < parts.length) :
    fastMCD srt rng cfg X fuel g = some (.error .indexError) := by
  have h0 : ∀ (ps : List (List (m → K))) (g : G), partitionsBest srt rng cfg 0 ps g = some (.ok ([], g)) := by
    intro ps
    induction ps with
    | nil => intro g; rfl
    | cons a ps ih =>
      intro g
      simp only [partitionsBest, partitionBest, initialSubsets, Run.andThen, mapExcept, Except.map]
      rw [ih]
      simp [nBest]
  unfold fastMCD fastSearch
  rw [ha, hp]
  simp only [Run.andThen, Nat.div_eq_of_lt hlt, h0, mapExcept]
  simp [nBest, convergeFrom]

omit [IsStrictOrderedRing K] in
theorem mcdGetH_noIndexError (alpha : Alpha K) (n p : ℕ) : mcdGetH alpha n p ≠ .error .indexError := by
  unfold mcdGetH
  split
  · simp
  · split_ifs <;> simp
  · split_ifs <;> simp

omit [IsStrictOrderedRing K] in
theorem cStep_noIndexError (srt : ArgSort K) (alpha : Alpha K) (X : List (m → K)) (s : HSubset K m) :
    cStep srt alpha X s ≠ .error .indexError := by
  unfold cStep
  by_cases hd : s.scale.det = 0
  · rw [sqMahalanobis_singular hd]; simp [Except.bind]
  · rw [sqMahalanobis_eq hd]
    simp only [Except.bind]
    rcases hh : mcdGetH alpha X.length (Fintype.card m) with e | k
    · intro h
      rw [Except.error.inj h] at hh
      exact mcdGetH_noIndexError _ _ _ hh
    · simp only [getSubset, npDetCov]
      split_ifs <;> simp [Except.map]

omit [IsStrictOrderedRing K] in
theorem multiCSteps_noIndexError (srt : ArgSort K) (alpha : Alpha K) (X : List (m → K)) (k : ℕ) (s : HSubset K m) :
    multiCSteps srt alpha X k s ≠ .error .indexError := by
  induction k generalizing s with
  | zero => simp [multiCSteps]
  | succ k ih =>
    unfold multiCSteps
    rcases hc : cStep srt alpha X s with e | t
    · intro h
      exact cStep_noIndexError srt alpha X s (by rw [hc]; simpa [Except.bind] using h)
    · exact ih t

theorem mapExcept_noIndexError {α β : Type} {f : α → Except PyErr β} (hf : ∀ a, f a ≠ .error .indexError)
    (l : List α) : mapExcept f l ≠ .error .indexError := by
  induction l with
  | nil => simp [mapExcept]
  | cons a l ih =>
    unfold mapExcept
    rcases ha : f a with e | b
    · intro h; exact hf a (by rw [ha]; simpa [Except.bind] using h)
    · rcases hl : mapExcept f l with e | bs
      · intro h; exact ih (by rw [hl]; simpa [Except.bind, Except.map] using h)
      · simp [Except.bind, Except.map]

omit [IsStrictOrderedRing K] [FloorSemiring K] in
theorem grow_noIndexError {G : Type} (rng : Rng G) (X : List (m → K)) (fuel : ℕ) (st : List ℕ × G) :
    runLoop (growStep rng X) fuel st ≠ some (.error .indexError) := by
  induction fuel generalizing st with
  | zero => simp [runLoop]
  | succ fuel ih =>
    unfold runLoop growStep
    rcases hg : getSubset X st.1 0 with e | s
    · simp only [Except.bind]
      intro h
      unfold getSubset npDetCov at hg
      split_ifs at hg <;> simp [Except.map] at hg
      rw [← hg] at h; simp at h
    · simp only [Except.bind]
      split_ifs
      · simp
      · exact ih _
      · simp

omit [IsStrictOrderedRing K] [FloorSemiring K] in
theorem initialSubsets_noIndexError {G : Type} (rng : Rng G) (X : List (m → K)) (fuel k : ℕ) (g : G) :
    initialSubsets rng X fuel k g ≠ some (.error .indexError) ∧
    ∀ r, initialSubsets rng X fuel k g = some (.ok r) → r.1.length = k := by
  induction k generalizing g with
  | zero =>
    refine ⟨by simp [initialSubsets], fun r h => ?_⟩
    simp only [initialSubsets, Option.some.injEq, Except.ok.injEq] at h
    rw [← h]; rfl
  | succ k ih =>
    unfold initialSubsets
    rcases h1 : initialSubset rng X fuel g with _ | (e | r)
    · simp [Run.andThen]
    · refine ⟨fun h => ?_, fun r h => by simp [Run.andThen] at h⟩
      simp only [Run.andThen, Option.some.injEq, Except.error.injEq] at h
      rw [h] at h1
      unfold initialSubset at h1
      split_ifs at h1
      · simp at h1
      · exact grow_noIndexError _ _ _ _ h1
    · simp only [Run.andThen]
      rcases h2 : initialSubsets rng X fuel k r.2 with _ | (e | rs)
      · simp
      · refine ⟨fun h => (ih r.2).1 (by rw [h2]; simpa using h), fun r h => by simp at h⟩
      · refine ⟨by simp, fun r' h => ?_⟩
        simp only [Option.some.injEq, Except.ok.injEq] at h
        rw [← h]
        simp [(ih r.2).2 rs h2]

omit [IsStrictOrderedRing K] in
theorem partitionsBest_noIndexError {G : Type} (srt : ArgSort K) (rng : Rng G) (cfg : MCDConfig K) (n0 : ℕ)
    (ps : List (List (m → K))) (g : G) :
    partitionsBest srt rng cfg n0 ps g ≠ some (.error .indexError) ∧
    ∀ r, partitionsBest srt rng cfg n0 ps g = some (.ok r) → 1 ≤ n0 → 1 ≤ cfg.nBestSubsets → ps ≠ [] →
      r.1 ≠ [] := by
  induction ps generalizing g with
  | nil => exact ⟨by simp [partitionsBest], fun _ _ _ _ h => absurd rfl h⟩
  | cons data ps ih =>
    have hi := initialSubsets_noIndexError rng data (data.length + 1) n0 g
    unfold partitionsBest partitionBest
    rcases h1 : initialSubsets rng data (data.length + 1) n0 g with _ | (e | r)
    · simp [Run.andThen]
    · refine ⟨fun h => hi.1 (by rw [h1]; simpa [Run.andThen] using h), fun r h => by simp [Run.andThen] at h⟩
    · simp only [Run.andThen]
      rcases h2 : mapExcept (multiCSteps srt cfg.alpha data cfg.nInitialCSteps) r.1 with e | ss
      · refine ⟨fun h => ?_, fun r h => by simp [Except.map] at h⟩
        refine mapExcept_noIndexError (fun a => multiCSteps_noIndexError srt cfg.alpha data cfg.nInitialCSteps a) r.1 ?_
        rw [h2]; simpa [Except.map] using h
      · simp only [Except.map]
        rcases h3 : partitionsBest srt rng cfg n0 ps r.2 with _ | (e | rs)
        · simp
        · exact ⟨fun h => (ih r.2).1 (by rw [h3]; simpa using h), fun r h => by simp at h⟩
        · refine ⟨by simp, fun r' h hn hb _ => ?_⟩
          simp only [Option.some.injEq, Except.ok.injEq] at h
          rw [← h]
          have hl : r.1.length = n0 := hi.2 r h1
          have hl2 : ss.length = r.1.length := (mapExcept_ok h2).length_eq.symm
          have : (nBest cfg.nBestSubsets ss).length = min cfg.nBestSubsets ss.length := by
            obtain ⟨-, -, h, -⟩ := C38_nBest cfg.nBestSubsets ss
            exact h
          intro h0
          have h0' := congrArg List.length h0
          simp only [List.length_append, List.length_nil] at h0'
          omega

omit [IsStrictOrderedRing K] in
theorem convergeStep_noIndexError (srt : ArgSort K) (alpha : Alpha K) (tol : K) (X : List (m → K)) (fuel : ℕ)
    (s : HSubset K m) : runLoop (convergeStep srt alpha tol X) fuel s ≠ some (.error .indexError) := by
  induction fuel generalizing s with
  | zero => simp [runLoop]
  | succ fuel ih =>
    unfold runLoop convergeStep
    rcases hc : cStep srt alpha X s with e | t
    · simp only [Except.bind]
      intro h
      exact cStep_noIndexError srt alpha X s (by rw [hc]; simpa using h)
    · simp only [Except.bind]
      rcases hi : indicesEqual t.indices s.indices with e | b
      · simp only
        intro h
        unfold indicesEqual at hi
        split_ifs at hi
        rw [← Except.error.inj hi] at h; simp at h
      · simp only
        split_ifs
        · simp
        · exact ih t

omit [IsStrictOrderedRing K] in
theorem convergeFrom_noIndexError (srt : ArgSort K) (alpha : Alpha K) (tol : K) (X : List (m → K)) (fuel : ℕ)
    (l : List (HSubset K m)) (hl : l ≠ []) : convergeFrom srt alpha tol X fuel l ≠ some (.error .indexError) := by
  have key : ∀ (l : List (HSubset K m)) b, convergeAll srt alpha tol X fuel l b ≠ some (.error .indexError) := by
    intro l
    induction l with
    | nil => intro b; simp [convergeAll]
    | cons s l ih =>
      intro b
      unfold convergeAll
      rcases hr : runLoop (convergeStep srt alpha tol X) fuel s with _ | (e | t)
      · simp [Run.andThen]
      · intro h
        exact convergeStep_noIndexError srt alpha tol X fuel s (by rw [hr]; simpa [Run.andThen] using h)
      · exact ih _
  rcases l with _ | ⟨s, l⟩
  · exact absurd rfl hl
  · exact key _ _

omit [IsStrictOrderedRing K] [FloorSemiring K] in
theorem postProcess_noIndexError (cfg : MCDConfig K) (X : List (m → K)) (s : HSubset K m) :
    postProcess cfg X s ≠ .error .indexError := by
  have hsq : ∀ loc (S : Matrix m m K), sqMahalanobis X loc S ≠ .error .indexError := by
    intro loc S
    by_cases hd : S.det = 0
    · rw [sqMahalanobis_singular hd]; simp
    · rw [sqMahalanobis_eq hd]; simp
  unfold postProcess
  rcases hS : (if cfg.correct then correctCovariance cfg.chi50 X s else .ok s.scale) with e | S
  · intro h
    simp only [Except.bind, Except.error.injEq] at h
    rw [h] at hS
    split_ifs at hS
    unfold correctCovariance at hS
    rcases hd : sqMahalanobis X s.location s.scale with e' | d
    · rw [hd] at hS
      simp only [Except.map, Except.error.injEq] at hS
      exact hsq _ _ (hS ▸ hd)
    · rw [hd] at hS; simp [Except.map] at hS
  · simp only [Except.bind]
    split_ifs
    · unfold reweight
      rcases hd : sqMahalanobis X s.location S with e' | d
      · intro h
        simp only [Except.bind, Except.error.injEq] at h
        exact hsq _ _ (h ▸ hd)
      · simp only [Except.bind]
        split_ifs <;> simp
    · simp

omit [IsStrictOrderedRing K] in
/-- **C80**, what does hold: IndexError never occurs when there are at least as many initial subsets as
parts.  Missing: fewer initial subsets than parts, see `C80_too_few`. -/
theorem C80_partial {G : Type} (srt : ArgSort K) (rng : Rng G) (cfg : MCDConfig K) (X : List (m → K))
    (fuel : ℕ) (g : G) (hb : 1 ≤ cfg.nBestSubsets)
    (hp : numPartitions cfg.nPartitions X.length ≤ cfg.nInitialSubsets) :
    fastMCD srt rng cfg X fuel g ≠ some (.error .indexError) := by
  unfold fastMCD
  split_ifs
  · simp
  rcases hs : fastSearch srt rng cfg X fuel g with _ | (e | s)
  · simp [Run.andThen]
  · simp only [Run.andThen]
    intro h
    rw [Except.error.inj (Option.some.inj h)] at hs
    clear h
    unfold fastSearch at hs
    by_cases h0 : cfg.nPartitions = some 0
    · rw [h0] at hs; simp [C78_zero, Run.andThen] at hs
    have hk : (splitSizes X.length (numPartitions cfg.nPartitions X.length)).length =
        numPartitions cfg.nPartitions X.length ∧ 0 < numPartitions cfg.nPartitions X.length := by
      have hpos : 0 < numPartitions cfg.nPartitions X.length := by
        rcases hn : cfg.nPartitions with _ | k
        · simp only [numPartitions]; split_ifs <;> omega
        · rcases k with _ | k
          · exact absurd hn h0
          · simp [numPartitions]
      have := Nat.mod_lt X.length hpos
      refine ⟨?_, hpos⟩
      simp [splitSizes]; omega
    have hlen : ∀ (ks : List ℕ) (Y : List (m → K)), (splitBy ks Y).length = ks.length := by
      intro ks
      induction ks with
      | nil => intro Y; rfl
      | cons k ks ih => intro Y; simp [splitBy, ih]
    have hpd : partitionData cfg.nPartitions X =
        .ok (splitBy (splitSizes X.length (numPartitions cfg.nPartitions X.length)) X) := by
      unfold partitionData; rw [if_neg (by omega)]
    rw [hpd] at hs
    set parts := splitBy (splitSizes X.length (numPartitions cfg.nPartitions X.length)) X with hparts
    have hpl : parts.length = numPartitions cfg.nPartitions X.length := by rw [hparts, hlen, hk.1]
    simp only [Run.andThen] at hs
    obtain ⟨i1, i2⟩ := partitionsBest_noIndexError srt rng cfg (cfg.nInitialSubsets / parts.length) parts g
    rcases h2 : partitionsBest srt rng cfg (cfg.nInitialSubsets / parts.length) parts g with _ | (e | r)
    · rw [h2] at hs; simp at hs
    · rw [h2] at hs
      simp only [Option.some.injEq, Except.error.injEq] at hs
      exact i1 (by rw [h2, hs])
    · rw [h2] at hs
      simp only at hs
      have hr := i2 r h2 (Nat.div_pos (by omega) (by omega)) hb (by
        intro h; rw [h] at hpl; simp at hpl; omega)
      rcases h3 : mapExcept (multiCSteps srt cfg.alpha X cfg.nInitialCSteps) r.1 with e | ss
      · rw [h3] at hs
        simp only [Option.some.injEq, Except.error.injEq] at hs
        exact mapExcept_noIndexError (fun a => multiCSteps_noIndexError srt cfg.alpha X cfg.nInitialCSteps a) r.1
          (by rw [h3, hs])
      · rw [h3] at hs
        simp only at hs
        refine convergeFrom_noIndexError srt cfg.alpha cfg.tol X fuel _ ?_ hs
        have hl2 : ss.length = r.1.length := (mapExcept_ok h3).length_eq.symm
        have hl3 : 0 < r.1.length := List.length_pos_iff.2 hr
        obtain ⟨-, -, h4, -⟩ := C38_nBest cfg.nBestSubsets ss
        intro h5
        rw [h5] at h4
        simp only [List.length_nil] at h4
        omega
  · intro h
    exact postProcess_noIndexError cfg X s (by simpa [Run.andThen] using h)

end

/-- **C80 is violated**: `FastMCD(n_initial_subsets=1, n_partitions=2)` raises IndexError, e.g. on the twelve
points of `c36Data` (with 4 or fewer initial subsets this happens by default for more than 600 rows). -/
theorem C80_violated : ¬ C80_statement ℚ := by
  intro h
  refine h 2 Unit (argsortStable ℚ) rngFirst { c36Cfg with nPartitions := some 2 } c36Data 1 () (by decide) (by decide) ?_
  obtain ⟨parts, hp, -, hl, -⟩ := C78_parts (some 2) c36Data (by simp)
  exact C80_too_few _ _ _ _ _ _ parts rfl hp (by rw [hl 2 rfl]; decide)

/-- The default settings meet the hypotheses of `C80_partial`. -/
example : numPartitions none 1000 ≤ 500 ∧ 1 ≤ 10 := by decide

end Robpy
