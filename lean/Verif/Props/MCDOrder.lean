import Verif.Props.DetOrder
import Verif.Props.SOrder
import Verif.Props.MCDZeroSteps

/-! C196: FastMCD and the order of the rows. -/

namespace Robpy
open Matrix
variable {p : ℕ}

/-! ## Specification -/

/-- The `h` rows closest to the mean of the rows `H`, in the metric of their covariance, are determined. -/
def Spec.closestDetermined (alpha : Alpha ℝ) (X : List (Fin p → ℝ)) (H : List ℕ) : Prop :=
  ∀ d h, mcdGetH alpha X.length p = .ok h → sqMahalanobis X (meanRow (takeAt X H)) (npCov (takeAt X H)) = .ok d → Spec.clearCut h d

/-- No ties in a run of FastMCD: neither for the initial subsets nor for sets of `h` rows. -/
def Spec.noMCDTies {Γ : Type} (rng : Rng Γ) (cfg : MCDConfig ℝ) (X : List (Fin p → ℝ)) (g : Γ) : Prop :=
  (∀ r, initialSubsets rng X (X.length + 1) cfg.nInitialSubsets g = some (.ok r) → ∀ s ∈ r.1,
    Spec.closestDetermined cfg.alpha X s.indices) ∧
  ∀ h, mcdGetH cfg.alpha X.length p = .ok h → ∀ H : List ℕ, H.Nodup → (∀ i ∈ H, i < X.length) → H.length = min h X.length →
    Spec.closestDetermined cfg.alpha X H

/-- The initial subsets of two runs have the same rows. -/
def Spec.sameStarts {Γ : Type} (rng rng' : Rng Γ) (k : ℕ) (X X' : List (Fin p → ℝ)) (g g' : Γ) : Prop :=
  Spec.sameRun (fun r r' => List.Forall₂ (Spec.sameSubset X X') r.1 r'.1)
    (initialSubsets rng X (X.length + 1) k g) (initialSubsets rng' X' (X'.length + 1) k g')

/-! ## Steps -/

variable {X X' : List (Fin p → ℝ)}

theorem multiCSteps_same (srt : ArgSort ℝ) (alpha : Alpha ℝ) (hX : X.Perm X')
    (hcut : ∀ h, mcdGetH alpha X.length p = .ok h → ∀ H : List ℕ, H.Nodup → (∀ i ∈ H, i < X.length) → H.length = min h X.length →
      Spec.closestDetermined alpha X H) (k : ℕ) {s s' : HSubset ℝ (Fin p)} (hs : Spec.sameSubset X X' s s') (hsub : IsSubset X s)
    (hc : Spec.closestDetermined alpha X s.indices) :
    Spec.sameExcept (Spec.sameSubset X X') (multiCSteps srt alpha X k s) (multiCSteps srt alpha X' k s') := by
  induction k generalizing s s' with
  | zero => exact hs
  | succ k ih =>
    unfold multiCSteps
    refine sameExcept_bind (cStep_same srt alpha hX hs fun d h hh hd => ?_) fun t t' ht _ htt => ?_
    · rw [hsub.location, hsub.scale] at hd
      exact hc d h hh hd
    · obtain ⟨-, h, hh, hlen⟩ := Stepped.getH ⟨s, ht⟩
      rw [Fintype.card_fin] at hh
      have hsub' := cStep_isSubset ht
      exact ih htt hsub' (hcut h hh _ hsub'.nodup hsub'.lt hlen)

theorem orderedInsert_same {s s' : HSubset ℝ (Fin p)} (hs : Spec.sameSubset X X' s s') {l l' : List (HSubset ℝ (Fin p))}
    (hl : List.Forall₂ (Spec.sameSubset X X') l l') :
    List.Forall₂ (Spec.sameSubset X X') (l.orderedInsert (fun a b => a.determinant ≤ b.determinant) s)
      (l'.orderedInsert (fun a b => a.determinant ≤ b.determinant) s') := by
  induction hl with
  | nil => exact .cons hs .nil
  | @cons a b l l' h hl ih =>
    rw [List.orderedInsert_cons, List.orderedInsert_cons]
    rw [← hs.determinant, ← h.determinant]
    split_ifs
    · exact .cons hs (.cons h hl)
    · exact .cons h ih

theorem nBest_same (k : ℕ) {l l' : List (HSubset ℝ (Fin p))} (hl : List.Forall₂ (Spec.sameSubset X X') l l') :
    List.Forall₂ (Spec.sameSubset X X') (nBest k l) (nBest k l') := by
  unfold nBest
  refine List.forall₂_take k ?_
  induction hl with
  | nil => exact .nil
  | cons h _ ih => exact orderedInsert_same h ih

theorem partitionData_one {α : Type} (nP : Option ℕ) (X : List α) (h : numPartitions nP X.length = 1) : partitionData nP X = .ok [X] := by
  unfold partitionData
  rw [h]
  simp [splitSizes, splitBy, Nat.mod_one]

theorem initialSubsets_isSubset {Γ : Type} (rng : Rng Γ) (X : List (Fin p → ℝ)) (hp : p ≠ 1) (k : ℕ) (g : Γ)
    {r : List (HSubset ℝ (Fin p)) × Γ} (hr : initialSubsets rng X (X.length + 1) k g = some (.ok r)) : ∀ s ∈ r.1, IsSubset X s := by
  rcases initialSubsets_outcome rng X (by rw [Fintype.card_fin]; exact hp) (X.length + 1) (by omega) k g with ⟨r', hr', -, hall⟩ | hout
  · rw [hr] at hr'
    obtain rfl := Except.ok.inj (Option.some.inj hr')
    exact fun s hs => (hall s hs).1
  · rw [hr] at hout
    cases hout

/-- **C196** (full statement): if the initial subsets have the same rows, the order of the rows does not matter to FastMCD. -/
def C196_statement : Prop :=
  ∀ (p : ℕ) (Γ : Type) (srt : ArgSort ℝ) (rng rng' : Rng Γ) (cfg : MCDConfig ℝ) (X X' : List (Fin p → ℝ)) (fuel : ℕ) (g g' : Γ), p ≠ 1 →
    0 < cfg.tol → 1 ≤ cfg.nInitialCSteps → numPartitions cfg.nPartitions X.length = 1 → X.Perm X' →
    Spec.sameStarts rng rng' cfg.nInitialSubsets X X' g g' →
    Spec.sameRun (Spec.sameMCD X X') (fastMCD srt rng cfg X fuel g) (fastMCD srt rng' cfg X' fuel g')

/-- **C196** (partial): the statement for samples without ties.  Missing: ties, see `C196_violated`. -/
theorem C196_order_partial {Γ : Type} (srt : ArgSort ℝ) (rng rng' : Rng Γ) (cfg : MCDConfig ℝ) (X X' : List (Fin p → ℝ)) (fuel : ℕ) (g g' : Γ)
    (hp : p ≠ 1) (htol : 0 < cfg.tol) (hsteps : 1 ≤ cfg.nInitialCSteps) (hpart : numPartitions cfg.nPartitions X.length = 1) (hX : X.Perm X')
    (hdraw : Spec.sameStarts rng rng' cfg.nInitialSubsets X X' g g') (hties : Spec.noMCDTies rng cfg X g) :
    Spec.sameRun (Spec.sameMCD X X') (fastMCD srt rng cfg X fuel g) (fastMCD srt rng' cfg X' fuel g') := by
  unfold fastMCD
  rw [← hX.length_eq]
  split_ifs
  · exact ⟨meanRow_perm hX, npCov_perm hX, Option.Rel.none, Option.Rel.none⟩
  refine sameRun_andThen (R := Spec.sameSubset X X') ?_ fun s s' _ _ hs => postProcess_same cfg hX hs
  unfold fastSearch
  rw [partitionData_one _ _ hpart, partitionData_one _ _ (by rw [← hX.length_eq]; exact hpart)]
  simp only [Run.andThen, List.length_singleton, Nat.div_one]
  have h1 : Spec.sameRun (fun r r' => List.Forall₂ (Spec.sameSubset X X') r.1 r'.1 ∧ (∀ s ∈ r.1, Stepped srt cfg.alpha X s))
      (partitionsBest srt rng cfg cfg.nInitialSubsets [X] g) (partitionsBest srt rng' cfg cfg.nInitialSubsets [X'] g') := by
    unfold partitionsBest
    have hb : Spec.sameRun (fun r r' => List.Forall₂ (Spec.sameSubset X X') r.1 r'.1 ∧ (∀ s ∈ r.1, Stepped srt cfg.alpha X s))
        (partitionBest srt rng cfg cfg.nInitialSubsets X g) (partitionBest srt rng' cfg cfg.nInitialSubsets X' g') := by
      unfold partitionBest
      refine sameRun_andThen hdraw fun r r' hr _ hrr => ?_
      have hsub := initialSubsets_isSubset rng X hp _ g hr
      refine sameExcept_map (sameExcept_mapExcept (T := Spec.sameSubset X X') hrr fun s hs s' _ hss =>
        multiCSteps_same srt cfg.alpha hX hties.2 _ hss (hsub s hs) (hties.1 r hr s hs)) fun l l' hl _ hll => ?_
      refine ⟨nBest_same _ hll, fun s hs => ?_⟩
      obtain ⟨a, -, ha⟩ := mapExcept_mem hl s (mem_nBest hs)
      exact multiCSteps_stepped (by omega) ha
    refine sameRun_andThen hb fun r r' _ _ hrr => ?_
    simp only [partitionsBest, Run.andThen, List.append_nil]
    exact hrr
  refine sameRun_andThen h1 fun r r' _ _ hrr => ?_
  obtain ⟨hf, hst⟩ := hrr
  refine sameRun_andThen (R := List.Forall₂ (Spec.sameSubset X X')) (sameExcept_mapExcept hf fun s hs s' _ hss => ?_) fun l l' hl hl' hll => ?_
  · have hsub := (hst s hs).isSubset
    obtain ⟨-, h, hh, hlen⟩ := (hst s hs).getH
    rw [Fintype.card_fin] at hh
    exact multiCSteps_same srt cfg.alpha hX hties.2 _ hss hsub (hties.2 h hh _ hsub.nodup hsub.lt hlen)
  · have g1 : ∀ s ∈ nBest cfg.nBestSubsets l, Stepped srt cfg.alpha X s := fun s hs => by
      obtain ⟨a, -, ha⟩ := mapExcept_mem (Option.some.inj hl) s (mem_nBest hs)
      exact multiCSteps_stepped (by omega) ha
    have g2 : ∀ s ∈ nBest cfg.nBestSubsets l', Stepped srt cfg.alpha X' s := fun s hs => by
      obtain ⟨a, -, ha⟩ := mapExcept_mem (Option.some.inj hl') s (mem_nBest hs)
      exact multiCSteps_stepped (by omega) ha
    have g3 := nBest_same cfg.nBestSubsets hll
    generalize nBest cfg.nBestSubsets l = b at *
    generalize nBest cfg.nBestSubsets l' = b' at *
    rcases g3 with _ | ⟨hs, hrest⟩
    · exact rfl
    · exact convergeAll_same srt cfg.alpha htol fuel (List.Forall₂.cons hs hrest) g1 g2 hs

/-! ## Corresponding draws -/

theorem growLoop_same {Γ : Type} {rng rng' : Rng Γ} (π : ℕ → ℕ) (hrows : ∀ i, X'[π i]? = X[i]?)
    (hpick : ∀ g (idx : List ℕ), (List.range X.length).filter (fun i => i ∉ idx) ≠ [] →
      rng'.pick g ((List.range X'.length).filter fun i => i ∉ idx.map π) =
        (π (rng.pick g ((List.range X.length).filter fun i => i ∉ idx)).1, (rng.pick g ((List.range X.length).filter fun i => i ∉ idx)).2))
    (hempty : ∀ idx : List ℕ, (List.range X'.length).filter (fun i => i ∉ idx.map π) = [] ↔
      (List.range X.length).filter (fun i => i ∉ idx) = []) (fuel : ℕ) (idx : List ℕ) (g : Γ) :
    Spec.sameRun (fun r r' => Spec.sameSubset X X' r.1 r'.1 ∧ r.2 = r'.2) (runLoop (growStep rng X) fuel (idx, g))
      (runLoop (growStep rng' X') fuel (idx.map π, g)) := by
  have hta : ∀ idx : List ℕ, takeAt X' (idx.map π) = takeAt X idx := by
    intro idx
    unfold takeAt
    rw [List.filterMap_map]
    congr 1
    funext i
    exact hrows i
  induction fuel generalizing idx g with
  | zero => trivial
  | succ fuel ih =>
    unfold runLoop growStep
    have h1 := getSubset_same (X := X) (X' := X') (idx := idx) (idx' := idx.map π) (by rw [hta]) 0
    simp only
    rcases e1 : getSubset X idx 0 with e | s <;> rcases e2 : getSubset X' (idx.map π) 0 with e' | s' <;> rw [e1, e2] at h1
    · exact h1
    · exact h1.elim
    · exact h1.elim
    · have h2 : Spec.sameSubset X X' s s' := h1
      simp only [Except.bind]
      rw [← h2.determinant]
      by_cases hd : s.determinant = 0
      · simp only [if_pos hd]
        by_cases he : (List.range X.length).filter (fun i => i ∉ idx) = []
        · rw [if_pos he, if_pos ((hempty idx).2 he)]
          exact rfl
        · rw [if_neg he, if_neg (fun h => he ((hempty idx).1 h)), hpick g idx he]
          simp only
          have := ih (idx ++ [(rng.pick g ((List.range X.length).filter fun i => i ∉ idx)).1])
            (rng.pick g ((List.range X.length).filter fun i => i ∉ idx)).2
          rw [List.map_append] at this
          exact this
      · simp only [if_neg hd]
        exact ⟨h2, rfl⟩

/-- For every reordering there are draws with the same initial subsets. -/
theorem corresponding_starts {Γ : Type} (rng : Rng Γ) (h : X'.Perm X) (g : Γ) :
    ∃ rng' : Rng Γ, ∀ k, Spec.sameStarts rng rng' k X X' g g := by
  classical
  obtain ⟨π, hinj, hπ⟩ := perm_positions h
  have hlt : ∀ i, π i < X'.length ↔ i < X.length := by
    intro i
    have := hπ i
    constructor
    · intro h1
      by_contra h2
      rw [List.getElem?_eq_getElem h1, List.getElem?_eq_none (not_lt.1 h2)] at this
      cases this
    · intro h1
      by_contra h2
      rw [List.getElem?_eq_getElem h1, List.getElem?_eq_none (not_lt.1 h2)] at this
      cases this
  let back : List ℕ → List ℕ := fun l => (List.range X.length).filter fun i => decide (π i ∈ l)
  let rng' : Rng Γ :=
    { sample := fun g n k => if n = X'.length then ((rng.sample g n k).1.map π, (rng.sample g n k).2) else rng.sample g n k
      pick := fun g l => if back l = [] then rng.pick g l else (π (rng.pick g (back l)).1, (rng.pick g (back l)).2)
      sample_length := by
        intro g n k hk
        split_ifs
        · rw [List.length_map, rng.sample_length g n k hk]
        · exact rng.sample_length g n k hk
      sample_nodup := by
        intro g n k hk
        split_ifs
        · exact (rng.sample_nodup g n k hk).map hinj
        · exact rng.sample_nodup g n k hk
      sample_lt := by
        intro g n k hk i hi
        split_ifs at hi with hn
        · obtain ⟨j, hj, rfl⟩ := List.mem_map.1 hi
          have := rng.sample_lt g n k hk j hj
          rw [hn, hlt, ← h.length_eq, ← hn]
          exact this
        · exact rng.sample_lt g n k hk i hi
      pick_mem := by
        intro g l hl
        split_ifs with hb
        · exact rng.pick_mem g l hl
        · have := rng.pick_mem g _ hb
          have := (List.mem_filter.1 this).2
          simpa using this }
  have hback : ∀ idx : List ℕ, back ((List.range X'.length).filter fun i => i ∉ idx.map π) =
      (List.range X.length).filter fun i => i ∉ idx := by
    intro idx
    refine List.filter_congr fun i hi => ?_
    have h1 := (hlt i).2 (List.mem_range.1 hi)
    rw [decide_eq_decide]
    rw [List.mem_filter, List.mem_range]
    simp [h1, hinj.eq_iff]
  have hempty : ∀ idx : List ℕ, (List.range X'.length).filter (fun i => i ∉ idx.map π) = [] ↔
      (List.range X.length).filter (fun i => i ∉ idx) = [] := by
    intro idx
    constructor
    · intro h0
      rw [← hback, h0]
      simp [back]
    · intro h0
      have hperm : ((List.range X.length).map π).Perm (List.range X'.length) := by
        refine List.Subperm.perm_of_length_le ((List.nodup_range.map hinj).subperm ?_) (by simp [h.length_eq])
        intro j hj
        obtain ⟨i, hi, rfl⟩ := List.mem_map.1 hj
        exact List.mem_range.2 ((hlt i).2 (List.mem_range.1 hi))
      rw [List.filter_eq_nil_iff] at h0 ⊢
      intro j hj
      obtain ⟨i, hi, rfl⟩ := List.mem_map.1 (hperm.mem_iff.2 hj)
      have := h0 i hi
      simp only [decide_eq_true_eq, not_not] at this ⊢
      exact List.mem_map_of_mem this
  refine ⟨rng', fun k => ?_⟩
  unfold Spec.sameStarts
  induction k generalizing g with
  | zero => exact .nil
  | succ k ih =>
    unfold initialSubsets
    have hi : Spec.sameRun (fun r r' => Spec.sameSubset X X' r.1 r'.1 ∧ r.2 = r'.2) (initialSubset rng X (X.length + 1) g)
        (initialSubset rng' X' (X'.length + 1) g) := by
      unfold initialSubset
      rw [h.length_eq]
      split_ifs
      · exact rfl
      · have hs : rng'.sample g X.length (Fintype.card (Fin p) + 1) = ((rng.sample g X.length (Fintype.card (Fin p) + 1)).1.map π,
            (rng.sample g X.length (Fintype.card (Fin p) + 1)).2) := if_pos h.length_eq.symm
        rw [hs]
        refine growLoop_same π hπ (fun g idx hne => ?_) hempty _ _ _
        change (if back _ = [] then _ else _) = _
        rw [hback, if_neg hne]
    refine sameRun_andThen hi fun r r' _ _ hrr => ?_
    rw [← hrr.2]
    refine sameRun_andThen (ih r.2) fun q q' _ _ hqq => ?_
    exact .cons hrr.1 hqq

/-! ## Ties decide -/

/-- Six points in space, in three pairs that the half turn about the third axis exchanges. -/
def c196Data : List (Fin 3 → ℝ) := [![1, 0, 0], ![-1, 0, 0], ![0, 1, 1], ![0, -1, 1], ![1, 1, 3], ![-1, -1, 3]]

/-- The same points, the two of each pair exchanged. -/
def c196Turned : List (Fin 3 → ℝ) := [![-1, 0, 0], ![1, 0, 0], ![0, -1, 1], ![0, 1, 1], ![-1, -1, 3], ![1, 1, 3]]

/-- The half turn. -/
def c196Turn : Matrix (Fin 3) (Fin 3) ℝ := Matrix.diagonal ![-1, -1, 1]

theorem c196_turn : c196Data.map (Spec.affine c196Turn 0) = c196Turned := by
  have h : ∀ a b c : ℝ, Spec.affine c196Turn 0 ![a, b, c] = ![-a, -b, c] := by
    intro a b c
    funext i
    unfold Spec.affine c196Turn
    rw [add_zero, Matrix.mulVec_diagonal]
    fin_cases i <;> simp
  simp only [c196Data, c196Turned, List.map_cons, List.map_nil, h, neg_zero, neg_neg]

theorem c196_perm : c196Data.Perm c196Turned :=
  (List.Perm.swap _ _ _).trans (.cons _ (.cons _ ((List.Perm.swap _ _ _).trans (.cons _ (.cons _ (List.Perm.swap _ _ _))))))

theorem c196_gp : Spec.RowsInGeneralPosition c196Data := by
  intro v hv c
  by_contra hcon
  push Not at hcon
  apply hv
  have hdot : ∀ a b e : ℝ, ![a, b, e] ⬝ᵥ v = a * v 0 + b * v 1 + e * v 2 := by
    intro a b e
    simp [dotProduct, Fin.sum_univ_three]
  simp only [c196Data, List.countP_cons, List.countP_nil, hdot, decide_eq_true_eq] at hcon
  have key : v 0 = 0 ∧ v 1 = 0 ∧ v 2 = 0 := by
    split_ifs at hcon <;> first | omega | (refine ⟨?_, ?_, ?_⟩ <;> linarith)
  funext i
  fin_cases i
  · exact key.1
  · exact key.2.1
  · exact key.2.2

/-- The default settings without correction and reweighting, and one draw. -/
noncomputable def c196Cfg : MCDConfig ℝ := { c173Cfg with nInitialSubsets := 1, correct := false, reweighting := false }

theorem c196_starts : Spec.sameStarts rngFirst rngFirst 1 c196Data c196Turned () () := by
  unfold Spec.sameStarts
  have hrows : (takeAt c196Data (List.range 4)).Perm (takeAt c196Turned (List.range 4)) := by
    have h1 : takeAt c196Data (List.range 4) = c196Data.take 4 := by simp [takeAt, c196Data, List.range_succ]
    have h2 : takeAt c196Turned (List.range 4) = c196Turned.take 4 := by simp [takeAt, c196Turned, List.range_succ]
    rw [h1, h2]
    exact (List.Perm.swap _ _ _).trans (.cons _ (.cons _ (List.Perm.swap _ _ _)))
  have hdet : (npCov (takeAt c196Data (List.range 4))).det ≠ 0 :=
    gp_npCov c196_gp (takeAt_subperm _ _ List.nodup_range (by simp [c196Data]; omega)) (by simp [takeAt, c196Data, List.range_succ])
  have hdet' : (npCov (takeAt c196Turned (List.range 4))).det ≠ 0 := by
    rw [← npCov_perm hrows]
    exact hdet
  have hini : ∀ Y : List (Fin 3 → ℝ), Y.length = 6 → (npCov (takeAt Y (List.range 4))).det ≠ 0 →
      initialSubsets rngFirst Y (Y.length + 1) 1 () = some (.ok ([⟨List.range 4, meanRow (takeAt Y (List.range 4)),
        npCov (takeAt Y (List.range 4)), (npCov (takeAt Y (List.range 4))).det, 0⟩], ())) := by
    intro Y hY hd
    simp only [initialSubsets, initialSubset]
    rw [if_neg (by rw [hY]; simp)]
    simp only [runLoop, growStep, rngFirst, Fintype.card_fin]
    rw [getSubset_eq (by simp)]
    simp [Except.bind, hd, Run.andThen]
  rw [hini _ rfl hdet, hini _ rfl hdet']
  exact .cons ⟨hrows, meanRow_perm hrows, npCov_perm hrows, by rw [npCov_perm hrows], rfl⟩ .nil

/-- The mean of five of the six points is not on the axis. -/
theorem c196_mean {H : List ℕ} (hn : H.Nodup) (hl : ∀ i ∈ H, i < 6) (hlen : H.length = 5) :
    ¬ (meanRow (takeAt c196Data H) 0 = 0 ∧ meanRow (takeAt c196Data H) 1 = 0) := by
  rintro ⟨h0, h1⟩
  have hsub : H.Subperm (List.range 6) := hn.subperm fun i hi => List.mem_range.2 (hl i hi)
  obtain ⟨j, hj⟩ := hsub.exists_of_length_lt (by rw [hlen]; simp)
  have hperm : (j :: H).Perm (List.range 6) := hj.perm_of_length_le (by simp [hlen])
  have hj6 : j < 6 := List.mem_range.1 (hperm.mem_iff.1 (by simp))
  have hall : (takeAt c196Data (j :: H)).Perm c196Data := by
    refine (takeAt_perm _ hperm).trans ?_
    exact List.Perm.of_eq (takeAt_range c196Data)
  have hTl : ((takeAt c196Data H).length : ℝ) = 5 := by
    rw [takeAt_length _ _ hl, hlen]
    norm_num
  have hs : ∀ i, ((takeAt c196Data H).map fun x => x i).sum = 0 ∨ meanRow (takeAt c196Data H) i ≠ 0 := by
    intro i
    by_cases h : ((takeAt c196Data H).map fun x => x i).sum = 0
    · exact Or.inl h
    · refine Or.inr ?_
      unfold meanRow mean
      rw [List.length_map, hTl]
      exact div_ne_zero h (by norm_num)
  have s0 := (hs 0).resolve_right (by simpa using h0)
  have s1 := (hs 1).resolve_right (by simpa using h1)
  have hcons : ∀ x, c196Data[j]? = some x → takeAt c196Data (j :: H) = x :: takeAt c196Data H := by
    intro x hx
    unfold takeAt
    rw [List.filterMap_cons_some hx]
  have t0 := (hall.map fun x => x 0).sum_eq
  have t1 := (hall.map fun x => x 1).sum_eq
  interval_cases j <;> rw [hcons _ rfl] at t0 t1 <;> simp [c196Data] at t0 t1 s0 s1 <;>
    first | (simp [s0] at t0; done) | (simp [s1] at t1; done) | linarith

/-- **C196** is violated by ties: the closest rows of points that a half turn maps to themselves are chosen by position. -/
theorem C196_violated : ¬ C196_statement := by
  intro hst
  have hsame := hst 3 Unit (argsortStable ℝ) rngFirst rngFirst c196Cfg c196Data c196Turned 1 () () (by norm_num)
    (by norm_num [c196Cfg, c173Cfg]) (by norm_num [c196Cfg, c173Cfg]) (by simp [numPartitions, c196Cfg, c173Cfg, c196Data]) c196_perm c196_starts
  have haff := C39_fastMCD c196Turn 0 (by simp [c196Turn, Matrix.det_diagonal, Fin.prod_univ_three]) (argsortStable ℝ) rngFirst c196Cfg
    (by norm_num [c196Cfg, c173Cfg]) (by norm_num [c196Cfg, c173Cfg]) c196Data (by simp [c196Data]) 1 ()
  obtain ⟨s, hs⟩ := C172_search_total (p := 3) (by norm_num) c196_gp (argsortStable ℝ) rngFirst c196Cfg c196Data [] 0 5 () (List.Perm.refl _)
    rfl (by simp) (by simp [c196Data]) (by norm_num [c196Cfg, c173Cfg]) (by norm_num [c196Cfg, c173Cfg]) (by norm_num [c196Cfg, c173Cfg])
    (by norm_num [c196Cfg, c173Cfg]) (by simp [numPartitions, c196Cfg, c173Cfg, c196Data])
  have hfit : fastMCD (argsortStable ℝ) rngFirst c196Cfg c196Data 1 () =
      some (.ok { location := s.location, covariance := s.scale, best := some s, mask := none }) := by
    unfold fastMCD
    rw [show alphaIsAll c196Cfg.alpha c196Data.length = false from rfl, hs]
    rfl
  have hst' : Stepped (argsortStable ℝ) c196Cfg.alpha c196Data s := by
    unfold fastSearch at hs
    obtain ⟨ps', -, h2⟩ := Run.andThen_ok hs
    obtain ⟨r, hr, h3⟩ := Run.andThen_ok h2
    obtain ⟨ss, h4, h5⟩ := Run.andThen_ok h3
    have hstep : ∀ t ∈ ss, Stepped (argsortStable ℝ) c196Cfg.alpha c196Data t := fun t ht => by
      obtain ⟨a, -, ha⟩ := mapExcept_mem (Option.some.inj h4) t ht
      exact multiCSteps_stepped (by norm_num [c196Cfg, c173Cfg]) ha
    exact hstep s (mem_nBest (convergeFrom_stepped (by norm_num [c196Cfg, c173Cfg]) _ _ s (fun t ht => hstep t (mem_nBest ht)) h5).1)
  obtain ⟨-, h, hh, hlen⟩ := hst'.getH
  obtain rfl : 5 = h := Except.ok.inj hh
  have hsub := hst'.isSubset
  rw [← c196_turn, haff, hfit] at hsame
  have hloc : s.location = c196Turn *ᵥ s.location + 0 := hsame.location
  have h0 := congrFun hloc 0
  have h1 := congrFun hloc 1
  rw [add_zero, c196Turn, Matrix.mulVec_diagonal] at h0 h1
  simp only [Matrix.cons_val_zero, Matrix.cons_val_one] at h0 h1
  refine c196_mean hsub.nodup hsub.lt hlen ?_
  rw [← hsub.location]
  constructor <;> linarith

/-! ## Example -/

/-- Four points of a parabola. -/
noncomputable def c196Four : List (Fin 2 → ℝ) := ([0, 1, 2, 3] : List ℝ).map fun t => ![t, t ^ 2]

theorem c196_four_gp : Spec.RowsInGeneralPosition c196Four := parabola_gp _ (by norm_num)

/-- The three points are closer to their mean than the fourth. -/
theorem c196_cut {R : List (Fin 2 → ℝ)} {mu : Fin 2 → ℝ} {S M : Matrix (Fin 2) (Fin 2) ℝ} (hmu : meanRow R = mu) (hS : npCov R = S)
    (hM : S * M = 1) (hcount : (c196Four.map fun x => quadForm M (x - mu)).countP (fun v => decide (v ≤ 3 / 2)) = 3) {d : List ℝ}
    (hd : sqMahalanobis c196Four (meanRow R) (npCov R) = .ok d) : Spec.clearCut 3 d := by
  rw [hmu, hS] at hd
  have hdet : S.det ≠ 0 := by
    intro h0
    have := congrArg Matrix.det hM
    rw [Matrix.det_mul, h0, zero_mul, Matrix.det_one] at this
    exact zero_ne_one this
  rw [sqMahalanobis_eq hdet, Matrix.inv_eq_right_inv hM] at hd
  exact ⟨3 / 2, by rw [← Except.ok.inj hd]; exact hcount⟩

theorem c196_determined {H : List ℕ} (hn : H.Nodup) (hl : ∀ i ∈ H, i < 4) (hlen : H.length = 3) :
    Spec.closestDetermined (.none : Alpha ℝ) c196Four H := by
  intro d h hh hd
  obtain rfl : 3 = h := Except.ok.inj hh
  have hsub : H.Subperm (List.range 4) := hn.subperm fun i hi => List.mem_range.2 (hl i hi)
  obtain ⟨j, hj⟩ := hsub.exists_of_length_lt (by rw [hlen]; simp)
  have hperm : (j :: H).Perm (List.range 4) := hj.perm_of_length_le (by simp [hlen])
  have hj4 : j < 4 := List.mem_range.1 (hperm.mem_iff.1 (by simp))
  have hH : H.Perm ((List.range 4).erase j) := (List.cons_perm_iff_perm_erase.1 hperm).2
  have hrows := takeAt_perm c196Four hH
  rw [meanRow_perm hrows, npCov_perm hrows] at hd
  interval_cases j
  · have e : takeAt c196Four ((List.range 4).erase 0) = ([![1, 1], ![2, 4], ![3, 9]] : List (Fin 2 → ℝ)) := by
      norm_num [takeAt, c196Four, List.range_succ, List.erase_cons]
      rfl
    rw [e] at hd
    have hm : meanRow ([![1, 1], ![2, 4], ![3, 9]] : List (Fin 2 → ℝ)) = ![2, 14 / 3] := by
      funext i
      fin_cases i <;> norm_num [meanRow, mean]
    refine c196_cut (M := !![49, -12; -12, 3]) hm (S := !![1, 4; 4, 49 / 3]) ?_ ?_ ?_ hd
    · ext i j
      rw [npCov, hm]
      fin_cases i <;> fin_cases j <;> norm_num
    · ext i j
      fin_cases i <;> fin_cases j <;> norm_num [Matrix.mul_apply, Fin.sum_univ_two]
    · norm_num [c196Four, quadForm, Matrix.vecMul, dotProduct, Fin.sum_univ_two, List.countP_cons]
  · have e : takeAt c196Four ((List.range 4).erase 1) = ([![0, 0], ![2, 4], ![3, 9]] : List (Fin 2 → ℝ)) := by
      norm_num [takeAt, c196Four, List.range_succ, List.erase_cons]
      rfl
    rw [e] at hd
    have hm : meanRow ([![0, 0], ![2, 4], ![3, 9]] : List (Fin 2 → ℝ)) = ![5 / 3, 13 / 3] := by
      funext i
      fin_cases i <;> norm_num [meanRow, mean]
    refine c196_cut (M := !![61 / 9, -20 / 9; -20 / 9, 7 / 9]) hm (S := !![7 / 3, 20 / 3; 20 / 3, 61 / 3]) ?_ ?_ ?_ hd
    · ext i j
      rw [npCov, hm]
      fin_cases i <;> fin_cases j <;> norm_num
    · ext i j
      fin_cases i <;> fin_cases j <;> norm_num [Matrix.mul_apply, Fin.sum_univ_two]
    · norm_num [c196Four, quadForm, Matrix.vecMul, dotProduct, Fin.sum_univ_two, List.countP_cons]
  · have e : takeAt c196Four ((List.range 4).erase 2) = ([![0, 0], ![1, 1], ![3, 9]] : List (Fin 2 → ℝ)) := by
      norm_num [takeAt, c196Four, List.range_succ, List.erase_cons]
      rfl
    rw [e] at hd
    have hm : meanRow ([![0, 0], ![1, 1], ![3, 9]] : List (Fin 2 → ℝ)) = ![4 / 3, 10 / 3] := by
      funext i
      fin_cases i <;> norm_num [meanRow, mean]
    refine c196_cut (M := !![73 / 9, -22 / 9; -22 / 9, 7 / 9]) hm (S := !![7 / 3, 22 / 3; 22 / 3, 73 / 3]) ?_ ?_ ?_ hd
    · ext i j
      rw [npCov, hm]
      fin_cases i <;> fin_cases j <;> norm_num
    · ext i j
      fin_cases i <;> fin_cases j <;> norm_num [Matrix.mul_apply, Fin.sum_univ_two]
    · norm_num [c196Four, quadForm, Matrix.vecMul, dotProduct, Fin.sum_univ_two, List.countP_cons]
  · have e : takeAt c196Four ((List.range 4).erase 3) = ([![0, 0], ![1, 1], ![2, 4]] : List (Fin 2 → ℝ)) := by
      norm_num [takeAt, c196Four, List.range_succ, List.erase_cons]
      rfl
    rw [e] at hd
    have hm : meanRow ([![0, 0], ![1, 1], ![2, 4]] : List (Fin 2 → ℝ)) = ![1, 5 / 3] := by
      funext i
      fin_cases i <;> norm_num [meanRow, mean]
    refine c196_cut (M := !![13, -6; -6, 3]) hm (S := !![1, 2; 2, 13 / 3]) ?_ ?_ ?_ hd
    · ext i j
      rw [npCov, hm]
      fin_cases i <;> fin_cases j <;> norm_num
    · ext i j
      fin_cases i <;> fin_cases j <;> norm_num [Matrix.mul_apply, Fin.sum_univ_two]
    · norm_num [c196Four, quadForm, Matrix.vecMul, dotProduct, Fin.sum_univ_two, List.countP_cons]

/-- The hypotheses of `C196_order_partial` hold for the four points read backwards. -/
example : ∃ rng' : Rng Unit, Spec.sameRun (Spec.sameMCD c196Four c196Four.reverse)
    (fastMCD (argsortStable ℝ) rngFirst c196Cfg c196Four 1 ())
    (fastMCD (argsortStable ℝ) rng' c196Cfg c196Four.reverse 1 ()) := by
  obtain ⟨rng', hr⟩ := corresponding_starts rngFirst (X := c196Four) (X' := c196Four.reverse) (List.reverse_perm _) ()
  refine ⟨rng', C196_order_partial _ rngFirst rng' _ _ _ 1 () () (by norm_num) (by norm_num [c196Cfg, c173Cfg]) (by norm_num [c196Cfg, c173Cfg])
    rfl (List.reverse_perm _).symm (hr _) ⟨?_, ?_⟩⟩
  · intro r hr s hs
    obtain ⟨r', hr', -, hd⟩ := initialSubsets_gp rngFirst le_rfl c196_four_gp (List.Subperm.refl _) (by simp [c196Four]) _ ()
    obtain rfl : r' = r := Except.ok.inj (Option.some.inj (hr'.symm.trans hr))
    have hsub := initialSubsets_isSubset rngFirst c196Four (by norm_num) _ () hr s hs
    exact c196_determined hsub.nodup hsub.lt (hd s hs).1
  · intro h hh H hn hl hlen
    obtain rfl : 3 = h := Except.ok.inj hh
    exact c196_determined hn hl hlen

end Robpy
