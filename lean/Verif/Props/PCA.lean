import Verif.Model.PCA
import Verif.Props.L1Median
import Mathlib.Algebra.BigOperators.Fin
import Mathlib.Order.Bounds.Basic

/-! Properties of the PCA estimators: scores and distances, number of components, centre, orthonormal components. -/

namespace Robpy
open Matrix

variable {p r : ℕ}

/-- The columns are orthonormal. -/
def Spec.Orthonormal (C : List (Fin p → ℝ)) : Prop :=
  ∀ (i j : ℕ) (c d : Fin p → ℝ), C[i]? = some c → C[j]? = some d → ∑ l, c l * d l = if i = j then 1 else 0

/-! ## C58 -/

theorem backRow_scoresRow (loc : Fin p → ℝ) (C : List (Fin p → ℝ)) (x : Fin p → ℝ) (j : Fin p) :
    backRow C (scoresRow loc C x) j = ∑ i : Fin C.length, (∑ l, (x l - loc l) * C[i] l) * C[i] j := by
  unfold backRow scoresRow
  rw [List.zipWith_map_right, List.zipWith_self]
  exact (Fin.sum_univ_fun_getElem C fun c => (∑ l, (x l - loc l) * c l) * c j).symm

theorem scoresRow_sq (loc : Fin p → ℝ) (C : List (Fin p → ℝ)) (x : Fin p → ℝ) :
    ((scoresRow loc C x).map fun t => t ^ 2).sum = ∑ i : Fin C.length, (∑ l, (x l - loc l) * C[i] l) ^ 2 := by
  unfold scoresRow
  rw [List.map_map]
  exact (Fin.sum_univ_fun_getElem C fun c => (∑ l, (x l - loc l) * c l) ^ 2).symm

theorem orthonormal_fin {C : List (Fin p → ℝ)} (h : Spec.Orthonormal C) (i j : Fin C.length) :
    ∑ l, C[i] l * C[j] l = if i = j then 1 else 0 := by
  have := h i j C[i] C[j] (List.getElem?_eq_getElem i.2) (List.getElem?_eq_getElem j.2)
  rw [this]
  simp [Fin.ext_iff]

/-- Pythagoras for an orthonormal family in coordinates. -/
theorem pythagoras_fin {k : ℕ} (u : Fin p → ℝ) (c : Fin k → Fin p → ℝ)
    (h : ∀ i j, ∑ l, c i l * c j l = if i = j then 1 else 0) :
    ∑ j, (u j - ∑ i, (∑ l, u l * c i l) * c i j) ^ 2 = ∑ j, u j ^ 2 - ∑ i, (∑ l, u l * c i l) ^ 2 := by
  set s : Fin k → ℝ := fun i => ∑ l, u l * c i l with hs
  have h1 : ∑ j, u j * ∑ i, s i * c i j = ∑ i, s i ^ 2 := by
    simp only [Finset.mul_sum]
    rw [Finset.sum_comm]
    refine Finset.sum_congr rfl fun i _ => ?_
    rw [pow_two]
    nth_rewrite 3 [hs]
    simp only [Finset.mul_sum]
    exact Finset.sum_congr rfl fun j _ => by ring
  have h2 : ∑ j, (∑ i, s i * c i j) ^ 2 = ∑ i, s i ^ 2 := by
    have : ∀ j, (∑ i, s i * c i j) ^ 2 = ∑ i, ∑ i', s i * s i' * (c i j * c i' j) := fun j => by
      rw [pow_two, Finset.sum_mul_sum]
      exact Finset.sum_congr rfl fun i _ => Finset.sum_congr rfl fun i' _ => by ring
    simp only [this]
    rw [Finset.sum_comm]
    refine Finset.sum_congr rfl fun i _ => ?_
    rw [Finset.sum_comm]
    simp only [← Finset.mul_sum, h]
    simp [pow_two]
  have h3 : ∀ j, (u j - ∑ i, s i * c i j) ^ 2 = u j ^ 2 - 2 * (u j * ∑ i, s i * c i j) + (∑ i, s i * c i j) ^ 2 :=
    fun j => by ring
  change ∑ j, (u j - ∑ i, s i * c i j) ^ 2 = _
  simp only [h3, Finset.sum_add_distrib, Finset.sum_sub_distrib, ← Finset.mul_sum, h1, h2]
  ring

theorem orthDistRow_sq (loc : Fin p → ℝ) (C : List (Fin p → ℝ)) (x : Fin p → ℝ) :
    orthDistRow loc C x ^ 2 = ∑ j, ((x j - loc j) - backRow C (scoresRow loc C x) j) ^ 2 := by
  unfold orthDistRow vecNorm
  rw [Real.sq_sqrt (Finset.sum_nonneg fun j _ => mul_self_nonneg _)]
  exact Finset.sum_congr rfl fun j _ => by ring

theorem pythagoras_row (loc : Fin p → ℝ) {C : List (Fin p → ℝ)} (hC : Spec.Orthonormal C) (x : Fin p → ℝ) :
    ∑ j, (x j - loc j) ^ 2 = ((scoresRow loc C x).map fun t => t ^ 2).sum + orthDistRow loc C x ^ 2 := by
  rw [orthDistRow_sq, scoresRow_sq]
  simp only [backRow_scoresRow]
  rw [pythagoras_fin (fun j => x j - loc j) (fun i : Fin C.length => C[i]) (orthonormal_fin hC)]
  ring

theorem pcaTransform_eq {st : PCAState p} {loc : Fin p → ℝ} {C : List (Fin p → ℝ)} (hl : st.location_ = some (some loc))
    (hC : st.components_ = some C) (X : List (Fin p → ℝ)) :
    (pcaTransform st X).1 = .ok (X.map (scoresRow loc C)) := by
  unfold pcaTransform
  simp [hl, hC]

theorem pcaProject_eq {st : PCAState p} {loc : Fin p → ℝ} {C : List (Fin p → ℝ)} (hl : st.location_ = some (some loc))
    (hC : st.components_ = some C) (X : List (Fin p → ℝ)) :
    (pcaProject st X).1 = .ok (X.map fun x => backRow C (scoresRow loc C x)) := by
  have h : pcaTransform st X = (.ok (X.map (scoresRow loc C)), (pcaTransform st X).2) :=
    Prod.ext (pcaTransform_eq hl hC X) rfl
  unfold pcaProject
  rw [h]
  simp [hC, Function.comp_def]

theorem outlierMap_od {st : PCAState p} {loc : Fin p → ℝ} {C : List (Fin p → ℝ)} (hl : st.location_ = some (some loc))
    (hC : st.components_ = some C) {X : List (Fin p → ℝ)} {sd od : List ℝ} (h : outlierMap st X = .ok (sd, od)) :
    od = X.map (orthDistRow loc C) := by
  unfold outlierMap at h
  rw [hl, hC] at h
  simp only at h
  split at h
  · simp at h
  rename_i ev hev
  rcases hm : mapExcept (fun x => broadcastDiv (scoresRow loc C x) ev) X with e | S
  · rw [hm] at h; simp [Except.map] at h
  · rw [hm] at h
    exact (congrArg Prod.snd (Except.ok.inj h)).symm

/-- **C58**, full statement, for a fitted object with orthonormal components. -/
def C58_statement : Prop :=
  ∀ (p : ℕ) (st : PCAState p) (loc : Fin p → ℝ) (C : List (Fin p → ℝ)), st.location_ = some (some loc) →
    st.components_ = some C → Spec.Orthonormal C →
    (∀ (X : List (Fin p → ℝ)) (T : List (List ℝ)) (sd od : List ℝ), (pcaTransform st X).1 = .ok T →
      outlierMap st X = .ok (sd, od) → ∀ (i : ℕ) x t d, X[i]? = some x → T[i]? = some t → od[i]? = some d →
      ∑ j, (x j - loc j) ^ 2 = (t.map fun s => s ^ 2).sum + d ^ 2) ∧
    (∀ X Y : List (Fin p → ℝ), (pcaProject st X).1 = .ok Y → (pcaProject st Y).1 = .ok Y) ∧
    (∀ (X : List (Fin p → ℝ)) (sd od : List ℝ), outlierMap st X = .ok (sd, od) → ∀ (i : ℕ) x d, X[i]? = some x →
      od[i]? = some d → (∃ a : Fin C.length → ℝ, ∀ j, x j = loc j + ∑ i, a i * C[i] j) → d = 0)

/-- **C58**, first part: squared distance to the centre = sum of squared scores + squared orthogonal distance. -/
theorem C58_pythagoras_partial (st : PCAState p) (loc : Fin p → ℝ) (C : List (Fin p → ℝ))
    (hl : st.location_ = some (some loc)) (hC : st.components_ = some C) (ho : Spec.Orthonormal C)
    (X : List (Fin p → ℝ)) (T : List (List ℝ)) (sd od : List ℝ) (hT : (pcaTransform st X).1 = .ok T)
    (hm : outlierMap st X = .ok (sd, od)) (i : ℕ) (x : Fin p → ℝ) (t : List ℝ) (d : ℝ) (hx : X[i]? = some x)
    (ht : T[i]? = some t) (hd : od[i]? = some d) : ∑ j, (x j - loc j) ^ 2 = (t.map fun s => s ^ 2).sum + d ^ 2 := by
  rw [pcaTransform_eq hl hC] at hT
  obtain rfl := Except.ok.inj hT
  rw [outlierMap_od hl hC hm, List.getElem?_map, hx] at hd
  rw [List.getElem?_map, hx] at ht
  obtain rfl := Option.some.inj ht
  obtain rfl := Option.some.inj hd
  exact pythagoras_row loc ho x

theorem orthDist_subspace (loc : Fin p → ℝ) {C : List (Fin p → ℝ)} (ho : Spec.Orthonormal C) (x : Fin p → ℝ) :
    orthDistRow loc C x = 0 ↔ ∃ a : Fin C.length → ℝ, ∀ j, x j = loc j + ∑ i, a i * C[i] j := by
  constructor
  · intro h
    refine ⟨fun i => ∑ l, (x l - loc l) * C[i] l, fun j => ?_⟩
    have h0 : orthDistRow loc C x ^ 2 = 0 := by rw [h]; norm_num
    rw [orthDistRow_sq, Finset.sum_eq_zero_iff_of_nonneg fun _ _ => sq_nonneg _] at h0
    have := h0 j (Finset.mem_univ j)
    rw [backRow_scoresRow] at this
    have := pow_eq_zero_iff (two_ne_zero) |>.1 this
    linarith
  · rintro ⟨a, ha⟩
    have hs : ∀ i : Fin C.length, ∑ l, (x l - loc l) * C[i] l = a i := fun i => by
      have : ∀ l, (x l - loc l) * C[i] l = ∑ i', a i' * (C[i'] l * C[i] l) := fun l => by
        rw [ha l, add_sub_cancel_left, Finset.sum_mul]
        exact Finset.sum_congr rfl fun i' _ => by ring
      simp only [this]
      rw [Finset.sum_comm]
      simp only [← Finset.mul_sum, orthonormal_fin ho]
      simp
    have h0 : orthDistRow loc C x ^ 2 = 0 := by
      rw [orthDistRow_sq]
      refine Finset.sum_eq_zero fun j _ => ?_
      rw [backRow_scoresRow]
      simp only [hs]
      rw [ha j]
      ring
    exact pow_eq_zero_iff (two_ne_zero) |>.1 h0

/-- **C58**, third part: the orthogonal distance is 0 exactly for the observations in the fitted subspace. -/
theorem C58_subspace_partial (st : PCAState p) (loc : Fin p → ℝ) (C : List (Fin p → ℝ))
    (hl : st.location_ = some (some loc)) (hC : st.components_ = some C) (ho : Spec.Orthonormal C)
    (X : List (Fin p → ℝ)) (sd od : List ℝ) (hm : outlierMap st X = .ok (sd, od)) (i : ℕ) (x : Fin p → ℝ) (d : ℝ)
    (hx : X[i]? = some x) (hd : od[i]? = some d) :
    d = 0 ↔ ∃ a : Fin C.length → ℝ, ∀ j, x j = loc j + ∑ i, a i * C[i] j := by
  rw [outlierMap_od hl hC hm, List.getElem?_map, hx] at hd
  obtain rfl := Option.some.inj hd
  exact orthDist_subspace loc ho x

/-- **C58**, second part, what holds: `project` returns the projection without the centre, so projecting its output again
after adding the centre changes nothing. -/
theorem C58_project_centered_partial (st : PCAState p) (loc : Fin p → ℝ) (C : List (Fin p → ℝ))
    (hl : st.location_ = some (some loc)) (hC : st.components_ = some C) (ho : Spec.Orthonormal C)
    (X Y : List (Fin p → ℝ)) (h : (pcaProject st X).1 = .ok Y) :
    (pcaProject st (Y.map fun y => y + loc)).1 = .ok Y := by
  rw [pcaProject_eq hl hC] at h
  obtain rfl := Except.ok.inj h
  rw [pcaProject_eq hl hC, List.map_map, List.map_map]
  congr 1
  refine List.map_congr_left fun x _ => ?_
  simp only [Function.comp]
  funext j
  have h0 : orthDistRow loc C (backRow C (scoresRow loc C x) + loc) = 0 :=
    (orthDist_subspace loc ho _).2 ⟨fun i => ∑ l, (x l - loc l) * C[i] l, fun j => by
      rw [Pi.add_apply, backRow_scoresRow]; ring⟩
  have h1 : orthDistRow loc C (backRow C (scoresRow loc C x) + loc) ^ 2 = 0 := by rw [h0]; norm_num
  rw [orthDistRow_sq, Finset.sum_eq_zero_iff_of_nonneg fun _ _ => sq_nonneg _] at h1
  have := pow_eq_zero_iff (two_ne_zero) |>.1 (h1 j (Finset.mem_univ j))
  rw [Pi.add_apply] at this
  linarith

/-- **C58**, second part: projecting twice is projecting once exactly if the centre is orthogonal to all components. -/
theorem C58_project_twice_partial (st : PCAState p) (loc : Fin p → ℝ) (C : List (Fin p → ℝ))
    (hl : st.location_ = some (some loc)) (hC : st.components_ = some C) (ho : Spec.Orthonormal C) :
    (∀ X Y : List (Fin p → ℝ), (pcaProject st X).1 = .ok Y → (pcaProject st Y).1 = .ok Y) ↔
      ∀ c ∈ C, ∑ l, loc l * c l = 0 := by
  have key : ∀ (s : Fin C.length → ℝ) (i : Fin C.length), ∑ l, (∑ i', s i' * C[i'] l) * C[i] l = s i := fun s i => by
    have : ∀ l, (∑ i', s i' * C[i'] l) * C[i] l = ∑ i', s i' * (C[i'] l * C[i] l) := fun l => by
      rw [Finset.sum_mul]
      exact Finset.sum_congr rfl fun i' _ => by ring
    simp only [this]
    rw [Finset.sum_comm]
    simp only [← Finset.mul_sum, orthonormal_fin ho]
    simp
  have hsc : ∀ (x : Fin p → ℝ) (i : Fin C.length), ∑ l, (backRow C (scoresRow loc C x) l - loc l) * C[i] l =
      ∑ l, (x l - loc l) * C[i] l - ∑ l, loc l * C[i] l := fun x i => by
    simp only [backRow_scoresRow, sub_mul (∑ _, _), Finset.sum_sub_distrib]
    rw [key]
  constructor
  · intro h c hc
    obtain ⟨i, hi, rfl⟩ := List.getElem_of_mem hc
    have h1 := h [loc] _ (pcaProject_eq hl hC [loc])
    rw [pcaProject_eq hl hC] at h1
    have h2 := List.cons.inj (Except.ok.inj h1) |>.1
    have h3 : ∀ j, backRow C (scoresRow loc C (backRow C (scoresRow loc C loc))) j =
        backRow C (scoresRow loc C loc) j := fun j => congrFun h2 j
    have h4 : ∑ j, backRow C (scoresRow loc C (backRow C (scoresRow loc C loc))) j * C[i] j =
        ∑ j, backRow C (scoresRow loc C loc) j * C[i] j := Finset.sum_congr rfl fun j _ => by rw [h3 j]
    simp only [backRow_scoresRow loc C (backRow C (scoresRow loc C loc)), hsc] at h4
    have h5 := key (fun i => ∑ l, (loc l - loc l) * C[i] l - ∑ l, loc l * C[i] l) ⟨i, hi⟩
    have h6 := key (fun i => ∑ l, (loc l - loc l) * C[i] l) ⟨i, hi⟩
    simp only [backRow_scoresRow] at h4
    simp only [Fin.getElem_fin] at h4 h5 h6
    rw [h5, h6] at h4
    linarith
  · intro h X Y hY
    rw [pcaProject_eq hl hC] at hY
    obtain rfl := Except.ok.inj hY
    rw [pcaProject_eq hl hC, List.map_map]
    congr 1
    refine List.map_congr_left fun x _ => ?_
    simp only [Function.comp]
    funext j
    rw [backRow_scoresRow, backRow_scoresRow loc C x]
    refine Finset.sum_congr rfl fun i _ => ?_
    have h0 : ∑ l, loc l * C[i] l = 0 := h _ (List.getElem_mem i.2)
    rw [hsc, h0, sub_zero]

/-- **C58** is violated by the code: `project` does not add the centre, so projecting twice subtracts it twice. -/
theorem C58_violated : ¬ C58_statement := by
  intro h
  have ho : Spec.Orthonormal [![(1:ℝ)]] := by
    intro i j c d hi hj
    rcases i with _ | i <;> rcases j with _ | j <;> simp at hi hj ⊢
    subst hi; subst hj; simp
  have h1 := (h 1 ⟨none, some (some ![1]), some [![1]], none⟩ ![1] [![1]] rfl rfl ho).2.1
  have h2 := (C58_project_twice_partial ⟨none, some (some ![1]), some [![1]], none⟩ ![1] [![1]] rfl rfl ho).1 h1 ![1]
    (by simp)
  simp at h2

/-- The hypotheses of the C58 theorems are met by an object with one of two axes as component. -/
example : Spec.Orthonormal [![(0:ℝ), 1]] ∧
    ∃ sd, outlierMap ⟨some 1, some (some ![1, 1]), some [![(0:ℝ), 1]], some [4]⟩ [![4, 3]] = .ok (sd, [3]) := by
  constructor
  · intro i j c d hi hj
    rcases i with _ | i <;> rcases j with _ | j <;> simp at hi hj ⊢
    subst hi; subst hj; simp
  · refine ⟨[Real.sqrt ([2 ^ 2 / 4]).sum], ?_⟩
    have : orthDistRow ![1, 1] [![(0:ℝ), 1]] ![4, 3] = 3 := by
      have h : orthDistRow ![1, 1] [![(0:ℝ), 1]] ![4, 3] = Real.sqrt (3 * 3) := by
        unfold orthDistRow vecNorm backRow scoresRow
        norm_num [Fin.sum_univ_two]
      rw [h, Real.sqrt_mul_self (by norm_num)]
    simp only [outlierMap, mapExcept, broadcastDiv, scoresRow, Except.bind, Except.map, List.map_cons, List.map_nil, this]
    norm_num [Fin.sum_univ_two]

/-! ## C59 -/

section
variable {K : Type} [Field K] [LinearOrder K]

theorem cumsum_getElem? (l : List K) (i : ℕ) (hi : i < l.length) : (cumsum l)[i]? = some (l.take (i + 1)).sum := by
  unfold cumsum
  rw [List.getElem?_map, List.getElem?_range hi]
  rfl

theorem chooseK_eq (thr : K) (eig : List K) (hne : eig ≠ []) :
    ∃ i, chooseK thr eig = .ok (i + 1) ∧
      ((∃ j < eig.length, ratioReaches thr eig.sum (eig.take (j + 1)).sum = true) →
        i < eig.length ∧ ratioReaches thr eig.sum (eig.take (i + 1)).sum = true ∧
        ∀ j < i, ratioReaches thr eig.sum (eig.take (j + 1)).sum = false) ∧
      ((∀ j < eig.length, ratioReaches thr eig.sum (eig.take (j + 1)).sum = false) → i = 0) := by
  set l := (cumsum eig).map (ratioReaches thr eig.sum) with hl
  have hlen : l.length = eig.length := by simp [hl, cumsum]
  have hget : ∀ j, j < eig.length → l[j]? = some (ratioReaches thr eig.sum (eig.take (j + 1)).sum) := fun j hj => by
    rw [hl, List.getElem?_map, cumsum_getElem? eig j hj]; rfl
  have hl0 : l ≠ [] := fun h => hne (by rw [h] at hlen; exact List.length_eq_zero_iff.1 hlen.symm)
  have hmem : true ∈ l ↔ ∃ j < eig.length, ratioReaches thr eig.sum (eig.take (j + 1)).sum = true := by
    constructor
    · intro h
      obtain ⟨j, hj, he⟩ := List.getElem_of_mem h
      refine ⟨j, hlen ▸ hj, ?_⟩
      have := hget j (hlen ▸ hj)
      rw [List.getElem?_eq_getElem hj, he] at this
      exact (Option.some.inj this).symm
    · rintro ⟨j, hj, he⟩
      have := hget j hj
      rw [he] at this
      exact List.mem_of_getElem? this
  by_cases ht : true ∈ l
  · refine ⟨l.findIdx id, ?_, ?_, ?_⟩
    · unfold chooseK argmaxBool
      rw [← hl, if_neg hl0, if_pos ht]; rfl
    · intro _
      have hlt : l.findIdx id < l.length := List.findIdx_lt_length.2 ⟨true, ht, rfl⟩
      refine ⟨hlen ▸ hlt, ?_, fun j hj => ?_⟩
      · have h1 := List.findIdx_getElem (w := hlt)
        have h2 := hget _ (hlen ▸ hlt)
        rw [List.getElem?_eq_getElem hlt] at h2
        rw [← Option.some.inj h2]
        exact h1
      · have hj' : j < l.length := hj.trans hlt
        have h1 := List.not_of_lt_findIdx hj
        have h2 := hget _ (hlen ▸ hj')
        rw [List.getElem?_eq_getElem hj'] at h2
        rw [← Option.some.inj h2]
        simpa using h1
    · intro hall
      obtain ⟨j, hj, he⟩ := hmem.1 ht
      rw [hall j hj] at he
      exact absurd he (by simp)
  · refine ⟨0, ?_, ?_, fun _ => rfl⟩
    · unfold chooseK argmaxBool
      rw [← hl, if_neg hl0, if_neg ht]; rfl
    · intro h
      exact absurd (hmem.2 h) ht

/-- The numbers of components which explain the wanted fraction of the total variance. -/
def Spec.enough (thr : K) (eig : List K) : Set ℕ :=
  {k | 1 ≤ k ∧ k ≤ eig.length ∧ thr ≤ (eig.take k).sum / eig.sum}

/-- **C59**, full statement. -/
def C59_statement (K : Type) [Field K] [LinearOrder K] : Prop :=
  ∀ (thr : K) (eig : List K), eig ≠ [] → (∀ v ∈ eig, 0 ≤ v) → ∃ k, chooseK thr eig = .ok k ∧ IsLeast (Spec.enough thr eig) k

/-- **C59**: the choice is right whenever the threshold can be reached, that is, if it is at most 1 and the total variance is
not 0. -/
theorem C59_least_partial [IsStrictOrderedRing K] (thr : K) (eig : List K) (hne : eig ≠ []) (hs : eig.sum ≠ 0)
    (ht : thr ≤ 1) : ∃ k, chooseK thr eig = .ok k ∧ IsLeast (Spec.enough thr eig) k := by
  obtain ⟨i, h1, h2, -⟩ := chooseK_eq thr eig hne
  have hr : ∀ c, ratioReaches thr eig.sum c = decide (thr ≤ c / eig.sum) := fun c => by
    unfold ratioReaches; rw [if_neg hs]
  have hpos : 0 < eig.length := List.length_pos_iff.2 hne
  obtain ⟨h3, h4, h5⟩ := h2 ⟨eig.length - 1, by omega, by
    rw [hr, Nat.sub_add_cancel hpos, List.take_length, div_self hs]; simpa using ht⟩
  refine ⟨i + 1, h1, ⟨by omega, by omega, by rw [hr] at h4; simpa using h4⟩, ?_⟩
  rintro k ⟨k1, k2, k3⟩
  by_contra hk
  have := h5 (k - 1) (by omega)
  rw [hr, Nat.sub_add_cancel k1] at this
  simp only [decide_eq_false_iff_not] at this
  exact this k3

/-- **C59**: in particular for non-negative variances which are not all 0. -/
theorem C59_nonneg_partial [IsStrictOrderedRing K] (thr : K) (eig : List K) (h0 : ∀ v ∈ eig, 0 ≤ v) (h1 : ∃ v ∈ eig, v ≠ 0)
    (ht : thr ≤ 1) : ∃ k, chooseK thr eig = .ok k ∧ IsLeast (Spec.enough thr eig) k := by
  obtain ⟨v, hv, hv0⟩ := h1
  refine C59_least_partial thr eig (List.ne_nil_of_mem hv) ?_ ht
  have : 0 < eig.sum := by
    have hvp : 0 < v := lt_of_le_of_ne (h0 v hv) (Ne.symm hv0)
    exact hvp.trans_le (List.single_le_sum h0 v hv)
  exact this.ne'

/-- **C59**: if no number of components explains enough, one component is chosen without notice. -/
theorem C59_fallback (thr : K) (eig : List K) (hne : eig ≠ []) (hs : eig.sum ≠ 0) (h : Spec.enough thr eig = ∅) :
    chooseK thr eig = .ok 1 := by
  obtain ⟨i, h1, -, h3⟩ := chooseK_eq thr eig hne
  rw [h1, h3 fun j hj => ?_]
  unfold ratioReaches
  rw [if_neg hs, decide_eq_false_iff_not]
  intro hle
  have : j + 1 ∈ Spec.enough thr eig := ⟨by omega, by omega, hle⟩
  rw [h] at this
  exact this

end

/-- **C59** is violated by the code: a threshold above 1 is never reached and one component is returned. -/
theorem C59_violated : ¬ C59_statement ℚ := by
  intro h
  obtain ⟨k, -, ⟨k1, k2, k3⟩, -⟩ := h 2 [3, 1] (by simp) (by simp)
  have : k = 1 ∨ k = 2 := by simp at k2; omega
  rcases this with rfl | rfl <;> norm_num at k3

/-- The hypotheses of `C59_nonneg_partial` are met; two of the three variances are needed for 0.8. -/
example : chooseK (4 / 5 : ℚ) [6, 3, 1] = .ok 2 := by decide +kernel

/-- The hypotheses of `C59_fallback` are met by a threshold of 2. -/
example : Spec.enough (2 : ℚ) [3, 1] = ∅ := by
  ext k
  simp only [Spec.enough, Set.mem_setOf_eq, Set.mem_empty_iff_false, iff_false]
  rintro ⟨k1, k2, k3⟩
  have : k = 1 ∨ k = 2 := by simp at k2; omega
  rcases this with rfl | rfl <;> norm_num at k3

end Robpy
