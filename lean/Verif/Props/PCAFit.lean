import Verif.Props.PCA
import Verif.Lemmas.Select
import Verif.Lemmas.LinAlg

/-! Properties of the fitted state of `ROBPCA` and `PCALocantore`. -/

namespace Robpy
open Matrix

variable {p r : ℕ}

/-! ## C60 -/

theorem list_sum_expand0 {α : Type} (X : List α) (f : α → ℝ) (c : ℝ) :
    (X.map fun x => f x - c).sum = (X.map f).sum - X.length * c := by
  induction X with
  | nil => simp
  | cons a l ih =>
    simp only [List.map_cons, List.sum_cons, ih, List.length_cons, Nat.cast_add, Nat.cast_one]
    ring

/-- **C60**: the centre reported by ROBPCA is the sample mean of all observations, whatever the other parts of the algorithm
do. -/
theorem C60_location (D : RobpcaDeps) (alpha thr : ℝ) (fin : Bool) (L : Matrix (Fin p) (Fin r) ℝ) (st st' : PCAState p)
    (X : List (Fin p → ℝ)) (hX : X ≠ []) (h : robpcaFit D alpha thr fin L st X = .ok st') :
    st'.location_ = some (some fun j => (X.map fun x => x j).sum / X.length) := by
  unfold robpcaFit at h
  rcases ho : D.outl (X.map fun x => (x - meanRow X) ᵥ* L) with e | out
  · simp [ho, Except.bind] at h
  rcases hh : robpcaH alpha X.length st.nComponents with e | hs
  · simp [ho, hh, Except.bind] at h
  simp only [ho, hh, Except.bind] at h
  rcases hc : robpcaCore D thr fin st.nComponents (X.map fun x => (x - meanRow X) ᵥ* L)
    (takeAt (X.map fun x => (x - meanRow X) ᵥ* L) ((D.argsortExt.toFun (out.map nanLast)).take hs)) with e | ⟨k, C, ev⟩
  · simp [hc, Except.map] at h
  simp only [hc, Except.map, Except.ok.injEq] at h
  subst h
  simp only [Option.some.injEq]
  funext j
  have hn : (X.length : ℝ) ≠ 0 := by
    have := List.length_pos_iff.2 hX
    positivity
  have h1 : ∀ i : Fin p, (X.map fun x => x i - (X.map fun x => x i).sum / X.length).sum = 0 := fun i => by
    have h0 := list_sum_expand0 X (fun x => x i) ((X.map fun x => x i).sum / X.length)
    rw [h0]
    field_simp
    ring
  have h2 : ∀ x : Fin p → ℝ, ((fun x : Fin p → ℝ => x j) ∘ (fun t => L *ᵥ t + meanRow X) ∘ fun x => (x - meanRow X) ᵥ* L) x =
      (∑ i, (x i - meanRow X i) * (L * Lᵀ) i j) + meanRow X j := fun x => by
    simp only [Function.comp, Pi.add_apply]
    congr 1
    rw [← Matrix.vecMul_transpose, Matrix.vecMul_vecMul]
    rfl
  have h3 : (X.map ((fun x : Fin p → ℝ => x j) ∘ (fun t => L *ᵥ t + meanRow X) ∘ fun x => (x - meanRow X) ᵥ* L)).sum =
      (X.map fun x => x j).sum := by
    rw [List.map_congr_left fun x _ => h2 x, List.sum_map_add]
    have h4 : (X.map fun x => ∑ i, (x i - meanRow X i) * (L * Lᵀ) i j).sum = 0 := by
      have := list_sum_comm X fun x (i : Fin p) => (x i - meanRow X i) * (L * Lᵀ) i j
      rw [this]
      refine Finset.sum_eq_zero fun i _ => ?_
      rw [List.sum_map_mul_right]
      have := h1 i
      unfold meanRow mean
      simp only [List.length_map]
      rw [this, zero_mul]
    rw [h4, zero_add, List.map_const', List.sum_replicate, nsmul_eq_mul]
    unfold meanRow mean
    simp only [List.length_map]
    field_simp
  change mean ((List.map _ (List.map _ X)).map _) = _
  rw [List.map_map, List.map_map]
  unfold mean
  rw [List.length_map, Function.comp_assoc, h3]

/-! ## C92 -/

/-- Scalar product. -/
def dotp (c d : Fin p → ℝ) : ℝ := ∑ l, c l * d l

theorem dotp_comm (c d : Fin p → ℝ) : dotp c d = dotp d c := Finset.sum_congr rfl fun _ _ => mul_comm _ _

theorem orthonormal_iff (C : List (Fin p → ℝ)) :
    Spec.Orthonormal C ↔ (∀ c ∈ C, dotp c c = 1) ∧ C.Pairwise fun c d => dotp c d = 0 := by
  constructor
  · intro h
    refine ⟨fun c hc => ?_, ?_⟩
    · obtain ⟨i, hi, rfl⟩ := List.getElem_of_mem hc
      have := h i i _ _ (List.getElem?_eq_getElem hi) (List.getElem?_eq_getElem hi)
      rw [if_pos rfl] at this
      exact this
    · rw [List.pairwise_iff_getElem]
      intro i j hi hj hij
      have := h i j _ _ (List.getElem?_eq_getElem hi) (List.getElem?_eq_getElem hj)
      rw [if_neg hij.ne] at this
      exact this
  · rintro ⟨h1, h2⟩ i j c d hi hj
    rw [List.pairwise_iff_getElem] at h2
    obtain ⟨hi', rfl⟩ := List.getElem?_eq_some_iff.1 hi
    obtain ⟨hj', rfl⟩ := List.getElem?_eq_some_iff.1 hj
    rcases lt_trichotomy i j with hij | rfl | hij
    · rw [if_neg hij.ne]
      exact h2 i j hi' hj' hij
    · rw [if_pos rfl]
      exact h1 _ (List.getElem_mem hi')
    · rw [if_neg hij.ne']
      exact (dotp_comm _ _).trans (h2 j i hj' hi' hij)

theorem orthonormal_sublist {C C' : List (Fin p → ℝ)} (h : C'.Sublist C) (hC : Spec.Orthonormal C) : Spec.Orthonormal C' := by
  rw [orthonormal_iff] at hC ⊢
  exact ⟨fun c hc => hC.1 c (h.subset hc), hC.2.sublist h⟩

theorem orthonormal_perm {C C' : List (Fin p → ℝ)} (h : C'.Perm C) (hC : Spec.Orthonormal C) : Spec.Orthonormal C' := by
  rw [orthonormal_iff] at hC ⊢
  exact ⟨fun c hc => hC.1 c (h.mem_iff.1 hc), (h.pairwise_iff fun {a b} hab => (dotp_comm b a).trans hab).2 hC.2⟩

theorem orthonormal_map {C : List (Fin p → ℝ)} (f : (Fin p → ℝ) → Fin r → ℝ) (hf : ∀ c d, dotp (f c) (f d) = dotp c d)
    (hC : Spec.Orthonormal C) : Spec.Orthonormal (C.map f) := by
  rw [orthonormal_iff] at hC ⊢
  refine ⟨fun c hc => ?_, ?_⟩
  · obtain ⟨c', hc', rfl⟩ := List.mem_map.1 hc
    rw [hf]
    exact hC.1 c' hc'
  · rw [List.pairwise_map]
    exact hC.2.imp fun {a b} hab => (hf a b).trans hab

theorem orthonormal_colsOf {V : Matrix (Fin p) (Fin r) ℝ} (h : Vᵀ * V = 1) : Spec.Orthonormal (colsOf V) := by
  intro i j c d hi hj
  unfold colsOf at hi hj
  rw [List.getElem?_map] at hi hj
  obtain ⟨a, ha, rfl⟩ := Option.map_eq_some_iff.1 hi
  obtain ⟨b, hb, rfl⟩ := Option.map_eq_some_iff.1 hj
  obtain ⟨hi', ha⟩ := List.getElem?_eq_some_iff.1 ha
  obtain ⟨hj', hb⟩ := List.getElem?_eq_some_iff.1 hb
  rw [List.getElem_finRange] at ha hb
  have h1 : (Vᵀ * V) a b = ∑ l, V l a * V l b := rfl
  rw [← h1, h, Matrix.one_apply]
  subst ha
  subst hb
  simp [Fin.ext_iff]

theorem dotp_loadColumn {L : Matrix (Fin p) (Fin r) ℝ} (h : Lᵀ * L = 1) (c d : Fin r → ℝ) :
    dotp (loadColumn L c) (loadColumn L d) = dotp c d := by
  have h1 : ∀ c : Fin r → ℝ, loadColumn L c = L *ᵥ c := fun c => rfl
  have h2 : ∀ {n : ℕ} (c d : Fin n → ℝ), dotp c d = c ⬝ᵥ d := fun c d => rfl
  rw [h1, h1, h2, h2, Matrix.dotProduct_mulVec, ← Matrix.mulVec_transpose, Matrix.mulVec_mulVec, h, Matrix.one_mulVec]

theorem dotp_combine {C : List (Fin r → ℝ)} (hC : Spec.Orthonormal C) (e f : Fin C.length → ℝ) :
    dotp (combine C e) (combine C f) = dotp e f := by
  set M : Matrix (Fin r) (Fin C.length) ℝ := fun j i => C[i] j
  have h1 : ∀ e, combine C e = loadColumn M e := fun e => rfl
  have hM : Mᵀ * M = 1 := by
    ext i j
    rw [Matrix.one_apply]
    exact orthonormal_fin hC i j
  rw [h1, h1, dotp_loadColumn hM]

theorem colsOf_length (V : Matrix (Fin p) (Fin r) ℝ) : (colsOf V).length = r := by simp [colsOf]

theorem sortedEigen_spec {D : RobpcaDeps} {X : List (Fin r → ℝ)} {w : List ℝ} {V : List (Fin r → ℝ)}
    {A : Matrix (Fin r) (Fin r) ℝ} (h : sortedEigen D X = .ok (w, V, A)) :
    Spec.Orthonormal V ∧ V.length = r ∧ w.length = r ∧ w.Pairwise (· ≥ ·) ∧ A = npCov X := by
  unfold sortedEigen at h
  split_ifs at h with h0
  simp only [Except.ok.injEq, Prod.mk.injEq] at h
  obtain ⟨rfl, rfl, rfl⟩ := h
  have hp := D.argsort.perm (List.ofFn (D.eigh (npCov X)).w)
  rw [List.length_ofFn] at hp
  have hlt : ∀ i ∈ (D.argsort.toFun (List.ofFn (D.eigh (npCov X)).w)).reverse, i < r := fun i hi =>
    List.mem_range.1 (hp.mem_iff.1 (List.mem_reverse.1 hi))
  have hlen : (D.argsort.toFun (List.ofFn (D.eigh (npCov X)).w)).reverse.length = r := by
    rw [List.length_reverse, hp.length_eq, List.length_range]
  refine ⟨?_, ?_, ?_, ?_, rfl⟩
  · refine orthonormal_perm ?_ (orthonormal_colsOf (D.eigh (npCov X)).orth)
    have := takeAt_perm (colsOf (D.eigh (npCov X)).V) ((List.reverse_perm _).trans hp)
    refine this.trans ?_
    have h2 := takeAt_range (colsOf (D.eigh (npCov X)).V)
    rw [colsOf_length] at h2
    rw [h2]
  · rw [takeAt_length _ _ (by rw [colsOf_length]; exact hlt), hlen]
  · rw [takeAt_length _ _ (by rw [List.length_ofFn]; exact hlt), hlen]
  · have := D.argsort.sorted (List.ofFn (D.eigh (npCov X)).w)
    unfold takeAt at this ⊢
    rw [List.filterMap_reverse, List.pairwise_reverse]
    exact this

theorem finalMcdStep_spec {D : RobpcaDeps} {T : List (Fin r → ℝ)} {loc : Fin r → ℝ} {k k' : ℕ} {C C' : List (Fin r → ℝ)}
    (ho : Spec.Orthonormal C) (hk : C.length = k) (h : finalMcdStep D T loc k C = .ok (k', C')) :
    Spec.Orthonormal C' ∧ C'.length ≤ C.length ∧ k' ≤ k ∧ (k' ≠ 0 → C'.length = k') := by
  unfold finalMcdStep at h
  rcases h4 : D.mcdCov (T.map fun x (i : Fin C.length) => ∑ j, (x j - loc j) * C[i] j) with e | M
  · rw [h4] at h
    simp [Except.map] at h
  rw [h4] at h
  simp only [Except.map, Except.ok.injEq, Prod.mk.injEq] at h
  obtain ⟨rfl, rfl⟩ := h
  have hM : M.rank ≤ C.length := by simpa using Matrix.rank_le_width M
  have hlast : (lastCols (min k M.rank) (colsOf (D.eigh M).V)).Sublist (colsOf (D.eigh M).V) := by
    unfold lastCols
    split_ifs
    · exact List.Sublist.refl _
    · exact List.drop_sublist _ _
  have hll := hlast.length_le
  rw [colsOf_length] at hll
  refine ⟨?_, ?_, min_le_left _ _, ?_⟩
  · refine orthonormal_map _ (dotp_combine ho) ?_
    exact orthonormal_perm (List.reverse_perm _) (orthonormal_sublist hlast (orthonormal_colsOf (D.eigh M).orth))
  · rwa [List.length_map, List.length_reverse]
  · intro hk'
    rw [List.length_map, List.length_reverse]
    unfold lastCols
    rw [if_neg hk', List.length_drop, colsOf_length]
    omega

theorem robpcaCore_spec {D : RobpcaDeps} {thr : ℝ} {fin : Bool} {nc : Option ℕ} {T H : List (Fin r → ℝ)} {k : ℕ}
    {C : List (Fin r → ℝ)} {ev : List ℝ} (h : robpcaCore D thr fin nc T H = .ok (k, C, ev)) :
    Spec.Orthonormal C ∧ ev.Pairwise (· ≥ ·) ∧ C.length ≤ ev.length ∧ (fin = false → C.length = k) ∧
      (k ≠ 0 → C.length = k) ∧ ∀ k0, nc = some k0 → k ≤ k0 ∧ ev.length = min k0 r := by
  unfold robpcaCore at h
  rcases h1 : sortedEigen D H with e | ⟨w, V, A⟩
  · simp [h1, Except.bind] at h
  simp only [h1, Except.bind] at h
  rcases h2 : pickK nc thr w with e | k1
  · simp [h2] at h
  simp only [h2] at h
  rcases h3 : sortedEigen D (T.filter fun x => belowCutoff (D.odCutoff (T.map (orthDistRow (meanRow T) (V.take k1))))
    (orthDistRow (meanRow T) (V.take k1) x)) with e | ⟨w2, V2, A2⟩
  · simp [h3] at h
  simp only [h3] at h
  obtain ⟨-, -, hw, hws, -⟩ := sortedEigen_spec h1
  obtain ⟨hV2, hV2l, -, -, -⟩ := sortedEigen_spec h3
  have hrank : A2.rank ≤ r := by simpa using Matrix.rank_le_width A2
  set C2 := V2.take (min k1 A2.rank) with hC2
  have hC2o : Spec.Orthonormal C2 := orthonormal_sublist (List.take_sublist _ _) hV2
  have hC2l : C2.length = min k1 A2.rank := by rw [hC2, List.length_take, hV2l]; omega
  have hev : ∀ k0, nc = some k0 → k1 = k0 := fun k0 hk => by rw [hk] at h2; exact (Except.ok.inj h2).symm
  by_cases hf : fin = true ∧ min k1 A2.rank > 1
  · rw [if_pos hf] at h
    rcases h4 : finalMcdStep D T (meanRow T) (min k1 A2.rank) C2 with e | ⟨k', C'⟩
    · simp [h4, Except.map] at h
    simp only [h4, Except.map, Except.ok.injEq, Prod.mk.injEq] at h
    obtain ⟨rfl, rfl, rfl⟩ := h
    obtain ⟨f1, f2, f3, f4⟩ := finalMcdStep_spec hC2o hC2l h4
    refine ⟨f1, hws.sublist (List.take_sublist _ _), ?_, ?_, f4, ?_⟩
    · rw [List.length_take, hw]
      omega
    · intro hff
      rw [hff] at hf
      exact absurd hf.1 (by simp)
    · intro k0 hk
      rw [List.length_take, hw]
      have := hev k0 hk
      exact ⟨by omega, by omega⟩
  · rw [if_neg hf] at h
    simp only [Except.map, Except.ok.injEq, Prod.mk.injEq] at h
    obtain ⟨rfl, rfl, rfl⟩ := h
    refine ⟨hC2o, hws.sublist (List.take_sublist _ _), ?_, fun _ => hC2l, fun _ => hC2l, ?_⟩
    · rw [hC2l, List.length_take, hw]
      omega
    · intro k0 hk
      rw [hev k0 hk, List.length_take, hw]
      exact ⟨by omega, rfl⟩

theorem robpcaFit_core {D : RobpcaDeps} {alpha thr : ℝ} {fin : Bool} {L : Matrix (Fin p) (Fin r) ℝ} {st st' : PCAState p}
    {X : List (Fin p → ℝ)} (h : robpcaFit D alpha thr fin L st X = .ok st') :
    ∃ T H k C ev, robpcaCore D thr fin st.nComponents T H = .ok (k, C, ev) ∧ st'.nComponents = some k ∧
      st'.components_ = some (C.map (loadColumn L)) ∧ st'.explainedVariance_ = some ev := by
  unfold robpcaFit at h
  rcases ho : D.outl (X.map fun x => (x - meanRow X) ᵥ* L) with e | out
  · simp [ho, Except.bind] at h
  rcases hh : robpcaH alpha X.length st.nComponents with e | hs
  · simp [ho, hh, Except.bind] at h
  simp only [ho, hh, Except.bind] at h
  rcases hc : robpcaCore D thr fin st.nComponents (X.map fun x => (x - meanRow X) ᵥ* L)
    (takeAt (X.map fun x => (x - meanRow X) ᵥ* L) ((D.argsortExt.toFun (out.map nanLast)).take hs)) with e | ⟨k, C, ev⟩
  · simp [hc, Except.map] at h
  simp only [hc, Except.map, Except.ok.injEq] at h
  subst h
  exact ⟨_, _, k, C, ev, hc, rfl, rfl, rfl⟩

/-- **C92**: the components found by ROBPCA are orthonormal if the loadings of the first PCA are. -/
theorem C92_robpca (D : RobpcaDeps) (alpha thr : ℝ) (fin : Bool) (L : Matrix (Fin p) (Fin r) ℝ) (hL : Lᵀ * L = 1)
    (st st' : PCAState p) (X : List (Fin p → ℝ)) (h : robpcaFit D alpha thr fin L st X = .ok st') :
    ∃ C, st'.components_ = some C ∧ Spec.Orthonormal C := by
  obtain ⟨T, H, k, C, ev, h1, -, h3, -⟩ := robpcaFit_core h
  exact ⟨_, h3, orthonormal_map _ (dotp_loadColumn hL) (robpcaCore_spec h1).1⟩

theorem locantoreWith_ok {c thr : ℝ} {eigh : ∀ A : Matrix (Fin p) (Fin p) ℝ, EighAsc A} {st st' : PCAState p}
    {X : List (Fin p → ℝ)} {loc : Fin p → ℝ} (h : locantoreWith c thr eigh st X loc = .ok st') :
    X ≠ [] ∧ loc ∉ X ∧ ∃ k,
      pickK st.nComponents thr (madVariances c X loc (colsOf (eigh (spatialSignCov X loc)).V).reverse) = .ok k ∧
      st' = { nComponents := some k, location_ := some (some loc),
              components_ := some ((colsOf (eigh (spatialSignCov X loc)).V).reverse.take k),
              explainedVariance_ :=
                some ((madVariances c X loc (colsOf (eigh (spatialSignCov X loc)).V).reverse).take k) } := by
  unfold locantoreWith at h
  split_ifs at h with h0
  rw [not_or] at h0
  rcases hk : pickK st.nComponents thr (madVariances c X loc (colsOf (eigh (spatialSignCov X loc)).V).reverse) with e | k
  · simp [hk, Except.map] at h
  · simp only [hk, Except.map, Except.ok.injEq] at h
    exact ⟨h0.1, h0.2, k, rfl, h.symm⟩

theorem locantoreFit_ok {eps c thr : ℝ} {eigh : ∀ A : Matrix (Fin p) (Fin p) ℝ, EighAsc A} {st st' : PCAState p}
    {X : List (Fin p → ℝ)} {fuel : ℕ} (h : locantoreFit eps c thr eigh st X fuel = some (.ok st')) :
    ∃ loc, l1median eps X fuel = some (.ok loc) ∧ locantoreWith c thr eigh st X loc = .ok st' := by
  unfold locantoreFit at h
  rcases hl : l1median eps X fuel with _ | (e | loc)
  · simp [hl, Run.andThen] at h
  · simp [hl, Run.andThen] at h
  · simp only [hl, Run.andThen, Option.some.injEq] at h
    exact ⟨loc, rfl, h⟩

/-- **C92**: the components found by PCALocantore are orthonormal. -/
theorem C92_locantore (eps c thr : ℝ) (eigh : ∀ A : Matrix (Fin p) (Fin p) ℝ, EighAsc A) (st st' : PCAState p)
    (X : List (Fin p → ℝ)) (fuel : ℕ) (h : locantoreFit eps c thr eigh st X fuel = some (.ok st')) :
    ∃ C, st'.components_ = some C ∧ Spec.Orthonormal C := by
  obtain ⟨loc, -, h2⟩ := locantoreFit_ok h
  obtain ⟨-, -, k, -, rfl⟩ := locantoreWith_ok h2
  refine ⟨_, rfl, orthonormal_sublist (List.take_sublist _ _) ?_⟩
  exact orthonormal_perm (List.reverse_perm _) (orthonormal_colsOf (eigh _).orth)

/-! ## C93 -/

/-- **C93**, PCALocantore: if no more components are asked for than there are columns, the number of components, the columns of
the component matrix and the explained variances agree. -/
theorem C93_locantore_partial (eps c thr : ℝ) (eigh : ∀ A : Matrix (Fin p) (Fin p) ℝ, EighAsc A) (st st' : PCAState p)
    (X : List (Fin p → ℝ)) (fuel : ℕ) (hk : ∀ k, st.nComponents = some k → k ≤ p)
    (h : locantoreFit eps c thr eigh st X fuel = some (.ok st')) :
    ∃ k C ev, st'.nComponents = some k ∧ st'.components_ = some C ∧ st'.explainedVariance_ = some ev ∧ C.length = k ∧
      ev.length = k := by
  obtain ⟨loc, -, h2⟩ := locantoreFit_ok h
  obtain ⟨-, -, k, hp, rfl⟩ := locantoreWith_ok h2
  have hkp : k ≤ p := by
    rcases hn : st.nComponents with _ | k0
    · rw [hn] at hp
      simp only [pickK] at hp
      have hlen : (madVariances c X loc (colsOf (eigh (spatialSignCov X loc)).V).reverse).length = p := by
        simp [madVariances, colsOf_length]
      by_cases he : madVariances c X loc (colsOf (eigh (spatialSignCov X loc)).V).reverse = []
      · rw [he] at hp
        simp [chooseK, cumsum, argmaxBool, Except.map] at hp
      obtain ⟨i, h3, h4, h5⟩ := chooseK_eq thr _ he
      rw [hp] at h3
      obtain rfl := Except.ok.inj h3
      have hpos := List.length_pos_iff.2 he
      by_cases hex : ∃ j < (madVariances c X loc (colsOf (eigh (spatialSignCov X loc)).V).reverse).length,
        ratioReaches thr (madVariances c X loc (colsOf (eigh (spatialSignCov X loc)).V).reverse).sum
          ((madVariances c X loc (colsOf (eigh (spatialSignCov X loc)).V).reverse).take (j + 1)).sum = true
      · have := (h4 hex).1
        omega
      · push Not at hex
        have := h5 fun j hj => by simpa using hex j hj
        omega
    · rw [hn] at hp
      obtain rfl := Except.ok.inj hp
      exact hk _ hn
  refine ⟨k, _, _, rfl, rfl, rfl, ?_, ?_⟩
  · simp [colsOf_length, hkp]
  · simp [madVariances, colsOf_length, hkp]

/-- **C93**, ROBPCA: there are at least as many explained variances as components, and without the final MCD step (or if it
does not find a zero matrix) `n_components` is the number of components. -/
theorem C93_robpca_partial (D : RobpcaDeps) (alpha thr : ℝ) (fin : Bool) (L : Matrix (Fin p) (Fin r) ℝ)
    (st st' : PCAState p) (X : List (Fin p → ℝ)) (h : robpcaFit D alpha thr fin L st X = .ok st') :
    ∃ k C ev, st'.nComponents = some k ∧ st'.components_ = some C ∧ st'.explainedVariance_ = some ev ∧
      C.length ≤ ev.length ∧ (fin = false ∨ k ≠ 0 → C.length = k) ∧
      ∀ k0, st.nComponents = some k0 → k ≤ k0 ∧ ev.length = min k0 r := by
  obtain ⟨T, H, k, C, ev, h1, h2, h3, h4⟩ := robpcaFit_core h
  obtain ⟨-, -, h5, h6, h7, h8⟩ := robpcaCore_spec h1
  refine ⟨k, _, ev, h2, h3, h4, by rwa [List.length_map], ?_, h8⟩
  rw [List.length_map]
  rintro (hf | hk)
  · exact h6 hf
  · exact h7 hk

/-! ## C94 -/

/-- **C94**, what holds: with a number of components given by the user, PCALocantore forgets its history. -/
theorem C94_locantore_partial (eps c thr : ℝ) (eigh : ∀ A : Matrix (Fin p) (Fin p) ℝ, EighAsc A) (st st1 : PCAState p)
    (k : ℕ) (hk : st.nComponents = some k) (A B : List (Fin p → ℝ)) (fuel fuel' : ℕ)
    (h : locantoreFit eps c thr eigh st A fuel = some (.ok st1)) :
    locantoreFit eps c thr eigh st1 B fuel' = locantoreFit eps c thr eigh st B fuel' := by
  obtain ⟨loc, -, h2⟩ := locantoreFit_ok h
  obtain ⟨-, -, k', hp, rfl⟩ := locantoreWith_ok h2
  rw [hk] at hp
  obtain rfl := Except.ok.inj hp
  unfold locantoreFit locantoreWith
  rw [hk]

/-- **C94**, what holds: `fit` reads nothing but `n_components` from the object. -/
theorem C94_robpca_partial (D : RobpcaDeps) (alpha thr : ℝ) (fin : Bool) (L : Matrix (Fin p) (Fin r) ℝ)
    (st st1 : PCAState p) (h : st.nComponents = st1.nComponents) (X : List (Fin p → ℝ)) :
    robpcaFit D alpha thr fin L st X = robpcaFit D alpha thr fin L st1 X := by
  unfold robpcaFit
  rw [h]

/-! ## C95 -/

/-- **C95**, ROBPCA: the explained variances do not increase. -/
theorem C95_robpca_partial (D : RobpcaDeps) (alpha thr : ℝ) (fin : Bool) (L : Matrix (Fin p) (Fin r) ℝ)
    (st st' : PCAState p) (X : List (Fin p → ℝ)) (h : robpcaFit D alpha thr fin L st X = .ok st') :
    ∃ ev, st'.explainedVariance_ = some ev ∧ ev.Pairwise (· ≥ ·) := by
  obtain ⟨T, H, k, C, ev, h1, -, -, h4⟩ := robpcaFit_core h
  exact ⟨ev, h4, (robpcaCore_spec h1).2.1⟩

/-! ## C96 -/

/-- The state in which only the centre is shifted. -/
def Spec.shiftCentre (b : Fin p → ℝ) (st : PCAState p) : PCAState p :=
  { st with location_ := st.location_.map fun l => l.map fun v => v + b }

theorem rowDist_shift (x mu b : Fin p → ℝ) : rowDist (x + b) (mu + b) = rowDist x mu := by
  unfold rowDist
  simp

/-- **C96**: shifting the data shifts the centre found by PCALocantore and changes nothing else; it terminates on the shifted
data exactly if it does on the original data, and raises the same error. -/
theorem C96_locantore (eps c thr : ℝ) (eigh : ∀ A : Matrix (Fin p) (Fin p) ℝ, EighAsc A) (st : PCAState p)
    (b : Fin p → ℝ) (X : List (Fin p → ℝ)) (hX : X ≠ []) (fuel : ℕ) :
    locantoreFit eps c thr eigh st (X.map fun x => x + b) fuel =
      (locantoreFit eps c thr eigh st X fuel).map fun r => r.map (Spec.shiftCentre b) := by
  have hw : ∀ loc, locantoreWith c thr eigh st (X.map fun x => x + b) (loc + b) =
      (locantoreWith c thr eigh st X loc).map (Spec.shiftCentre b) := fun loc => by
    have hS : spatialSignCov (X.map fun x => x + b) (loc + b) = spatialSignCov X loc := by
      unfold spatialSignCov
      funext i j
      simp [List.map_map, Function.comp_def, rowDist_shift]
    have hM : ∀ C, madVariances c (X.map fun x => x + b) (loc + b) C = madVariances c X loc C := fun C => by
      unfold madVariances
      simp [List.map_map, Function.comp_def]
    unfold locantoreWith
    rw [hS]
    simp only [hM]
    have hmem : loc + b ∈ (X.map fun x => x + b) ↔ loc ∈ X := by simp
    by_cases h0 : loc ∈ X
    · simp [h0, Except.map]
    · simp only [hmem, h0, or_false, hX, if_false, List.map_eq_nil_iff]
      rcases pickK st.nComponents thr (madVariances c X loc (colsOf (eigh (spatialSignCov X loc)).V).reverse) with e | k
      · rfl
      · simp [Except.map, Spec.shiftCentre]
  have hl := C90_shift eps b X hX fuel
  unfold locantoreFit
  rw [hl]
  rcases l1median eps X fuel with _ | (e | loc)
  · rfl
  · rfl
  · exact congrArg some (hw loc)

/-- **C96**: shifting the data shifts the centre found by ROBPCA and changes nothing else (given the same loadings of the first
PCA, which only sees centred data). -/
theorem C96_robpca (D : RobpcaDeps) (alpha thr : ℝ) (fin : Bool) (L : Matrix (Fin p) (Fin r) ℝ) (st : PCAState p)
    (b : Fin p → ℝ) (X : List (Fin p → ℝ)) (hX : X ≠ []) :
    robpcaFit D alpha thr fin L st (X.map fun x => x + b) =
      (robpcaFit D alpha thr fin L st X).map (Spec.shiftCentre b) := by
  have hn : (X.length : ℝ) ≠ 0 := by
    have := List.length_pos_iff.2 hX
    positivity
  have hm : meanRow (X.map fun x => x + b) = meanRow X + b := by
    funext j
    unfold meanRow mean
    simp only [List.map_map, List.length_map, Function.comp_def, Pi.add_apply, List.sum_map_add, List.map_const',
      List.sum_replicate, nsmul_eq_mul]
    field_simp
  have hT : ((X.map fun x => x + b).map fun x => (x - (meanRow X + b)) ᵥ* L) =
      X.map fun x => (x - meanRow X) ᵥ* L := by
    rw [List.map_map]
    refine List.map_congr_left fun x _ => ?_
    simp [Function.comp]
  have hloc : ∀ T : List (Fin r → ℝ), T.length = X.length →
      meanRow (T.map fun t => L *ᵥ t + (meanRow X + b)) = meanRow (T.map fun t => L *ᵥ t + meanRow X) + b := fun T hTl => by
    funext j
    unfold meanRow mean
    simp only [List.map_map, List.length_map, Function.comp_def, Pi.add_apply, List.sum_map_add, List.map_const',
      List.sum_replicate, nsmul_eq_mul, hTl]
    field_simp
    ring
  unfold robpcaFit
  simp only [hm, hT, List.length_map]
  rcases D.outl (X.map fun x => (x - meanRow X) ᵥ* L) with e | out
  · rfl
  rcases robpcaH alpha X.length st.nComponents with e | hs
  · rfl
  simp only [Except.bind]
  rcases robpcaCore D thr fin st.nComponents (X.map fun x => (x - meanRow X) ᵥ* L)
    (takeAt (X.map fun x => (x - meanRow X) ᵥ* L) ((D.argsortExt.toFun (out.map nanLast)).take hs)) with e | ⟨k, C, ev⟩
  · rfl
  · simp only [Except.map, Spec.shiftCentre, Except.ok.injEq, PCAState.mk.injEq, true_and, and_true, Option.map_some,
      Option.some.injEq]
    exact hloc _ (by simp)

end Robpy
