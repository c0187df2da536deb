import Verif.Props.DetTotal
import Verif.Props.RowOrder

/-! # C188: DetMCD and the order of the rows -/

namespace Robpy
open Matrix

/-! ## Specification -/

namespace Spec

/-- The `k` smallest of some numbers are determined: exactly `k` of them are at most some number. -/
def clearCut (k : ℕ) (d : List ℝ) : Prop := ∃ t, d.countP (fun v => decide (v ≤ t)) = k

/-- Same exception, or results in the given relation. -/
def sameExcept {α β : Type} (R : α → β → Prop) : Except PyErr α → Except PyErr β → Prop
  | .error e, .error e' => e = e'
  | .ok a, .ok b => R a b
  | _, _ => False

/-- Same for executions that may not end. -/
def sameRun {α β : Type} (R : α → β → Prop) : Run α → Run β → Prop
  | none, none => True
  | some a, some b => sameExcept R a b
  | _, _ => False

variable {p : ℕ}

/-- Two subsets with the same rows, in any order, and the same statistics. -/
structure sameSubset (X X' : List (Fin p → ℝ)) (s s' : HSubset ℝ (Fin p)) : Prop where
  rows : (takeAt X s.indices).Perm (takeAt X' s'.indices)
  location : s.location = s'.location
  scale : s.scale = s'.scale
  determinant : s.determinant = s'.determinant
  nCSteps : s.nCSteps = s'.nCSteps

/-- Two results of `DetMCD` on the same rows in different order: same location, covariance and subset of rows, and every row has the same
entry in the mask. -/
structure sameMCD (X X' : List (Fin p → ℝ)) (f f' : CovFit ℝ (Fin p)) : Prop where
  location : f.location = f'.location
  covariance : f.covariance = f'.covariance
  best : Option.Rel (sameSubset X X') f.best f'.best
  mask : Option.Rel (fun m m' => m.length = X.length ∧ m'.length = X'.length ∧ (X.zip m).Perm (X'.zip m')) f.mask f'.mask

/-- In a run of `DetMCD` the rows taken by each of the three kinds of selections are determined: half of the rows by their norm (mcd.py 404), half
of the rows by the distance to each of the six starting values (429), and `h` rows by the distance to the statistics of each of these halves (511). -/
def determinedCuts (env : DetEnv p) (alpha : Alpha ℝ) (X : List (Fin p → ℝ)) : Prop :=
  (∀ Z, detZ env.tauCorr X = .ok Z → clearCut ((X.length + 1) / 2) (Z.map rowNorm) ∧
    ∀ Ss, detScatters env Z = .ok Ss → ∀ S ∈ Ss, ∀ s d, detStart env Z S = .ok s → sqMahalanobis Z s.1 s.2 = .ok d →
      clearCut ((X.length + 1) / 2) d) ∧
  ∀ inits h, detInits env X = .ok inits → mcdGetH alpha X.length p = .ok h → ∀ idx ∈ inits, ∀ d,
    sqMahalanobis X (meanRow (takeAt X idx)) (npCov (takeAt X idx)) = .ok d → clearCut h d

end Spec

/-! ## Outcomes -/

section
variable {α β γ δ : Type}

theorem sameExcept_bind {R : α → β → Prop} {T : γ → δ → Prop} {a : Except PyErr α} {b : Except PyErr β} {f : α → Except PyErr γ}
    {g : β → Except PyErr δ} (h : Spec.sameExcept R a b) (hf : ∀ x y, a = .ok x → b = .ok y → R x y → Spec.sameExcept T (f x) (g y)) :
    Spec.sameExcept T (a.bind f) (b.bind g) := by
  rcases a with e | x <;> rcases b with e' | y
  · exact h
  · exact h.elim
  · exact h.elim
  · exact hf x y rfl rfl h

theorem sameExcept_map {R : α → β → Prop} {T : γ → δ → Prop} {a : Except PyErr α} {b : Except PyErr β} {f : α → γ} {g : β → δ}
    (h : Spec.sameExcept R a b) (hf : ∀ x y, a = .ok x → b = .ok y → R x y → T (f x) (g y)) : Spec.sameExcept T (a.map f) (b.map g) := by
  rcases a with e | x <;> rcases b with e' | y
  · exact h
  · exact h.elim
  · exact h.elim
  · exact hf x y rfl rfl h

theorem sameExcept_refl {R : α → α → Prop} (a : Except PyErr α) (h : ∀ x, R x x) : Spec.sameExcept R a a := by
  rcases a with e | x
  · exact rfl
  · exact h x

theorem sameExcept_mapExcept {R : α → β → Prop} {T : γ → δ → Prop} {f : α → Except PyErr γ} {g : β → Except PyErr δ} {l : List α} {l' : List β}
    (hl : List.Forall₂ R l l') (hf : ∀ x ∈ l, ∀ y ∈ l', R x y → Spec.sameExcept T (f x) (g y)) :
    Spec.sameExcept (List.Forall₂ T) (mapExcept f l) (mapExcept g l') := by
  induction hl with
  | nil => exact List.Forall₂.nil
  | cons h hl ih =>
    unfold mapExcept
    refine sameExcept_bind (hf _ List.mem_cons_self _ List.mem_cons_self h) fun x y _ _ hxy => ?_
    exact sameExcept_map (ih fun a ha b hb => hf a (List.mem_cons_of_mem _ ha) b (List.mem_cons_of_mem _ hb)) fun xs ys _ _ h2 =>
      List.Forall₂.cons hxy h2

theorem sameRun_andThen {R : α → β → Prop} {T : γ → δ → Prop} {a : Run α} {b : Run β} {f : α → Run γ} {g : β → Run δ}
    (h : Spec.sameRun R a b) (hf : ∀ x y, a = some (.ok x) → b = some (.ok y) → R x y → Spec.sameRun T (f x) (g y)) :
    Spec.sameRun T (a.andThen f) (b.andThen g) := by
  rcases a with _ | a <;> rcases b with _ | b
  · trivial
  · exact h.elim
  · exact h.elim
  · rcases a with e | x <;> rcases b with e' | y
    · exact h
    · exact h.elim
    · exact h.elim
    · exact hf x y rfl rfl h

end

/-! ## Selections -/

theorem filter_sorted {L : List ℕ} {f : ℕ → ℝ} (h : L.Pairwise fun i j => f i ≤ f j) (t : ℝ) :
    L.filter (fun i => decide (f i ≤ t)) = L.take (L.countP fun i => decide (f i ≤ t)) := by
  induction L with
  | nil => rfl
  | cons a L ih =>
    obtain ⟨h1, h2⟩ := List.pairwise_cons.1 h
    by_cases ha : f a ≤ t
    · rw [List.filter_cons_of_pos (by simpa using ha), List.countP_cons_of_pos (by simpa using ha), List.take_succ_cons, ih h2]
    · have hn : ∀ i ∈ L, ¬ f i ≤ t := fun i hi hle => ha ((h1 i hi).trans hle)
      have hc : L.countP (fun i => decide (f i ≤ t)) = 0 := by
        rw [List.countP_eq_zero]
        intro i hi
        simpa using hn i hi
      rw [List.filter_cons_of_neg (by simpa using ha), List.countP_cons_of_neg (by simpa using ha), hc, List.take_zero, List.filter_eq_nil_iff]
      intro i hi
      simpa using hn i hi

theorem takeAt_filter_pred {α : Type} (P : α → Bool) (X : List α) (L : List ℕ) (hL : L.Perm (List.range X.length)) (f : ℕ → Bool)
    (hf : ∀ i (hi : i < X.length), f i = P X[i]) : (takeAt X (L.filter f)).Perm (X.filter P) := by
  have h1 : (takeAt X (L.filter f)).Perm (takeAt X ((List.range X.length).filter f)) := takeAt_perm X (hL.filter f)
  refine h1.trans (List.Perm.of_eq ?_)
  have h2 : (List.range X.length).filter f = (List.range X.length).filter fun i => (X[i]?).any P := by
    apply List.filter_congr
    intro i hi
    have hi := List.mem_range.1 hi
    rw [hf i hi, List.getElem?_eq_getElem hi]
    rfl
  rw [h2]
  have : ∀ idx : List ℕ, takeAt X (idx.filter fun i => (X[i]?).any P) = (takeAt X idx).filter P := by
    intro idx
    induction idx with
    | nil => rfl
    | cons i idx ih =>
      unfold takeAt at ih ⊢
      rcases hx : X[i]? with _ | x
      · rw [List.filter_cons_of_neg (by simp [hx]), List.filterMap_cons_none hx, ih]
      · by_cases hP : P x = true
        · rw [List.filter_cons_of_pos (by simp [hx, hP]), List.filterMap_cons_some hx, List.filterMap_cons_some hx, ih, List.filter_cons_of_pos hP]
        · rw [List.filter_cons_of_neg (by simp [hx, hP]), List.filterMap_cons_some hx, ih, List.filter_cons_of_neg hP]
  rw [this, takeAt_range]

/-- The rows with the `k` smallest values, when they are determined. -/
theorem takeAt_cut {α : Type} (srt : ArgSort ℝ) (X : List α) (δ : α → ℝ) {k : ℕ} {t : ℝ}
    (h : (X.map δ).countP (fun v => decide (v ≤ t)) = k) :
    (takeAt X ((srt.toFun (X.map δ)).take k)).Perm (X.filter fun x => decide (δ x ≤ t)) := by
  let f : ℕ → ℝ := fun i => ((X.map δ)[i]?).getD 0
  have hp := srt.perm (X.map δ)
  rw [List.length_map] at hp
  have hlt : ∀ i ∈ srt.toFun (X.map δ), i < X.length := fun i hi => List.mem_range.1 (hp.mem_iff.1 hi)
  have hval : ∀ i (hi : i < X.length), f i = δ X[i] := by
    intro i hi
    simp [f, List.getElem?_map, List.getElem?_eq_getElem hi]
  have htake : takeAt (X.map δ) (srt.toFun (X.map δ)) = (srt.toFun (X.map δ)).map f := by
    have : ∀ L : List ℕ, (∀ i ∈ L, i < X.length) → takeAt (X.map δ) L = L.map f := by
      intro L hL
      induction L with
      | nil => rfl
      | cons i L ih =>
        have hi := hL i List.mem_cons_self
        unfold takeAt at ih ⊢
        rw [List.filterMap_cons_some (b := f i) (by rw [hval i hi, List.getElem?_map, List.getElem?_eq_getElem hi]; rfl),
          ih fun j hj => hL j (List.mem_cons_of_mem _ hj)]
        rfl
    exact this _ hlt
  have hsort := srt.sorted (X.map δ)
  rw [htake, List.pairwise_map] at hsort
  have hcount : (srt.toFun (X.map δ)).countP (fun i => decide (f i ≤ t)) = k := by
    rw [← h]
    have e1 : (srt.toFun (X.map δ)).countP (fun i => decide (f i ≤ t)) = ((srt.toFun (X.map δ)).map f).countP (fun v => decide (v ≤ t)) := by
      rw [List.countP_map]; rfl
    rw [e1, ← htake]
    have : (takeAt (X.map δ) (srt.toFun (X.map δ))).Perm (X.map δ) := by
      have h3 := takeAt_perm (X.map δ) (srt.perm (X.map δ))
      rwa [takeAt_range] at h3
    exact this.countP_eq _
  have := filter_sorted hsort t
  rw [hcount] at this
  rw [← this]
  exact takeAt_filter_pred (fun x => decide (δ x ≤ t)) X _ hp _ fun i hi => by rw [hval i hi]

/-- The rows selected do not depend on the order. -/
theorem takeAt_cut_perm {α : Type} (srt : ArgSort ℝ) {X X' : List α} (hX : X.Perm X') (δ : α → ℝ) {k : ℕ} (h : Spec.clearCut k (X.map δ)) :
    (takeAt X ((srt.toFun (X.map δ)).take k)).Perm (takeAt X' ((srt.toFun (X'.map δ)).take k)) := by
  obtain ⟨t, ht⟩ := h
  have ht' : (X'.map δ).countP (fun v => decide (v ≤ t)) = k := by rw [← ht]; exact ((hX.map δ).countP_eq _).symm
  exact (takeAt_cut srt X δ ht).trans ((hX.filter _).trans (takeAt_cut srt X' δ ht').symm)

/-! ## The steps of the run -/

variable {p : ℕ}

theorem sqMahalanobis_same {X X' : List (Fin p → ℝ)} (loc : Fin p → ℝ) (S : Matrix (Fin p) (Fin p) ℝ) :
    Spec.sameExcept (fun d d' => ∃ δ : (Fin p → ℝ) → ℝ, d = X.map δ ∧ d' = X'.map δ) (sqMahalanobis X loc S) (sqMahalanobis X' loc S) := by
  unfold sqMahalanobis
  exact sameExcept_map (sameExcept_refl (R := Eq) _ fun _ => rfl) fun x y _ _ hxy => ⟨fun z => quadForm x (z - loc), rfl, by rw [hxy]⟩

theorem getSubset_same {X X' : List (Fin p → ℝ)} {idx idx' : List ℕ} (h : (takeAt X idx).Perm (takeAt X' idx')) (k : ℕ) :
    Spec.sameExcept (Spec.sameSubset X X') (getSubset X idx k) (getSubset X' idx' k) := by
  unfold getSubset
  rw [npCov_perm h]
  refine sameExcept_map (sameExcept_refl (R := Eq) _ fun _ => rfl) fun x y _ _ hxy => ?_
  exact ⟨h, meanRow_perm h, rfl, hxy, rfl⟩

theorem cStep_same (srt : ArgSort ℝ) (alpha : Alpha ℝ) {X X' : List (Fin p → ℝ)} (hX : X.Perm X') {s s' : HSubset ℝ (Fin p)}
    (h : Spec.sameSubset X X' s s')
    (hc : ∀ d k, mcdGetH alpha X.length p = .ok k → sqMahalanobis X s.location s.scale = .ok d → Spec.clearCut k d) :
    Spec.sameExcept (Spec.sameSubset X X') (cStep srt alpha X s) (cStep srt alpha X' s') := by
  unfold cStep
  rw [← h.location, ← h.scale, ← hX.length_eq, ← h.nCSteps]
  refine sameExcept_bind (sqMahalanobis_same s.location s.scale) fun d d' hd _ hdd => ?_
  obtain ⟨δ, rfl, rfl⟩ := hdd
  refine sameExcept_bind (sameExcept_refl (R := Eq) _ fun _ => rfl) fun k k' hk _ hkk => ?_
  subst hkk
  rw [Fintype.card_fin] at hk
  exact getSubset_same (takeAt_cut_perm srt hX δ (hc _ k hk hd)) _

theorem postProcess_same (cfg : MCDConfig ℝ) {X X' : List (Fin p → ℝ)} (hX : X.Perm X') {s s' : HSubset ℝ (Fin p)}
    (h : Spec.sameSubset X X' s s') : Spec.sameExcept (Spec.sameMCD X X') (postProcess cfg X s) (postProcess cfg X' s') := by
  unfold postProcess
  have hscale : Spec.sameExcept Eq (if cfg.correct then correctCovariance cfg.chi50 X s else .ok s.scale)
      (if cfg.correct then correctCovariance cfg.chi50 X' s' else .ok s'.scale) := by
    split_ifs
    · unfold correctCovariance
      rw [← h.location, ← h.scale]
      refine sameExcept_map (sqMahalanobis_same s.location s.scale) fun d d' _ _ hdd => ?_
      obtain ⟨δ, rfl, rfl⟩ := hdd
      rw [npMedian_perm (hX.map δ)]
    · exact h.scale
  refine sameExcept_bind hscale fun S S' _ _ hS => ?_
  subst hS
  split_ifs
  · unfold reweight
    rw [← h.location]
    refine sameExcept_bind (sqMahalanobis_same s.location S) fun d d' _ _ hdd => ?_
    obtain ⟨δ, rfl, rfl⟩ := hdd
    have hrow : ∀ Y : List (Fin p → ℝ), maskRows ((Y.map δ).map fun v => decide (v < cfg.chi975)) Y = Y.filter fun x => decide (δ x < cfg.chi975) := by
      intro Y
      unfold maskRows
      induction Y with
      | nil => rfl
      | cons y Y ih =>
        simp only [List.map_cons, List.zip_cons_cons]
        by_cases hy : δ y < cfg.chi975
        · rw [List.filter_cons_of_pos (by simpa using hy), List.filter_cons_of_pos (by simpa using hy), List.map_cons, ih]
        · rw [List.filter_cons_of_neg (by simpa using hy), List.filter_cons_of_neg (by simpa using hy), ih]
    simp only [hrow]
    have hperm := hX.filter fun x => decide (δ x < cfg.chi975)
    rw [← hperm.length_eq]
    split_ifs
    · exact rfl
    · refine ⟨meanRow_perm hperm, by rw [npCov_perm hperm], Option.Rel.some h, Option.Rel.some ⟨by simp, by simp, ?_⟩⟩
      rw [List.map_map, List.map_map, zip_map_self, zip_map_self]
      exact hX.map _
    · refine ⟨meanRow_perm hperm, by rw [npCov_perm hperm], Option.Rel.some h, Option.Rel.some ⟨by simp, by simp, ?_⟩⟩
      rw [List.map_map, List.map_map, zip_map_self, zip_map_self]
      exact hX.map _
  · exact ⟨h.location, rfl, Option.Rel.some h, Option.Rel.none⟩

theorem convergeAll_same (srt : ArgSort ℝ) (alpha : Alpha ℝ) {tol : ℝ} (htol : 0 < tol) {X X' : List (Fin p → ℝ)} (fuel : ℕ)
    {l l' : List (HSubset ℝ (Fin p))} (hl : List.Forall₂ (Spec.sameSubset X X') l l') (h1 : ∀ s ∈ l, Stepped srt alpha X s)
    (h2 : ∀ s ∈ l', Stepped srt alpha X' s) {b b' : HSubset ℝ (Fin p)} (hb : Spec.sameSubset X X' b b') :
    Spec.sameRun (Spec.sameSubset X X') (convergeAll srt alpha tol X fuel l b) (convergeAll srt alpha tol X' fuel l' b') := by
  induction hl generalizing b b' with
  | nil => exact hb
  | @cons s s' l l' hs hl ih =>
    unfold convergeAll
    rcases fuel with _ | fuel
    · trivial
    · rw [converge_stepped htol (h1 s List.mem_cons_self), converge_stepped htol (h2 s' List.mem_cons_self), ← hs.determinant]
      split_ifs
      · exact rfl
      · simp only [Run.andThen]
        refine ih (fun t ht => h1 t (List.mem_cons_of_mem _ ht)) (fun t ht => h2 t (List.mem_cons_of_mem _ ht)) ?_
        rw [← hs.determinant, ← hb.determinant]
        split_ifs
        · exact hs
        · exact hb

theorem detMCD_same (srt : ArgSort ℝ) (cfg : MCDConfig ℝ) (htol : 0 < cfg.tol) {X X' : List (Fin p → ℝ)} (hX : X.Perm X') (fuel : ℕ)
    {inits inits' : List (List ℕ)} (hi : List.Forall₂ (fun idx idx' => (takeAt X idx).Perm (takeAt X' idx')) inits inits')
    (hc : ∀ idx ∈ inits, ∀ d k, mcdGetH cfg.alpha X.length p = .ok k →
      sqMahalanobis X (meanRow (takeAt X idx)) (npCov (takeAt X idx)) = .ok d → Spec.clearCut k d) :
    Spec.sameRun (Spec.sameMCD X X') (detMCD srt cfg X fuel inits) (detMCD srt cfg X' fuel inits') := by
  unfold detMCD
  rw [← hX.length_eq]
  split_ifs
  · exact ⟨meanRow_perm hX, npCov_perm hX, Option.Rel.none, Option.Rel.none⟩
  have h1 : Spec.sameExcept (List.Forall₂ (Spec.sameSubset X X'))
      (mapExcept (fun idx => (getSubset X idx 0).bind (cStep srt cfg.alpha X)) inits)
      (mapExcept (fun idx => (getSubset X' idx 0).bind (cStep srt cfg.alpha X')) inits') := by
    refine sameExcept_mapExcept hi fun idx hidx idx' _ hrel => ?_
    refine sameExcept_bind (getSubset_same hrel 0) fun s s' hs _ hss => ?_
    refine cStep_same srt cfg.alpha hX hss fun d k hk hd => ?_
    unfold getSubset at hs
    rcases hdet : npDetCov (npCov (takeAt X idx)) with e | v
    · rw [hdet] at hs; cases hs
    · rw [hdet] at hs
      have := Except.ok.inj hs
      subst this
      exact hc idx hidx d k hk hd
  refine sameRun_andThen (R := List.Forall₂ (Spec.sameSubset X X')) h1 fun ss ss' e1 e2 hss => ?_
  have hst : ∀ (Y : List (Fin p → ℝ)) (ini : List (List ℕ)) (ss : List (HSubset ℝ (Fin p))),
      mapExcept (fun idx => (getSubset Y idx 0).bind (cStep srt cfg.alpha Y)) ini = .ok ss → ∀ s ∈ ss, Stepped srt cfg.alpha Y s := by
    intro Y ini ss hss s hs
    obtain ⟨idx, -, h⟩ := mapExcept_mem hss s hs
    rcases hg : getSubset Y idx 0 with e | s0
    · rw [hg] at h; cases h
    · rw [hg] at h; exact ⟨s0, h⟩
  refine sameRun_andThen (R := Spec.sameSubset X X') ?_ fun s s' _ _ hs => postProcess_same cfg hX hs
  have hs1 := hst X _ _ (Option.some.inj e1)
  have hs2 := hst X' _ _ (Option.some.inj e2)
  rcases hss with _ | ⟨hs, hrest⟩
  · exact rfl
  · exact convergeAll_same srt cfg.alpha htol fuel (List.Forall₂.cons hs hrest) hs1 hs2 hs

/-! ## The starting sets -/

theorem qnNum_orderFree : Spec.orderFree qnNum := by
  intro X Y h
  unfold qnNum
  rw [h.length_eq, C05_perm true true X Y h]

theorem medNum_orderFree : Spec.orderFree medNum := by
  intro X Y h
  unfold medNum
  rw [npMedian_perm h]

theorem detScale_orderFree (corr : ℝ) (n : ℕ) : Spec.orderFree (detScale corr n) := by
  intro X Y h
  have e : tauCalculate 4.5 3 (some corr) X = tauCalculate 4.5 3 (some corr) Y := C164_defaults.2.2.2 4.5 3 (some corr) X Y h
  unfold detScale tauNum
  rw [qnNum_orderFree X Y h, e]

/-- The standardised data are the rows transformed one by one, in the same way for every order. -/
theorem detZ_same (corr : ℝ) {X X' : List (Fin p → ℝ)} (h : X.Perm X') :
    Spec.sameExcept (fun Z Z' => ∃ φ : (Fin p → ℝ) → Fin p → ℝ, Z = X.map φ ∧ Z' = X'.map φ) (detZ corr X) (detZ corr X') := by
  unfold detZ
  have e1 : ∀ j, detScale corr X.length (column X j) = detScale corr X'.length (column X' j) := fun j => by
    rw [h.length_eq]; exact detScale_orderFree corr _ _ _ (column_perm h j)
  have e2 : ∀ j, medNum (column X j) = medNum (column X' j) := fun j => medNum_orderFree _ _ (column_perm h j)
  have hc : (X.length < 2 ∨ ∃ j, detScale corr X.length (column X j) = 0) ↔ (X'.length < 2 ∨ ∃ j, detScale corr X'.length (column X' j) = 0) := by
    simp only [e1]; rw [h.length_eq]
  by_cases h0 : X.length < 2 ∨ ∃ j, detScale corr X.length (column X j) = 0
  · rw [if_pos h0, if_pos (hc.1 h0)]; exact rfl
  rw [if_neg h0, if_neg fun h1 => h0 (hc.2 h1)]
  simp only [e1, e2]
  exact ⟨_, rfl, rfl⟩

theorem corrcoefRows_perm {Y Y' : List (Fin p → ℝ)} (h : Y.Perm Y') : corrcoefRows Y = corrcoefRows Y' := by
  unfold corrcoefRows
  rw [npCov_perm h]

theorem rankRows_perm {Z Z' : List (Fin p → ℝ)} (h : Z.Perm Z') : (rankRows Z).Perm (rankRows Z') := by
  unfold rankRows
  have : (fun (z : Fin p → ℝ) j => avgRank (column Z j) (z j)) = fun z j => avgRank (column Z' j) (z j) := by
    funext z j
    unfold avgRank
    rw [(column_perm h j).countP_eq, (column_perm h j).countP_eq]
  rw [this]
  exact h.map _

theorem scoreRows_perm (ppf : ℝ → ℝ) {Z Z' : List (Fin p → ℝ)} (h : Z.Perm Z') : (scoreRows ppf Z).Perm (scoreRows ppf Z') := by
  unfold scoreRows
  rw [h.length_eq]
  exact (rankRows_perm h).map _

theorem spatialSigns_perm {Z Z' : List (Fin p → ℝ)} (h : Z.Perm Z') : spatialSigns Z = spatialSigns Z' := by
  unfold spatialSigns
  have e : (∃ z ∈ Z, rowNorm z = 0) ↔ ∃ z ∈ Z', rowNorm z = 0 := by simp only [h.mem_iff]
  by_cases h0 : ∃ z ∈ Z, rowNorm z = 0
  · rw [if_pos h0, if_pos (e.1 h0)]
  · rw [if_neg h0, if_neg fun h1 => h0 (e.2 h1), h.length_eq]
    congr 1
    funext i j
    rw [(h.map _).sum_eq]

theorem halfCov_perm (srt : ArgSort ℝ) {Z Z' : List (Fin p → ℝ)} (h : Z.Perm Z') (hc : Spec.clearCut ((Z.length + 1) / 2) (Z.map rowNorm)) :
    halfCov srt Z = halfCov srt Z' := by
  unfold halfCov
  have hl : ∀ Y : List (Fin p → ℝ), ((srt.toFun (Y.map rowNorm)).take ((Y.length + 1) / 2)).length = min ((Y.length + 1) / 2) Y.length := fun Y => by
    rw [(take_argsort srt _ _).2.2, List.length_map]
  simp only [hl]
  have := npCov_perm (takeAt_cut_perm srt h rowNorm hc)
  rw [this, h.length_eq]

theorem detScatters_perm (env : DetEnv p) {Z Z' : List (Fin p → ℝ)} (h : Z.Perm Z')
    (hc : Spec.clearCut ((Z.length + 1) / 2) (Z.map rowNorm)) : detScatters env Z = detScatters env Z' := by
  have e : ogkRaw env.eigh medNum qnNum 2 Z = ogkRaw env.eigh medNum qnNum 2 Z' :=
    ogkRaw_orderFree env.eigh medNum_orderFree qnNum_orderFree 2 Z Z' h
  unfold detScatters
  rw [corrcoefRows_perm (h.map _), corrcoefRows_perm (rankRows_perm h), corrcoefRows_perm (scoreRows_perm env.ppf h), spatialSigns_perm h,
    halfCov_perm env.srt h hc, e]

theorem detStart_perm (env : DetEnv p) {Z Z' : List (Fin p → ℝ)} (h : Z.Perm Z') (S : Matrix (Fin p) (Fin p) ℝ) :
    detStart env Z S = detStart env Z' S := by
  have hcov : detCov env Z S = detCov env Z' S := by
    unfold detCov
    simp only
    have : (fun j => qnNum (column (Z.map fun z => z ᵥ* detE env S) j) ^ 2) = fun j => qnNum (column (Z'.map fun z => z ᵥ* detE env S) j) ^ 2 :=
      funext fun j => by rw [qnNum_orderFree _ _ (column_perm (h.map _) j)]
    rw [this]
  unfold detStart
  simp only [hcov]
  congr 1
  funext inv
  have : (fun j => medNum (column (Z.map fun z => z ᵥ* inv) j)) = fun j => medNum (column (Z'.map fun z => z ᵥ* inv) j) :=
    funext fun j => medNum_orderFree _ _ (column_perm (h.map _) j)
  rw [this]

theorem detInits_same (env : DetEnv p) {X X' : List (Fin p → ℝ)} (h : X.Perm X')
    (hc : ∀ Z, detZ env.tauCorr X = .ok Z → Spec.clearCut ((X.length + 1) / 2) (Z.map rowNorm) ∧
      ∀ Ss, detScatters env Z = .ok Ss → ∀ S ∈ Ss, ∀ s d, detStart env Z S = .ok s → sqMahalanobis Z s.1 s.2 = .ok d →
        Spec.clearCut ((X.length + 1) / 2) d) :
    Spec.sameExcept (List.Forall₂ fun idx idx' => (takeAt X idx).Perm (takeAt X' idx')) (detInits env X) (detInits env X') := by
  unfold detInits
  refine sameExcept_bind (detZ_same env.tauCorr h) fun Z Z' hZ _ hZZ => ?_
  obtain ⟨φ, rfl, rfl⟩ := hZZ
  obtain ⟨hc1, hc2⟩ := hc _ hZ
  have hl : (X.map φ).length = X.length := List.length_map _
  rw [← hl] at hc1
  rw [← detScatters_perm env (h.map φ) hc1]
  refine sameExcept_bind (sameExcept_refl (R := Eq) _ fun _ => rfl) fun Ss Ss' hS _ hSS => ?_
  subst hSS
  have hfun : detStart env (X'.map φ) = detStart env (X.map φ) := funext fun S => (detStart_perm env (h.map φ) S).symm
  rw [hfun]
  refine sameExcept_bind (sameExcept_refl (R := Eq) _ fun _ => rfl) fun starts starts' hst _ hss => ?_
  subst hss
  refine sameExcept_mapExcept (R := Eq) (List.forall₂_eq_eq_eq ▸ rfl) fun s hs s' _ e => ?_
  subst e
  unfold detIndices
  refine sameExcept_map (sqMahalanobis_same s.1 s.2) fun d d' hd _ hdd => ?_
  obtain ⟨δ, rfl, rfl⟩ := hdd
  obtain ⟨S, hSm, hSs⟩ := mapExcept_mem hst s hs
  have hcut := hc2 Ss hS S hSm s _ hSs hd
  rw [List.length_map, List.length_map, ← h.length_eq, List.map_map, List.map_map]
  rw [List.map_map] at hcut
  exact takeAt_cut_perm env.srt h (δ ∘ φ) hcut

/-! ## C188 -/

/-- **C188**, the part that holds: `DetMCD` gives the same result for every order of the rows, when no tie decides which rows are selected.
Missing: data in which ties decide (`C188_violated`). -/
theorem C188_order_partial (env : DetEnv p) (cfg : MCDConfig ℝ) (htol : 0 < cfg.tol) {X X' : List (Fin p → ℝ)} (h : X.Perm X')
    (hc : Spec.determinedCuts env cfg.alpha X) (fuel : ℕ) :
    Spec.sameRun (Spec.sameMCD X X') (detFit env cfg X fuel) (detFit env cfg X' fuel) := by
  unfold detFit
  rw [← h.length_eq]
  split_ifs
  · exact ⟨meanRow_perm h, npCov_perm h, Option.Rel.none, Option.Rel.none⟩
  · refine sameRun_andThen (R := List.Forall₂ fun idx idx' => (takeAt X idx).Perm (takeAt X' idx')) (detInits_same env h hc.1) fun i i' e _ hii => ?_
    exact detMCD_same env.srt cfg htol h fuel hii fun idx hidx d k hk hd => hc.2 i k (Option.some.inj e) hk idx hidx d hd

end Robpy
