import Verif.Props.PCAMap
import Verif.Props.L1Median
import Verif.Props.DetOrder
import Verif.Props.SOrder
import Verif.Props.Outlyingness
import Verif.Props.LTSReweight

/-! C199: the robust PCA estimators and the order of the rows. -/

namespace Robpy
open Matrix

/-! ## PCALocantore -/

section
variable {p : ℕ}

theorem spatialSignCov_perm {X Y : List (Fin p → ℝ)} (h : X.Perm Y) (loc : Fin p → ℝ) : spatialSignCov X loc = spatialSignCov Y loc := by
  funext i j
  unfold spatialSignCov
  rw [(h.map _).sum_eq, h.length_eq]

theorem madVariances_perm (c : ℝ) {X Y : List (Fin p → ℝ)} (h : X.Perm Y) (loc : Fin p → ℝ) (C : List (Fin p → ℝ)) :
    madVariances c X loc C = madVariances c Y loc C := by
  unfold madVariances
  refine List.map_congr_left fun v _ => ?_
  rw [madRaw_perm (h.map _)]

/-- **C199**: `PCALocantore` gives the same centre, components and variances for every order of the rows, or raises the same error. -/
theorem C199_locantore (eps c thr : ℝ) (eigh : ∀ A : Matrix (Fin p) (Fin p) ℝ, EighAsc A) (st : PCAState p) {X Y : List (Fin p → ℝ)}
    (h : X.Perm Y) (fuel : ℕ) : locantoreFit eps c thr eigh st Y fuel = locantoreFit eps c thr eigh st X fuel := by
  have hnil : X = [] ↔ Y = [] := ⟨fun e => by subst e; exact h.nil_eq.symm, fun e => by subst e; exact h.eq_nil⟩
  unfold locantoreFit
  rw [C90_perm eps h fuel]
  congr 1
  funext loc
  unfold locantoreWith
  rw [spatialSignCov_perm h loc]
  simp only [madVariances_perm c h loc, hnil, h.mem_iff]

/-! ## The outlyingness -/

/-- The score of one row for one direction. -/
noncomputable def sdScore (X : List (Fin p → ℝ)) (d : Option (Fin p → ℝ)) (x : Fin p → ℝ) : ExtFloat :=
  match d with
  | none => none
  | some d =>
    match npMedian (X.map fun x => ∑ j, x j * d j), madRaw (X.map fun x => ∑ j, x j * d j) with
    | some m, some s => extDiv |∑ j, x j * d j - m| s
    | _, _ => none

theorem sdColumn_eq (X : List (Fin p → ℝ)) (d : Option (Fin p → ℝ)) : sdColumn X d = X.map (sdScore X d) := by
  rcases d with _ | d
  · rfl
  · unfold sdColumn sdScores sdScore
    simp only
    generalize npMedian (X.map fun x => ∑ j, x j * d j) = a
    generalize madRaw (X.map fun x => ∑ j, x j * d j) = b
    rcases a with _ | m <;> rcases b with _ | s <;> simp only [List.map_map] <;> rfl

theorem sdFromDirections_eq (X : List (Fin p → ℝ)) (D : List (Option (Fin p → ℝ))) :
    sdFromDirections X D = X.map fun x => extMax (D.map fun d => sdScore X d x) := by
  unfold sdFromDirections
  refine List.ext_getElem (by simp) fun i h1 h2 => ?_
  have hi : i < X.length := by simpa using h1
  rw [List.getElem_map, List.getElem_map, List.getElem_range]
  congr 1
  refine List.map_congr_left fun d _ => ?_
  rw [sdColumn_eq, List.getD_eq_getElem?_getD, List.getElem?_map, List.getElem?_eq_getElem hi]
  rfl

theorem sdScore_perm {X Y : List (Fin p → ℝ)} (h : X.Perm Y) : sdScore X = sdScore Y := by
  funext d x
  rcases d with _ | d
  · rfl
  · unfold sdScore
    simp only
    rw [npMedian_perm (h.map _), madRaw_perm (h.map _)]

theorem mapExcept_eq_of {α β : Type} {f g : α → Except PyErr β} (l : List α) (h : ∀ a ∈ l, f a = g a) : mapExcept f l = mapExcept g l := by
  induction l with
  | nil => rfl
  | cons a l ih =>
    unfold mapExcept
    rw [h a (by simp), ih fun b hb => h b (by simp [hb])]

/-- **C199**: the Stahel-Donoho outlyingness of a row does not depend on its position, if every direction uses the same observations. -/
theorem C199_outlyingness {S : Type} (ch ch' : Choice S) (svdLast : List (Fin p → ℝ) → Fin p → ℝ) (fresh : ℕ → S) (nPoints nDir : ℕ)
    (seed : Option S) {X X' : List (Fin p → ℝ)} (h : X.Perm X')
    (hdraw : ∀ i < nDir, takeAt X' (ch'.pick (seed.getD (fresh i)) X'.length nPoints) = takeAt X (ch.pick (seed.getD (fresh i)) X.length nPoints)) :
    (∃ δ : (Fin p → ℝ) → ExtFloat, stahelDonoho ch svdLast fresh X nPoints nDir seed = .ok (X.map δ) ∧
      stahelDonoho ch' svdLast fresh X' nPoints nDir seed = .ok (X'.map δ)) ∨
    ∃ e, stahelDonoho ch svdLast fresh X nPoints nDir seed = .error e ∧ stahelDonoho ch' svdLast fresh X' nPoints nDir seed = .error e := by
  unfold stahelDonoho
  by_cases h0 : nDir = 0
  · exact Or.inr ⟨_, by rw [if_pos h0], by rw [if_pos h0]⟩
  rw [if_neg h0, if_neg h0]
  have hd : mapExcept (fun i => randomDirection ch' svdLast X' nPoints (seed.getD (fresh i))) (List.range nDir) =
      mapExcept (fun i => randomDirection ch svdLast X nPoints (seed.getD (fresh i))) (List.range nDir) := by
    refine mapExcept_eq_of _ fun i hi => ?_
    unfold randomDirection
    rw [hdraw i (List.mem_range.1 hi), ← h.length_eq]
  rw [hd]
  rcases mapExcept (fun i => randomDirection ch svdLast X nPoints (seed.getD (fresh i))) (List.range nDir) with e | D
  · exact Or.inr ⟨e, rfl, rfl⟩
  · refine Or.inl ⟨fun x => extMax (D.map fun d => sdScore X d x), ?_, ?_⟩
    · simp only [Except.map]
      rw [sdFromDirections_eq]
    · simp only [Except.map]
      rw [sdFromDirections_eq, sdScore_perm h]

end

/-! ## Selections in a linear order -/

section
variable {K : Type} [LinearOrder K]

theorem filter_sorted_lin {L : List ℕ} {f : ℕ → K} (h : L.Pairwise fun i j => f i ≤ f j) (t : K) :
    L.filter (fun i => decide (f i ≤ t)) = L.take (L.countP fun i => decide (f i ≤ t)) := by
  induction L with
  | nil => rfl
  | cons a L ih =>
    obtain ⟨h1, h2⟩ := List.pairwise_cons.1 h
    by_cases ha : f a ≤ t
    · rw [List.filter_cons_of_pos (by simpa using ha), List.countP_cons_of_pos (by simpa using ha), List.take_succ_cons, ih h2]
    · have hn : ∀ i ∈ L, ¬ f i ≤ t := fun i hi hle => ha ((h1 i hi).trans hle)
      have hc : L.countP (fun i => decide (f i ≤ t)) = 0 := by
        rw [List.countP_eq_zero]
        intro i hi
        simpa using hn i hi
      rw [List.filter_cons_of_neg (by simpa using ha), List.countP_cons_of_neg (by simpa using ha), hc, List.take_zero, List.filter_eq_nil_iff]
      intro i hi
      simpa using hn i hi

theorem takeAt_cut_lin {α : Type} (srt : ArgSort K) (X : List α) (δ : α → K) {k : ℕ} {t : K}
    (h : (X.map δ).countP (fun v => decide (v ≤ t)) = k) :
    (takeAt X ((srt.toFun (X.map δ)).take k)).Perm (X.filter fun x => decide (δ x ≤ t)) := by
  let f : ℕ → K := fun i => ((X.map δ)[i]?).getD t
  have hp := srt.perm (X.map δ)
  rw [List.length_map] at hp
  have hlt : ∀ i ∈ srt.toFun (X.map δ), i < X.length := fun i hi => List.mem_range.1 (hp.mem_iff.1 hi)
  have hval : ∀ i (hi : i < X.length), f i = δ X[i] := by
    intro i hi
    simp [f, List.getElem?_map, List.getElem?_eq_getElem hi]
  have htake : takeAt (X.map δ) (srt.toFun (X.map δ)) = (srt.toFun (X.map δ)).map f := by
    have : ∀ L : List ℕ, (∀ i ∈ L, i < X.length) → takeAt (X.map δ) L = L.map f := by
      intro L hL
      induction L with
      | nil => rfl
      | cons i L ih =>
        have hi := hL i List.mem_cons_self
        unfold takeAt at ih ⊢
        rw [List.filterMap_cons_some (b := f i) (by rw [hval i hi, List.getElem?_map, List.getElem?_eq_getElem hi]; rfl),
          ih fun j hj => hL j (List.mem_cons_of_mem _ hj)]
        rfl
    exact this _ hlt
  have hsort := srt.sorted (X.map δ)
  rw [htake, List.pairwise_map] at hsort
  have hcount : (srt.toFun (X.map δ)).countP (fun i => decide (f i ≤ t)) = k := by
    rw [← h]
    have e1 : (srt.toFun (X.map δ)).countP (fun i => decide (f i ≤ t)) = ((srt.toFun (X.map δ)).map f).countP (fun v => decide (v ≤ t)) := by
      rw [List.countP_map]; rfl
    rw [e1, ← htake]
    have : (takeAt (X.map δ) (srt.toFun (X.map δ))).Perm (X.map δ) := by
      have h3 := takeAt_perm (X.map δ) (srt.perm (X.map δ))
      rwa [takeAt_range] at h3
    exact this.countP_eq _
  have := filter_sorted_lin hsort t
  rw [hcount] at this
  rw [← this]
  exact takeAt_filter_pred (fun x => decide (δ x ≤ t)) X _ hp _ fun i hi => by rw [hval i hi]

/-- All rows are taken when there are not more. -/
theorem takeAt_all {α : Type} (srt : ArgSort K) (X : List α) (δ : α → K) {k : ℕ} (h : X.length ≤ k) :
    (takeAt X ((srt.toFun (X.map δ)).take k)).Perm X := by
  have hp := srt.perm (X.map δ)
  rw [List.length_map] at hp
  rw [List.take_of_length_le (by rw [hp.length_eq, List.length_range]; exact h)]
  have h3 := takeAt_perm X hp
  rwa [takeAt_range] at h3

/-- The `k` smallest values are determined. -/
def Spec.decided (k : ℕ) (d : List K) : Prop := k < d.length → ∃ t, d.countP (fun v => decide (v ≤ t)) = k

theorem takeAt_decided {α : Type} (srt srt' : ArgSort K) {X X' : List α} (hX : X.Perm X') (δ : α → K) {k : ℕ} (h : Spec.decided k (X.map δ)) :
    (takeAt X ((srt.toFun (X.map δ)).take k)).Perm (takeAt X' ((srt'.toFun (X'.map δ)).take k)) := by
  by_cases hk : k < X.length
  · obtain ⟨t, ht⟩ := h (by rw [List.length_map]; exact hk)
    have ht' : (X'.map δ).countP (fun v => decide (v ≤ t)) = k := by rw [← ht]; exact ((hX.map δ).countP_eq _).symm
    exact (takeAt_cut_lin srt X δ ht).trans ((hX.filter _).trans (takeAt_cut_lin srt' X' δ ht').symm)
  · have hk := not_lt.1 hk
    exact (takeAt_all srt X δ hk).trans (hX.trans (takeAt_all srt' X' δ (by rw [← hX.length_eq]; exact hk)).symm)

end

/-! ## ROBPCA -/

section
variable {p r : ℕ}

/-- The scores of the first PCA, robpca.py 56-57. -/
noncomputable def Spec.firstScores (L : Matrix (Fin p) (Fin r) ℝ) (X : List (Fin p → ℝ)) : List (Fin r → ℝ) :=
  X.map fun x => (x - meanRow X) ᵥ* L

/-- The coordinates with respect to the rows of `C`. -/
noncomputable def Spec.coordinates (C : List (Fin r → ℝ)) (loc : Fin r → ℝ) (T : List (Fin r → ℝ)) : List (Fin C.length → ℝ) :=
  T.map fun x (i : Fin C.length) => ∑ j, (x j - loc j) * C[i] j

theorem getOdCutoff_perm (chi z : ℝ) (corrRaw : ℕ → ℕ → ℝ) (corr : ℝ → ℝ) {l l' : List ℝ} (h : l.Perm l') :
    getOdCutoff chi z corrRaw corr l = getOdCutoff chi z corrRaw corr l' := by
  unfold getOdCutoff
  rw [h.length_eq, C06_perm chi corrRaw corr _ _ _ (h.map _)]

theorem sortedEigen_same {D D' : RobpcaDeps} (hE : ∀ {k : ℕ} (A : Matrix (Fin k) (Fin k) ℝ), D'.eigh A = D.eigh A)
    (hs : D'.argsort = D.argsort) {Y Y' : List (Fin r → ℝ)} (hY : Y.Perm Y') : sortedEigen D' Y' = sortedEigen D Y := by
  unfold sortedEigen
  rw [← npCov_perm hY, ← hY.length_eq, hE, hs]

theorem finalMcdStep_same {D D' : RobpcaDeps} (hE : ∀ {k : ℕ} (A : Matrix (Fin k) (Fin k) ℝ), D'.eigh A = D.eigh A)
    {T T' : List (Fin r → ℝ)} (loc : Fin r → ℝ) (k : ℕ) (C : List (Fin r → ℝ))
    (hm : D.mcdCov (Spec.coordinates C loc T) = D'.mcdCov (Spec.coordinates C loc T')) :
    finalMcdStep D' T' loc k C = finalMcdStep D T loc k C := by
  unfold finalMcdStep
  unfold Spec.coordinates at hm
  rw [hm]
  simp only [hE]

theorem robpcaCore_same {D D' : RobpcaDeps} (hE : ∀ {k : ℕ} (A : Matrix (Fin k) (Fin k) ℝ), D'.eigh A = D.eigh A)
    (hs : D'.argsort = D.argsort) (hcut : ∀ l l' : List ℝ, l.Perm l' → D'.odCutoff l' = D.odCutoff l) (thr : ℝ) (finalMCD : Bool)
    (nc : Option ℕ) {T T' H H' : List (Fin r → ℝ)} (hT : T.Perm T') (hH : H.Perm H')
    (hm : finalMCD = true → ∀ C loc, D.mcdCov (Spec.coordinates C loc T) = D'.mcdCov (Spec.coordinates C loc T')) :
    robpcaCore D' thr finalMCD nc T' H' = robpcaCore D thr finalMCD nc T H := by
  unfold robpcaCore
  rw [sortedEigen_same hE hs hH]
  congr 1
  funext w
  obtain ⟨w, V, M⟩ := w
  simp only
  congr 1
  funext k
  rw [← meanRow_perm hT, hcut _ _ (hT.map _), sortedEigen_same hE hs (hT.filter _)]
  congr 1
  funext v
  obtain ⟨_, Vv, covV⟩ := v
  simp only
  congr 1
  by_cases hf : finalMCD = true
  · rw [finalMcdStep_same hE _ _ _ (hm hf _ _)]
  · rw [if_neg (by simp [hf]), if_neg (by simp [hf])]

theorem robpcaFit_same {D D' : RobpcaDeps} (hE : ∀ {k : ℕ} (A : Matrix (Fin k) (Fin k) ℝ), D'.eigh A = D.eigh A)
    (hs : D'.argsort = D.argsort) (hcut : ∀ l l' : List ℝ, l.Perm l' → D'.odCutoff l' = D.odCutoff l) (alpha thr : ℝ) (finalMCD : Bool)
    (L : Matrix (Fin p) (Fin r) ℝ) (st : PCAState p) {X X' : List (Fin p → ℝ)} (h : X.Perm X')
    (hout : (∃ δ : (Fin r → ℝ) → ExtFloat, D.outl (Spec.firstScores L X) = .ok ((Spec.firstScores L X).map δ) ∧
      D'.outl (Spec.firstScores L X') = .ok ((Spec.firstScores L X').map δ)) ∨
      ∃ e, D.outl (Spec.firstScores L X) = .error e ∧ D'.outl (Spec.firstScores L X') = .error e)
    (hties : ∀ out k, D.outl (Spec.firstScores L X) = .ok out → robpcaH alpha X.length st.nComponents = .ok k →
      Spec.decided k (out.map nanLast))
    (hmcd : finalMCD = true → ∀ C loc, D.mcdCov (Spec.coordinates C loc (Spec.firstScores L X)) =
      D'.mcdCov (Spec.coordinates C loc (Spec.firstScores L X'))) :
    robpcaFit D' alpha thr finalMCD L st X' = robpcaFit D alpha thr finalMCD L st X := by
  have hT : (Spec.firstScores L X).Perm (Spec.firstScores L X') := by
    unfold Spec.firstScores
    rw [meanRow_perm h]
    exact h.map _
  have hloc : meanRow ((Spec.firstScores L X').map fun t => L *ᵥ t + meanRow X') = meanRow ((Spec.firstScores L X).map fun t => L *ᵥ t + meanRow X) := by
    rw [← meanRow_perm h]
    exact (meanRow_perm (hT.map _)).symm
  have e1 : ∀ Y : List (Fin p → ℝ), (Y.map fun x => (x - meanRow Y) ᵥ* L) = Spec.firstScores L Y := fun _ => rfl
  unfold robpcaFit
  simp only [e1]
  rw [hloc]
  rcases hout with ⟨δ, h1, h2⟩ | ⟨e, h1, h2⟩
  · rw [h1, h2]
    simp only [Except.bind]
    rw [← h.length_eq]
    rcases hk : robpcaH alpha X.length st.nComponents with e | k
    · simp only
    · simp only
      have hdec := hties _ k h1 hk
      rw [List.map_map] at hdec
      have hH := takeAt_decided D.argsortExt D'.argsortExt hT (nanLast ∘ δ) hdec
      rw [List.map_map, List.map_map, robpcaCore_same hE hs hcut thr finalMCD st.nComponents hT hH hmcd]
  · rw [h1, h2]
    simp only [Except.bind]

/-- **C199**: `ROBPCA` gives the same centre, components, variances and number of components for every order of the rows, or raises the
same error: when the directions of the outlyingness use the same observations, the h rows of smallest outlyingness are determined, and
FastMCD does not depend on the order of the coordinates it is given (C196). -/
theorem C199_robpca {S : Type} (ch ch' : Choice S) (svdLast : ∀ {r : ℕ}, List (Fin r → ℝ) → Fin r → ℝ) (fresh : ℕ → S) (seed : Option S)
    (srtE srtE' : ArgSort (WithTop (WithTop ℝ))) (srt : ArgSort ℝ) (eigh : ∀ {r : ℕ} (A : Matrix (Fin r) (Fin r) ℝ), EighAsc A) (chi z : ℝ)
    (corrRaw : ℕ → ℕ → ℝ) (corr : ℝ → ℝ) (mcdCov mcdCov' : ∀ {k : ℕ}, List (Fin k → ℝ) → Except PyErr (Matrix (Fin k) (Fin k) ℝ))
    (alpha thr : ℝ) (finalMCD : Bool) (L : Matrix (Fin p) (Fin r) ℝ) (st : PCAState p) {X X' : List (Fin p → ℝ)} (h : X.Perm X')
    (hdraw : ∀ i < 250, takeAt (Spec.firstScores L X') (ch'.pick (seed.getD (fresh i)) X'.length 2) =
      takeAt (Spec.firstScores L X) (ch.pick (seed.getD (fresh i)) X.length 2))
    (hties : ∀ out k, stahelDonoho ch svdLast fresh (Spec.firstScores L X) 2 250 seed = .ok out →
      robpcaH alpha X.length st.nComponents = .ok k → Spec.decided k (out.map nanLast))
    (hmcd : finalMCD = true → ∀ C loc, mcdCov (Spec.coordinates C loc (Spec.firstScores L X)) =
      mcdCov' (Spec.coordinates C loc (Spec.firstScores L X'))) :
    robpcaFit (stdDeps ch' svdLast fresh seed srtE' srt eigh chi z corrRaw corr mcdCov') alpha thr finalMCD L st X' =
      robpcaFit (stdDeps ch svdLast fresh seed srtE srt eigh chi z corrRaw corr mcdCov) alpha thr finalMCD L st X := by
  have hT : (Spec.firstScores L X).Perm (Spec.firstScores L X') := by
    unfold Spec.firstScores
    rw [meanRow_perm h]
    exact h.map _
  have hlen : (Spec.firstScores L X).length = X.length := by simp [Spec.firstScores]
  have hlen' : (Spec.firstScores L X').length = X'.length := by simp [Spec.firstScores]
  refine robpcaFit_same (D := stdDeps ch svdLast fresh seed srtE srt eigh chi z corrRaw corr mcdCov)
    (D' := stdDeps ch' svdLast fresh seed srtE' srt eigh chi z corrRaw corr mcdCov') (fun _ => rfl) rfl (fun l l' hl => (getOdCutoff_perm chi z corrRaw corr hl).symm) alpha thr finalMCD L st h
    (C199_outlyingness ch ch' (svdLast (r := r)) fresh 2 250 seed hT (by rw [hlen, hlen']; exact hdraw)) hties hmcd

end

/-! ## Examples -/

/-- Five rows around the origin, the last two farther away. -/
def c199Data : List (Fin 2 → ℝ) := [![1, 0], ![0, 0], ![-1, 2], ![3, -1], ![-3, -1]]

theorem c199_scores : Spec.firstScores (1 : Matrix (Fin 2) (Fin 2) ℝ) c199Data = c199Data := by
  have hm : meanRow c199Data = 0 := by
    funext j
    fin_cases j <;> norm_num [meanRow, mean, c199Data]
  unfold Spec.firstScores
  rw [hm]
  simp

theorem c199_outlyingness (svd : List (Fin 2 → ℝ) → Fin 2 → ℝ) (fresh : ℕ → ℕ) (nDir : ℕ) (hn : 0 < nDir) (s : ℕ) :
    stahelDonoho choiceFirst svd fresh c199Data 2 nDir (some s) =
      .ok [some ((1 : ℝ) : WithTop ℝ), some ((0 : ℝ) : WithTop ℝ), some ((1 : ℝ) : WithTop ℝ), some ((3 : ℝ) : WithTop ℝ), some ((3 : ℝ) : WithTop ℝ)] := by
  have m1 : npMedian [(1:ℝ), 0, -1, 3, -3] = some 0 :=
    npMedian_eq_some_iff.2 ⟨0, 0, by norm_num [Spec.IsKthSmallest, List.countP_cons],
      by norm_num [Spec.IsKthSmallest, List.countP_cons], by norm_num⟩
  have s1 : madRaw [(1:ℝ), 0, -1, 3, -3] = some 1 := c61_scores _ m1 (by
    simp only [List.map_cons, List.map_nil]
    norm_num
    exact npMedian_eq_some_iff.2 ⟨1, 1, by norm_num [Spec.IsKthSmallest, List.countP_cons],
      by norm_num [Spec.IsKthSmallest, List.countP_cons], by norm_num⟩)
  have hd : randomDirection choiceFirst svd c199Data 2 s = .ok (some ![1, 0]) := by
    have h1 : takeAt c199Data (choiceFirst.pick s c199Data.length 2) = [![1, 0], ![0, 0]] := by
      simp [choiceFirst, takeAt, c199Data, List.range_succ]
    unfold randomDirection
    rw [h1, if_neg (by simp [c199Data])]
    have h3 : (![1, 0] : Fin 2 → ℝ) - ![0, 0] = ![1, 0] := by funext j; fin_cases j <;> norm_num
    have h2 : vecNorm (![1, 0] : Fin 2 → ℝ) = 1 := by norm_num [vecNorm, Fin.sum_univ_two]
    simp only [rawDirection, Except.map, if_true, h3, h2, one_ne_zero, if_false, div_one]
  rw [C61_seeded _ _ _ _ _ _ hn]
  unfold stahelDonoho
  rw [if_neg one_ne_zero]
  simp only [List.range_one, mapExcept, Option.getD_some, hd, Except.bind, Except.map]
  rw [sdFromDirections_eq]
  have hp : (c199Data.map fun x => ∑ j, x j * (![1, 0] : Fin 2 → ℝ) j) = [(1:ℝ), 0, -1, 3, -3] := by
    norm_num [c199Data, Fin.sum_univ_two]
  simp only [List.map_cons, List.map_nil, extMax, sdScore, hp, m1, s1]
  norm_num [c199Data, Fin.sum_univ_two, extDiv]

/-- The hypotheses of `C199_robpca` for the five rows in reverse order: `h = 3`, and the three smallest values 0, 1, 1 are determined. -/
example (svdLast : ∀ {r : ℕ}, List (Fin r → ℝ) → Fin r → ℝ) (srtE : ArgSort (WithTop (WithTop ℝ)))
    (eigh : ∀ {r : ℕ} (A : Matrix (Fin r) (Fin r) ℝ), EighAsc A) : ∃ ch' : Choice ℕ,
    robpcaFit (stdDeps ch' svdLast id (some 0) srtE (argsortStable ℝ) eigh 1 2 (fun _ _ => 1) (fun _ => 1) fun Z => .ok (npCov Z)) 0.5 0.8
        true (1 : Matrix (Fin 2) (Fin 2) ℝ) ⟨some 1, none, none, none⟩ c199Data.reverse =
      robpcaFit (stdDeps choiceFirst svdLast id (some 0) srtE (argsortStable ℝ) eigh 1 2 (fun _ _ => 1) (fun _ => 1) fun Z => .ok (npCov Z))
        0.5 0.8 true (1 : Matrix (Fin 2) (Fin 2) ℝ) ⟨some 1, none, none, none⟩ c199Data := by
  have hp : c199Data.Perm c199Data.reverse := (List.reverse_perm _).symm
  have hT : (Spec.firstScores (1 : Matrix (Fin 2) (Fin 2) ℝ) c199Data.reverse).Perm (Spec.firstScores 1 c199Data) := by
    unfold Spec.firstScores
    rw [meanRow_perm hp]
    exact hp.symm.map _
  obtain ⟨ch', hch⟩ := corresponding_draws choiceFirst hT
  refine ⟨ch', C199_robpca choiceFirst ch' svdLast id (some 0) srtE srtE (argsortStable ℝ) eigh 1 2 _ _ _ _ 0.5 0.8 true 1 _ hp ?_ ?_ ?_⟩
  · intro i _
    have := hch ((some 0).getD (id i)) 2
    simpa only [Spec.firstScores, List.length_map] using this
  · intro out k hout hk
    rw [c199_scores, c199_outlyingness _ _ _ (by norm_num)] at hout
    have hk3 : k = 3 := by
      have e : ⌊(0.5 : ℝ) * (c199Data.length : ℕ)⌋₊ = 2 := by
        rw [Nat.floor_eq_iff (by positivity)]
        norm_num [c199Data]
      unfold robpcaH at hk
      rw [if_neg (by norm_num), e] at hk
      simpa [c199Data] using (Except.ok.inj hk).symm
    subst hk3
    intro _
    refine ⟨((1 : ℝ) : WithTop ℝ), ?_⟩
    rw [← Except.ok.inj hout]
    norm_num [nanLast, List.countP_cons]
  · intro _ C loc
    exact congrArg Except.ok (npCov_perm (hT.symm.map _))

/-- C199 for `PCALocantore`: the five rows in reverse order. -/
example (st : PCAState 2) (eigh : ∀ A : Matrix (Fin 2) (Fin 2) ℝ, EighAsc A) (fuel : ℕ) :
    locantoreFit 1e-7 1.4826 0.8 eigh st c199Data.reverse fuel = locantoreFit 1e-7 1.4826 0.8 eigh st c199Data fuel :=
  C199_locantore _ _ _ eigh st (List.reverse_perm _).symm fuel

end Robpy
