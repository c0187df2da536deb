import Verif.Props.CellOrder
import Verif.Props.DDCOrder
import Verif.Props.DDCWShape
import Verif.Props.DDCWRun
import Verif.Model.OneStepM

/-! # C204: the order of the rows and `InitialDDCW` -/

namespace Robpy
open Matrix

variable {n p : ℕ}

namespace Spec

/-- The rows replaced in a column that has too many flags are determined by its standardised residuals: the column is not capped, or
there is a set of `n / 4` rows whose residuals are missing or larger in size than all the others, which are not missing. -/
def capDecided (alpha : ℝ) (flags : Fin n → Bool) (res : Fin n → Option ℝ) : Prop :=
  ((Finset.univ.filter fun k => flags k = true).card : ℝ) / n ≤ 1 - alpha ∨
    ∃ T : Finset (Fin n), T.card = n / 4 ∧ ∀ l ∉ T, ∃ b, res l = some b ∧ ∀ k ∈ T, ∀ a, res k = some a → |b| < |a|

/-- What `InitialDDCW` reads from the fitted `DDC`, with the rows in another order. -/
def outputBy (σ : Equiv.Perm (Fin n)) (d : DDCOutput n p) : DDCOutput n p :=
  { location := d.location, scale := d.scale, cellwise := rowsBy σ d.cellwise, stdRes := rowsBy σ d.stdRes
    rowOut := rowsBy σ d.rowOut, imputed := rowsBy σ d.imputed }

end Spec

/-! ## The capped columns -/

theorem mem_cap {argsort : {n : ℕ} → (Fin n → Option ℝ) → List (Fin n)} (ha : NanArgSort @argsort) {res : Fin n → Option ℝ}
    {T : Finset (Fin n)} (hT : T.card = n / 4)
    (hd : ∀ l ∉ T, ∃ b, res l = some b ∧ ∀ k ∈ T, ∀ a, res k = some a → |b| < |a|) (i : Fin n) :
    i ∈ ((argsort fun k => (res k).map fun r => |r|).reverse.take (n / 4)) ↔ i ∈ T := by
  set x : Fin n → Option ℝ := fun k => (res k).map fun r => |r| with hx
  set L := (argsort x).reverse with hL
  have hlen : L.length = n := by rw [hL, List.length_reverse, argsort_length ha]
  have hnd : L.Nodup := List.nodup_reverse.2 (ha.nodup x)
  have hs : L.Pairwise fun j i => x j = none ∨ ∃ a b, x i = some a ∧ x j = some b ∧ a ≤ b := List.pairwise_reverse.2 (ha.sorted x)
  have hcross : ∀ k ∈ L.take (n / 4), ∀ l ∈ L.drop (n / 4), x k = none ∨ ∃ a b, x l = some a ∧ x k = some b ∧ a ≤ b := by
    rw [← List.take_append_drop (n / 4) L] at hs
    exact (List.pairwise_append.1 hs).2.2
  have hmem : ∀ l, l ∉ L.take (n / 4) → l ∈ L.drop (n / 4) := by
    intro l hl
    have : l ∈ L := List.mem_reverse.2 (ha.mem x l)
    rw [← List.take_append_drop (n / 4) L] at this
    exact (List.mem_append.1 this).resolve_left hl
  set S := (L.take (n / 4)).toFinset with hS
  have hScard : S.card = T.card := by
    rw [hS, List.toFinset_card_of_nodup (hnd.sublist (List.take_sublist _ _)), List.length_take, hlen, hT]
    omega
  have hST : S = T := by
    by_contra hne
    have h1 : ∃ k ∈ S, k ∉ T := by
      by_contra hno
      push Not at hno
      exact hne (Finset.eq_of_subset_of_card_le hno hScard.ge)
    have h2 : ∃ l ∈ T, l ∉ S := by
      by_contra hno
      push Not at hno
      exact hne (Finset.eq_of_subset_of_card_le hno hScard.le).symm
    obtain ⟨k, hkS, hkT⟩ := h1
    obtain ⟨l, hlT, hlS⟩ := h2
    obtain ⟨b, hb, hlt⟩ := hd k hkT
    rcases hcross k (by simpa [hS] using hkS) l (hmem l (by simpa [hS] using hlS)) with h | ⟨u, v, hu, hv, huv⟩
    · simp [hx, hb] at h
    · simp only [hx] at hu hv
      rw [hb] at hv
      rcases hr : res l with _ | a
      · rw [hr] at hu; cases hu
      · rw [hr] at hu
        simp only [Option.map_some, Option.some.injEq] at hu hv
        have := hlt l hlT a hr
        linarith
  rw [← hST, hS, List.mem_toFinset]

theorem capColumn_reorder {argsort : {n : ℕ} → (Fin n → Option ℝ) → List (Fin n)} (ha : NanArgSort @argsort) (σ : Equiv.Perm (Fin n))
    {alpha : ℝ} {flags : Fin n → Bool} {res : Fin n → Option ℝ} (hd : Spec.capDecided alpha flags res) (k : Fin n) :
    capColumn argsort alpha (fun k => flags (σ k)) (fun k => res (σ k)) k = capColumn argsort alpha flags res (σ k) := by
  have hc := card_reorder σ fun k => flags k = true
  unfold capColumn
  rw [hc]
  by_cases h : 1 - alpha < ((Finset.univ.filter fun k => flags k = true).card : ℝ) / n
  · rw [if_pos h, if_pos h]
    rcases hd with hd | ⟨T, hT, hd⟩
    · exact absurd hd (not_le.2 h)
    have h1 := mem_cap ha hT hd (σ k)
    have h2 := mem_cap ha (res := fun k => res (σ k)) (T := T.map σ.symm.toEmbedding) (by rw [Finset.card_map, hT]) (by
      intro l hl
      have hl' : σ l ∉ T := fun h => hl (Finset.mem_map.2 ⟨σ l, h, by simp⟩)
      obtain ⟨b, hb, hlt⟩ := hd _ hl'
      refine ⟨b, hb, fun k hk a hka => ?_⟩
      obtain ⟨m, hm, rfl⟩ := Finset.mem_map.1 hk
      exact hlt m hm a (by simpa using hka)) k
    simp only [h1, h2]
    congr 1
    rw [Finset.mem_map]
    exact propext ⟨fun ⟨m, hm, he⟩ => by rw [← he]; simpa using hm, fun h => ⟨σ k, h, by simp⟩⟩
  · rw [if_neg h, if_neg h]

/-! ## From the standardised rows to the covariance -/

theorem completeRows_perm {rows rows' : List (Fin p → Option ℝ)} (h : rows.Perm rows') :
    (completeRows rows = none ∧ completeRows rows' = none) ∨
      ∃ R R', completeRows rows = some R ∧ completeRows rows' = some R' ∧ R.Perm R' := by
  unfold completeRows
  have hm : (∀ r ∈ rows, ∀ j, r j ≠ none) ↔ ∀ r ∈ rows', ∀ j, r j ≠ none := forall_congr' fun r => by rw [h.mem_iff]
  by_cases hc : ∀ r ∈ rows, ∀ j, r j ≠ none
  · rw [if_pos hc, if_pos (hm.1 hc)]
    exact .inr ⟨_, _, rfl, rfl, h.map _⟩
  · rw [if_neg hc, if_neg fun h => hc (hm.2 h)]
    exact .inl ⟨rfl, rfl⟩

theorem wrapRows_eq_map {κ : Type} (est : List ℝ → Option ℝ × Option ℝ) (b c q1 q2 : ℝ) (P : List (κ → ℝ)) :
    wrapRows est b c q1 q2 P = P.map fun z j =>
      let col := P.map fun z => z j
      let l := (est col).1.getD 0
      let s := (est col).2.getD 0
      let w := zWrapped b c q1 q2 l s col
      (zWrapped b c q1 q2 l s [z j]).headD 0 * (s / noZero (Real.sqrt (var w))) + l - mean w * (s / noZero (Real.sqrt (var w))) := by
  refine List.ext_getElem? fun i => ?_
  unfold wrapRows
  rw [List.getElem?_map, List.getElem?_map]
  by_cases hi : i < P.length
  · rw [List.getElem?_range hi, List.getElem?_eq_getElem hi]
    simp only [Option.map_some, Option.some.injEq]
    funext j
    have hl : i < (wrapColumn b c q1 q2 true ((est (P.map fun z => z j)).1.getD 0) ((est (P.map fun z => z j)).2.getD 0)
        (P.map fun z => z j)).length := by
      rw [wrapColumn_length]; simpa using hi
    rw [List.getD_eq_getElem?_getD, List.getElem?_eq_getElem hl]
    simp [wrapColumn, zWrapped]
  · rw [List.getElem?_eq_none (by simpa using hi), List.getElem?_eq_none (by omega)]
    rfl

theorem wrapRows_perm {κ : Type} {est : List ℝ → Option ℝ × Option ℝ} (he : Spec.orderFree est) (b c q1 q2 : ℝ)
    {P Q : List (κ → ℝ)} (h : P.Perm Q) : (wrapRows est b c q1 q2 P).Perm (wrapRows est b c q1 q2 Q) := by
  rw [wrapRows_eq_map, wrapRows_eq_map]
  have e1 : ∀ j, est (P.map fun z => z j) = est (Q.map fun z => z j) := fun j => he _ _ (h.map _)
  have e3 : ∀ j l s, (zWrapped b c q1 q2 l s (P.map fun z => z j)).Perm (zWrapped b c q1 q2 l s (Q.map fun z => z j)) :=
    fun j l s => (h.map _).map _
  simp only [e1, fun j l s => var_perm (e3 j l s), fun j l s => mean_perm (e3 j l s)]
  exact h.map _

theorem flooredEst_orderFree {est : List ℝ → Option ℝ × Option ℝ} (he : Spec.orderFree est) (a : ℝ) : Spec.orderFree (flooredEst est a) := by
  intro l m h
  unfold flooredEst
  rw [he l m h]

theorem ddcwStage_perm {env : DDCWEnv p} (he : Spec.orderFree env.est) (a : ℝ) (scale : Fin p → Option ℝ)
    {rows rows' : List (Fin p → Option ℝ)} (h : rows.Perm rows') : ddcwStage env a scale rows = ddcwStage env a scale rows' := by
  unfold ddcwStage
  rcases completeRows_perm h with ⟨h1, h2⟩ | ⟨R, R', h1, h2, hR⟩
  · rw [h1, h2]
  rw [h1, h2]
  simp only
  rw [hR.length_eq]
  by_cases hp : p = 1 ∨ R'.length < 2
  · rw [if_pos hp, if_pos hp]
  rw [if_neg hp, if_neg hp]
  have hA := npCov_perm hR
  have hfl := flooredEst_orderFree he a
  generalize_proofs s1 s2
  revert s1 s2
  rw [hA]
  intro s1 s2
  generalize env.eigh (npCov R') s1 = e
  have hP : (projectRows a e R).Perm (projectRows a e R') := hR.map _
  have hc : ∀ i, flooredEst env.est a ((projectRows a e R).map fun z => z i) = flooredEst env.est a ((projectRows a e R').map fun z => z i) :=
    fun i => hfl _ _ (hP.map _)
  have hw := npCov_perm (wrapRows_perm hfl env.b env.c env.q1 env.q2 hP)
  simp only [hc, hw]

/-! ## The casewise outliers -/

theorem allSome_perm {l m : List (Option ℝ)} (h : l.Perm m) :
    (allSome l = none ∧ allSome m = none) ∨ ∃ a b, allSome l = some a ∧ allSome m = some b ∧ a.Perm b := by
  rw [allSome_eq, allSome_eq]
  by_cases hn : none ∈ l
  · rw [if_pos hn, if_pos (h.mem_iff.1 hn)]
    exact .inl ⟨rfl, rfl⟩
  · rw [if_neg hn, if_neg fun h' => hn (h.mem_iff.2 h')]
    exact .inr ⟨_, _, rfl, rfl, h.filterMap id⟩

theorem casewiseOutlier_reorder (σ : Equiv.Perm (Fin n)) (chi50 chi99 : ℝ) (RD : Fin n → Option ℝ) (i : Fin n) :
    casewiseOutlier chi50 chi99 (fun k => RD (σ k)) i = casewiseOutlier chi50 chi99 RD (σ i) := by
  unfold casewiseOutlier
  rcases allSome_perm (ofFn_reorder σ RD) with ⟨h1, h2⟩ | ⟨a, b, h1, h2, hab⟩
  · have h1' : allSome (List.ofFn fun k => RD (σ k)) = none := h1
    rw [h1', h2]
  · have h1' : allSome (List.ofFn fun k => RD (σ k)) = some a := h1
    rw [h1', h2]
    simp only
    rw [npMedian_perm hab]

theorem keptRows_perm {α : Type} (σ : Equiv.Perm (Fin n)) (P : Fin n → Bool) (Z : Fin n → α) :
    (((List.finRange n).filter fun k => P (σ k)).map fun k => Z (σ k)).Perm (((List.finRange n).filter P).map Z) := by
  have h : ((List.finRange n).map σ).Perm (List.finRange n) := by
    refine (List.perm_ext_iff_of_nodup ((List.nodup_finRange n).map σ.injective) (List.nodup_finRange n)).2 fun i => ?_
    simp only [List.mem_map, List.mem_finRange, true_and, iff_true]
    exact ⟨σ.symm i, by simp⟩
  have := (h.filter P).map Z
  rwa [List.filter_map, List.map_map] at this

/-! ## After the call of `DDC` -/

theorem ddcwFrom_reorder (σ : Equiv.Perm (Fin n)) {env : DDCWEnv p} (he : Spec.orderFree env.est) (ha : NanArgSort @env.argsort)
    (alpha a : ℝ) (d : DDCOutput n p) (X : Cells n p)
    (hd : ∀ i, Spec.capDecided alpha (fun k => d.cellwise k i) fun k => d.stdRes k i) :
    ddcwFrom env alpha a (Spec.outputBy σ d) (Spec.rowsBy σ X) = ddcwFrom env alpha a d X := by
  have hZ : ∀ k, ddcwImputed env.argsort alpha (Spec.outputBy σ d) (Spec.rowsBy σ X) k = ddcwImputed env.argsort alpha d X (σ k) := by
    intro k
    funext i
    unfold ddcwImputed
    have hf : ddcwFlags env.argsort alpha (Spec.outputBy σ d) k i = ddcwFlags env.argsort alpha d (σ k) i :=
      capColumn_reorder ha σ (hd i) k
    rw [hf]
    rfl
  have h1 : ddcwStage env a (Spec.outputBy σ d).scale (((List.finRange n).filter fun k => !(Spec.outputBy σ d).rowOut k).map
        (ddcwImputed env.argsort alpha (Spec.outputBy σ d) (Spec.rowsBy σ X))) =
      ddcwStage env a d.scale (((List.finRange n).filter fun k => !d.rowOut k).map (ddcwImputed env.argsort alpha d X)) := by
    rw [show ddcwImputed env.argsort alpha (Spec.outputBy σ d) (Spec.rowsBy σ X) = fun k => ddcwImputed env.argsort alpha d X (σ k) from
      funext hZ]
    exact ddcwStage_perm he a d.scale (keptRows_perm σ (fun k => !d.rowOut k) _)
  unfold ddcwFrom
  simp only
  rw [h1]
  rcases ddcwStage env a d.scale (((List.finRange n).filter fun k => !d.rowOut k).map (ddcwImputed env.argsort alpha d X)) with e | cov
  · simp only [Except.bind]
  simp only [Except.bind]
  rcases npInv cov with e | covInv
  · simp only
  simp only
  have h2 : ∀ k, casewiseOutlier env.chi50 env.chi99 (fun k => ddcwDistance covInv fun i =>
        stdCell (Spec.rowsBy σ X k i) ((Spec.outputBy σ d).location i) ((Spec.outputBy σ d).scale i)) k =
      casewiseOutlier env.chi50 env.chi99 (fun k => ddcwDistance covInv fun i => stdCell (X k i) (d.location i) (d.scale i)) (σ k) :=
    fun k => casewiseOutlier_reorder σ env.chi50 env.chi99
      (fun k => ddcwDistance covInv fun i => stdCell (X k i) (d.location i) (d.scale i)) k
  simp only [h2]
  rw [show ddcwImputed env.argsort alpha (Spec.outputBy σ d) (Spec.rowsBy σ X) = fun k => ddcwImputed env.argsort alpha d X (σ k) from
      funext hZ]
  have h3 := ddcwStage_perm he a d.scale (keptRows_perm σ (fun k => !casewiseOutlier env.chi50 env.chi99
    (fun k => ddcwDistance covInv fun i => stdCell (X k i) (d.location i) (d.scale i)) k) (ddcwImputed env.argsort alpha d X))
  rw [show (Spec.outputBy σ d).scale = d.scale from rfl, h3]
  rfl

/-! ## The call of `DDC` -/

theorem ddcPredictions_reorder {F : Type} {env : DDCEnv F} {st st' : DDCState F} {τ : ℕ → ℕ} {m : ℕ} (h : ReorderedState m τ st st')
    (cfg : DDCConfig F) (X : CellFrame F) :
    ddcPredictions env cfg st' (Spec.reorder τ X) =
      (ddcPredictions env cfg st X).map fun r => ((fun k => r.1 (τ k)), fun k => r.2 (τ k)) := by
  unfold ddcPredictions standardize
  rw [h.location, h.scale, h.corr, h.slopes, h.deshrink]
  rcases st.location with _ | ls
  · rfl
  rcases st.scale with _ | ss
  · rfl
  simp only
  by_cases hl : ls.length = X.p ∧ ss.length = X.p
  · have hl' : ls.length = (Spec.reorder τ X).p ∧ ss.length = (Spec.reorder τ X).p := hl
    rw [if_pos hl, if_pos hl']
    simp only [Except.bind]
    rcases st.corr with _ | corr
    · rfl
    rcases st.slopes with _ | slopes
    · rfl
    rcases st.deshrink with _ | d
    · rfl
    rfl
  · have hl' : ¬ (ls.length = (Spec.reorder τ X).p ∧ ss.length = (Spec.reorder τ X).p) := hl
    rw [if_neg hl, if_neg hl']
    rfl

theorem ddcGuards_reorder {F : Type} {st st' : DDCState F} {τ : ℕ → ℕ} {m : ℕ} (h : ReorderedState m τ st st') (X : CellFrame F) :
    ddcGuards st' (Spec.reorder τ X) = ddcGuards st X := by
  unfold ddcGuards
  rw [h.isFitted, h.cellwise]
  rcases st.isFitted with _ | _ | _
  · rfl
  · rfl
  · rcases st.cellwise with _ | ⟨q, c⟩ <;> rfl

/-- The prediction of cells for reordered rows. -/
theorem ddcPredict_reorder {F : Type} {env : DDCEnv F} {st st' : DDCState F} {τ : ℕ → ℕ} {m : ℕ} (h : ReorderedState m τ st st')
    (cfg : DDCConfig F) (X : CellFrame F) :
    (∃ e, (ddcPredict env cfg st X false).1 = .error e ∧ (ddcPredict env cfg st' (Spec.reorder τ X) false).1 = .error e) ∨
      ∃ flags res, (ddcPredict env cfg st X false).1 = .ok (.cells flags res) ∧
        (ddcPredict env cfg st' (Spec.reorder τ X) false).1 = .ok (.cells (fun k => flags (τ k)) fun k => res (τ k)) := by
  unfold ddcPredict
  rw [ddcGuards_reorder h]
  rcases ddcGuards st X with e | _
  · exact .inl ⟨e, rfl, rfl⟩
  simp only
  have hn : (Spec.reorder τ X).numeric = X.numeric := rfl
  rw [hn]
  rcases X.numeric with _ | _
  · exact .inl ⟨_, rfl, rfl⟩
  simp only [Bool.not_true, Bool.false_eq_true, if_false]
  have hrep : replaceInf env (Spec.reorder τ X) = Spec.reorder τ (replaceInf env X) := rfl
  rw [hrep, ddcPredictions_reorder h]
  rcases ddcPredictions env cfg st (replaceInf env X) with e | ⟨Z, pred⟩
  · exact .inl ⟨e, rfl, rfl⟩
  simp only [Except.map, cellwiseOutliers, Bool.false_eq_true, if_false]
  rw [h.resScales]
  rcases st.resScales with _ | s
  · exact .inl ⟨_, rfl, rfl⟩
  · exact .inr ⟨_, _, rfl, rfl⟩

theorem ddcImpute_reorder {F : Type} {env : DDCEnv F} {st st' : DDCState F} {τ : ℕ → ℕ} {m : ℕ} (h : ReorderedState m τ st st')
    (cfg : DDCConfig F) (X : CellFrame F) :
    (ddcImpute env cfg st' (Spec.reorder τ X) true).1 = (ddcImpute env cfg st X true).1.map fun R k => R (τ k) := by
  unfold ddcImpute
  rw [ddcGuards_reorder h]
  rcases ddcGuards st X with e | _
  · rfl
  simp only
  have hn : (Spec.reorder τ X).numeric = X.numeric := rfl
  rw [hn]
  rcases X.numeric with _ | _
  · rfl
  simp only [Bool.not_true, Bool.false_eq_true, if_false]
  have hrep : replaceInf env (Spec.reorder τ X) = Spec.reorder τ (replaceInf env X) := rfl
  rw [hrep, ddcPredictions_reorder h]
  rcases ddcPredictions env cfg st (replaceInf env X) with e | ⟨Z, pred⟩
  · rfl
  simp only [Except.map]
  rw [h.location, h.scale]
  rcases st.location with _ | ls
  · rfl
  rcases st.scale with _ | ss
  · rfl
  simp only [if_true]
  rcases ddcPredict_reorder (env := env) h cfg (replaceInf env X) with ⟨e, h1, h2⟩ | ⟨flags, res, h1, h2⟩
  · rcases hp : ddcPredict env cfg st (replaceInf env X) false with ⟨r, s⟩
    rcases hp' : ddcPredict env cfg st' (Spec.reorder τ (replaceInf env X)) false with ⟨r', s'⟩
    rw [hp] at h1
    rw [hp'] at h2
    simp only at h1 h2
    subst h1 h2
    rfl
  · rcases hp : ddcPredict env cfg st (replaceInf env X) false with ⟨r, s⟩
    rcases hp' : ddcPredict env cfg st' (Spec.reorder τ (replaceInf env X)) false with ⟨r', s'⟩
    rw [hp] at h1
    rw [hp'] at h2
    simp only at h1 h2
    subst h1 h2
    rfl

/-- A reordering of `0, ..., n - 1` as a function of all numbers. -/
def natOrder (σ : Equiv.Perm (Fin n)) (k : ℕ) : ℕ := if h : k < n then (σ ⟨k, h⟩ : ℕ) else k

theorem natOrder_fin (σ : Equiv.Perm (Fin n)) (k : Fin n) : natOrder σ k = (σ k : ℕ) := by
  unfold natOrder
  rw [dif_pos k.2]

theorem natOrder_permutes (σ : Equiv.Perm (Fin n)) : Spec.permutes n (natOrder σ) := by
  refine ⟨fun k hk => ?_, fun k hk l hl h => ?_⟩
  · rw [natOrder_fin σ ⟨k, hk⟩]; exact (σ ⟨k, hk⟩).2
  · rw [natOrder_fin σ ⟨k, hk⟩, natOrder_fin σ ⟨l, hl⟩] at h
    have := σ.injective (Fin.ext h)
    exact congrArg Fin.val this

theorem frameOf_reorder (σ : Equiv.Perm (Fin n)) (X : Cells n p) : frameOf (Spec.rowsBy σ X) = Spec.reorder (natOrder σ) (frameOf X) := by
  unfold frameOf Spec.reorder
  congr 1
  funext k i
  by_cases hk : k < n
  · have e := natOrder_fin σ ⟨k, hk⟩
    simp only at e
    simp only [e, hk, true_and, Fin.is_lt]
    rfl
  · have e : natOrder σ k = k := by unfold natOrder; rw [dif_neg hk]
    simp only [e, hk, false_and, dite_false]

theorem ddcwDDC_reorder (σ : Equiv.Perm (Fin n)) {env : DDCWEnv p} (he : Spec.orderFree env.est) (X : Cells n p) :
    ddcwDDC env (Spec.rowsBy σ X) = (ddcwDDC env X).map (Spec.outputBy σ) := by
  classical
  have hest : Spec.orderFree fun l : List (Option ℝ) => (.ok (env.est (l.filterMap id)) : Except PyErr (Option ℝ × Option ℝ)) := by
    intro l m h
    simp only
    rw [he _ _ (h.filterMap id)]
  have hfree : EnvOrderFree (ddcwNumbers env) := C165_real _ _ hest
  obtain ⟨h1, h2⟩ := C165_fit hfree ⟨some env.ddcCutoff, some 0.5⟩ false {} (frameOf X) (natOrder σ) (natOrder_permutes σ)
  unfold ddcwDDC
  rw [frameOf_reorder]
  simp only
  rcases hf : ddcFit (ddcwNumbers env) ⟨some env.ddcCutoff, some 0.5⟩ false {} (frameOf X) with ⟨e | u, st⟩
  · rcases hf' : ddcFit (ddcwNumbers env) ⟨some env.ddcCutoff, some 0.5⟩ false {} (Spec.reorder (natOrder σ) (frameOf X)) with ⟨r, st'⟩
    rw [hf, hf'] at h1
    simp only at h1
    subst h1
    rfl
  · rcases hf' : ddcFit (ddcwNumbers env) ⟨some env.ddcCutoff, some 0.5⟩ false {} (Spec.reorder (natOrder σ) (frameOf X)) with ⟨r, st'⟩
    rw [hf, hf'] at h1 h2
    simp only at h1 h2
    subst h1
    have hst := h2 trivial
    have hi := ddcImpute_reorder (env := ddcwNumbers env) hst ⟨some env.ddcCutoff, some 0.5⟩ (frameOf X)
    simp only
    rcases hp : ddcImpute (ddcwNumbers env) ⟨some env.ddcCutoff, some 0.5⟩ st (frameOf X) true with ⟨e | R, s⟩
    · rcases hp' : ddcImpute (ddcwNumbers env) ⟨some env.ddcCutoff, some 0.5⟩ st' (Spec.reorder (natOrder σ) (frameOf X)) true with ⟨r, s'⟩
      rw [hp, hp'] at hi
      simp only [Except.map] at hi
      subst hi
      rfl
    · rcases hp' : ddcImpute (ddcwNumbers env) ⟨some env.ddcCutoff, some 0.5⟩ st' (Spec.reorder (natOrder σ) (frameOf X)) true with ⟨r, s'⟩
      rw [hp, hp'] at hi
      simp only [Except.map] at hi
      subst hi
      simp only
      rw [hst.location, hst.scale, hst.cellwise, hst.stdRes, hst.rowOut]
      rcases st.location with _ | ls
      · rfl
      rcases st.scale with _ | ss
      · rfl
      rcases st.cellwise with _ | ⟨q, flags⟩
      · rfl
      rcases st.stdRes with _ | res
      · rfl
      rcases st.rowOut with _ | rows
      · rfl
      simp only [Option.map_some, Except.map, Spec.outputBy, Spec.rowsBy, natOrder_fin]
      rfl

/-! ## The fit -/

/-- In no column does a tie decide which rows are replaced when `DDC` flags more than the permitted part of it. -/
def Spec.ddcwDecided (env : DDCWEnv p) (alpha : ℝ) (X : Cells n p) : Prop :=
  ∀ al d, cellAlpha alpha n = .ok al → ddcwDDC env X = .ok d →
    ∀ i, Spec.capDecided al (fun k => d.cellwise k i) fun k => d.stdRes k i

/-- **C204**: `InitialDDCW.fit` on the rows in another order gives the same location, covariance and precision or raises the same error,
provided no tie decides in a capped column. -/
theorem C204_fit (σ : Equiv.Perm (Fin n)) {env : DDCWEnv p} (he : Spec.orderFree env.est) (ha : NanArgSort @env.argsort)
    (alpha a : ℝ) (X : Cells n p) (hd : Spec.ddcwDecided env alpha X) :
    ddcwFit env alpha a (Spec.rowsBy σ X) = ddcwFit env alpha a X := by
  have hcalc : ddcwCalc env alpha a (Spec.rowsBy σ X) = ddcwCalc env alpha a X := by
    unfold ddcwCalc
    rcases hal : cellAlpha alpha n with e | al
    · rfl
    simp only [Except.bind]
    rw [ddcwDDC_reorder σ he X]
    rcases hdd : ddcwDDC env X with e | d
    · rfl
    exact ddcwFrom_reorder σ he ha al a d X (hd al d hal hdd)
  unfold ddcwFit
  rw [hcalc]
  rcases ddcwCalc env alpha a X with e | r
  · simp only [Except.bind]
  simp only [Except.bind]
  rcases completeRows_perm (ofFn_reorder σ X) with ⟨h1, h2⟩ | ⟨R, R', h1, h2, hR⟩
  · rw [h1, h2]
  · rw [h1, h2]
    simp only
    rw [npCov_perm hR]

/-- **C204** and **C203** together: `CellMCD` with `InitialDDCW` as it is, without a hypothesis about the start. -/
theorem C204_cellmcd (σ : Equiv.Perm (Fin n)) (env : CellEnv p) {ini : DDCWEnv p} (he : Spec.orderFree ini.est)
    (ha : NanArgSort @ini.argsort) {est : List (Option ℝ) → Except PyErr (ℝ × ℝ)} (hs : Spec.orderFree est) (cfg : CellConfig)
    (obj : CellObj p) (X : Cells n p)
    (hd : ∀ al, cellAlpha obj.alpha n = .ok al → ∀ ls, (∀ j, est (List.ofFn fun i => X i j) = .ok (ls j)) →
      Spec.ddcwDecided ini al (scaleCells ls X) ∧ ∀ init, ddcwFit ini al cfg.minEig (scaleCells ls X) = .ok init →
        Spec.stepsDecided env cfg al (clearBeyond3 (scaleCells ls X)) init.1 init.2.1 init.2.2) :
    (cellFit env (cellExtOf ini est) cfg obj (Spec.rowsBy σ X)).1 = (cellFit env (cellExtOf ini est) cfg obj X).1.map (Spec.resultBy σ) :=
  (C203_fit σ env (cellExtOf ini est) cfg obj X (fun l m h => (hs l m h).symm) fun al hal ls hls =>
    ⟨C204_fit σ he ha al cfg.minEig _ (hd al hal ls hls).1, (hd al hal ls hls).2⟩).1

/-- The estimator of `InitialDDCW`, `OneStepWrapping`, does not look at the order of its observations. -/
theorem C204_estimator (cutoff : ℝ) (corrRaw : ℕ → ℕ → ℝ) (corr : ℝ → ℝ) : Spec.orderFree (oneStepWrapping cutoff corrRaw corr) := by
  intro X Y h
  unfold oneStepWrapping weightedMean
  rw [C06_perm cutoff corrRaw corr _ X Y h, h.length_eq]
  rcases mcdCalculate cutoff corrRaw corr (Y.length / 2 + 1) Y with _ | ⟨rv, rl, v, l⟩
  · rfl
  rcases v with _ | v
  · rfl
  rcases l with _ | l
  · rfl
  simp only [(h.map fun x => tanhWeight ((x - l) / Real.sqrt v)).sum_eq, (h.map fun x => tanhWeight ((x - l) / Real.sqrt v) * x).sum_eq]

/-- Why the condition on ties is needed: a capped column with four residuals of the same size, for every sorting routine. -/
theorem C204_tie {argsort : {n : ℕ} → (Fin n → Option ℝ) → List (Fin n)} (ha : NanArgSort @argsort) :
    ∃ (σ : Equiv.Perm (Fin 4)) (k : Fin 4), capColumn argsort 0.75 (fun k => (fun _ => true) (σ k)) (fun k => ![some 1, some (-1), some 1, some (-1)] (σ k)) k ≠
      capColumn argsort 0.75 (fun _ => true) ![some 1, some (-1), some 1, some (-1)] (σ k) := by
  have hx : ∀ k : Fin 4, ((![some 1, some (-1), some 1, some (-1)] : Fin 4 → Option ℝ) k).map (fun r => |r|) = some 1 := by
    intro k; fin_cases k <;> simp
  have hlen : (argsort fun _ : Fin 4 => some (1:ℝ)).reverse.length = 4 := by rw [List.length_reverse, argsort_length ha]
  rcases hL : (argsort fun _ : Fin 4 => some (1:ℝ)).reverse with _ | ⟨k0, rest⟩
  · rw [hL] at hlen; simp at hlen
  refine ⟨Equiv.swap k0 (k0 + 1), k0, ?_⟩
  unfold capColumn
  have hcap : (1:ℝ) - 0.75 < ((Finset.univ.filter fun _ : Fin 4 => (true = true)).card : ℝ) / (4 : ℕ) := by norm_num
  rw [if_pos hcap]
  simp only [hx, hL, show 4 / 4 = 1 from rfl, List.take_succ_cons, List.take_zero, List.mem_singleton, Equiv.swap_apply_left]
  fin_cases k0 <;> simp <;> norm_num <;> decide

/-! ## Examples -/

/-- The run of `DDCWRun` with the rows in reversed order: no column is capped. -/
example : ddcwFit envRun 0.75 (1 / 100) (Spec.rowsBy Fin.revPerm cellsRun) = ddcwFit envRun 0.75 (1 / 100) cellsRun ∧
    ∃ r, ddcwFit envRun 0.75 (1 / 100) cellsRun = .ok r := by
  refine ⟨C204_fit _ (fun _ _ _ => rfl) stableArgsort_spec _ _ _ ?_, _, fitRun⟩
  intro al d hal hd i
  obtain ⟨d', hd', -, hf, -⟩ := ddcRun
  rw [hd'] at hd
  cases hd
  refine .inl ?_
  have := cellAlpha_le_one (by norm_num) hal
  simp only [hf]
  simpa using this

/-- Four rows of which the largest residual is the one that is replaced. -/
example : Spec.capDecided 0.75 ![true, true, true, false] ![some (-4), some 3, some 2, some (1 / 2)] := by
  refine .inr ⟨{0}, by simp, fun l hl => ?_⟩
  fin_cases l
  · simp at hl
  · exact ⟨3, rfl, fun k hk a ha => by simp at hk; subst hk; cases ha; norm_num⟩
  · exact ⟨2, rfl, fun k hk a ha => by simp at hk; subst hk; cases ha; norm_num⟩
  · exact ⟨1 / 2, rfl, fun k hk a ha => by simp at hk; subst hk; cases ha; norm_num [abs_of_pos]⟩

end Robpy
