import Verif.Props.LTSEquiv

/-! C57: data for which FastLTS is not equivariant, and examples. -/

namespace Robpy

section
variable {p : ℕ}

theorem argsort_take_perm {srt : ArgSort ℝ} {d : List ℝ} {k : ℕ} {S : List ℕ} (hS : Spec.Positions d.length k S)
    (hgap : ∀ (i j : ℕ) (x y : ℝ), i ∈ S → j ∉ S → d[i]? = some x → d[j]? = some y → x < y) :
    ((srt.toFun d).take k).Perm S := by
  obtain ⟨h1, h2, h3, h4⟩ := argsort_take srt d k
  have hkn : k ≤ d.length := by
    have : S.Subperm (List.range d.length) := hS.nodup.subperm fun i hi => List.mem_range.2 (hS.lt i hi)
    have := this.length_le
    rw [hS.length, List.length_range] at this
    exact this
  have hsub : ∀ i ∈ (srt.toFun d).take k, i ∈ S := by
    intro i hi
    by_contra hiS
    obtain ⟨j, hj, hjT⟩ : ∃ j ∈ S, j ∉ (srt.toFun d).take k := by
      by_contra hall
      push Not at hall
      have hp : S.Perm ((srt.toFun d).take k) := by
        refine List.Subperm.perm_of_length_le (hS.nodup.subperm hall) ?_
        rw [h2, hS.length]; omega
      exact hiS (hp.mem_iff.2 hi)
    have e1 := List.getElem?_eq_getElem (h3 i hi)
    have e2 := List.getElem?_eq_getElem (hS.lt j hj)
    have := h4 i j _ _ hi hjT e1 e2
    exact absurd (hgap j i _ _ hj hiS e2 e1) (not_lt.2 this)
  refine List.Subperm.perm_of_length_le (h1.subperm hsub) ?_
  rw [h2, hS.length]; omega

/-- `argsortStable` only compares. -/
theorem argsortStable_comparesOnly : Spec.ComparesOnly (argsortStable ℝ) := by
  intro t ht d
  have hr : (fun i j => (d.map (t * ·)).getD i 0 ≤ (d.map (t * ·)).getD j 0) = fun i j => d.getD i 0 ≤ d.getD j 0 := by
    funext i j
    have h : ∀ i, (d.map (t * ·)).getD i 0 = t * d.getD i 0 := by
      intro i
      rw [List.getD_eq_getElem?_getD, List.getElem?_map, List.getD_eq_getElem?_getD]
      rcases d[i]? with _ | x <;> simp
    rw [h, h, mul_le_mul_iff_right₀ ht]
  change (List.range _).insertionSort (fun i j => (d.map (t * ·)).getD i 0 ≤ (d.map (t * ·)).getD j 0) =
    (List.range _).insertionSort (fun i j => d.getD i 0 ≤ d.getD j 0)
  rw [List.length_map]
  congr 1

/-- The fit to observations at the origin: the mean of the targets. -/
theorem fit_origin (LR : LinReg p) {D : List ((Fin p → ℝ) × ℝ)} (hD : D ≠ []) (h0 : ∀ d ∈ D, d.1 = 0) :
    LR.fit D = ⟨(D.map Prod.snd).sum / D.length, 0⟩ := by
  have hpred : ∀ m : LinModel p, ∀ d ∈ D, m.predict d.1 = m.intercept := by
    intro m d hd
    unfold LinModel.predict
    rw [h0 d hd]; simp
  have hcoef : (LR.fit D).coef = 0 := by
    have := LR.minNorm D hD ⟨(LR.fit D).intercept, 0⟩ (ssr_congr fun d hd => by rw [hpred _ d hd, hpred _ d hd])
    simp only [Pi.zero_apply, ne_eq, OfNat.ofNat_ne_zero, not_false_eq_true, zero_pow, Finset.sum_const_zero] at this
    funext j
    have h1 := (Finset.sum_eq_zero_iff_of_nonneg (s := Finset.univ) (f := fun j => (LR.fit D).coef j ^ 2) fun j _ => sq_nonneg _).1
      (le_antisymm this (Finset.sum_nonneg fun j _ => sq_nonneg _)) j (Finset.mem_univ j)
    simpa using h1
  have hsum := sum_resid_zero (isLeastSquares_fit LR hD)
  have hr : D.map (resid (LR.fit D)) = D.map fun d => d.2 - (LR.fit D).intercept :=
    List.map_congr_left fun d hd => by unfold resid; rw [hpred _ d hd]
  have hlin : ∀ (l : List ((Fin p → ℝ) × ℝ)) (t : ℝ), (l.map fun d => d.2 - t).sum = (l.map Prod.snd).sum - l.length * t := by
    intro l t
    induction l with
    | nil => simp
    | cons x l ih => simp only [List.map_cons, List.sum_cons, List.length_cons, Nat.cast_add, Nat.cast_one]; rw [ih]; ring
  rw [hr, hlin] at hsum
  have hn : (D.length : ℝ) ≠ 0 := by
    have := List.length_pos_iff.2 hD
    positivity
  ext
  · simp only
    rw [eq_div_iff hn]; linarith
  · rw [hcoef]

/-- **C57** (full statement): for the same draws and the same parameters, fitting `a * y + X v + c` selects the same observations
and reports `a * beta + v` and `a * intercept + c`, for all data sets and all `a ≠ 0`, `v`, `c`. -/
def C57_statement : Prop :=
  ∀ (p : ℕ) (LR : LinReg p) (srt : ArgSort ℝ) (ch : Choice ℕ) (q : ℝ) (corr corrRew : ℕ → ℕ → ℝ → Option ℝ) (cfg : LTSConfig)
    (D : List ((Fin p → ℝ) × ℝ)) (a : ℝ) (v : Fin p → ℝ) (c : ℝ) (fuel : ℕ) (st1 st2 : LTSState p),
    Spec.ComparesOnly srt → a ≠ 0 →
    ltsFit LR srt ch q corr corrRew cfg ⟨none, none, none⟩ D none fuel = some (.ok (), st1) →
    ltsFit LR srt ch q corr corrRew cfg ⟨none, none, none⟩ (Spec.regData a v c D) none fuel = some (.ok (), st2) →
    st2.bestH = st1.bestH ∧ st2.model = st1.model.map (Spec.regModel a v c)

/-- Four observations at the origin. -/
def c57Data (b : ℝ) : List ((Fin 1 → ℝ) × ℝ) := [(0, 0), (0, 5 * b), (0, 6 * b), (0, 7 * b)]

/-- One start, no initial C-steps, the default tolerance, no reweighting. -/
noncomputable def c57Cfg : LTSConfig :=
  { alpha := 0.5, nInitialSubsets := 1, nInitialCSteps := 0, nBestModels := 1, reweighting := false, tolerance := 1e-15, randomState := 42 }

theorem takeAt_c57 (b : ℝ) {H S : List ℕ} (h : H.Perm S) : (takeAt (c57Data b) H).Perm (takeAt (c57Data b) S) := takeAt_perm _ h

/-- One C-step on the four observations from the intercept `t`, if it selects the positions `S`. -/
theorem c57_step (LR : LinReg 1) (srt : ArgSort ℝ) (b t mu : ℝ) (S : List ℕ) (hS : Spec.Positions 4 3 S)
    (hgap : ∀ (i j : ℕ) (x y : ℝ), i ∈ S → j ∉ S → [|0 - t|, |5 * b - t|, |6 * b - t|, |7 * b - t|][i]? = some x →
      [|0 - t|, |5 * b - t|, |6 * b - t|, |7 * b - t|][j]? = some y → x < y)
    (hmu : ((takeAt (c57Data b) S).map Prod.snd).sum / 3 = mu) :
    (ltsSubset srt (c57Data b) 3 ⟨t, 0⟩).Perm S ∧
      ltsCStep LR srt (c57Data b) 3 ⟨t, 0⟩ = .ok (ltsSubset srt (c57Data b) 3 ⟨t, 0⟩, ⟨mu, 0⟩) ∧
      ∀ u, ltsLoss (c57Data b) (ltsSubset srt (c57Data b) 3 ⟨t, 0⟩) ⟨u, 0⟩ = ltsLoss (c57Data b) S ⟨u, 0⟩ := by
  have hr : (c57Data b).map (fun d => |resid (⟨t, 0⟩ : LinModel 1) d|) = [|0 - t|, |5 * b - t|, |6 * b - t|, |7 * b - t|] := by
    simp [c57Data, resid, LinModel.predict]
  have hperm : (ltsSubset srt (c57Data b) 3 ⟨t, 0⟩).Perm S := by
    unfold ltsSubset
    rw [hr]
    exact argsort_take_perm hS hgap
  refine ⟨hperm, ?_, ?_⟩
  · rw [ltsCStep_of LR srt (by norm_num) (by simp [c57Data]) (by norm_num)]
    congr 2
    have hp := takeAt_perm (c57Data b) hperm
    have hlen : (takeAt (c57Data b) S).length = 3 := by rw [takeAt_length _ _ (by simpa [c57Data] using hS.lt), hS.length]
    rw [fit_origin LR]
    · rw [(hp.map Prod.snd).sum_eq, hp.length_eq, hlen]
      congr 1
    · intro hn
      rw [hn] at hp
      rw [← hp.length_eq] at hlen
      simp at hlen
    · intro d hd
      have := mem_takeAt hd
      simp only [c57Data, List.mem_cons, List.not_mem_nil, or_false] at this
      rcases this with rfl | rfl | rfl | rfl <;> rfl
  · intro u
    unfold ltsLoss
    rw [ssr_perm (takeAt_perm _ hperm), hperm.length_eq]

theorem c57_loss012 (b u : ℝ) : ltsLoss (c57Data b) [0, 1, 2] ⟨u, 0⟩ = (u ^ 2 + (5 * b - u) ^ 2 + (6 * b - u) ^ 2) / 3 := by
  simp only [ltsLoss, ssr, takeAt, c57Data, resid, LinModel.predict, List.filterMap_cons, List.filterMap_nil,
    List.getElem?_cons_zero, List.getElem?_cons_succ, List.map_cons, List.map_nil, List.sum_cons, List.sum_nil, List.length_cons,
    List.length_nil, Pi.zero_apply, mul_zero, Finset.sum_const_zero]
  norm_num
  ring

theorem c57_loss123 (b u : ℝ) : ltsLoss (c57Data b) [1, 2, 3] ⟨u, 0⟩ = ((5 * b - u) ^ 2 + (6 * b - u) ^ 2 + (7 * b - u) ^ 2) / 3 := by
  simp only [ltsLoss, ssr, takeAt, c57Data, resid, LinModel.predict, List.filterMap_cons, List.filterMap_nil,
    List.getElem?_cons_zero, List.getElem?_cons_succ, List.map_cons, List.map_nil, List.sum_cons, List.sum_nil, List.length_cons,
    List.length_nil, Pi.zero_apply, mul_zero, Finset.sum_const_zero]
  norm_num
  ring

theorem positions_012 : Spec.Positions 4 3 [0, 1, 2] := ⟨by simp, rfl, by simp⟩
theorem positions_123 : Spec.Positions 4 3 [1, 2, 3] := ⟨by simp, rfl, by simp⟩

theorem gap_012 {b t : ℝ} (hb : 0 < b) (ht : t < 3.5 * b) (h1 : b ≤ t) :
    ∀ (i j : ℕ) (x y : ℝ), i ∈ [0, 1, 2] → j ∉ [0, 1, 2] → [|0 - t|, |5 * b - t|, |6 * b - t|, |7 * b - t|][i]? = some x →
      [|0 - t|, |5 * b - t|, |6 * b - t|, |7 * b - t|][j]? = some y → x < y := by
  intro i j x y hi hj hx hy
  have hj3 : j = 3 := by
    have : j < 4 := by simpa using (List.getElem?_eq_some_iff.1 hy).1
    simp at hj
    omega
  subst hj3
  simp only [List.getElem?_cons_succ, List.getElem?_cons_zero, Option.some.injEq] at hy
  subst hy
  rw [abs_of_pos (by linarith : 0 < 7 * b - t)]
  simp only [List.mem_cons, List.not_mem_nil, or_false] at hi
  rcases hi with rfl | rfl | rfl <;>
    simp only [List.getElem?_cons_succ, List.getElem?_cons_zero, Option.some.injEq] at hx <;> subst hx <;> rw [abs_lt] <;>
    constructor <;> linarith

theorem gap_123 {b t : ℝ} (hb : 0 < b) (ht : 3.5 * b < t) (h1 : t ≤ 6 * b) :
    ∀ (i j : ℕ) (x y : ℝ), i ∈ [1, 2, 3] → j ∉ [1, 2, 3] → [|0 - t|, |5 * b - t|, |6 * b - t|, |7 * b - t|][i]? = some x →
      [|0 - t|, |5 * b - t|, |6 * b - t|, |7 * b - t|][j]? = some y → x < y := by
  intro i j x y hi hj hx hy
  have hj3 : j = 0 := by
    have : j < 4 := by simpa using (List.getElem?_eq_some_iff.1 hy).1
    simp at hj
    omega
  subst hj3
  simp only [List.getElem?_cons_zero, Option.some.injEq] at hy
  subst hy
  rw [abs_of_neg (by linarith : 0 - t < 0)]
  simp only [List.mem_cons, List.not_mem_nil, or_false] at hi
  rcases hi with rfl | rfl | rfl <;>
    simp only [List.getElem?_cons_succ, List.getElem?_cons_zero, Option.some.injEq] at hx <;> subst hx <;> rw [abs_lt] <;>
    constructor <;> linarith

/-- The run on the four observations: if the first improvement `49/36 b^2` is within the tolerance the search stops at the first three
observations, else it goes on to the last three. -/
theorem c57_run (LR : LinReg 1) (srt : ArgSort ℝ) (q : ℝ) (corr corrRew : ℕ → ℕ → ℝ → Option ℝ) (b : ℝ) (hb : 0 < b) :
    ∃ st H, ltsFit LR srt choiceFirst q corr corrRew c57Cfg ⟨none, none, none⟩ (c57Data b) none 17 = some (.ok (), st) ∧
      st.bestH = some H ∧ (49 / 36 * b ^ 2 ≤ 1e-15 → H.Perm [0, 1, 2]) ∧ (1e-15 < 49 / 36 * b ^ 2 → H.Perm [1, 2, 3]) := by
  -- the search succeeds
  have hout := (C99_search_outcome LR srt choiceFirst c57Cfg (c57Data b) none (by norm_num [c57Cfg]) 17 (by simp [c57Data])).2
    ⟨by norm_num [c57Cfg], by norm_num [c57Cfg]⟩
  obtain ⟨best, hbest⟩ := ((hout.2 (by simp [c57Cfg])).2 ⟨by norm_num, by simp [c57Data]⟩).2 (by simp [c57Cfg])
  refine ⟨_, best.subset, by unfold ltsFit; rw [hbest]; rfl, rfl, ?_⟩
  -- its only start
  have hh : ltsH c57Cfg.alpha (c57Data b).length 1 = .ok 3 := by
    unfold ltsH
    rw [if_neg (by norm_num [c57Cfg])]
    congr 1
    have : ⌊((c57Data b).length : ℝ) * c57Cfg.alpha⌋₊ = 2 := by
      have : ((c57Data b).length : ℝ) * c57Cfg.alpha = (2 : ℕ) := by norm_num [c57Data, c57Cfg]
      rw [this, Nat.floor_natCast]
    rw [this]
    simp [c57Data]
  obtain ⟨g1, g2, g3⟩ := c57_step LR srt b (2.5 * b) (11 / 3 * b) [0, 1, 2] positions_012
    (gap_012 hb (by linarith) (by linarith)) (by simp [takeAt, c57Data]; ring)
  have hinit : LR.fit (takeAt (c57Data b) [0, 1]) = ⟨2.5 * b, 0⟩ := by
    rw [fit_origin LR (by simp [takeAt, c57Data]) (by simp [takeAt, c57Data])]
    ext
    · simp [takeAt, c57Data]; ring
    · rfl
  have hcand : ltsInitial LR srt choiceFirst c57Cfg (c57Data b) 3 none 0 = .ok
      { model := ⟨2.5 * b, 0⟩, loss := ltsLoss (c57Data b) [0, 1, 2] ⟨2.5 * b, 0⟩, subset := ltsSubset srt (c57Data b) 3 ⟨2.5 * b, 0⟩ } := by
    unfold ltsInitial
    rw [if_neg (by simp [c57Data])]
    have hpick : takeAt (c57Data b) (choiceFirst.pick (c57Cfg.randomState + 0) (c57Data b).length (1 + 1)) =
        takeAt (c57Data b) [0, 1] := rfl
    rw [hpick, lrFit_of LR (by simp [takeAt, c57Data]) (by norm_num), hinit]
    simp only [Except.bind, Option.getD_none, c57Cfg, ltsCSteps, Except.map, g3]
  set c0 : LTSCand 1 :=
    ⟨⟨2.5 * b, 0⟩, ltsLoss (c57Data b) [0, 1, 2] ⟨2.5 * b, 0⟩, ltsSubset srt (c57Data b) 3 ⟨2.5 * b, 0⟩⟩ with hc0
  have hsearch : ltsSearch LR srt choiceFirst c57Cfg (c57Data b) none 17 =
      ltsImprove LR srt (c57Data b) 3 c57Cfg.tolerance 17 [c0] c0 := by
    unfold ltsSearch
    rw [hh]
    have h1 : List.range c57Cfg.nInitialSubsets = [0] := rfl
    simp only [Run.andThen]
    rw [h1]
    simp only [mapExcept]
    rw [hcand]
    simp only [Except.bind, Except.map, List.map_cons, List.map_nil]
    have h2 : srt.toFun [c0.loss] = [0] := by
      have := srt.perm [c0.loss]
      simp only [List.length_cons, List.length_nil, zero_add, List.range_one] at this
      exact List.perm_singleton.1 this
    rw [h2]
    rfl
  have hl0 : c0.loss = 33 / 4 * b ^ 2 := by rw [hc0]; simp only; rw [c57_loss012]; ring
  rw [hsearch] at hbest
  unfold ltsImprove at hbest
  rw [show c0.model = ⟨2.5 * b, 0⟩ from rfl, ltsConverge_succ, g2] at hbest
  simp only at hbest
  have hl1 : ltsLoss (c57Data b) (ltsSubset srt (c57Data b) 3 ⟨2.5 * b, 0⟩) ⟨11 / 3 * b, 0⟩ = 62 / 9 * b ^ 2 := by
    rw [g3, c57_loss012]; ring
  rw [hl1, hl0] at hbest
  have hb2 : 0 < b ^ 2 := by positivity
  constructor
  · intro htol
    rw [if_pos (by simp only [c57Cfg]; linarith)] at hbest
    simp only [Run.andThen, ltsImprove] at hbest
    rw [if_pos (by linarith)] at hbest
    obtain rfl := Except.ok.inj (Option.some.inj hbest)
    exact g1
  · intro htol
    rw [if_neg (by simp only [c57Cfg]; linarith)] at hbest
    obtain ⟨k1, k2, k3⟩ := c57_step LR srt b (11 / 3 * b) (6 * b) [1, 2, 3] positions_123
      (gap_123 hb (by linarith) (by linarith)) (by simp [takeAt, c57Data]; ring)
    have hl2 : ltsLoss (c57Data b) (ltsSubset srt (c57Data b) 3 ⟨11 / 3 * b, 0⟩) ⟨6 * b, 0⟩ = 2 / 3 * b ^ 2 := by
      rw [k3, c57_loss123]; ring
    rw [ltsConverge_succ, k2] at hbest
    simp only at hbest
    rw [hl2, if_neg (by simp only [c57Cfg]; linarith)] at hbest
    obtain ⟨m1, m2, m3⟩ := c57_step LR srt b (6 * b) (6 * b) [1, 2, 3] positions_123
      (gap_123 hb (by linarith) le_rfl) (by simp [takeAt, c57Data]; ring)
    have hl3 : ltsLoss (c57Data b) (ltsSubset srt (c57Data b) 3 ⟨6 * b, 0⟩) ⟨6 * b, 0⟩ = 2 / 3 * b ^ 2 := by
      rw [m3, c57_loss123]; ring
    rw [ltsConverge_succ, m2] at hbest
    simp only at hbest
    rw [hl3, if_pos (by simp only [c57Cfg]; norm_num)] at hbest
    simp only [Run.andThen, ltsImprove] at hbest
    rw [if_pos (by linarith)] at hbest
    obtain rfl := Except.ok.inj (Option.some.inj hbest)
    exact m1

theorem c57_scaled (b : ℝ) : Spec.regData 2 0 0 (c57Data b) = c57Data (2 * b) := by
  simp only [Spec.regData, c57Data, List.map_cons, List.map_nil, Pi.zero_apply, mul_zero, Finset.sum_const_zero, add_zero]
  rw [show 2 * (5 * b) = 5 * (2 * b) by ring, show 2 * (6 * b) = 6 * (2 * b) by ring, show 2 * (7 * b) = 7 * (2 * b) by ring]

/-- With the default tolerance, doubling small targets changes which observations are selected. -/
theorem C57_violated : ¬ C57_statement := by
  intro hst
  obtain ⟨st1, H1, r1, b1, p1, -⟩ := c57_run (linRegExists 1) (argsortStable ℝ) 2 (fun _ _ _ => some 1) (fun _ _ _ => some 1) 2e-8 (by norm_num)
  obtain ⟨st2, H2, r2, b2, -, p2⟩ := c57_run (linRegExists 1) (argsortStable ℝ) 2 (fun _ _ _ => some 1) (fun _ _ _ => some 1) (2 * 2e-8) (by norm_num)
  rw [← c57_scaled] at r2
  have := (hst 1 (linRegExists 1) (argsortStable ℝ) choiceFirst 2 (fun _ _ _ => some 1) (fun _ _ _ => some 1) c57Cfg (c57Data 2e-8) 2 0 0 17 st1 st2
    argsortStable_comparesOnly (by norm_num) r1 r2).1
  rw [b1, b2] at this
  have hH := Option.some.inj this
  have q1 := p1 (by norm_num)
  have q2 := p2 (by norm_num)
  rw [hH] at q2
  have h3 : (3 : ℕ) ∈ [0, 1, 2] := (q2.symm.trans q1).mem_iff.1 (by simp)
  simp at h3

/-- Three observations of which the first two have the same feature. -/
def c57Deg (y : ℝ) : List ((Fin 1 → ℝ) × ℝ) := [(0, 0), (0, 2), (1, y)]

theorem fit_deg (LR : LinReg 1) (y : ℝ) {H : List ℕ} (hH : H.Perm [0, 1]) : LR.fit (takeAt (c57Deg y) H) = ⟨1, 0⟩ := by
  have hp := takeAt_perm (c57Deg y) hH
  have h2 : takeAt (c57Deg y) [0, 1] = [(0, 0), (0, 2)] := rfl
  rw [h2] at hp
  rw [fit_origin LR (fun h => by rw [h] at hp; simp at hp)]
  · rw [(hp.map Prod.snd).sum_eq, hp.length_eq]
    norm_num
  · intro d hd
    have := hp.mem_iff.1 hd
    simp only [List.mem_cons, List.not_mem_nil, or_false] at this
    rcases this with rfl | rfl <;> rfl

theorem ltsH_deg (y : ℝ) : ltsH c57Cfg.alpha (c57Deg y).length 1 = .ok 2 := by
  unfold ltsH
  rw [if_neg (by norm_num [c57Cfg])]
  congr 1
  have : ⌊((c57Deg y).length : ℝ) * c57Cfg.alpha⌋₊ = 1 := by
    rw [Nat.floor_eq_iff (by norm_num [c57Deg, c57Cfg])]
    norm_num [c57Deg, c57Cfg]
  rw [this]
  simp [c57Deg]

/-- On the three observations the search with the default parameters does not raise. -/
theorem search_deg (LR : LinReg 1) (srt : ArgSort ℝ) (y : ℝ) :
    ∃ best, ltsSearch LR srt choiceFirst c57Cfg (c57Deg y) none 17 = some (.ok best) := by
  have hout := (C99_search_outcome LR srt choiceFirst c57Cfg (c57Deg y) none (by norm_num [c57Cfg]) 17 (by simp [c57Deg])).2
    ⟨by norm_num [c57Cfg], by norm_num [c57Cfg]⟩
  exact ((hout.2 (by simp [c57Cfg])).2 ⟨by norm_num, by simp [c57Deg]⟩).2 (by simp [c57Cfg])

theorem initial_deg (LR : LinReg 1) (srt : ArgSort ℝ) (y : ℝ) :
    ltsInitial LR srt choiceFirst c57Cfg (c57Deg y) 2 none 0 = .ok
      ⟨⟨1, 0⟩, ltsLoss (c57Deg y) (ltsSubset srt (c57Deg y) 2 ⟨1, 0⟩) ⟨1, 0⟩, ltsSubset srt (c57Deg y) 2 ⟨1, 0⟩⟩ := by
  unfold ltsInitial
  rw [if_neg (by simp [c57Deg])]
  have hpick : takeAt (c57Deg y) (choiceFirst.pick (c57Cfg.randomState + 0) (c57Deg y).length (1 + 1)) =
      takeAt (c57Deg y) [0, 1] := rfl
  rw [hpick, lrFit_of LR (by simp [takeAt, c57Deg]) (by norm_num), fit_deg LR y (List.Perm.refl _)]
  simp only [Except.bind, Option.getD_none, c57Cfg, ltsCSteps, Except.map]

theorem loss01_deg (y : ℝ) {H : List ℕ} (hH : H.Perm [0, 1]) : ltsLoss (c57Deg y) H ⟨1, 0⟩ = 1 := by
  have hp := takeAt_perm (c57Deg y) hH
  unfold ltsLoss
  rw [ssr_perm hp, hH.length_eq]
  simp only [ssr, takeAt, c57Deg, resid, LinModel.predict, List.filterMap_cons, List.filterMap_nil,
    List.getElem?_cons_zero, List.getElem?_cons_succ, List.map_cons, List.map_nil, List.sum_cons, List.sum_nil, List.length_cons,
    List.length_nil, Pi.zero_apply, mul_zero, Finset.sum_const_zero]
  norm_num

/-- **C57**: regression equivariance also fails, for a design of full rank, when a random start does not determine the slope: for three
observations with features 0, 0, 1 and targets 0, 2, 10 the search stays with the first two, but after adding `-9 x` to the targets it does
not. -/
theorem C57_regression_violated (LR : LinReg 1) (srt : ArgSort ℝ) (best1 best2 : LTSCand 1)
    (h1 : ltsSearch LR srt choiceFirst c57Cfg (c57Deg 10) none 17 = some (.ok best1))
    (h2 : ltsSearch LR srt choiceFirst c57Cfg (Spec.regData 1 (fun _ => -9) 0 (c57Deg 10)) none 17 = some (.ok best2)) :
    best1.subset.Perm [0, 1] ∧ ¬ best2.subset.Perm [0, 1] := by
  have hdata : Spec.regData 1 (fun _ => -9) 0 (c57Deg 10) = c57Deg 1 := by
    simp only [Spec.regData, c57Deg, List.map_cons, List.map_nil, Pi.zero_apply, Pi.one_apply, zero_mul, Finset.sum_const_zero,
      Finset.univ_unique, Finset.sum_singleton]
    norm_num
  rw [hdata] at h2
  constructor
  · -- the first two observations are selected and the loop stops at once
    have hr : (c57Deg 10).map (fun d => |resid (⟨1, 0⟩ : LinModel 1) d|) = [1, 1, 9] := by
      simp only [c57Deg, resid, LinModel.predict, List.map_cons, List.map_nil, Pi.zero_apply, mul_zero, Finset.sum_const_zero]
      norm_num
    have hperm : (ltsSubset srt (c57Deg 10) 2 ⟨1, 0⟩).Perm [0, 1] := by
      unfold ltsSubset
      rw [hr]
      refine argsort_take_perm ⟨by simp, rfl, by simp⟩ ?_
      intro i j x y hi hj hx hy
      have hj3 : j = 2 := by
        have : j < 3 := by simpa using (List.getElem?_eq_some_iff.1 hy).1
        simp at hj
        omega
      subst hj3
      simp only [List.getElem?_cons_succ, List.getElem?_cons_zero, Option.some.injEq] at hy
      subst hy
      simp only [List.mem_cons, List.not_mem_nil, or_false] at hi
      rcases hi with rfl | rfl <;>
        simp only [List.getElem?_cons_succ, List.getElem?_cons_zero, Option.some.injEq] at hx <;> subst hx <;> norm_num
    have hl := loss01_deg 10 hperm
    unfold ltsSearch at h1
    rw [ltsH_deg] at h1
    simp only [Run.andThen] at h1
    rw [show List.range c57Cfg.nInitialSubsets = [0] from rfl] at h1
    simp only [mapExcept] at h1
    rw [initial_deg, hl] at h1
    simp only [Except.bind, Except.map, List.map_cons, List.map_nil] at h1
    have ht : srt.toFun [1] = [0] := by
      have := srt.perm [1]
      simp only [List.length_cons, List.length_nil, zero_add, List.range_one] at this
      exact List.perm_singleton.1 this
    rw [ht] at h1
    have h1' : ltsImprove LR srt (c57Deg 10) 2 c57Cfg.tolerance 17 [⟨⟨1, 0⟩, 1, ltsSubset srt (c57Deg 10) 2 ⟨1, 0⟩⟩]
        ⟨⟨1, 0⟩, 1, ltsSubset srt (c57Deg 10) 2 ⟨1, 0⟩⟩ = some (.ok best1) := h1
    unfold ltsImprove at h1'
    simp only at h1'
    rw [ltsConverge_succ, ltsCStep_of LR srt (by norm_num) (by simp [c57Deg]) (by norm_num), fit_deg LR 10 hperm] at h1'
    simp only at h1'
    rw [hl, if_pos (by norm_num [c57Cfg])] at h1'
    simp only [Run.andThen, ltsImprove, lt_irrefl, if_false] at h1'
    obtain rfl := Except.ok.inj (Option.some.inj h1')
    exact hperm
  · -- the loss of the start is at most 1/2, that of the first two observations is 1
    intro hperm
    obtain ⟨h, cands, e1, e2, e3, e4, -⟩ := C51_best _ _ _ _ _ _ _ best2 h2
    rw [ltsH_deg] at e1
    obtain rfl := Except.ok.inj e1
    obtain ⟨c, hc⟩ : ∃ c, cands[0]? = some c := by
      have : 0 < cands.length := by rw [e2]; simp [c57Cfg]
      exact ⟨_, List.getElem?_eq_getElem this⟩
    have hc1 := e3 0 c hc
    rw [initial_deg] at hc1
    have hc2 := Except.ok.inj hc1
    have hle := e4 c (List.mem_of_getElem? hc)
    rw [← hc2] at hle
    simp only at hle
    have hhalf : ltsLoss (c57Deg 1) (ltsSubset srt (c57Deg 1) 2 ⟨1, 0⟩) ⟨1, 0⟩ ≤ 1 / 2 := by
      rw [ltsLoss_subset srt _ (by simp [c57Deg])]
      refine (ltsObjective_le (c57Deg 1) ⟨1, 0⟩ (J := [0, 2]) ⟨by simp, rfl, by simp [c57Deg]⟩).trans ?_
      simp only [ltsLoss, ssr, takeAt, c57Deg, resid, LinModel.predict, List.filterMap_cons, List.filterMap_nil,
        List.getElem?_cons_zero, List.getElem?_cons_succ, List.map_cons, List.map_nil, List.sum_cons, List.sum_nil, List.length_cons,
        List.length_nil, Pi.zero_apply, mul_zero, Finset.sum_const_zero]
      norm_num
    obtain ⟨h', k1, k2, k3, k4, -⟩ := C98_least_squares _ _ _ _ _ _ _ best2 h2
    rw [ltsH_deg] at k1
    obtain rfl := Except.ok.inj k1
    have hge : (1 : ℝ) ≤ best2.loss := by
      have hfit := LR.isMin (takeAt (c57Deg 1) best2.subset) (by
        intro hn
        have := takeAt_length (c57Deg 1) _ k2.lt
        rw [hn, k2.length] at this
        simp at this) best2.model
      rw [fit_deg LR 1 hperm] at hfit
      have hl := loss01_deg 1 hperm
      unfold ltsLoss at hl
      rw [k2.length] at hl
      rw [k4, ← ssr_eq]
      exact hl.ge.trans (div_le_div_of_nonneg_right hfit (by positivity))
    linarith

/-- The hypotheses of `C57_regression_violated`: both searches succeed. -/
example : ∃ best1 best2, ltsSearch (linRegExists 1) (argsortStable ℝ) choiceFirst c57Cfg (c57Deg 10) none 17 = some (.ok best1) ∧
    ltsSearch (linRegExists 1) (argsortStable ℝ) choiceFirst c57Cfg (c57Deg 1) none 17 = some (.ok best2) := by
  obtain ⟨b1, h1⟩ := search_deg (linRegExists 1) (argsortStable ℝ) 10
  obtain ⟨b2, h2⟩ := search_deg (linRegExists 1) (argsortStable ℝ) 1
  exact ⟨b1, b2, h1, h2⟩

/-- The hypotheses of C57: observations with different features are in general position. -/
theorem generalPosition_of_distinct {D : List ((Fin 1 → ℝ) × ℝ)} (h : (D.map fun d => d.1 0).Nodup) : Spec.GeneralPosition D := by
  intro idx hn hl hlen b0 b hb
  obtain ⟨i, j, t, rfl⟩ : ∃ i j t, idx = i :: j :: t := by
    rcases idx with _ | ⟨i, _ | ⟨j, t⟩⟩
    · simp at hlen
    · simp at hlen
    · exact ⟨i, j, t, rfl⟩
  have hi := hl i (by simp)
  have hj := hl j (by simp)
  have hij : i ≠ j := by
    intro he
    rw [List.nodup_cons] at hn
    exact hn.1 (by simp [he])
  have m1 : D[i] ∈ takeAt D (i :: j :: t) := List.mem_filterMap.2 ⟨i, by simp, List.getElem?_eq_getElem hi⟩
  have m2 : D[j] ∈ takeAt D (i :: j :: t) := List.mem_filterMap.2 ⟨j, by simp, List.getElem?_eq_getElem hj⟩
  have e1 := hb _ m1
  have e2 := hb _ m2
  have hne : (D[i]).1 0 ≠ (D[j]).1 0 := by
    intro he
    apply hij
    have := List.nodup_iff_injective_get.1 h (a₁ := ⟨i, by simpa using hi⟩) (a₂ := ⟨j, by simpa using hj⟩) (by simpa using he)
    exact congrArg Fin.val this
  simp only [Finset.univ_unique, Finset.sum_singleton, Fin.default_eq_zero, Fin.isValue] at e1 e2
  have hb1 : b 0 = 0 := by
    have : ((D[i]).1 0 - (D[j]).1 0) * b 0 = 0 := by linarith
    rcases mul_eq_zero.1 this with h0 | h0
    · exact absurd (sub_eq_zero.1 h0) hne
    · exact h0
  refine ⟨by rw [hb1] at e1; linarith, fun k => ?_⟩
  rw [Subsingleton.elim k 0]
  exact hb1

example : Spec.GeneralPosition ltsData ∧ 5 ≤ (2.2414 : ℝ) ^ 2 ∧ 2 * (1 + 1) ≤ (ltsData ++ [((![5] : Fin 1 → ℝ), 2)]).length ∧
    Spec.GeneralPosition (ltsData ++ [((![5] : Fin 1 → ℝ), 2)]) ∧ Spec.ComparesOnly (argsortStable ℝ) :=
  ⟨generalPosition_of_distinct (by simp [ltsData]), by norm_num, by simp [ltsData],
    generalPosition_of_distinct (by simp [ltsData]), argsortStable_comparesOnly⟩

end
end Robpy
