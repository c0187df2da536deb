import Verif.Props.DetOrder
import Verif.Props.SOrder
import Verif.Props.LTSWitness
import Verif.Props.MM

/-! C194: FastLTS and the order of the rows. -/

namespace Robpy
variable {p : ℕ}

/-! ## Specification -/

/-- The fits to `p + 1` rows and to `h` rows leave no tie between the `h` rows with the smallest absolute residuals and the others. -/
def Spec.noTies (LR : LinReg p) (D : List ((Fin p → ℝ) × ℝ)) (h : ℕ) : Prop :=
  ∀ H : List ℕ, H.Nodup → (∀ i ∈ H, i < D.length) → (H.length = p + 1 ∨ H.length = h) →
    Spec.clearCut h (D.map fun d => |d.2 - ((LR.fit (takeAt D H)).intercept + ∑ j, d.1 j * (LR.fit (takeAt D H)).coef j)|)

/-- The objects after fitting reordered rows agree: same outcome, same model and scale, and the same observations in the subset. -/
def Spec.sameLTS (D D' : List ((Fin p → ℝ) × ℝ)) :
    Option (Except PyErr Unit × LTSState p) → Option (Except PyErr Unit × LTSState p) → Prop
  | none, none => True
  | some (o, s), some (o', s') => o = o' ∧ s.model = s'.model ∧ s.scale_ = s'.scale_ ∧
      Option.Rel (fun H H' => (takeAt D H).Perm (takeAt D' H')) s.bestH s'.bestH
  | _, _ => False

/-! ## Steps -/

theorem LinReg.fit_perm (LR : LinReg p) {D D' : List ((Fin p → ℝ) × ℝ)} (h : D.Perm D') (hD : D ≠ []) : LR.fit D' = LR.fit D := by
  have hD' : D' ≠ [] := fun h0 => hD (by rw [h0] at h; exact h.eq_nil)
  refine leastSquares_unique hD' (LR.isMin _ hD') ?_ (LR.minNorm _ hD') ?_
  · intro m
    rw [← ssr_perm h, ← ssr_perm h]
    exact LR.isMin D hD m
  · intro m hm
    rw [← ssr_perm h, ← ssr_perm h] at hm
    exact LR.minNorm D hD m hm

theorem lrFit_perm (LR : LinReg p) {D D' : List ((Fin p → ℝ) × ℝ)} (h : D.Perm D') : lrFit LR D' = lrFit LR D := by
  unfold lrFit
  have hiff : (D' = [] ∨ p = 0) ↔ (D = [] ∨ p = 0) := by
    constructor
    · rintro (h0 | h0)
      · rw [h0] at h
        exact Or.inl h.eq_nil
      · exact Or.inr h0
    · rintro (h0 | h0)
      · rw [h0] at h
        exact Or.inl h.symm.eq_nil
      · exact Or.inr h0
  by_cases h0 : D = [] ∨ p = 0
  · rw [if_pos h0, if_pos (hiff.2 h0)]
  · rw [if_neg h0, if_neg (fun h' => h0 (hiff.1 h')), LR.fit_perm h (fun h1 => h0 (Or.inl h1))]

/-- Subset and model of a step on the two samples. -/
structure ltsSame (D D' : List ((Fin p → ℝ) × ℝ)) (h : ℕ) (s s' : List ℕ × LinModel p) : Prop where
  rows : (takeAt D s.1).Perm (takeAt D' s'.1)
  len : s.1.length = s'.1.length
  model : s.2 = s'.2
  cut : Spec.clearCut h (D.map fun d => |resid s.2 d|)

/-- Candidates on the two samples. -/
structure ltsSameCand (D D' : List ((Fin p → ℝ) × ℝ)) (h : ℕ) (c c' : LTSCand p) : Prop where
  rows : (takeAt D c.subset).Perm (takeAt D' c'.subset)
  model : c.model = c'.model
  loss : c.loss = c'.loss
  cut : Spec.clearCut h (D.map fun d => |resid c.model d|)

variable {D D' : List ((Fin p → ℝ) × ℝ)} {h : ℕ}

theorem ltsSubset_same (srt : ArgSort ℝ) (hD : D.Perm D') {m : LinModel p} (hc : Spec.clearCut h (D.map fun d => |resid m d|)) :
    (takeAt D (ltsSubset srt D h m)).Perm (takeAt D' (ltsSubset srt D' h m)) ∧
      (ltsSubset srt D h m).length = (ltsSubset srt D' h m).length := by
  refine ⟨takeAt_cut_perm srt hD _ hc, ?_⟩
  unfold ltsSubset
  rw [List.length_take, List.length_take, srt.length, srt.length, List.length_map, List.length_map, hD.length_eq]

theorem ltsLoss_same {s s' : List ℕ × LinModel p} (hs : ltsSame D D' h s s') : ltsLoss D s.1 s.2 = ltsLoss D' s'.1 s'.2 := by
  unfold ltsLoss
  rw [ssr_perm hs.rows, hs.model, hs.len]

theorem ltsCStep_same (LR : LinReg p) (srt : ArgSort ℝ) (hD : D.Perm D') (hn : h ≤ D.length) (hties : Spec.noTies LR D h) {m : LinModel p}
    (hc : Spec.clearCut h (D.map fun d => |resid m d|)) :
    Spec.sameExcept (ltsSame D D' h) (ltsCStep LR srt D h m) (ltsCStep LR srt D' h m) := by
  obtain ⟨h1, h2⟩ := ltsSubset_same srt hD hc
  unfold ltsCStep
  rw [lrFit_perm LR h1]
  refine sameExcept_map (sameExcept_refl (R := Eq) _ fun _ => rfl) fun x y hx _ hxy => ⟨h1, h2, hxy, ?_⟩
  obtain ⟨-, -, rfl⟩ := lrFit_ok hx
  have hp := ltsSubset_positions srt D hn m
  exact hties _ hp.nodup hp.lt (Or.inr hp.length)

theorem ltsCSteps_same (LR : LinReg p) (srt : ArgSort ℝ) (hD : D.Perm D') (hn : h ≤ D.length) (hties : Spec.noTies LR D h) (k : ℕ)
    {s s' : List ℕ × LinModel p} (hs : ltsSame D D' h s s') :
    Spec.sameExcept (ltsSame D D' h) (ltsCSteps LR srt D h k s) (ltsCSteps LR srt D' h k s') := by
  induction k generalizing s s' with
  | zero => exact hs
  | succ k ih =>
    unfold ltsCSteps
    rw [← hs.model]
    exact sameExcept_bind (ltsCStep_same LR srt hD hn hties hs.cut) fun x y _ _ hxy => ih hxy

theorem ltsInitial_same (LR : LinReg p) (srt : ArgSort ℝ) (ch ch' : Choice ℕ) (cfg : LTSConfig) (hD : D.Perm D') (hh : D.length < p + 1 ∨ h ≤ D.length)
    (hties : Spec.noTies LR D h) (iw : Option (LinModel p)) (hiw : ∀ m, iw = some m → Spec.clearCut h (D.map fun d => |resid m d|)) (i : ℕ)
    (hdraw : (takeAt D (ch.pick (cfg.randomState + i) D.length (p + 1))).Perm (takeAt D' (ch'.pick (cfg.randomState + i) D'.length (p + 1)))) :
    Spec.sameExcept (ltsSameCand D D' h) (ltsInitial LR srt ch cfg D h iw i) (ltsInitial LR srt ch' cfg D' h iw i) := by
  unfold ltsInitial
  rw [← hD.length_eq] at hdraw ⊢
  split_ifs with hlen
  · exact rfl
  · have hn : h ≤ D.length := hh.resolve_left hlen
    rw [lrFit_perm LR hdraw]
    refine sameExcept_bind (sameExcept_refl (R := Eq) _ fun _ => rfl) fun m0 m0' hm0 _ hm => ?_
    subst hm
    have hcut : Spec.clearCut h (D.map fun d => |resid (iw.getD m0) d|) := by
      rcases iw with _ | m
      · obtain ⟨-, -, rfl⟩ := lrFit_ok hm0
        have hle : p + 1 ≤ D.length := by omega
        exact hties _ (ch.nodup _ _ _ hle) (ch.lt _ _ _ hle) (Or.inl (ch.length _ _ _ hle))
      · exact hiw m rfl
    obtain ⟨h1, h2⟩ := ltsSubset_same srt hD hcut
    refine sameExcept_map (ltsCSteps_same LR srt hD hn hties cfg.nInitialCSteps ⟨h1, h2, rfl, hcut⟩) fun x y _ _ hxy => ?_
    exact ⟨hxy.rows, hxy.model, ltsLoss_same hxy, hxy.cut⟩

theorem ltsConverge_same (LR : LinReg p) (srt : ArgSort ℝ) (hD : D.Perm D') (hn : h ≤ D.length) (hties : Spec.noTies LR D h) (tol : ℝ)
    (fuel : ℕ) (m : LinModel p) (loss : ℝ) (hc : Spec.clearCut h (D.map fun d => |resid m d|)) :
    Spec.sameRun (ltsSameCand D D' h) (ltsConverge LR srt D h tol fuel m loss) (ltsConverge LR srt D' h tol fuel m loss) := by
  unfold ltsConverge
  induction fuel generalizing m loss with
  | zero => trivial
  | succ fuel ih =>
    unfold runLoop ltsStep
    have h1 := ltsCStep_same LR srt hD hn hties hc
    simp only
    rcases e1 : ltsCStep LR srt D h m with e | r <;> rcases e2 : ltsCStep LR srt D' h m with e' | r' <;> rw [e1, e2] at h1
    · exact h1
    · exact h1.elim
    · exact h1.elim
    · have h2 : ltsSame D D' h r r' := h1
      simp only [Except.map]
      rw [← ltsLoss_same h2]
      by_cases ht : loss - ltsLoss D r.1 r.2 ≤ tol
      · simp only [if_pos ht]
        exact ⟨h2.rows, h2.model, rfl, h2.cut⟩
      · simp only [if_neg ht]
        rw [← h2.model]
        exact ih r.2 _ h2.cut

theorem ltsImprove_same (LR : LinReg p) (srt : ArgSort ℝ) (hD : D.Perm D') (hn : h ≤ D.length) (hties : Spec.noTies LR D h) (tol : ℝ)
    (fuel : ℕ) {l l' : List (LTSCand p)} (hl : List.Forall₂ (ltsSameCand D D' h) l l') {b b' : LTSCand p} (hb : ltsSameCand D D' h b b') :
    Spec.sameRun (ltsSameCand D D' h) (ltsImprove LR srt D h tol fuel l b) (ltsImprove LR srt D' h tol fuel l' b') := by
  induction hl generalizing b b' with
  | nil => exact hb
  | cons hc hl ih =>
    unfold ltsImprove
    rw [← hc.model, ← hc.loss]
    refine sameRun_andThen (ltsConverge_same LR srt hD hn hties tol fuel _ _ hc.cut) fun x y _ _ hxy => ?_
    refine ih ?_
    rw [← hxy.loss, ← hb.loss]
    split_ifs
    · exact hxy
    · exact hb

theorem takeAt_forall₂ {α β : Type} {R : α → β → Prop} {l : List α} {l' : List β} (hl : List.Forall₂ R l l') (idx : List ℕ) :
    List.Forall₂ R (takeAt l idx) (takeAt l' idx) := by
  have hget : ∀ i : ℕ, (l[i]? = none ∧ l'[i]? = none) ∨ ∃ a b, l[i]? = some a ∧ l'[i]? = some b ∧ R a b := by
    induction hl with
    | nil => intro i; exact Or.inl ⟨rfl, rfl⟩
    | cons h _ ih =>
      intro i
      rcases i with _ | i
      · exact Or.inr ⟨_, _, rfl, rfl, h⟩
      · simpa using ih i
  unfold takeAt
  induction idx with
  | nil => exact .nil
  | cons i idx ih =>
    rcases hget i with ⟨h1, h2⟩ | ⟨a, b, h1, h2, hab⟩
    · rw [List.filterMap_cons_none h1, List.filterMap_cons_none h2]
      exact ih
    · rw [List.filterMap_cons_some h1, List.filterMap_cons_some h2]
      exact .cons hab ih

theorem losses_same {l l' : List (LTSCand p)} (hl : List.Forall₂ (ltsSameCand D D' h) l l') : l.map LTSCand.loss = l'.map LTSCand.loss := by
  induction hl with
  | nil => rfl
  | cons h1 _ ih => rw [List.map_cons, List.map_cons, ih, h1.loss]

theorem ltsSearch_same (LR : LinReg p) (srt : ArgSort ℝ) (ch ch' : Choice ℕ) (cfg : LTSConfig) (hD : D.Perm D')
    (hties : ∀ h, ltsH cfg.alpha D.length p = .ok h → Spec.noTies LR D h)
    (iw : Option (LinModel p)) (hiw : ∀ h, ltsH cfg.alpha D.length p = .ok h → ∀ m, iw = some m → Spec.clearCut h (D.map fun d => |resid m d|))
    (hdraw : ∀ i < cfg.nInitialSubsets, (takeAt D (ch.pick (cfg.randomState + i) D.length (p + 1))).Perm
      (takeAt D' (ch'.pick (cfg.randomState + i) D'.length (p + 1)))) (fuel : ℕ) :
    Spec.sameRun (fun c c' => (takeAt D c.subset).Perm (takeAt D' c'.subset) ∧ c.model = c'.model ∧ c.loss = c'.loss)
      (ltsSearch LR srt ch cfg D iw fuel) (ltsSearch LR srt ch' cfg D' iw fuel) := by
  unfold ltsSearch
  rw [← hD.length_eq]
  refine sameRun_andThen (R := Eq) (sameExcept_refl _ fun _ => rfl) fun h h' hh _ heq => ?_
  subst heq
  have hk : ltsH cfg.alpha D.length p = .ok h := Option.some.inj hh
  have hle : D.length < p + 1 ∨ h ≤ D.length := by
    by_cases hn : p + 1 ≤ D.length
    · exact Or.inr ((ltsH_le hk).2 hn)
    · exact Or.inl (by omega)
  refine sameRun_andThen (R := List.Forall₂ (ltsSameCand D D' h)) ?_ fun l l' hl _ hll => ?_
  · refine sameExcept_mapExcept (R := Eq) (List.forall₂_same.2 fun _ _ => rfl) fun i hi j _ hij => ?_
    subst hij
    exact ltsInitial_same LR srt ch ch' cfg hD hle (hties h hk) iw (hiw h hk) i (hdraw i (List.mem_range.1 hi))
  · have hloss := losses_same hll
    rw [← hloss]
    have hsel := takeAt_forall₂ hll ((srt.toFun (l.map LTSCand.loss)).take cfg.nBestModels)
    have hne : takeAt l ((srt.toFun (l.map LTSCand.loss)).take cfg.nBestModels) ≠ [] → h ≤ D.length := by
      intro hne
      refine hle.resolve_left fun hlt => ?_
      have hok : mapExcept (ltsInitial LR srt ch cfg D h iw) (List.range cfg.nInitialSubsets) = .ok l := Option.some.inj hl
      obtain ⟨c, hc⟩ := List.exists_mem_of_ne_nil _ hne
      obtain ⟨i, -, hi⟩ := mapExcept_mem hok c (mem_takeAt hc)
      unfold ltsInitial at hi
      rw [if_pos hlt] at hi
      simp at hi
    generalize takeAt l ((srt.toFun (l.map LTSCand.loss)).take cfg.nBestModels) = s at *
    generalize takeAt l' ((srt.toFun (l.map LTSCand.loss)).take cfg.nBestModels) = s' at *
    rcases hsel with _ | ⟨h1, h2⟩
    · exact rfl
    · have := ltsImprove_same LR srt hD (hne (by simp)) (hties h hk) cfg.tolerance fuel (.cons h1 h2) h1
      simp only
      generalize ltsImprove LR srt D h cfg.tolerance fuel _ _ = r at *
      generalize ltsImprove LR srt D' h cfg.tolerance fuel _ _ = r' at *
      rcases r with _ | (e | c) <;> rcases r' with _ | (e' | c') <;> first | exact this | exact this.elim | skip
      exact ⟨this.rows, this.model, this.loss⟩

/-! ## Reweighting -/

theorem npStd_perm {l l' : List ℝ} (h : l.Perm l') : npStd l = npStd l' := by
  unfold npStd
  rw [h.sum_eq, h.length_eq, (h.map _).sum_eq]

theorem ltsMask_same (q : ℝ) (hD : D.Perm D') (m : LinModel p) :
    (takeAt D (ltsMask q D m)).Perm (takeAt D' (ltsMask q D' m)) ∧ (ltsMask q D m).length = (ltsMask q D' m).length := by
  have hf : ∀ E : List ((Fin p → ℝ) × ℝ), (takeAt E (ltsMask q E m)).Perm
      (E.filter fun d => ltsKeep q (npStd (E.map (resid m))) (resid m d)) := by
    intro E
    refine takeAt_filter_pred (fun d => ltsKeep q (npStd (E.map (resid m))) (resid m d)) E _ (List.Perm.refl _) _ fun i hi => ?_
    rw [List.getElem?_eq_getElem hi]
    rfl
  have hrows : (takeAt D (ltsMask q D m)).Perm (takeAt D' (ltsMask q D' m)) := by
    refine (hf D).trans (List.Perm.trans ?_ (hf D').symm)
    rw [npStd_perm (hD.map (resid m))]
    exact hD.filter _
  refine ⟨hrows, ?_⟩
  have hlen : ∀ E : List ((Fin p → ℝ) × ℝ), (takeAt E (ltsMask q E m)).length = (ltsMask q E m).length := fun E =>
    takeAt_length _ _ fun i hi => List.mem_range.1 (List.mem_of_mem_filter hi)
  rw [← hlen, ← hlen, hrows.length_eq]

/-- **C194** (full statement): if every start draws the same observations, the order of the rows does not matter to FastLTS. -/
def C194_statement : Prop :=
  ∀ (p : ℕ) (LR : LinReg p) (srt : ArgSort ℝ) (ch ch' : Choice ℕ) (q : ℝ) (corr corrRew : ℕ → ℕ → ℝ → Option ℝ) (cfg : LTSConfig)
    (st : LTSState p) (D D' : List ((Fin p → ℝ) × ℝ)) (fuel : ℕ), D.Perm D' → st.bestH = none →
    (∀ i < cfg.nInitialSubsets, (takeAt D (ch.pick (cfg.randomState + i) D.length (p + 1))).Perm
      (takeAt D' (ch'.pick (cfg.randomState + i) D'.length (p + 1)))) →
    Spec.sameLTS D D' (ltsFit LR srt ch q corr corrRew cfg st D none fuel) (ltsFit LR srt ch' q corr corrRew cfg st D' none fuel)

/-- **C194** (partial): the statement for samples without ties at the `h`-th residual, with or without initial weights and reweighting.
Missing: samples with ties, see `C194_violated`. -/
theorem C194_order_partial (LR : LinReg p) (srt : ArgSort ℝ) (ch ch' : Choice ℕ) (q : ℝ) (corr corrRew : ℕ → ℕ → ℝ → Option ℝ)
    (cfg : LTSConfig) (st : LTSState p) (hst : st.bestH = none) (D D' : List ((Fin p → ℝ) × ℝ)) (hD : D.Perm D')
    (hties : ∀ h, ltsH cfg.alpha D.length p = .ok h → Spec.noTies LR D h)
    (iw : Option (LinModel p))
    (hiw : ∀ h, ltsH cfg.alpha D.length p = .ok h → ∀ m, iw = some m →
      Spec.clearCut h (D.map fun d => |d.2 - (m.intercept + ∑ j, d.1 j * m.coef j)|))
    (hdraw : ∀ i < cfg.nInitialSubsets, (takeAt D (ch.pick (cfg.randomState + i) D.length (p + 1))).Perm
      (takeAt D' (ch'.pick (cfg.randomState + i) D'.length (p + 1)))) (fuel : ℕ) :
    Spec.sameLTS D D' (ltsFit LR srt ch q corr corrRew cfg st D iw fuel) (ltsFit LR srt ch' q corr corrRew cfg st D' iw fuel) := by
  have hs := ltsSearch_same LR srt ch ch' cfg hD hties iw hiw hdraw fuel
  unfold ltsFit
  rw [← hD.length_eq]
  generalize ltsSearch LR srt ch cfg D iw fuel = r at *
  generalize ltsSearch LR srt ch' cfg D' iw fuel = r' at *
  rcases r with _ | (e | c) <;> rcases r' with _ | (e' | c') <;> first | exact hs.elim | skip
  · trivial
  · refine ⟨?_, rfl, rfl, ?_⟩
    · rw [show e = e' from hs]
    · rw [hst]
      exact .none
  · obtain ⟨h1, h2, h3⟩ := hs
    simp only
    rw [← h2, ← h3]
    obtain ⟨hm1, hm2⟩ := ltsMask_same q hD c.model
    split_ifs
    · rw [lrFit_perm LR hm1]
      rcases lrFit LR (takeAt D (ltsMask q D c.model)) with e | m
      · exact ⟨rfl, rfl, rfl, .some h1⟩
      · refine ⟨rfl, rfl, ?_, .some h1⟩
        simp only
        unfold ltsLoss
        rw [ssr_perm hm1, hm2]
    · exact ⟨rfl, rfl, rfl, .some h1⟩

/-! ## Ties decide -/

/-- Three observations at the origin with the targets `b`, `-b` and 0. -/
def c194Data (b : ℝ) : List ((Fin 1 → ℝ) × ℝ) := [(0, b), (0, -b), (0, 0)]

theorem c194_h : ltsH c57Cfg.alpha 3 1 = .ok 2 := by
  unfold ltsH
  rw [if_neg (by norm_num [c57Cfg])]
  congr 1
  have : ⌊((3 : ℕ) : ℝ) * c57Cfg.alpha⌋₊ = 1 := by
    rw [Nat.floor_eq_iff (by norm_num [c57Cfg])]
    constructor <;> norm_num [c57Cfg]
  rw [this]
  rfl

/-- The search on the three observations ends with a fit that is not zero. -/
theorem c194_search (LR : LinReg 1) (srt : ArgSort ℝ) (ch : Choice ℕ) (hch : ∀ s, ch.pick s 3 2 = [0, 1]) (best : LTSCand 1)
    (hb : ltsSearch LR srt ch c57Cfg (c194Data 1) none 9 = some (.ok best)) : best.model.intercept ≠ 0 := by
  intro h0
  obtain ⟨h, hh, hpos, hls, hloss, -⟩ := C98_least_squares LR srt ch c57Cfg (c194Data 1) none 9 best hb
  obtain rfl : 2 = h := Except.ok.inj (c194_h.symm.trans hh)
  obtain ⟨h', cands, hh', hlen, hini, hle, -⟩ := C51_best LR srt ch c57Cfg (c194Data 1) none 9 best hb
  obtain rfl : 2 = h' := Except.ok.inj (c194_h.symm.trans hh')
  obtain ⟨c, hc⟩ : ∃ c, cands[0]? = some c := ⟨_, List.getElem?_eq_getElem (by rw [hlen]; simp [c57Cfg])⟩
  have hci := hini 0 c hc
  have hfit : LR.fit (takeAt (c194Data 1) [0, 1]) = ⟨0, 0⟩ := by
    rw [fit_origin LR (by simp [takeAt, c194Data]) (by simp [takeAt, c194Data])]
    ext
    · simp [takeAt, c194Data]
    · rfl
  have hcl : c.loss ≤ 1 / 2 := by
    unfold ltsInitial at hci
    rw [if_neg (by simp [c194Data])] at hci
    rw [show (c194Data 1).length = 3 from rfl, hch, lrFit_of LR (by simp [takeAt, c194Data]) (by norm_num), hfit] at hci
    simp only [Except.bind, Option.getD_none, c57Cfg, ltsCSteps, Except.map] at hci
    obtain rfl := Except.ok.inj hci
    simp only
    rw [ltsLoss_subset srt _ (by simp [c194Data])]
    refine (ltsObjective_le (c194Data 1) (h := 2) _ (J := [0, 2]) ⟨by simp, rfl, by simp [c194Data]⟩).trans ?_
    simp [ltsLoss, ssr, takeAt, c194Data, resid, LinModel.predict]
  have hbl := (hle c (List.mem_of_getElem? hc)).trans hcl
  rcases hm : best.model with ⟨a, cf⟩
  obtain ⟨i, j, hS⟩ := List.length_eq_two.1 hpos.length
  have hij : i ≠ j := by
    have := hpos.nodup
    rw [hS] at this
    simpa using this
  have hi : i < 3 := hpos.lt i (by rw [hS]; simp)
  have hj : j < 3 := hpos.lt j (by rw [hS]; simp)
  have k1 := hls (1 / 2) 0
  have k2 := hls (-(1 / 2)) 0
  rw [hm] at h0 k1 k2 hloss
  simp only at h0
  subst h0
  rw [hS] at k1 k2 hloss
  rw [hloss] at hbl
  unfold Spec.sumSq at k1 k2 hbl
  interval_cases i <;> interval_cases j <;> first | exact absurd rfl hij | skip
  all_goals
    simp only [takeAt, c194Data, List.filterMap_cons, List.filterMap_nil, List.getElem?_cons_zero, List.getElem?_cons_succ, List.map_cons,
      List.map_nil, List.sum_cons, List.sum_nil, Pi.zero_apply, zero_mul, Finset.sum_const_zero] at k1 k2 hbl
    try norm_num at k1
    try norm_num at k2
    try norm_num at hbl

theorem c194_swap : (c194Data 1).Perm (c194Data (-1)) := by
  unfold c194Data
  rw [neg_neg]
  exact List.Perm.swap _ _ _

theorem c194_swap_draw (s : ℕ) : (takeAt (c194Data 1) (choiceFirst.pick s (c194Data 1).length (1 + 1))).Perm
    (takeAt (c194Data (-1)) (choiceFirst.pick s (c194Data (-1)).length (1 + 1))) := by
  have h : ∀ b, takeAt (c194Data b) (choiceFirst.pick s (c194Data b).length (1 + 1)) = [(0, b), (0, -b)] := fun b => rfl
  rw [h, h, neg_neg]
  exact List.Perm.swap _ _ _

theorem c194_neg : Spec.regData (-1) 0 0 (c194Data 1) = c194Data (-1) := by
  simp [Spec.regData, c194Data]

theorem C194_violated : ¬ C194_statement := by
  intro hst
  have hfit := hst 1 (linRegExists 1) (argsortStable ℝ) choiceFirst choiceFirst 2.5 (fun _ _ _ => some 1) (fun _ _ _ => some 1) c57Cfg
    ⟨none, none, none⟩ (c194Data 1) (c194Data (-1)) 9 c194_swap rfl (fun i _ => c194_swap_draw _)
  have heq := C57_scale_shift_partial (linRegExists 1) (argsortStable ℝ) argsortStable_comparesOnly (-1) (by norm_num) 0 (c194Data 1)
    choiceFirst 2.5 (fun _ _ _ => some 1) (fun _ _ _ => some 1) c57Cfg ⟨none, none, none⟩ none 9
  have hcfg : { c57Cfg with tolerance := (-1 : ℝ) ^ 2 * c57Cfg.tolerance } = c57Cfg := by
    rw [show ((-1 : ℝ) ^ 2 * c57Cfg.tolerance) = c57Cfg.tolerance by ring]
  rw [hcfg, c194_neg] at heq
  have hout := (C99_search_outcome (linRegExists 1) (argsortStable ℝ) choiceFirst c57Cfg (c194Data 1) none (by norm_num [c57Cfg]) 9
    (by simp [c194Data])).2 ⟨by norm_num [c57Cfg], by norm_num [c57Cfg]⟩
  obtain ⟨best, hbest⟩ := ((hout.2 (by simp [c57Cfg])).2 ⟨by norm_num, by simp [c194Data]⟩).2 (by simp [c57Cfg])
  have hne := c194_search (linRegExists 1) (argsortStable ℝ) choiceFirst (fun _ => rfl) best hbest
  have hf : ∃ st1, ltsFit (linRegExists 1) (argsortStable ℝ) choiceFirst 2.5 (fun _ _ _ => some 1) (fun _ _ _ => some 1) c57Cfg
      ⟨none, none, none⟩ (c194Data 1) none 9 = some (.ok (), st1) ∧ st1.model = some best.model :=
    ⟨_, by unfold ltsFit; rw [hbest]; rfl, rfl⟩
  obtain ⟨st1, hf1, hf2⟩ := hf
  change ltsFit _ _ _ _ _ _ _ ⟨none, none, none⟩ _ none _ = _ at heq
  rw [heq, hf1] at hfit
  have hmod := hfit.2.1
  simp only [Spec.regState, hf2, Option.map_some, Option.some.injEq] at hmod
  have := congrArg LinModel.intercept hmod
  simp only [Spec.regModel] at this
  exact hne (by linarith)

/-! ## Examples -/

/-- Three points that are not on a line. -/
def c194Line : List ((Fin 1 → ℝ) × ℝ) := [(![0], 0), (![1], 1), (![3], 5)]

theorem c194_noTies (LR : LinReg 1) : Spec.noTies LR c194Line 2 := by
  intro H hnd hlt hlen
  have hl : H.length = 2 := hlen.elim id id
  obtain ⟨i, j, rfl⟩ := List.length_eq_two.1 hl
  have hij : i ≠ j := by simpa using hnd
  have hi : i < 3 := hlt i (by simp)
  have hj : j < 3 := hlt j (by simp)
  have hmin : ∀ m, ssr (takeAt c194Line [i, j]) (LR.fit (takeAt c194Line [i, j])) ≤ ssr (takeAt c194Line [i, j]) m :=
    LR.isMin _ (by interval_cases i <;> interval_cases j <;> simp [takeAt, c194Line])
  generalize LR.fit (takeAt c194Line [i, j]) = m at hmin ⊢
  have k1 := hmin ⟨0, ![1]⟩
  have k2 := hmin ⟨0, ![5 / 3]⟩
  have k3 := hmin ⟨-1, ![2]⟩
  refine ⟨0, ?_⟩
  have hz : ∀ {x y : ℝ}, x ^ 2 + y ^ 2 ≤ 0 → x = 0 ∧ y = 0 := fun {x y} h => by
    constructor <;> nlinarith [sq_nonneg x, sq_nonneg y]
  interval_cases i <;> interval_cases j <;> first | exact absurd rfl hij | skip
  all_goals
    simp only [ssr, takeAt, c194Line, resid, LinModel.predict, List.filterMap_cons, List.filterMap_nil, List.getElem?_cons_zero,
      List.getElem?_cons_succ, List.map_cons, List.map_nil, List.sum_cons, List.sum_nil, Finset.univ_unique, Fin.default_eq_zero,
      Finset.sum_singleton, Matrix.cons_val_zero, Matrix.cons_val_fin_one] at k1 k2 k3
    norm_num at k1 k2 k3
    first
      | obtain ⟨e1, e2⟩ := hz k1
      | obtain ⟨e1, e2⟩ := hz k2
      | obtain ⟨e1, e2⟩ := hz k3
    have hm : (m.intercept = 0 ∧ m.coef 0 = 1) ∨ (m.intercept = 0 ∧ m.coef 0 = 5 / 3) ∨ (m.intercept = -1 ∧ m.coef 0 = 2) := by
      first
        | exact Or.inl ⟨by linarith, by linarith⟩
        | exact Or.inr (Or.inl ⟨by linarith, by linarith⟩)
        | exact Or.inr (Or.inr ⟨by linarith, by linarith⟩)
    rcases hm with ⟨g1, g2⟩ | ⟨g1, g2⟩ | ⟨g1, g2⟩ <;> norm_num [c194Line, g1, g2]

/-- Fitting the three points in another order, with the draws that correspond, gives the same model and the same scale. -/
example (LR : LinReg 1) (srt : ArgSort ℝ) (ch : Choice ℕ) (q : ℝ) (corr corrRew : ℕ → ℕ → ℝ → Option ℝ) (fuel : ℕ) :
    ∃ ch' : Choice ℕ, Spec.sameLTS c194Line [(![3], 5), (![1], 1), (![0], 0)]
      (ltsFit LR srt ch q corr corrRew { c57Cfg with nInitialSubsets := 500, nInitialCSteps := 2, nBestModels := 10, reweighting := true }
        ⟨none, none, none⟩ c194Line none fuel)
      (ltsFit LR srt ch' q corr corrRew { c57Cfg with nInitialSubsets := 500, nInitialCSteps := 2, nBestModels := 10, reweighting := true }
        ⟨none, none, none⟩ [(![3], 5), (![1], 1), (![0], 0)] none fuel) := by
  have hp : [((![3] : Fin 1 → ℝ), (5 : ℝ)), (![1], 1), (![0], 0)].Perm c194Line := List.reverse_perm c194Line
  obtain ⟨ch', hch⟩ := corresponding_draws ch hp
  refine ⟨ch', C194_order_partial LR srt ch ch' q corr corrRew _ _ rfl _ _ hp.symm ?_ none (fun _ _ m hm => by simp at hm) ?_ fuel⟩
  · intro h hh
    obtain rfl : 2 = h := Except.ok.inj (c194_h.symm.trans hh)
    exact c194_noTies LR
  · intro i _
    rw [hch]

end Robpy
