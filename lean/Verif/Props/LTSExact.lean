import Verif.Props.LTSBreakdown

/-! C177: FastLTS when a majority of the observations lies exactly on a hyperplane. -/

namespace Robpy
open Matrix

/-- The hyperplane of `m` passes through all observations of `G`. -/
def Spec.exactOn {p : ℕ} (m : LinModel p) (G : List ((Fin p → ℝ) × ℝ)) : Prop := ∀ d ∈ G, d.2 = m.intercept + ∑ j, d.1 j * m.coef j

/-- Full statement: if the good observations lie on a hyperplane, FastLTS reports this hyperplane. -/
def C177_statement : Prop :=
  ∀ (p : ℕ) (LR : LinReg p) (q : ℝ) (corr corrRew : ℕ → ℕ → ℝ → Option ℝ) (G : List ((Fin p → ℝ) × ℝ)) (m0 : LinModel p),
    2 ≤ q → Spec.RowsInGeneralPosition (G.map Prod.fst) → Spec.exactOn m0 G → ∀ (srt : ArgSort ℝ) (ch : Choice ℕ) (cfg : LTSConfig)
      (X O : List ((Fin p → ℝ) × ℝ)) (st st' : LTSState p) (fuel : ℕ), Spec.ltsSetting ch cfg X O G →
      ltsFit LR srt ch q corr corrRew cfg st X none fuel = some (.ok (), st') → st'.model = some m0

section
variable {p : ℕ}

theorem resid_exact {m : LinModel p} {G : List ((Fin p → ℝ) × ℝ)} (h : Spec.exactOn m G) {d : (Fin p → ℝ) × ℝ} (hd : d ∈ G) :
    resid m d = 0 := sub_eq_zero.2 (h d hd)

theorem ssr_exact {m : LinModel p} {G : List ((Fin p → ℝ) × ℝ)} (h : Spec.exactOn m G) : ssr G m = 0 :=
  List.sum_eq_zero fun z hz => by
    obtain ⟨d, hd, rfl⟩ := List.mem_map.1 hz
    simp [resid_exact h hd]

theorem resid_zero_of_ssr {m : LinModel p} {S : List ((Fin p → ℝ) × ℝ)} (h : ssr S m ≤ 0) {d : (Fin p → ℝ) × ℝ} (hd : d ∈ S) :
    resid m d = 0 := by
  have h1 : resid m d ^ 2 ≤ ssr S m := List.single_le_sum (by
    intro z hz
    obtain ⟨y, -, rfl⟩ := List.mem_map.1 hz
    exact sq_nonneg _) _ (List.mem_map.2 ⟨d, hd, rfl⟩)
  exact pow_eq_zero_iff two_ne_zero |>.1 (le_antisymm (h1.trans h) (sq_nonneg _))

/-- Two hyperplanes which share more than `p` points in general position are equal. -/
theorem exact_unique {G : List ((Fin p → ℝ) × ℝ)} (hG : Spec.RowsInGeneralPosition (G.map Prod.fst)) {m0 m : LinModel p}
    (h0 : Spec.exactOn m0 G) (hm : p + 1 ≤ G.countP (fun d => decide (resid m d = 0))) : m = m0 := by
  have hcoef : m.coef = m0.coef := by
    by_contra hne
    have hv : m.coef - m0.coef ≠ 0 := sub_ne_zero.2 hne
    have h1 := hG (m.coef - m0.coef) hv (m0.intercept - m.intercept)
    rw [List.countP_map] at h1
    have h2 : G.countP (fun d => decide (resid m d = 0)) ≤
        G.countP ((fun x => decide (x ⬝ᵥ (m.coef - m0.coef) = m0.intercept - m.intercept)) ∘ Prod.fst) := by
      refine List.countP_mono_left fun d hd hr => ?_
      simp only [Function.comp, decide_eq_true_eq] at hr ⊢
      have h3 := resid_exact h0 hd
      rw [resid_dot] at hr h3
      rw [dotProduct_sub]
      linarith
    omega
  obtain ⟨d, hd, hr⟩ := List.countP_pos_iff.1 (lt_of_lt_of_le (Nat.succ_pos p) hm)
  have hr : resid m d = 0 := by simpa using hr
  have h3 := resid_exact h0 hd
  rw [resid_dot] at hr h3
  rw [hcoef] at hr
  cases m; cases m0
  simp only at hcoef hr h3 ⊢
  subst hcoef
  congr 1
  linarith

/-- The loss of the best candidate is at most the objective of each start (as `C51_each_start`, for the loss). -/
theorem loss_le_start (LR : LinReg p) (srt : ArgSort ℝ) (ch : Choice ℕ) (cfg : LTSConfig) (D : List ((Fin p → ℝ) × ℝ))
    (iw : Option (LinModel p)) (fuel : ℕ) (best : LTSCand p) (hb : ltsSearch LR srt ch cfg D iw fuel = some (.ok best)) (i : ℕ)
    (hi : i < cfg.nInitialSubsets) : ∃ h, ltsH cfg.alpha D.length p = .ok h ∧
      best.loss ≤ Spec.ltsObjective h D (iw.getD (LR.fit (takeAt D (ch.pick (cfg.randomState + i) D.length (p + 1))))) := by
  obtain ⟨h, cands, k1, k2, k3, k4, -⟩ := C51_best LR srt ch cfg D iw fuel best hb
  refine ⟨h, k1, ?_⟩
  obtain ⟨c, hc⟩ : ∃ c, cands[i]? = some c := ⟨_, List.getElem?_eq_getElem (by omega)⟩
  have hci := k3 i c hc
  refine (k4 c (List.mem_of_getElem? hc)).trans ?_
  unfold ltsInitial at hci
  split_ifs at hci with hn
  have hh : h ≤ D.length := (ltsH_le k1).2 (by omega)
  rcases hl : lrFit LR (takeAt D (ch.pick (cfg.randomState + i) D.length (p + 1))) with e | m0
  · rw [hl] at hci; simp [Except.bind] at hci
  · rw [hl] at hci
    obtain ⟨-, -, rfl⟩ := lrFit_ok hl
    simp only [Except.bind] at hci
    set m := iw.getD (LR.fit (takeAt D (ch.pick (cfg.randomState + i) D.length (p + 1))))
    rcases hs : ltsCSteps LR srt D h cfg.nInitialCSteps (ltsSubset srt D h m, m) with e | t
    · rw [hs] at hci; simp [Except.map] at hci
    · rw [hs] at hci
      obtain rfl := Except.ok.inj hci
      obtain ⟨-, -, g3⟩ := ltsCSteps_ok hh hs (ltsSubset_positions srt D hh _) (Or.inr rfl)
      exact g3.trans (ltsLoss_subset srt D hh m).le

/-- **C177**, the search: it ends with the exact hyperplane and loss 0. -/
theorem C177_search (LR : LinReg p) (srt : ArgSort ℝ) (ch : Choice ℕ) (cfg : LTSConfig) {G : List ((Fin p → ℝ) × ℝ)}
    (hG : Spec.RowsInGeneralPosition (G.map Prod.fst)) {m0 : LinModel p} (h0 : Spec.exactOn m0 G) (X O : List ((Fin p → ℝ) × ℝ))
    (fuel : ℕ) (best : LTSCand p) (hset : Spec.ltsSetting ch cfg X O G) (hb : ltsSearch LR srt ch cfg X none fuel = some (.ok best)) :
    best.model = m0 ∧ best.loss = 0 := by
  obtain ⟨hX, hh, i, hi, hsub⟩ := hset
  obtain ⟨h, e1, hloss⟩ := loss_le_start LR srt ch cfg X none fuel best hb i hi
  obtain ⟨h', e1', -, -, hl, hobj⟩ := C98_least_squares LR srt ch cfg X none fuel best hb
  rw [e1] at e1'
  obtain rfl := Except.ok.inj e1'
  obtain ⟨hh1, hh2⟩ := hh h e1
  have hlen : X.length = O.length + G.length := by simpa using hX.length_eq
  rw [Option.getD_none] at hloss
  set S := takeAt X (ch.pick (cfg.randomState + i) X.length (p + 1)) with hS
  have hSl : S.length = p + 1 := by
    rw [hS, takeAt_length _ _ (ch.lt _ _ _ (by omega)), ch.length _ _ _ (by omega)]
  have hSne : S ≠ [] := by rintro h0; rw [h0] at hSl; simp at hSl
  have hfit : LR.fit S = m0 := by
    refine exact_unique hG h0 ?_
    have h1 : ssr S (LR.fit S) ≤ 0 := (LR.isMin S hSne m0).trans (ssr_exact fun d hd => h0 d (hsub.subset hd)).le
    have h2 : S.countP (fun d => decide (resid (LR.fit S) d = 0)) = p + 1 := by
      rw [← hSl]
      exact List.countP_eq_length.2 fun d hd => by simpa using resid_zero_of_ssr h1 hd
    rw [← h2]
    exact hsub.countP_le _
  have h1 : best.loss ≤ 0 := by
    rw [hfit] at hloss
    refine hloss.trans ((objective_le (r := 0) hX hh1 fun d hd => ?_).trans (by norm_num))
    rw [resid_exact h0 hd, abs_zero]
  have h2 : 0 ≤ best.loss := by
    rw [hl]
    exact div_nonneg (List.sum_nonneg (by
      intro z hz
      obtain ⟨y, -, rfl⟩ := List.mem_map.1 hz
      exact sq_nonneg _)) (Nat.cast_nonneg _)
  refine ⟨exact_unique hG h0 ?_, le_antisymm h1 h2⟩
  have h3 := count_of_objective (r := 0) hX hh1 hh2 le_rfl ((hobj.trans h1).trans (by norm_num))
  refine h3.trans (List.countP_mono_left fun d _ hd => ?_)
  simp only [decide_eq_true_eq] at hd ⊢
  have : Real.sqrt ((h : ℝ) * 0 ^ 2) = 0 := by norm_num
  rw [this] at hd
  exact abs_nonpos_iff.1 hd

/-- **C177** (partial: `reweighting=False`): the hyperplane is reported, with scale 0. -/
theorem C177_raw_partial (LR : LinReg p) (srt : ArgSort ℝ) (ch : Choice ℕ) (q : ℝ) (corr corrRew : ℕ → ℕ → ℝ → Option ℝ)
    (cfg : LTSConfig) {G : List ((Fin p → ℝ) × ℝ)} (hG : Spec.RowsInGeneralPosition (G.map Prod.fst)) {m0 : LinModel p}
    (h0 : Spec.exactOn m0 G) (X O : List ((Fin p → ℝ) × ℝ)) (st st' : LTSState p) (fuel : ℕ) (hset : Spec.ltsSetting ch cfg X O G)
    (hrew : cfg.reweighting = false) (hfit : ltsFit LR srt ch q corr corrRew cfg st X none fuel = some (.ok (), st')) :
    st'.model = some m0 ∧ ∀ s, st'.scale_ = some (some s) → s = 0 := by
  unfold ltsFit at hfit
  rcases hs : ltsSearch LR srt ch cfg X none fuel with _ | (e | best)
  · simp [hs] at hfit
  · simp [hs] at hfit
  · simp only [hs, hrew] at hfit
    have hst := (Prod.mk.inj (Option.some.inj hfit)).2
    obtain ⟨b1, b2⟩ := C177_search LR srt ch cfg hG h0 X O fuel best hset hs
    rw [← hst, b1]
    refine ⟨rfl, fun s hs => ?_⟩
    rcases hc : corr p X.length cfg.alpha with _ | f
    · simp [hc] at hs
    · simp [hc, b2] at hs
      exact hs.symm

/-- **C177** (partial: with reweighting, if the residuals of all outliers exceed `q` standard deviations of the residuals). -/
theorem C177_reweighted_partial (LR : LinReg p) (srt : ArgSort ℝ) (ch : Choice ℕ) (q : ℝ) (hq : 0 ≤ q)
    (corr corrRew : ℕ → ℕ → ℝ → Option ℝ) (cfg : LTSConfig) {G : List ((Fin p → ℝ) × ℝ)}
    (hG : Spec.RowsInGeneralPosition (G.map Prod.fst)) {m0 : LinModel p} (h0 : Spec.exactOn m0 G) (X O : List ((Fin p → ℝ) × ℝ))
    (st st' : LTSState p) (fuel : ℕ) (hset : Spec.ltsSetting ch cfg X O G)
    (hO : ∀ d ∈ O, q * npStd (Spec.residuals X m0) < |d.2 - (m0.intercept + ∑ j, d.1 j * m0.coef j)|)
    (hrew : cfg.reweighting = true) (hfit : ltsFit LR srt ch q corr corrRew cfg st X none fuel = some (.ok (), st')) :
    st'.model = some m0 ∧ ∀ s, st'.scale_ = some (some s) → s = 0 := by
  unfold ltsFit at hfit
  rcases hs : ltsSearch LR srt ch cfg X none fuel with _ | (e | best)
  · simp [hs] at hfit
  · simp [hs] at hfit
  obtain ⟨b1, -⟩ := C177_search LR srt ch cfg hG h0 X O fuel best hset hs
  rw [hs] at hfit
  simp only [hrew, if_true, b1] at hfit
  rcases hl : lrFit LR (takeAt X (ltsMask q X m0)) with e | m
  · rw [hl] at hfit; simp at hfit
  rw [hl] at hfit
  have hst := (Prod.mk.inj (Option.some.inj hfit)).2
  obtain ⟨k1, -, rfl⟩ := lrFit_ok hl
  set kept := takeAt X (ltsMask q X m0) with hkept
  have hstd : npStd (X.map (resid m0)) ≠ 0 := by
    intro hz
    apply k1
    rw [hkept, takeAt_ltsMask, List.filter_eq_nil_iff, hz]
    simp [ltsKeep]
  have hpos : 0 < npStd (X.map (resid m0)) := lt_of_le_of_ne (Real.sqrt_nonneg _) (Ne.symm hstd)
  have hperm : kept.Perm G := by
    rw [hkept, takeAt_ltsMask]
    refine (hset.1.filter _).trans ?_
    rw [List.filter_append, (List.filter_eq_nil_iff (l := O)).2, List.nil_append, List.filter_eq_self.2]
    · intro d hd
      simp [ltsKeep, hstd, resid_exact h0 hd, hq]
    · intro d hd
      have := hO d hd
      simp only [ltsKeep, ne_eq, hstd, not_false_eq_true, decide_true, Bool.true_and, decide_eq_true_eq, abs_div, abs_of_pos hpos]
      rw [not_le, lt_div_iff₀ hpos]
      exact this
  have hex : Spec.exactOn m0 kept := fun d hd => h0 d (hperm.mem_iff.1 hd)
  have hz : ssr kept (LR.fit kept) ≤ 0 := (LR.isMin kept k1 m0).trans (ssr_exact hex).le
  obtain ⟨h, hh, -⟩ := C98_least_squares LR srt ch cfg X none fuel best hs
  have hm : LR.fit kept = m0 := by
    refine exact_unique hG h0 ?_
    have : kept.countP (fun d => decide (resid (LR.fit kept) d = 0)) = kept.length :=
      List.countP_eq_length.2 fun d hd => by simpa using resid_zero_of_ssr hz hd
    rw [hperm.countP_eq, hperm.length_eq] at this
    have := hset.2.1 h hh
    omega
  rw [← hst]
  refine ⟨by rw [hm], fun s hs => ?_⟩
  have hloss : ltsLoss X (ltsMask q X m0) (LR.fit kept) = 0 := by
    unfold ltsLoss
    rw [← hkept, hm, ssr_exact hex, zero_div]
  rcases hc : corrRew p X.length cfg.alpha with _ | f
  · simp [hc] at hs
  · simp [hc, hloss] at hs
    exact hs.symm

theorem npStd_one {r : ℝ} {l : List ℝ} {k : ℕ} (hl : l.Perm (r :: List.replicate k 0)) :
    npStd l ^ 2 * ((k : ℝ) + 1) ^ 2 = r ^ 2 * k := by
  have hlen : l.length = k + 1 := by simpa using hl.length_eq
  have hsum : l.sum = r := by simpa using hl.sum_eq
  have hk : (0:ℝ) < (k : ℝ) + 1 := by positivity
  unfold npStd
  rw [hsum, hlen, (hl.map _).sum_eq, Real.sq_sqrt]
  · simp only [List.map_cons, List.map_replicate, List.sum_cons, List.sum_replicate, nsmul_eq_mul]
    push_cast
    field_simp
    ring
  · refine div_nonneg (List.sum_nonneg ?_) (by positivity)
    intro z hz
    obtain ⟨y, -, rfl⟩ := List.mem_map.1 hz
    exact sq_nonneg _

/-- **C177** (partial: with reweighting and a single outlier, from four observations on if `q` is the 0.9875 quantile of the normal
distribution). -/
theorem C177_one_outlier_partial (LR : LinReg p) (srt : ArgSort ℝ) (ch : Choice ℕ) (q : ℝ) (hq : 0 ≤ q)
    (corr corrRew : ℕ → ℕ → ℝ → Option ℝ) (cfg : LTSConfig) {G : List ((Fin p → ℝ) × ℝ)}
    (hG : Spec.RowsInGeneralPosition (G.map Prod.fst)) {m0 : LinModel p} (h0 : Spec.exactOn m0 G) (X : List ((Fin p → ℝ) × ℝ))
    (o : (Fin p → ℝ) × ℝ) (ho : o.2 ≠ m0.intercept + ∑ j, o.1 j * m0.coef j)
    (st st' : LTSState p) (fuel : ℕ) (hset : Spec.ltsSetting ch cfg X [o] G)
    (hn : q ^ 2 * (G.length : ℝ) < ((G.length : ℝ) + 1) ^ 2)
    (hrew : cfg.reweighting = true) (hfit : ltsFit LR srt ch q corr corrRew cfg st X none fuel = some (.ok (), st')) :
    st'.model = some m0 ∧ ∀ s, st'.scale_ = some (some s) → s = 0 := by
  refine C177_reweighted_partial LR srt ch q hq corr corrRew cfg hG h0 X [o] st st' fuel hset ?_ hrew hfit
  intro d hd
  obtain rfl := List.mem_singleton.1 hd
  have hl : (Spec.residuals X m0).Perm (resid m0 d :: List.replicate G.length 0) := by
    refine (hset.1.map (resid m0)).trans (List.Perm.of_eq ?_)
    rw [List.singleton_append, List.map_cons]
    congr 1
    rw [List.eq_replicate_iff]
    exact ⟨by simp, fun z hz => by obtain ⟨y, hy, rfl⟩ := List.mem_map.1 hz; exact resid_exact h0 hy⟩
  have h1 := npStd_one hl
  have hr : resid m0 d ≠ 0 := sub_ne_zero.2 ho
  have hs : 0 ≤ npStd (Spec.residuals X m0) := Real.sqrt_nonneg _
  refine lt_of_pow_lt_pow_left₀ 2 (abs_nonneg _) ?_
  rw [sq_abs, mul_pow]
  show q ^ 2 * npStd (Spec.residuals X m0) ^ 2 < resid m0 d ^ 2
  have hr2 : 0 < resid m0 d ^ 2 := by positivity
  have hk : (0:ℝ) < ((G.length : ℝ) + 1) ^ 2 := by positivity
  refine lt_of_mul_lt_mul_right (a := ((G.length : ℝ) + 1) ^ 2) ?_ hk.le
  calc q ^ 2 * npStd (Spec.residuals X m0) ^ 2 * ((G.length : ℝ) + 1) ^ 2 = resid m0 d ^ 2 * (q ^ 2 * G.length) := by
        rw [mul_assoc, h1]; ring
    _ < resid m0 d ^ 2 * ((G.length : ℝ) + 1) ^ 2 := mul_lt_mul_of_pos_left hn hr2

end

theorem c177_exact : Spec.exactOn ⟨0, 0⟩ c171Good := by
  intro d hd
  simp [c171Good] at hd
  rcases hd with rfl | rfl | rfl | rfl | rfl | rfl <;> simp

/-- **C177** is violated: of two outliers, the further one hides the nearer one from the reweighting step. -/
theorem C177_violated : ¬ C177_statement := by
  intro hst
  obtain ⟨y1, y2, hlt, h⟩ := C171_two_outliers (linRegExists 1) (q := 2.24) (by norm_num) (fun _ _ _ => none) (fun _ _ _ => none)
    c171_gp 0
  obtain ⟨best, hb⟩ := c171_search_exists true (0, y1) (0, y2)
  obtain ⟨st', hfit⟩ := (C53_fit_partial (linRegExists 1) (argsortStable ℝ) choiceFirst 2.24 (by norm_num) (by norm_num)
    (fun _ _ _ => none) (fun _ _ _ => none) (c53Cfg true) rfl ⟨none, none, none⟩ (c171Good ++ [(0, y1), (0, y2)]) none (2 ^ 8 + 1)
    best hb).1 (by
      by_contra hcon
      push Not at hcon
      have h1 := hcon _ (List.mem_map.2 ⟨(0, y1), by simp, rfl⟩)
      have h2 := hcon _ (List.mem_map.2 ⟨(0, y2), by simp, rfl⟩)
      simp only [Pi.zero_apply, zero_mul, Finset.sum_const_zero, add_zero] at h1 h2
      linarith)
  obtain ⟨m, e1, e2⟩ := h _ _ _ _ _ _ _ (c171_setting true _ _) rfl hfit
  have e3 := hst 1 _ _ _ _ _ _ (by norm_num) c171_gp c177_exact _ _ _ _ _ _ _ _ (c171_setting true _ _) hfit
  rw [e1] at e3
  obtain rfl := Option.some.inj e3
  exact e2 ⟨by simp, by simp⟩

/-- Without reweighting, for any two further observations. -/
example (a b : (Fin 1 → ℝ) × ℝ) : ∃ st', ltsFit (linRegExists 1) (argsortStable ℝ) choiceFirst 2.24 (fun _ _ _ => some 1)
    (fun _ _ _ => some 1) (c53Cfg false) ⟨none, none, none⟩ (c171Good ++ [a, b]) none (2 ^ 8 + 1) = some (.ok (), st') ∧
      st'.model = some ⟨0, 0⟩ ∧ st'.scale_ = some (some 0) := by
  obtain ⟨best, hb⟩ := c171_search_exists false a b
  have hfit : ∃ st', ltsFit (linRegExists 1) (argsortStable ℝ) choiceFirst 2.24 (fun _ _ _ => some 1)
      (fun _ _ _ => some 1) (c53Cfg false) ⟨none, none, none⟩ (c171Good ++ [a, b]) none (2 ^ 8 + 1) = some (.ok (), st') ∧
      ∃ s, st'.scale_ = some (some s) := by
    unfold ltsFit
    simp only [hb]
    exact ⟨_, rfl, _, rfl⟩
  obtain ⟨st', hfit, s, hs⟩ := hfit
  obtain ⟨h1, h2⟩ := C177_raw_partial _ _ _ _ _ _ _ c171_gp c177_exact _ _ _ _ _ (c171_setting false a b) rfl hfit
  exact ⟨st', hfit, h1, by rw [hs, h2 s hs]⟩

/-- With the default reweighting and one outlier among seven observations. -/
example : ∃ st', ltsFit (linRegExists 1) (argsortStable ℝ) choiceFirst 2.24 (fun _ _ _ => some 1)
    (fun _ _ _ => some 1) (c53Cfg true) ⟨none, none, none⟩ (c171Good ++ [(0, 5)]) none (2 ^ 7 + 1) = some (.ok (), st') ∧
      st'.model = some ⟨0, 0⟩ := by
  have hout := (C99_search_outcome (linRegExists 1) (argsortStable ℝ) choiceFirst (c53Cfg true) (c171Good ++ [(0, 5)]) none
    (by norm_num [c53Cfg]) (2 ^ 7 + 1) (by simp [c171Good])).2 ⟨by norm_num [c53Cfg], by norm_num [c53Cfg]⟩
  obtain ⟨best, hb⟩ := ((hout.2 (by simp [c53Cfg])).2 ⟨by norm_num, by simp [c171Good]⟩).2 (by simp [c53Cfg])
  have hset : Spec.ltsSetting choiceFirst (c53Cfg true) (c171Good ++ [(0, 5)]) [(0, 5)] c171Good := by
    refine ⟨List.perm_append_comm, fun h hh => ?_, 0, by simp [c53Cfg], ?_⟩
    · unfold ltsH at hh
      rw [if_neg (by norm_num [c53Cfg])] at hh
      have hh := Except.ok.inj hh
      have hl : (c171Good ++ [((0 : Fin 1 → ℝ), (5 : ℝ))]).length = 7 := by simp [c171Good]
      rw [hl] at hh
      have hf : ⌊((7 : ℕ) : ℝ) * (c53Cfg true).alpha⌋₊ ≤ 3 := by
        refine Nat.lt_succ_iff.1 ((Nat.floor_lt (by norm_num [c53Cfg])).2 (by norm_num [c53Cfg]))
      have : h = 4 := by rw [← hh]; omega
      subst this
      simp [c171Good]
    · simp only [choiceFirst]
      have : takeAt (c171Good ++ [((0 : Fin 1 → ℝ), (5 : ℝ))]) (List.range (1 + 1)) = c171Good.take 2 := by
        simp [c171Good, takeAt, List.range_succ]
      rw [this]
      exact (List.take_sublist _ _).subperm
  obtain ⟨b1, -⟩ := C177_search _ _ _ _ c171_gp c177_exact _ _ _ _ hset hb
  obtain ⟨st', hfit⟩ := (C53_fit_partial (linRegExists 1) (argsortStable ℝ) choiceFirst 2.24 (by norm_num) (by norm_num)
    (fun _ _ _ => some 1) (fun _ _ _ => some 1) (c53Cfg true) rfl ⟨none, none, none⟩ (c171Good ++ [(0, 5)]) none (2 ^ 7 + 1)
    best hb).1 ⟨5, List.mem_map.2 ⟨(0, 5), by simp, by rw [b1]; simp⟩, by norm_num⟩
  exact ⟨st', hfit, (C177_one_outlier_partial _ _ _ _ (by norm_num) _ _ _ c171_gp c177_exact _ _ (by norm_num) _ _ _ hset
    (by norm_num [c171Good]) rfl hfit).1⟩

end Robpy
