import Verif.Model.LTS
import Verif.Lemmas.Select
import Verif.Lemmas.MCD
import Verif.Props.Covariance
import Verif.Props.PCAOptimal

/-! C49, C50, C51, C52, C98: the search of FastLTS. -/

namespace Robpy

/-- Sum of squared residuals of the line with intercept `b0` and slopes `b`. -/
def Spec.sumSq {p : ℕ} (D : List ((Fin p → ℝ) × ℝ)) (b0 : ℝ) (b : Fin p → ℝ) : ℝ :=
  (D.map fun d => (d.2 - (b0 + ∑ j, d.1 j * b j)) ^ 2).sum

/-- `m` is a least-squares fit to the observations. -/
def Spec.IsLeastSquares {p : ℕ} (D : List ((Fin p → ℝ) × ℝ)) (m : LinModel p) : Prop :=
  ∀ b0 b, Spec.sumSq D m.intercept m.coef ≤ Spec.sumSq D b0 b

/-- The LTS objective: the mean of the `h` smallest squared residuals. -/
noncomputable def Spec.ltsObjective {p : ℕ} (h : ℕ) (D : List ((Fin p → ℝ) × ℝ)) (m : LinModel p) : ℝ :=
  (((D.map fun d => (d.2 - (m.intercept + ∑ j, d.1 j * m.coef j)) ^ 2).insertionSort (· ≤ ·)).take h).sum / h

/-- `h` distinct positions of a list of length `n`. -/
structure Spec.Positions (n h : ℕ) (H : List ℕ) : Prop where
  nodup : H.Nodup
  length : H.length = h
  lt : ∀ i ∈ H, i < n

section
variable {p : ℕ}

theorem ssr_eq (D : List ((Fin p → ℝ) × ℝ)) (m : LinModel p) : ssr D m = Spec.sumSq D m.intercept m.coef := rfl

theorem ssr_takeAt (D : List ((Fin p → ℝ) × ℝ)) (J : List ℕ) (m : LinModel p) :
    ssr (takeAt D J) m = (takeAt (D.map fun d => resid m d ^ 2) J).sum := by rw [takeAt_map]; rfl

theorem ssr_nonneg (D : List ((Fin p → ℝ) × ℝ)) (m : LinModel p) : 0 ≤ ssr D m := by
  unfold ssr
  apply List.sum_nonneg
  intro x hx
  obtain ⟨d, -, rfl⟩ := List.mem_map.1 hx
  positivity

theorem isLeastSquares_fit (LR : LinReg p) {D : List ((Fin p → ℝ) × ℝ)} (hD : D ≠ []) :
    Spec.IsLeastSquares D (LR.fit D) := fun b0 b => LR.isMin D hD ⟨b0, b⟩

theorem lrFit_ok {LR : LinReg p} {D : List ((Fin p → ℝ) × ℝ)} {m : LinModel p} (h : lrFit LR D = .ok m) :
    D ≠ [] ∧ p ≠ 0 ∧ m = LR.fit D := by
  unfold lrFit at h
  split_ifs at h with h1
  push Not at h1
  exact ⟨h1.1, h1.2, (Except.ok.inj h).symm⟩

theorem lrFit_of (LR : LinReg p) {D : List ((Fin p → ℝ) × ℝ)} (hD : D ≠ []) (hp : p ≠ 0) :
    lrFit LR D = .ok (LR.fit D) := by
  unfold lrFit
  rw [if_neg]
  push Not
  exact ⟨hD, hp⟩

theorem ltsSubset_positions (srt : ArgSort ℝ) (D : List ((Fin p → ℝ) × ℝ)) {h : ℕ} (hh : h ≤ D.length) (m : LinModel p) :
    Spec.Positions D.length h (ltsSubset srt D h m) := by
  obtain ⟨h1, h2, h3, -⟩ := argsort_take srt (D.map fun d => |resid m d|) h
  rw [List.length_map] at h2 h3
  exact ⟨h1, by rw [ltsSubset, h2]; omega, h3⟩

/-- The squared residuals at `argsort(|r|)` are the sorted squared residuals. -/
theorem takeAt_sq_argsort (srt : ArgSort ℝ) (D : List ((Fin p → ℝ) × ℝ)) (m : LinModel p) :
    takeAt (D.map fun d => resid m d ^ 2) (srt.toFun (D.map fun d => |resid m d|)) =
      (D.map fun d => resid m d ^ 2).insertionSort (· ≤ ·) := by
  have hsq : (D.map fun d => resid m d ^ 2) = (D.map fun d => |resid m d|).map (fun x => x ^ 2) := by
    rw [List.map_map]
    exact List.map_congr_left fun d _ => by simp
  refine List.Perm.eq_of_pairwise' ?_ (List.pairwise_insertionSort _ _) ?_
  · rw [hsq, takeAt_map, List.pairwise_map]
    refine (srt.sorted _).imp_of_mem fun {a b} ha hb hab => ?_
    have h0 : 0 ≤ a := by
      obtain ⟨d, -, rfl⟩ := List.mem_map.1 (mem_takeAt ha); exact abs_nonneg _
    exact pow_le_pow_left₀ h0 hab 2
  · refine List.Perm.trans ?_ (List.perm_insertionSort _ _).symm
    rw [hsq, takeAt_map]
    exact (srt.takeAt_perm _).map _

theorem ltsLoss_subset (srt : ArgSort ℝ) (D : List ((Fin p → ℝ) × ℝ)) {h : ℕ} (hh : h ≤ D.length) (m : LinModel p) :
    ltsLoss D (ltsSubset srt D h m) m = Spec.ltsObjective h D m := by
  unfold ltsLoss
  rw [(ltsSubset_positions srt D hh m).length, ssr_takeAt, ltsSubset, takeAt_take, takeAt_sq_argsort]
  · rfl
  · intro i hi
    simpa using srt.lt _ i hi

theorem ltsObjective_le (D : List ((Fin p → ℝ) × ℝ)) {h : ℕ} (m : LinModel p) {J : List ℕ} (hJ : Spec.Positions D.length h J) :
    Spec.ltsObjective h D m ≤ ltsLoss D J m := by
  unfold ltsLoss Spec.ltsObjective
  rw [hJ.length, ssr_takeAt]
  refine div_le_div_of_nonneg_right ?_ (by positivity)
  have h1 : (takeAt (D.map fun d => resid m d ^ 2) J).length = h := by
    rw [takeAt_length _ _ (by simpa using hJ.lt), hJ.length]
  refine le_trans (le_of_eq ?_) (sum_take_le_subperm (J := takeAt (D.map fun d => resid m d ^ 2) J)
    (List.pairwise_insertionSort (· ≤ ·) (D.map fun d => resid m d ^ 2)) ?_)
  · rw [h1]; rfl
  · exact (takeAt_subperm _ J hJ.nodup (by simpa using hJ.lt)).trans (List.perm_insertionSort _ _).symm.subperm

theorem ltsCStep_ok {LR : LinReg p} {srt : ArgSort ℝ} {D : List ((Fin p → ℝ) × ℝ)} {h : ℕ} {m : LinModel p}
    {r : List ℕ × LinModel p} (hr : ltsCStep LR srt D h m = .ok r) :
    p ≠ 0 ∧ takeAt D r.1 ≠ [] ∧ r.1 = ltsSubset srt D h m ∧ r.2 = LR.fit (takeAt D r.1) := by
  unfold ltsCStep at hr
  rcases hl : lrFit LR (takeAt D (ltsSubset srt D h m)) with e | m'
  · rw [hl] at hr; simp [Except.map] at hr
  · rw [hl] at hr
    obtain rfl := Except.ok.inj hr
    obtain ⟨h1, h2, h3⟩ := lrFit_ok hl
    exact ⟨h2, h1, rfl, h3⟩

theorem ltsCStep_of (LR : LinReg p) (srt : ArgSort ℝ) {D : List ((Fin p → ℝ) × ℝ)} {h : ℕ} (h1 : 1 ≤ h) (hh : h ≤ D.length)
    (hp : p ≠ 0) (m : LinModel p) :
    ltsCStep LR srt D h m = .ok (ltsSubset srt D h m, LR.fit (takeAt D (ltsSubset srt D h m))) := by
  unfold ltsCStep
  rw [lrFit_of LR ?_ hp]
  · rfl
  · have := ltsSubset_positions srt D hh m
    have hl := takeAt_length D _ this.lt
    rw [this.length] at hl
    intro hn
    rw [hn] at hl
    simp at hl
    omega

theorem ltsLoss_mono {D : List ((Fin p → ℝ) × ℝ)} {H : List ℕ} {m m' : LinModel p}
    (h : ssr (takeAt D H) m ≤ ssr (takeAt D H) m') : ltsLoss D H m ≤ ltsLoss D H m' :=
  div_le_div_of_nonneg_right h (by positivity)

/-- The loss after a C-step is at most the mean of the `h` smallest squared residuals before. -/
theorem ltsCStep_loss {LR : LinReg p} {srt : ArgSort ℝ} {D : List ((Fin p → ℝ) × ℝ)} {h : ℕ} (hh : h ≤ D.length)
    {m : LinModel p} {r : List ℕ × LinModel p} (hr : ltsCStep LR srt D h m = .ok r) :
    ltsLoss D r.1 r.2 ≤ Spec.ltsObjective h D m := by
  obtain ⟨-, h2, h3, h4⟩ := ltsCStep_ok hr
  rw [← ltsLoss_subset srt D hh m, ← h3]
  apply ltsLoss_mono
  rw [h4]
  exact LR.isMin _ h2 m

/-- **C49**: for every data set, every model and every subset size, the model after a C-step has an LTS objective (mean of the `h`
smallest squared residuals) that is not larger, and so is the mean squared residual on the subset of the step. -/
theorem C49_cStep (LR : LinReg p) (srt : ArgSort ℝ) (D : List ((Fin p → ℝ) × ℝ)) (h : ℕ) (hh : h ≤ D.length)
    (m : LinModel p) (H : List ℕ) (m' : LinModel p) (hr : ltsCStep LR srt D h m = .ok (H, m')) :
    Spec.ltsObjective h D m' ≤ Spec.ltsObjective h D m ∧ ltsLoss D H m' ≤ Spec.ltsObjective h D m ∧
      Spec.Positions D.length h H ∧ Spec.IsLeastSquares (takeAt D H) m' := by
  obtain ⟨-, h2, h3, h4⟩ := ltsCStep_ok hr
  have hP : Spec.Positions D.length h H := by simp only at h3; rw [h3]; exact ltsSubset_positions srt D hh m
  have hl := ltsCStep_loss hh hr
  refine ⟨(ltsObjective_le D m' hP).trans hl, hl, hP, ?_⟩
  simp only at h4
  rw [h4]
  exact isLeastSquares_fit LR h2

/-- **C49**: a C-step with at least one observation and one column does not raise. -/
theorem C49_total (LR : LinReg p) (srt : ArgSort ℝ) (D : List ((Fin p → ℝ) × ℝ)) (h : ℕ) (h1 : 1 ≤ h) (hh : h ≤ D.length)
    (hp : 1 ≤ p) (m : LinModel p) : ∃ r, ltsCStep LR srt D h m = .ok r := ⟨_, ltsCStep_of LR srt h1 hh (by omega) m⟩

/-! The convergence loop -/

/-- The losses that a least-squares fit on some subset can have. -/
noncomputable def allLosses (LR : LinReg p) (D : List ((Fin p → ℝ) × ℝ)) : Finset ℝ :=
  (Finset.range D.length).powerset.image fun t => ltsLoss D t.toList (LR.fit (takeAt D t.toList))

theorem ssr_perm {D D' : List ((Fin p → ℝ) × ℝ)} (h : D.Perm D') (m : LinModel p) : ssr D m = ssr D' m :=
  (h.map _).sum_eq

theorem fitLoss_perm (LR : LinReg p) (D : List ((Fin p → ℝ) × ℝ)) {H H' : List ℕ} (h : H.Perm H') :
    ltsLoss D H (LR.fit (takeAt D H)) = ltsLoss D H' (LR.fit (takeAt D H')) := by
  unfold ltsLoss
  rw [h.length_eq]
  congr 1
  have hp := takeAt_perm D h
  by_cases h0 : takeAt D H = []
  · rw [h0] at hp ⊢
    rw [List.nil_perm.1 hp]
  · have h0' : takeAt D H' ≠ [] := fun hn => h0 (by rw [hn] at hp; exact hp.eq_nil)
    apply le_antisymm
    · rw [ssr_perm hp.symm]
      exact LR.isMin _ h0 _
    · rw [ssr_perm hp]
      exact LR.isMin _ h0' _

theorem fitLoss_mem (LR : LinReg p) (D : List ((Fin p → ℝ) × ℝ)) {h : ℕ} {H : List ℕ} (hH : Spec.Positions D.length h H) :
    ltsLoss D H (LR.fit (takeAt D H)) ∈ allLosses LR D := by
  refine Finset.mem_image.2 ⟨H.toFinset, ?_, ?_⟩
  · rw [Finset.mem_powerset]
    intro i hi
    exact Finset.mem_range.2 (hH.lt i (List.mem_toFinset.1 hi))
  · exact fitLoss_perm LR D (List.toFinset_toList hH.nodup)

/-- Number of smaller losses. -/
noncomputable def lossesBelow (LR : LinReg p) (D : List ((Fin p → ℝ) × ℝ)) (x : ℝ) : ℕ :=
  ((allLosses LR D).filter (· < x)).card

theorem lossesBelow_lt {LR : LinReg p} {D : List ((Fin p → ℝ) × ℝ)} {x y : ℝ} (hx : x ∈ allLosses LR D) (h : x < y) :
    lossesBelow LR D x < lossesBelow LR D y := by
  apply Finset.card_lt_card
  refine Finset.ssubset_iff_subset_ne.2 ⟨?_, ?_⟩
  · intro z hz
    rw [Finset.mem_filter] at hz ⊢
    exact ⟨hz.1, hz.2.trans h⟩
  · intro heq
    have : x ∈ (allLosses LR D).filter (· < y) := Finset.mem_filter.2 ⟨hx, h⟩
    rw [← heq, Finset.mem_filter] at this
    exact lt_irrefl _ this.2

theorem lossesBelow_le (LR : LinReg p) (D : List ((Fin p → ℝ) × ℝ)) (x : ℝ) : lossesBelow LR D x ≤ 2 ^ D.length := by
  unfold lossesBelow allLosses
  refine (Finset.card_filter_le _ _).trans (Finset.card_image_le.trans ?_)
  rw [Finset.card_powerset, Finset.card_range]

theorem ltsConverge_succ (LR : LinReg p) (srt : ArgSort ℝ) (D : List ((Fin p → ℝ) × ℝ)) (h : ℕ) (tol : ℝ) (fuel : ℕ)
    (m : LinModel p) (l : ℝ) :
    ltsConverge LR srt D h tol (fuel + 1) m l =
      match ltsCStep LR srt D h m with
      | .error e => some (.error e)
      | .ok r => if l - ltsLoss D r.1 r.2 ≤ tol then some (.ok { model := r.2, loss := ltsLoss D r.1 r.2, subset := r.1 })
          else ltsConverge LR srt D h tol fuel r.2 (ltsLoss D r.1 r.2) := by
  unfold ltsConverge
  rw [runLoop]
  unfold ltsStep
  rcases ltsCStep LR srt D h m with e | r
  · rfl
  · simp only [Except.map]
    split_ifs <;> rfl

/-- **C50**: the loop that applies C-steps until the loss stops decreasing ends for every data set, every start and every
tolerance that is not negative; a bound on the number of passes is `2^n + 1`. -/
theorem C50_terminates (LR : LinReg p) (srt : ArgSort ℝ) (D : List ((Fin p → ℝ) × ℝ)) (h : ℕ) (hh : h ≤ D.length) (tol : ℝ)
    (htol : 0 ≤ tol) (m : LinModel p) (loss : ℝ) (fuel : ℕ) (hf : 2 ^ D.length + 1 ≤ fuel) :
    ∃ r, ltsConverge LR srt D h tol fuel m loss = some r := by
  have key : ∀ (k fuel : ℕ) (m : LinModel p) (l : ℝ), lossesBelow LR D l ≤ k → k + 1 ≤ fuel →
      ∃ r, ltsConverge LR srt D h tol fuel m l = some r := by
    intro k
    induction k with
    | zero | succ k ih =>
      intro fuel m l hk hf
      obtain ⟨f1, rfl⟩ : ∃ f, fuel = f + 1 := ⟨fuel - 1, by omega⟩
      rw [ltsConverge_succ]
      rcases hc : ltsCStep LR srt D h m with e | r
      · exact ⟨_, rfl⟩
      · simp only
        split_ifs with hle
        · exact ⟨_, rfl⟩
        · obtain ⟨-, -, h3, h4⟩ := ltsCStep_ok hc
          have hmem : ltsLoss D r.1 r.2 ∈ allLosses LR D := by
            rw [h4]
            refine fitLoss_mem LR D (h := h) ?_
            rw [h3]; exact ltsSubset_positions srt D hh m
          have := lossesBelow_lt hmem (show ltsLoss D r.1 r.2 < l by linarith)
          first
            | omega
            | exact ih f1 _ _ (by omega) (by omega)
  exact key (2 ^ D.length) fuel m loss (lossesBelow_le LR D loss) hf

/-- What the convergence loop returns: a least-squares fit on its subset, with a loss at most that of the first C-step. -/
theorem ltsConverge_ok {LR : LinReg p} {srt : ArgSort ℝ} {D : List ((Fin p → ℝ) × ℝ)} {h : ℕ} (hh : h ≤ D.length) {tol : ℝ}
    {fuel : ℕ} {m : LinModel p} {l : ℝ} {c : LTSCand p} (hc : ltsConverge LR srt D h tol fuel m l = some (.ok c)) :
    Spec.Positions D.length h c.subset ∧ c.loss = ltsLoss D c.subset c.model ∧ Spec.IsLeastSquares (takeAt D c.subset) c.model ∧
      ∃ r, ltsCStep LR srt D h m = .ok r ∧ c.loss ≤ ltsLoss D r.1 r.2 := by
  induction fuel generalizing m l with
  | zero => simp [ltsConverge, runLoop] at hc
  | succ fuel ih =>
    rw [ltsConverge_succ] at hc
    rcases hs : ltsCStep LR srt D h m with e | r
    · rw [hs] at hc; simp at hc
    · rw [hs] at hc
      simp only at hc
      obtain ⟨-, h2, h3, h4⟩ := ltsCStep_ok hs
      have hP : Spec.Positions D.length h r.1 := by rw [h3]; exact ltsSubset_positions srt D hh m
      split_ifs at hc with hle
      · obtain rfl := Except.ok.inj (Option.some.inj hc)
        refine ⟨hP, rfl, ?_, r, rfl, le_rfl⟩
        rw [h4]
        exact isLeastSquares_fit LR h2
      · obtain ⟨g1, g2, g3, r', g4, g5⟩ := ih hc
        refine ⟨g1, g2, g3, r, rfl, g5.trans ((ltsCStep_loss hh g4).trans ?_)⟩
        exact ltsObjective_le D r.2 hP

/-- **C50**: the loss that is returned is at most the loss on any `h` observations of the starting model; it is the mean squared
residual of the returned model on the returned subset of `h` observations, on which the returned model is a least-squares fit.
If there is an observation and a column the loop does not raise. -/
theorem C50_loss (LR : LinReg p) (srt : ArgSort ℝ) (D : List ((Fin p → ℝ) × ℝ)) (h : ℕ) (hh : h ≤ D.length) (tol : ℝ)
    (fuel : ℕ) (m : LinModel p) (loss : ℝ) (r : Except PyErr (LTSCand p))
    (hr : ltsConverge LR srt D h tol fuel m loss = some r) :
    (∀ c, r = .ok c → (∀ J, Spec.Positions D.length h J → c.loss ≤ ltsLoss D J m) ∧ Spec.Positions D.length h c.subset ∧
      c.loss = ltsLoss D c.subset c.model ∧ Spec.IsLeastSquares (takeAt D c.subset) c.model) ∧
    (1 ≤ h → 1 ≤ p → ∃ c, r = .ok c) := by
  constructor
  · rintro c rfl
    obtain ⟨g1, g2, g3, s, g4, g5⟩ := ltsConverge_ok hh hr
    exact ⟨fun J hJ => g5.trans ((ltsCStep_loss hh g4).trans (ltsObjective_le D m hJ)), g1, g2, g3⟩
  · intro h1 hp
    clear * - hr h1 hp hh
    induction fuel generalizing m loss with
    | zero => simp [ltsConverge, runLoop] at hr
    | succ fuel ih =>
      rw [ltsConverge_succ, ltsCStep_of LR srt h1 hh (by omega)] at hr
      simp only at hr
      split_ifs at hr with hle
      · exact ⟨_, (Option.some.inj hr).symm⟩
      · exact ih _ _ hr

/-- With a negative tolerance the loop, started from the loss of its model, never ends. -/
theorem C50_negative (LR : LinReg p) (srt : ArgSort ℝ) (D : List ((Fin p → ℝ) × ℝ)) (h : ℕ) (h1 : 1 ≤ h) (hh : h ≤ D.length)
    (hp : 1 ≤ p) (tol : ℝ) (htol : tol < 0) (m : LinModel p) (J : List ℕ) (hJ : Spec.Positions D.length h J) (fuel : ℕ) :
    ltsConverge LR srt D h tol fuel m (ltsLoss D J m) = none := by
  induction fuel generalizing m J with
  | zero => rfl
  | succ fuel ih =>
    have hs := ltsCStep_of LR srt h1 hh (by omega) m
    have hl := ltsCStep_loss hh hs
    rw [ltsConverge_succ, hs]
    simp only at hl ⊢
    rw [if_neg]
    · exact ih _ _ (ltsSubset_positions srt D hh m)
    · have := ltsObjective_le D m hJ
      linarith

/-! The search -/

/-- **C52**: for more rows than columns and `alpha` in `[0.5, 1]` the subset size is the larger of `int(n * alpha)` and
`(n + p + 1) // 2`, it lies between `(n + p + 1) // 2` and `n`, is `n` for `alpha = 1`, and does not decrease with `alpha`. -/
theorem C52_subset_size (n p : ℕ) (hn : p + 1 ≤ n) (alpha : ℝ) (ha : 0.5 ≤ alpha) (ha1 : alpha ≤ 1) :
    ∃ h, ltsH alpha n p = .ok h ∧ (n + p + 1) / 2 ≤ h ∧ h ≤ n ∧ (alpha = 1 → h = n) ∧ (n : ℝ) * alpha - 1 < h ∧
      (((n + p + 1) / 2 : ℕ) < (n : ℝ) * alpha → (h : ℝ) ≤ n * alpha) ∧
      ∀ alpha' h', alpha ≤ alpha' → ltsH alpha' n p = .ok h' → h ≤ h' := by
  refine ⟨max ⌊n * alpha⌋₊ ((n + p + 1) / 2), ?_, le_max_right _ _, ?_, ?_, ?_, ?_, ?_⟩
  · unfold ltsH
    rw [if_neg (by push Not; exact ⟨ha, ha1⟩)]
  · refine max_le ?_ (by omega)
    refine Nat.floor_le_of_le ?_
    have : (0 : ℝ) ≤ n := by positivity
    nlinarith
  · rintro rfl
    rw [mul_one, Nat.floor_natCast]
    omega
  · have := Nat.lt_floor_add_one ((n : ℝ) * alpha)
    have h2 : (⌊(n : ℝ) * alpha⌋₊ : ℝ) ≤ (max ⌊n * alpha⌋₊ ((n + p + 1) / 2) : ℕ) := by
      exact_mod_cast le_max_left _ _
    linarith
  · intro hlt
    have h0 : (0 : ℝ) ≤ n * alpha := mul_nonneg (by positivity) (by linarith)
    rw [Nat.cast_max]
    exact max_le (Nat.floor_le h0) hlt.le
  · intro a' h' hle hh'
    unfold ltsH at hh'
    split_ifs at hh'
    obtain rfl := Except.ok.inj hh'
    refine max_le_max (Nat.floor_le_floor ?_) le_rfl
    exact mul_le_mul_of_nonneg_left hle (by positivity)

/-- **C52**: `fit` raises ValueError for `alpha` outside of `[0.5, 1]`, for every data set. -/
theorem C52_alpha (n p : ℕ) (alpha : ℝ) : ltsH alpha n p = .error .valueError ↔ ¬ (0.5 ≤ alpha ∧ alpha ≤ 1) := by
  unfold ltsH
  split_ifs with h
  · simp only [true_iff]
    rintro ⟨h1, h2⟩
    rcases h with h | h <;> linarith
  · push Not at h
    simp [h.1, h.2]

/-- A candidate of the search: its subset are `h` positions and its loss the mean squared residual there. -/
structure CandOk (LR : LinReg p) (srt : ArgSort ℝ) (D : List ((Fin p → ℝ) × ℝ)) (h : ℕ) (c : LTSCand p) : Prop where
  pos : Spec.Positions D.length h c.subset
  loss : c.loss = ltsLoss D c.subset c.model
  from_ : Spec.IsLeastSquares (takeAt D c.subset) c.model ∨ c.subset = ltsSubset srt D h c.model

theorem ltsCSteps_ok {LR : LinReg p} {srt : ArgSort ℝ} {D : List ((Fin p → ℝ) × ℝ)} {h : ℕ} (hh : h ≤ D.length) {k : ℕ}
    {s t : List ℕ × LinModel p} (ht : ltsCSteps LR srt D h k s = .ok t) (hs : Spec.Positions D.length h s.1)
    (hs2 : Spec.IsLeastSquares (takeAt D s.1) s.2 ∨ s.1 = ltsSubset srt D h s.2) :
    Spec.Positions D.length h t.1 ∧ (Spec.IsLeastSquares (takeAt D t.1) t.2 ∨ t.1 = ltsSubset srt D h t.2) ∧
      ltsLoss D t.1 t.2 ≤ ltsLoss D s.1 s.2 := by
  induction k generalizing s with
  | zero =>
    obtain rfl := Except.ok.inj ht
    exact ⟨hs, hs2, le_rfl⟩
  | succ k ih =>
    unfold ltsCSteps at ht
    rcases hc : ltsCStep LR srt D h s.2 with e | r
    · rw [hc] at ht; simp [Except.bind] at ht
    · rw [hc] at ht
      obtain ⟨-, h2, h3, h4⟩ := ltsCStep_ok hc
      obtain ⟨g1, g2, g3⟩ := ih ht (by rw [h3]; exact ltsSubset_positions srt D hh s.2)
        (Or.inl (by rw [h4]; exact isLeastSquares_fit LR h2))
      exact ⟨g1, g2, g3.trans ((ltsCStep_loss hh hc).trans (ltsObjective_le D _ hs))⟩

theorem ltsInitial_ok {LR : LinReg p} {srt : ArgSort ℝ} {ch : Choice ℕ} {cfg : LTSConfig} {D : List ((Fin p → ℝ) × ℝ)} {h : ℕ}
    (hh : p + 1 ≤ D.length → h ≤ D.length) {iw : Option (LinModel p)} {i : ℕ} {c : LTSCand p}
    (hc : ltsInitial LR srt ch cfg D h iw i = .ok c) :
    p + 1 ≤ D.length ∧ p ≠ 0 ∧ CandOk LR srt D h c := by
  unfold ltsInitial at hc
  split_ifs at hc with hn
  have hn' : p + 1 ≤ D.length := by omega
  rcases hl : lrFit LR (takeAt D (ch.pick (cfg.randomState + i) D.length (p + 1))) with e | m0
  · rw [hl] at hc; simp [Except.bind] at hc
  · rw [hl] at hc
    simp only [Except.bind] at hc
    rcases hs : ltsCSteps LR srt D h cfg.nInitialCSteps (ltsSubset srt D h (iw.getD m0), iw.getD m0) with e | s
    · rw [hs] at hc; simp [Except.map] at hc
    · rw [hs] at hc
      obtain rfl := Except.ok.inj hc
      obtain ⟨g1, g2, -⟩ := ltsCSteps_ok (hh hn') hs (ltsSubset_positions srt D (hh hn') _) (Or.inr rfl)
      exact ⟨hn', (lrFit_ok hl).2.1, g1, rfl, g2⟩

/-- A candidate that the convergence loop does not improve is itself a least-squares fit on its subset. -/
theorem leastSquares_of_not_improved {LR : LinReg p} {srt : ArgSort ℝ} {D : List ((Fin p → ℝ) × ℝ)} {h : ℕ} (hh : h ≤ D.length)
    (h1 : 1 ≤ h) {tol : ℝ} {fuel : ℕ} {c cur : LTSCand p} (hc : CandOk LR srt D h c)
    (hr : ltsConverge LR srt D h tol fuel c.model c.loss = some (.ok cur)) (hn : ¬ cur.loss < c.loss) :
    Spec.IsLeastSquares (takeAt D c.subset) c.model := by
  rcases hc.from_ with hls | hsub
  · exact hls
  · obtain ⟨-, -, -, r, g4, g5⟩ := ltsConverge_ok hh hr
    obtain ⟨-, h2, h3, h4⟩ := ltsCStep_ok g4
    rw [← hsub] at h3
    rw [h3] at h2 h4 g5
    have hle : c.loss ≤ ltsLoss D c.subset r.2 := (not_lt.1 hn).trans g5
    rw [hc.loss] at hle
    have hpos : (0 : ℝ) < c.subset.length := by
      rw [hc.pos.length]; exact_mod_cast h1
    unfold ltsLoss at hle
    rw [div_le_div_iff_of_pos_right hpos, h4] at hle
    intro b0 b
    exact hle.trans (LR.isMin _ h2 ⟨b0, b⟩)

/-- The loop over the best models. -/
theorem ltsImprove_ok {LR : LinReg p} {srt : ArgSort ℝ} {D : List ((Fin p → ℝ) × ℝ)} {h : ℕ} (hh : h ≤ D.length)
    {tol : ℝ} {fuel : ℕ} {l : List (LTSCand p)} {best r : LTSCand p} (hr : ltsImprove LR srt D h tol fuel l best = some (.ok r)) :
    (r = best ∨ (Spec.Positions D.length h r.subset ∧ r.loss = ltsLoss D r.subset r.model ∧
      Spec.IsLeastSquares (takeAt D r.subset) r.model)) ∧ r.loss ≤ best.loss ∧
      (r = best → ∀ c ∈ l, ∃ cur, ltsConverge LR srt D h tol fuel c.model c.loss = some (.ok cur) ∧ ¬ cur.loss < best.loss) ∧
      ∀ c ∈ l, ∃ cur, ltsConverge LR srt D h tol fuel c.model c.loss = some (.ok cur) ∧ r.loss ≤ cur.loss := by
  induction l generalizing best with
  | nil =>
    obtain rfl := Except.ok.inj (Option.some.inj hr)
    exact ⟨Or.inl rfl, le_rfl, by simp, by simp⟩
  | cons c l ih =>
    unfold ltsImprove at hr
    obtain ⟨cur, hcur, hr⟩ := Run.andThen_ok hr
    obtain ⟨g1, g2, g3, g4⟩ := ih hr
    obtain ⟨k1, k2, k3, -⟩ := ltsConverge_ok hh hcur
    by_cases hlt : cur.loss < best.loss
    · rw [if_pos hlt] at g1 g2 g3
      refine ⟨Or.inr ?_, g2.trans hlt.le, ?_, ?_⟩
      · rcases g1 with rfl | g1
        · exact ⟨k1, k2, k3⟩
        · exact g1
      · rintro rfl
        exact absurd (lt_of_le_of_lt g2 hlt) (lt_irrefl _)
      · intro c' hc'
        rcases List.mem_cons.1 hc' with rfl | hc'
        · exact ⟨cur, hcur, g2⟩
        · exact g4 c' hc'
    · rw [if_neg hlt] at g1 g2 g3
      refine ⟨g1, g2, ?_, ?_⟩
      · intro hb c' hc'
        rcases List.mem_cons.1 hc' with rfl | hc'
        · exact ⟨cur, hcur, hlt⟩
        · exact g3 hb c' hc'
      · intro c' hc'
        rcases List.mem_cons.1 hc' with rfl | hc'
        · exact ⟨cur, hcur, g2.trans (not_lt.1 hlt)⟩
        · exact g4 c' hc'

theorem ltsH_le {alpha : ℝ} {n p h : ℕ} (hh : ltsH alpha n p = .ok h) : (n + p + 1) / 2 ≤ h ∧ (p + 1 ≤ n → h ≤ n) := by
  unfold ltsH at hh
  split_ifs at hh with h1
  push Not at h1
  obtain rfl := Except.ok.inj hh
  refine ⟨le_max_right _ _, fun hn => max_le ?_ (by omega)⟩
  refine Nat.floor_le_of_le ?_
  have : (0 : ℝ) ≤ n := by positivity
  nlinarith [h1.2]

/-- What a successful search went through. -/
structure SearchOk (LR : LinReg p) (srt : ArgSort ℝ) (ch : Choice ℕ) (cfg : LTSConfig) (D : List ((Fin p → ℝ) × ℝ))
    (iw : Option (LinModel p)) (fuel : ℕ) (best : LTSCand p) (h : ℕ) (cands : List (LTSCand p)) : Prop where
  h_eq : ltsH cfg.alpha D.length p = .ok h
  cands_eq : mapExcept (ltsInitial LR srt ch cfg D h iw) (List.range cfg.nInitialSubsets) = .ok cands
  improve : ∃ c l, takeAt cands ((srt.toFun (cands.map LTSCand.loss)).take cfg.nBestModels) = c :: l ∧
    ltsImprove LR srt D h cfg.tolerance fuel (c :: l) c = some (.ok best)

theorem ltsSearch_ok {LR : LinReg p} {srt : ArgSort ℝ} {ch : Choice ℕ} {cfg : LTSConfig} {D : List ((Fin p → ℝ) × ℝ)}
    {iw : Option (LinModel p)} {fuel : ℕ} {best : LTSCand p} (hb : ltsSearch LR srt ch cfg D iw fuel = some (.ok best)) :
    ∃ h cands, SearchOk LR srt ch cfg D iw fuel best h cands := by
  unfold ltsSearch at hb
  obtain ⟨h, hh, hb⟩ := Run.andThen_ok hb
  obtain ⟨cands, hc, hb⟩ := Run.andThen_ok hb
  refine ⟨h, cands, Option.some.inj hh, Option.some.inj hc, ?_⟩
  rcases ht : takeAt cands ((srt.toFun (cands.map LTSCand.loss)).take cfg.nBestModels) with _ | ⟨c, l⟩
  · rw [ht] at hb; simp at hb
  · rw [ht] at hb; exact ⟨c, l, rfl, hb⟩

theorem SearchOk.cand {LR : LinReg p} {srt : ArgSort ℝ} {ch : Choice ℕ} {cfg : LTSConfig} {D : List ((Fin p → ℝ) × ℝ)}
    {iw : Option (LinModel p)} {fuel : ℕ} {best : LTSCand p} {h : ℕ} {cands : List (LTSCand p)}
    (hs : SearchOk LR srt ch cfg D iw fuel best h cands) {c : LTSCand p} (hc : c ∈ cands) :
    p + 1 ≤ D.length ∧ p ≠ 0 ∧ CandOk LR srt D h c := by
  obtain ⟨i, hi, hci⟩ := mapExcept_mem hs.cands_eq c hc
  exact ltsInitial_ok (fun hn => (ltsH_le hs.h_eq).2 hn) hci

theorem SearchOk.mem {LR : LinReg p} {srt : ArgSort ℝ} {ch : Choice ℕ} {cfg : LTSConfig} {D : List ((Fin p → ℝ) × ℝ)}
    {iw : Option (LinModel p)} {fuel : ℕ} {best : LTSCand p} {h : ℕ} {cands : List (LTSCand p)}
    (hs : SearchOk LR srt ch cfg D iw fuel best h cands) : ∃ c, c ∈ cands := by
  obtain ⟨c, l, h1, -⟩ := hs.improve
  exact ⟨c, mem_takeAt (by rw [h1]; simp)⟩

theorem SearchOk.size {LR : LinReg p} {srt : ArgSort ℝ} {ch : Choice ℕ} {cfg : LTSConfig} {D : List ((Fin p → ℝ) × ℝ)}
    {iw : Option (LinModel p)} {fuel : ℕ} {best : LTSCand p} {h : ℕ} {cands : List (LTSCand p)}
    (hs : SearchOk LR srt ch cfg D iw fuel best h cands) : 1 ≤ p ∧ p + 1 ≤ D.length ∧ D.length + p ≤ 2 * h ∧ h ≤ D.length := by
  obtain ⟨c, hc⟩ := hs.mem
  obtain ⟨h1, h2, -⟩ := hs.cand hc
  obtain ⟨h3, h4⟩ := ltsH_le hs.h_eq
  exact ⟨by omega, h1, by omega, h4 h1⟩

/-- **C51**: the model that the search of FastLTS reports has a loss not larger than that of each of the best candidates after
iteration to convergence, and not larger than that of any candidate after the initial C-steps. -/
theorem C51_best (LR : LinReg p) (srt : ArgSort ℝ) (ch : Choice ℕ) (cfg : LTSConfig) (D : List ((Fin p → ℝ) × ℝ))
    (iw : Option (LinModel p)) (fuel : ℕ) (best : LTSCand p) (hb : ltsSearch LR srt ch cfg D iw fuel = some (.ok best)) :
    ∃ (h : ℕ) (cands : List (LTSCand p)), ltsH cfg.alpha D.length p = .ok h ∧ cands.length = cfg.nInitialSubsets ∧
      (∀ (i : ℕ) (c : LTSCand p), cands[i]? = some c → ltsInitial LR srt ch cfg D h iw i = .ok c) ∧
      (∀ c ∈ cands, best.loss ≤ c.loss) ∧
      ∀ i ∈ (srt.toFun (cands.map LTSCand.loss)).take cfg.nBestModels, ∀ c, cands[i]? = some c →
        ∃ cur, ltsConverge LR srt D h cfg.tolerance fuel c.model c.loss = some (.ok cur) ∧ best.loss ≤ cur.loss := by
  obtain ⟨h, cands, hs⟩ := ltsSearch_ok hb
  obtain ⟨c0, l, hl, hi⟩ := hs.improve
  have hh := hs.size.2.2.2
  obtain ⟨-, -, -, g4⟩ := ltsImprove_ok hh hi
  have hF := mapExcept_ok hs.cands_eq
  have hlen : cands.length = cfg.nInitialSubsets := by rw [← hF.length_eq, List.length_range]
  have hsel : ∀ i ∈ (srt.toFun (cands.map LTSCand.loss)).take cfg.nBestModels, ∀ c, cands[i]? = some c →
        ∃ cur, ltsConverge LR srt D h cfg.tolerance fuel c.model c.loss = some (.ok cur) ∧ best.loss ≤ cur.loss := by
    intro i hi c hc
    refine g4 c ?_
    rw [← hl]
    exact List.mem_filterMap.2 ⟨i, hi, hc⟩
  have hsel2 : ∀ i ∈ (srt.toFun (cands.map LTSCand.loss)).take cfg.nBestModels, ∀ c, cands[i]? = some c →
      best.loss ≤ c.loss := by
    intro i hi c hc
    obtain ⟨cur, hcur, hle⟩ := hsel i hi c hc
    obtain ⟨-, -, hok⟩ := hs.cand (List.mem_of_getElem? hc)
    obtain ⟨-, -, -, r, g4, g5⟩ := ltsConverge_ok hh hcur
    refine hle.trans (g5.trans ((ltsCStep_loss hh g4).trans ?_))
    rw [hok.loss]
    exact ltsObjective_le D _ hok.pos
  refine ⟨h, cands, hs.h_eq, hlen, ?_, ?_, hsel⟩
  · intro i c hc
    have hi : i < cands.length := (List.getElem?_eq_some_iff.1 hc).1
    have := (List.forall₂_iff_get.1 hF).2 i (by rw [List.length_range]; omega) hi
    rw [List.getElem?_eq_getElem hi] at hc
    obtain rfl := Option.some.inj hc
    simpa using this
  · intro c hc
    obtain ⟨i, hi⟩ := List.mem_iff_getElem?.1 hc
    by_cases hmem : i ∈ (srt.toFun (cands.map LTSCand.loss)).take cfg.nBestModels
    · exact hsel2 i hmem c hi
    · obtain ⟨j, hj, hj2⟩ : ∃ j ∈ (srt.toFun (cands.map LTSCand.loss)).take cfg.nBestModels, cands[j]? = some c0 := by
        have : c0 ∈ takeAt cands ((srt.toFun (cands.map LTSCand.loss)).take cfg.nBestModels) := by rw [hl]; simp
        exact List.mem_filterMap.1 this
      refine (hsel2 j hj c0 hj2).trans ?_
      refine (argsort_take srt (cands.map LTSCand.loss) cfg.nBestModels).2.2.2 j i c0.loss c.loss hj hmem ?_ ?_
      · rw [List.getElem?_map, hj2]; rfl
      · rw [List.getElem?_map, hi]; rfl

/-- **C98**: the model found by the search is a least-squares fit on the `h` distinct observations of the reported subset, for all
numbers of C-steps and all tolerances; its loss is its mean squared residual there and so at least its LTS objective. -/
theorem C98_least_squares (LR : LinReg p) (srt : ArgSort ℝ) (ch : Choice ℕ) (cfg : LTSConfig) (D : List ((Fin p → ℝ) × ℝ))
    (iw : Option (LinModel p)) (fuel : ℕ) (best : LTSCand p) (hb : ltsSearch LR srt ch cfg D iw fuel = some (.ok best)) :
    ∃ h, ltsH cfg.alpha D.length p = .ok h ∧ Spec.Positions D.length h best.subset ∧
      Spec.IsLeastSquares (takeAt D best.subset) best.model ∧
      best.loss = Spec.sumSq (takeAt D best.subset) best.model.intercept best.model.coef / h ∧
      Spec.ltsObjective h D best.model ≤ best.loss := by
  obtain ⟨h, cands, hs⟩ := ltsSearch_ok hb
  obtain ⟨c0, l, hl, hi⟩ := hs.improve
  obtain ⟨hp, hn, h2, hh⟩ := hs.size
  have h1 : 1 ≤ h := by omega
  have hc0 : CandOk LR srt D h c0 := (hs.cand (mem_takeAt (by rw [hl]; simp))).2.2
  obtain ⟨g1, -, g3, -⟩ := ltsImprove_ok hh hi
  have key : Spec.Positions D.length h best.subset ∧ best.loss = ltsLoss D best.subset best.model ∧
      Spec.IsLeastSquares (takeAt D best.subset) best.model := by
    rcases g1 with rfl | g1
    · obtain ⟨cur, hcur, hnot⟩ := g3 rfl best (by simp)
      exact ⟨hc0.pos, hc0.loss, leastSquares_of_not_improved hh h1 hc0 hcur hnot⟩
    · exact g1
  obtain ⟨k1, k2, k3⟩ := key
  refine ⟨h, hs.h_eq, k1, k3, ?_, ?_⟩
  · rw [k2, ltsLoss, k1.length, ssr_eq]
  · rw [k2]; exact ltsObjective_le D _ k1

/-- **C51**: the reported model is at least as good, in terms of the LTS objective, as each of its starts: the given initial weights, or
the fit to the `p + 1` rows drawn with the seeds `random_state, random_state + 1, ...`. -/
theorem C51_each_start (LR : LinReg p) (srt : ArgSort ℝ) (ch : Choice ℕ) (cfg : LTSConfig) (D : List ((Fin p → ℝ) × ℝ))
    (iw : Option (LinModel p)) (fuel : ℕ) (best : LTSCand p) (hb : ltsSearch LR srt ch cfg D iw fuel = some (.ok best)) (i : ℕ)
    (hi : i < cfg.nInitialSubsets) : ∃ h, ltsH cfg.alpha D.length p = .ok h ∧
      Spec.ltsObjective h D best.model ≤
        Spec.ltsObjective h D (iw.getD (LR.fit (takeAt D (ch.pick (cfg.randomState + i) D.length (p + 1))))) := by
  obtain ⟨h, cands, k1, k2, k3, k4, -⟩ := C51_best LR srt ch cfg D iw fuel best hb
  obtain ⟨h', k1', hpos, -, -, hobj⟩ := C98_least_squares LR srt ch cfg D iw fuel best hb
  rw [k1] at k1'
  obtain rfl := Except.ok.inj k1'
  refine ⟨h, k1, hobj.trans ?_⟩
  obtain ⟨c, hc⟩ : ∃ c, cands[i]? = some c := ⟨_, List.getElem?_eq_getElem (by omega)⟩
  have hci := k3 i c hc
  refine (k4 c (List.mem_of_getElem? hc)).trans ?_
  unfold ltsInitial at hci
  split_ifs at hci with hn
  have hh : h ≤ D.length := (ltsH_le k1).2 (by omega)
  rcases hl : lrFit LR (takeAt D (ch.pick (cfg.randomState + i) D.length (p + 1))) with e | m0
  · rw [hl] at hci; simp [Except.bind] at hci
  · rw [hl] at hci
    obtain ⟨-, -, rfl⟩ := lrFit_ok hl
    simp only [Except.bind] at hci
    set m := iw.getD (LR.fit (takeAt D (ch.pick (cfg.randomState + i) D.length (p + 1))))
    rcases hs : ltsCSteps LR srt D h cfg.nInitialCSteps (ltsSubset srt D h m, m) with e | t
    · rw [hs] at hci; simp [Except.map] at hci
    · rw [hs] at hci
      obtain rfl := Except.ok.inj hci
      obtain ⟨-, -, g3⟩ := ltsCSteps_ok hh hs (ltsSubset_positions srt D hh _) (Or.inr rfl)
      exact g3.trans (ltsLoss_subset srt D hh m).le

theorem ltsCSteps_total (LR : LinReg p) (srt : ArgSort ℝ) {D : List ((Fin p → ℝ) × ℝ)} {h : ℕ} (h1 : 1 ≤ h) (hh : h ≤ D.length)
    (hp : p ≠ 0) (k : ℕ) (s : List ℕ × LinModel p) : ∃ t, ltsCSteps LR srt D h k s = .ok t := by
  induction k generalizing s with
  | zero => exact ⟨s, rfl⟩
  | succ k ih =>
    unfold ltsCSteps
    rw [ltsCStep_of LR srt h1 hh hp]
    exact ih _

theorem ltsInitial_total (LR : LinReg p) (srt : ArgSort ℝ) (ch : Choice ℕ) (cfg : LTSConfig) {D : List ((Fin p → ℝ) × ℝ)} {h : ℕ}
    (h1 : 1 ≤ h) (hh : h ≤ D.length) (hp : p ≠ 0) (hn : p + 1 ≤ D.length) (iw : Option (LinModel p)) (i : ℕ) :
    ∃ c, ltsInitial LR srt ch cfg D h iw i = .ok c := by
  unfold ltsInitial
  rw [if_neg (by omega), lrFit_of LR ?_ hp]
  · simp only [Except.bind]
    obtain ⟨t, ht⟩ := ltsCSteps_total LR srt h1 hh hp cfg.nInitialCSteps
      (ltsSubset srt D h (iw.getD (LR.fit (takeAt D (ch.pick (cfg.randomState + i) D.length (p + 1))))),
        iw.getD (LR.fit (takeAt D (ch.pick (cfg.randomState + i) D.length (p + 1)))))
    rw [ht]
    exact ⟨_, rfl⟩
  · intro h0
    have hl := takeAt_length D _ (ch.lt (cfg.randomState + i) D.length (p + 1) hn)
    rw [h0, ch.length _ _ _ hn] at hl
    simp at hl

theorem ltsImprove_total (LR : LinReg p) (srt : ArgSort ℝ) {D : List ((Fin p → ℝ) × ℝ)} {h : ℕ} (h1 : 1 ≤ h) (hh : h ≤ D.length)
    (hp : 1 ≤ p) {tol : ℝ} (htol : 0 ≤ tol) {fuel : ℕ} (hf : 2 ^ D.length + 1 ≤ fuel) (l : List (LTSCand p)) (best : LTSCand p) :
    ∃ r, ltsImprove LR srt D h tol fuel l best = some (.ok r) := by
  induction l generalizing best with
  | nil => exact ⟨best, rfl⟩
  | cons c l ih =>
    unfold ltsImprove
    obtain ⟨r, hr⟩ := C50_terminates LR srt D h hh tol htol c.model c.loss fuel hf
    obtain ⟨cur, rfl⟩ := (C50_loss LR srt D h hh tol fuel c.model c.loss r hr).2 h1 hp
    rw [hr]
    exact ih _

theorem mapExcept_error_head {α β : Type} {f : α → Except PyErr β} {e : PyErr} {a : α} {l : List α} (h : f a = .error e) :
    mapExcept f (a :: l) = .error e := by
  unfold mapExcept
  rw [h]; rfl

/-- **C99**: the outcome of the search for every data set and every parameter with a tolerance that is not negative: ValueError for
`alpha` outside of `[0.5, 1]`; IndexError without initial subsets; ValueError without columns or with at most as many rows as
columns; IndexError without best models; else a model. -/
theorem C99_search_outcome (LR : LinReg p) (srt : ArgSort ℝ) (ch : Choice ℕ) (cfg : LTSConfig) (D : List ((Fin p → ℝ) × ℝ))
    (iw : Option (LinModel p)) (htol : 0 ≤ cfg.tolerance) (fuel : ℕ) (hf : 2 ^ D.length + 1 ≤ fuel) :
    (¬ (0.5 ≤ cfg.alpha ∧ cfg.alpha ≤ 1) → ltsSearch LR srt ch cfg D iw fuel = some (.error .valueError)) ∧
    (0.5 ≤ cfg.alpha ∧ cfg.alpha ≤ 1 →
      (cfg.nInitialSubsets = 0 → ltsSearch LR srt ch cfg D iw fuel = some (.error .indexError)) ∧
      (cfg.nInitialSubsets ≠ 0 → (p = 0 ∨ D.length ≤ p → ltsSearch LR srt ch cfg D iw fuel = some (.error .valueError)) ∧
        (1 ≤ p ∧ p < D.length →
          (cfg.nBestModels = 0 → ltsSearch LR srt ch cfg D iw fuel = some (.error .indexError)) ∧
          (cfg.nBestModels ≠ 0 → ∃ best, ltsSearch LR srt ch cfg D iw fuel = some (.ok best))))) := by
  constructor
  · intro ha
    unfold ltsSearch
    rw [(C52_alpha D.length p cfg.alpha).2 ha]
    rfl
  · intro ha
    obtain ⟨h, hh⟩ : ∃ h, ltsH cfg.alpha D.length p = .ok h := by
      unfold ltsH
      rw [if_neg (by push Not; exact ha)]
      exact ⟨_, rfl⟩
    refine ⟨fun h0 => ?_, fun h0 => ⟨fun hp => ?_, fun hp => ?_⟩⟩
    · unfold ltsSearch
      rw [hh, h0]
      simp only [List.range_zero, mapExcept, Run.andThen, List.map_nil]
      have : srt.toFun [] = [] := List.length_eq_zero_iff.1 (by rw [srt.length]; rfl)
      rw [this, List.take_nil]
      rfl
    · have hi : ltsInitial LR srt ch cfg D h iw 0 = .error .valueError := by
        unfold ltsInitial
        split_ifs with hn
        · rfl
        · rcases hp with rfl | hp
          · unfold lrFit
            rw [if_pos (Or.inr rfl)]; rfl
          · omega
      obtain ⟨k, hk⟩ := Nat.exists_eq_succ_of_ne_zero h0
      unfold ltsSearch
      rw [hh, hk, List.range_succ_eq_map]
      simp only [Run.andThen]
      rw [mapExcept_error_head hi]
    · have h1 : 1 ≤ h := by have := (ltsH_le hh).1; omega
      have hle : h ≤ D.length := (ltsH_le hh).2 (by omega)
      obtain ⟨cands, hc⟩ := mapExcept_all_ok (f := ltsInitial LR srt ch cfg D h iw) (List.range cfg.nInitialSubsets)
        fun i _ => ltsInitial_total LR srt ch cfg h1 hle (by omega) (by omega) iw i
      have hlen : cands.length = cfg.nInitialSubsets := by
        rw [← (mapExcept_ok hc).length_eq, List.length_range]
      refine ⟨fun hb => ?_, fun hb => ?_⟩
      · unfold ltsSearch
        rw [hh]
        simp only [Run.andThen]
        rw [hc, hb]
        rfl
      · unfold ltsSearch
        rw [hh]
        simp only [Run.andThen]
        rw [hc]
        simp only
        have hl2 : (takeAt cands ((srt.toFun (cands.map LTSCand.loss)).take cfg.nBestModels)).length = min cfg.nBestModels cands.length := by
          obtain ⟨-, g2, g3, -⟩ := argsort_take srt (cands.map LTSCand.loss) cfg.nBestModels
          rw [takeAt_length _ _ (by simpa using g3), g2, List.length_map]
        rcases ht : takeAt cands ((srt.toFun (cands.map LTSCand.loss)).take cfg.nBestModels) with _ | ⟨c, l⟩
        · rw [ht] at hl2
          simp at hl2
          omega
        · exact ltsImprove_total LR srt h1 hle hp.1 htol hf _ _

end
end Robpy
