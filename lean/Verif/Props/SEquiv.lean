import Verif.Props.SReg

/-! C191: S-regression on the targets with the opposite sign.  The argument is shared with C190. -/

namespace Robpy
variable {k : ℕ}

theorem sMapExcept_sim {α β : Type} (F : β → β) {f f' : α → Except PyErr β} (l : List α) (h : ∀ a ∈ l, f' a = (f a).map F) :
    mapExcept f' l = (mapExcept f l).map (List.map F) := by
  induction l with
  | nil => rfl
  | cons a l ih =>
    unfold mapExcept
    rw [h a (by simp), ih fun a ha => h a (by simp [ha])]
    rcases f a with e | b
    · rfl
    · simp only [Except.map, Except.bind]
      rcases mapExcept f l with e | bs <;> rfl

theorem sRunLoop_sim {σ : Type} (T : σ → σ) {f f' : σ → Except PyErr (σ ⊕ σ)} (h : ∀ s, f' (T s) = (f s).map (Sum.map T T)) (fuel : ℕ)
    (s : σ) : runLoop f' fuel (T s) = (runLoop f fuel s).map (Except.map T) := by
  induction fuel generalizing s with
  | zero => rfl
  | succ fuel ih =>
    unfold runLoop
    rw [h s]
    rcases f s with e | (s' | a)
    · rfl
    · exact ih s'
    · rfl

theorem sBest_sim (T : (Fin k → ℝ) → Fin k → ℝ) (c : (Fin k → ℝ) × ℝ) (l : List ((Fin k → ℝ) × ℝ)) :
    sBest (Prod.map T id c) (l.map (Prod.map T id)) = Prod.map T id (sBest c l) := by
  unfold sBest
  induction l generalizing c with
  | nil => rfl
  | cons d l ih =>
    simp only [List.map_cons, List.foldl_cons]
    rw [← ih]
    congr 1
    by_cases h : d.2 < c.2
    · rw [if_pos h, if_pos (by simpa using h)]
    · rw [if_neg h, if_neg (by simpa using h)]

/-- If the steps of the algorithm on two samples correspond through a map of the coefficients, so do the results. -/
theorem sSearch_sim (W : WLSReg) (srt : ArgSort ℝ) (ch ch' : Choice ℕ) (cfg : SConfig) (D D' : List ((Fin k → ℝ) × ℝ))
    (T : (Fin k → ℝ) → Fin k → ℝ) (hlen : D'.length = D.length)
    (hstep : ∀ beta, sIStep W cfg D' (sRes D' (T beta)) = (sIStep W cfg D (sRes D beta)).map (Prod.map T id))
    (hstep' : ∀ beta, sIStep W cfg D' ((sRes D' (T beta)).map fun r => -r) =
      (sIStep W cfg D ((sRes D beta).map fun r => -r)).map (Prod.map T id))
    (hfit : ∀ i < cfg.nInitialSubsets, k + 1 ≤ D.length → W.fit ((takeAt D' (ch'.pick (cfg.randomState + i) D.length (k + 1))).map fun d => (d.1, d.2, 1)) =
      T (W.fit ((takeAt D (ch.pick (cfg.randomState + i) D.length (k + 1))).map fun d => (d.1, d.2, 1))))
    (hscale : ∀ beta, sInitialScale (sRes D' (T beta)) = sInitialScale (sRes D beta))
    (hconv : ∀ a b, sConverged cfg.relativeTolerance (T a) (T b) = sConverged cfg.relativeTolerance a b) (fuel : ℕ) :
    sSearch W srt ch' cfg D' fuel = (sSearch W srt ch cfg D fuel).map (Except.map (Prod.map T id)) := by
  have hsteps' : ∀ j beta c, sISteps W cfg D' j (Prod.map T id c) ((sRes D' (T beta)).map fun r => -r) =
      (sISteps W cfg D j c ((sRes D beta).map fun r => -r)).map (Prod.map T id) := by
    intro j
    induction j with
    | zero => intro beta c; rfl
    | succ j ih =>
      intro beta c
      unfold sISteps
      rw [hstep' beta]
      rcases sIStep W cfg D ((sRes D beta).map fun r => -r) with e | c'
      · rfl
      · exact ih c'.1 c'
  have hsteps : ∀ j beta c, sISteps W cfg D' j (Prod.map T id c) (sRes D' (T beta)) =
      (sISteps W cfg D j c (sRes D beta)).map (Prod.map T id) := by
    intro j beta c
    rcases j with _ | j
    · rfl
    · unfold sISteps
      rw [hstep beta]
      rcases sIStep W cfg D (sRes D beta) with e | c'
      · rfl
      · exact hsteps' j c'.1 c'
  have hinit : ∀ i < cfg.nInitialSubsets, sInitial W ch' cfg D' i = (sInitial W ch cfg D i).map (Option.map (Prod.map T id)) := by
    intro i hi
    unfold sInitial
    rw [hlen]
    by_cases hn : D.length < k + 1
    · rw [if_pos hn, if_pos hn]
      rfl
    · rw [if_neg hn, if_neg hn]
      simp only
      rw [hfit i hi (by omega), hscale]
      generalize W.fit ((takeAt D (ch.pick (cfg.randomState + i) D.length (k + 1))).map fun d => (d.1, d.2, 1)) = beta
      have := hsteps cfg.nInitialISteps beta (beta, sInitialScale (sRes D beta))
      simp only [Prod.map, id] at this
      rw [this]
      rcases sISteps W cfg D cfg.nInitialISteps (beta, sInitialScale (sRes D beta)) (sRes D beta) with e | c
      · cases e <;> rfl
      · rfl
  have hloop : ∀ s : ((Fin k → ℝ) × ℝ) × Bool, sStep W cfg D' (Prod.map (Prod.map T id) id s) =
      (sStep W cfg D s).map (Sum.map (Prod.map (Prod.map T id) id) (Prod.map (Prod.map T id) id)) := by
    rintro ⟨⟨beta, s⟩, bound⟩
    unfold sStep
    simp only [Prod.map, id]
    rw [hstep beta]
    rcases sIStep W cfg D (sRes D beta) with e | c
    · cases e <;> simp only [Except.map] <;> try rfl
      rcases bound <;> rfl
    · simp only [Except.map, Prod.map, id]
      have hcv := hconv beta c.1
      change (if sConverged cfg.relativeTolerance (T beta) (T c.1) = true then Except.ok (Sum.inr ((T c.1, c.2), true))
        else Except.ok (Sum.inl ((T c.1, c.2), true))) = _
      by_cases h : sConverged cfg.relativeTolerance beta c.1 = true
      · rw [if_pos h, if_pos (hcv.trans h)]
        rfl
      · rw [if_neg h, if_neg (fun h' => h (hcv.symm.trans h'))]
        rfl
  have himp : ∀ (l : List ((Fin k → ℝ) × ℝ)) (bound : Bool), sImprove W cfg D' fuel (l.map (Prod.map T id)) bound =
      (sImprove W cfg D fuel l bound).map (Except.map (List.map (Prod.map T id))) := by
    intro l
    induction l with
    | nil => intro bound; rfl
    | cons c l ih =>
      intro bound
      rw [List.map_cons]
      unfold sImprove
      have h := sRunLoop_sim (Prod.map (Prod.map T id) id) hloop fuel (c, bound)
      have e : Prod.map (Prod.map T id) id (c, bound) = (Prod.map T id c, bound) := rfl
      rw [e] at h
      rw [h]
      rcases runLoop (sStep W cfg D) fuel (c, bound) with _ | (e | r)
      · rfl
      · rfl
      · simp only [Option.map_some, Except.map, Run.andThen]
        have e2 : (Prod.map (Prod.map T id) id r).2 = r.2 := rfl
        rw [e2, ih r.2]
        rcases sImprove W cfg D fuel l r.2 with _ | (e | cs) <;> rfl
  unfold sSearch
  rw [sMapExcept_sim (Option.map (Prod.map T id)) (List.range cfg.nInitialSubsets) fun i hi => hinit i (List.mem_range.1 hi)]
  rcases mapExcept (sInitial W ch cfg D) (List.range cfg.nInitialSubsets) with e | os
  · rfl
  · simp only [Except.map, Run.andThen]
    have e1 : (os.map (Option.map (Prod.map T (id : ℝ → ℝ)))).filterMap id = (os.filterMap id).map (Prod.map T id) := by
      rw [List.filterMap_map, List.map_filterMap]
      rfl
    rw [e1]
    generalize os.filterMap id = cands
    have e2 : (cands.map (Prod.map T id)).map Prod.snd = cands.map Prod.snd := by
      rw [List.map_map]
      rfl
    rw [e2, takeAt_map, himp]
    rcases sImprove W cfg D fuel (takeAt cands ((srt.toFun (cands.map Prod.snd)).take cfg.nBestSubsets)) false with _ | (e | cs)
    · rfl
    · rfl
    · rcases cs with _ | ⟨c, l⟩
      · rfl
      · simp only [Option.map_some, Except.map, List.map_cons]
        rw [sBest_sim]

/-! Signs -/

theorem sRho_even (R : Rho ℝ) (x : ℝ) : R.rho (-x) = R.rho x := by
  rcases R with c | b
  · exact (C13_even c x).1
  · simp [Rho.rho, huberRho]

theorem sPsi_odd (R : Rho ℝ) (x : ℝ) : R.psi (-x) = -R.psi x := by
  rcases R with c | b
  · exact (C13_even c x).2
  · simp only [Rho.psi, huberPsi, abs_neg, npSign]
    split_ifs <;> first | rfl | (exfalso; linarith) | ring1 | simp | (simp; linarith)

theorem sWeight_neg (R : Rho ℝ) (s r : ℝ) : sWeight R s (-r) = sWeight R s r := by
  unfold sWeight
  by_cases hs : s = 0
  · rw [if_pos hs, if_pos hs]
  · rw [if_neg hs, if_neg hs]
    by_cases hr : r = 0
    · rw [if_pos hr, if_pos (by rw [hr, neg_zero])]
    · rw [if_neg hr, if_neg (neg_ne_zero.2 hr), neg_div, sPsi_odd, neg_div_neg_eq]

theorem sScaleStep_neg (R : Rho ℝ) (b : ℝ) (res : List ℝ) (s : ℝ) : sScaleStep R b (res.map fun r => -r) s = sScaleStep R b res s := by
  unfold sScaleStep sRhoMean
  rw [List.map_map, List.length_map]
  have : ((fun r => R.rho (r / s)) ∘ fun r => -r) = fun r => R.rho (r / s) := by
    funext r
    simp only [Function.comp]
    rw [neg_div, sRho_even]
  rw [this]

theorem sGetScale_neg (R : Rho ℝ) (b tol : ℝ) (res : List ℝ) (j : ℕ) (s : ℝ) :
    sGetScale R b tol (res.map fun r => -r) j s = sGetScale R b tol res j s := by
  induction j generalizing s with
  | zero => rfl
  | succ j ih =>
    unfold sGetScale
    rw [sScaleStep_neg]
    rcases sScaleStep R b res s with _ | s'
    · rfl
    · simp only
      rw [ih]

theorem sInitialScale_neg (res : List ℝ) : sInitialScale (res.map fun r => -r) = sInitialScale res := by
  unfold sInitialScale
  rw [List.map_map]
  have : ((fun r : ℝ => |r|) ∘ fun r => -r) = fun r => |r| := by funext r; simp
  rw [this]

/-- An i-step depends on the residuals through their absolute values only. -/
theorem sIStep_neg (W : WLSReg) (cfg : SConfig) (D : List ((Fin k → ℝ) × ℝ)) (res : List ℝ) :
    sIStep W cfg D (res.map fun r => -r) = sIStep W cfg D res := by
  unfold sIStep
  rw [sGetScale_neg, sInitialScale_neg]
  rcases sGetScale cfg.rho cfg.b cfg.scaleTolerance res cfg.maxScaleIterations (sInitialScale res) with e | (_ | s)
  · rfl
  · rfl
  · simp only
    rw [List.map_map]
    have : (sWeight cfg.rho s ∘ fun r => -r) = sWeight cfg.rho s := by funext r; exact sWeight_neg _ _ _
    rw [this]

theorem dotRow_neg (x a : Fin k → ℝ) : dotRow x (-a) = -dotRow x a := by simp [dotRow]

/-- The shortest weighted least squares fit changes sign with the targets. -/
theorem WLSReg.fit_neg (W : WLSReg) {D : List ((Fin k → ℝ) × ℝ × ℝ)} (hw : ∀ d ∈ D, 0 ≤ d.2.2) :
    W.fit (D.map fun d => (d.1, -d.2.1, d.2.2)) = -W.fit D := by
  have e : ∀ m, wssr (D.map fun d => (d.1, -d.2.1, d.2.2)) m = wssr D (-m) := by
    intro m
    unfold wssr
    rw [List.map_map]
    congr 1
    refine List.map_congr_left fun d _ => ?_
    simp only [Function.comp]
    rw [dotRow_neg]
    ring
  refine W.fit_unique ?_ ?_ ?_
  · intro d hd
    obtain ⟨d', hd', rfl⟩ := List.mem_map.1 hd
    exact hw d' hd'
  · intro m
    rw [e, e, neg_neg]
    exact W.isMin D hw _
  · intro m hm
    rw [e, e, neg_neg] at hm
    have := W.minNorm D hw _ hm
    simpa using this

/-- Weights are not negative, for both score functions. -/
theorem sWeight_nonneg {R : Rho ℝ} (hR : 0 < R.const) {s : ℝ} (hs : 0 ≤ s) (r : ℝ) : 0 ≤ sWeight R s r := by
  rcases eq_or_lt_of_le hs with h | h
  · rw [sWeight, if_pos h.symm]
  · rcases R with c | b
    · rw [sWeight_tukey (c := c) hR h]
      exact bisquareWeight_nonneg _ _ _
    · unfold sWeight
      rw [if_neg h.ne']
      generalize (if r = 0 then npEps else r) / s = x
      simp only [Rho.const] at hR
      simp only [Rho.psi, huberPsi, npSign]
      split_ifs with h1 h2 h3
      · rcases eq_or_ne x 0 with h0 | h0
        · simp [h0]
        · rw [div_self h0]; exact zero_le_one
      · exact div_nonneg_of_nonpos (by linarith) h2.le
      · exact div_nonneg (by linarith) h3.le
      · simp

theorem sGetScale_nonneg (R : Rho ℝ) (b tol : ℝ) (res : List ℝ) (j : ℕ) {s s' : ℝ} (hs : 0 ≤ s)
    (h : sGetScale R b tol res j s = .ok (some s')) : 0 ≤ s' := by
  induction j generalizing s with
  | zero => simp [sGetScale] at h
  | succ j ih =>
    unfold sGetScale at h
    rcases h1 : sScaleStep R b res s with _ | t
    · rw [h1] at h; simp at h
    · rw [h1] at h
      simp only at h
      have ht : 0 ≤ t := by
        unfold sScaleStep at h1
        split_ifs at h1
        · rcases R with c | c
          · simp only [Option.some.injEq] at h1
            exact h1.le
          · simp at h1
        · simp only [Option.some.injEq] at h1
          rw [← h1]
          exact mul_nonneg hs (Real.sqrt_nonneg _)
      split_ifs at h
      · simp only [Except.ok.injEq, Option.some.injEq] at h
        rw [← h]
        exact ht
      · exact ih ht h

/-- The targets with the opposite sign. -/
def Spec.negTargets (D : List ((Fin k → ℝ) × ℝ)) : List ((Fin k → ℝ) × ℝ) := D.map fun d => (d.1, -d.2)

/-- **C191**: if all targets change sign the coefficients change sign and the scale does not change, for every setting, also when the
search raises or does not end. -/
theorem C191_sign (W : WLSReg) (srt : ArgSort ℝ) (ch : Choice ℕ) (cfg : SConfig) (hc : 0 < cfg.rho.const) (D : List ((Fin k → ℝ) × ℝ))
    (fuel : ℕ) : sSearch W srt ch cfg (Spec.negTargets D) fuel =
      (sSearch W srt ch cfg D fuel).map (Except.map fun m => (-m.1, m.2)) := by
  have hres : ∀ beta, sRes (Spec.negTargets D) (-beta) = (sRes D beta).map fun r => -r := by
    intro beta
    unfold sRes Spec.negTargets
    rw [List.map_map, List.map_map]
    refine List.map_congr_left fun d _ => ?_
    simp only [Function.comp]
    rw [dotRow_neg]
    ring
  have hstep : ∀ res, sIStep W cfg (Spec.negTargets D) res = (sIStep W cfg D res).map (Prod.map (fun b => -b) id) := by
    intro res
    unfold sIStep
    rcases h : sGetScale cfg.rho cfg.b cfg.scaleTolerance res cfg.maxScaleIterations (sInitialScale res) with e | (_ | s)
    · rfl
    · rfl
    · simp only [Except.map, Prod.map, id]
      have hs := sGetScale_nonneg _ _ _ _ _ (sInitialScale_nonneg res) h
      have := W.fit_neg (D := sWeighted D (res.map (sWeight cfg.rho s))) fun d hd => by
        obtain ⟨r, -, hr⟩ := List.mem_map.1 (sWeighted_mem hd)
        rw [← hr]
        exact sWeight_nonneg hc hs r
      rw [← this]
      congr 3
      unfold sWeighted Spec.negTargets
      rw [List.map_zipWith, List.zipWith_map_left]
  have := sSearch_sim W srt ch ch cfg D (Spec.negTargets D) (fun b => -b) (by simp [Spec.negTargets])
    (fun beta => by
      rw [hres, sIStep_neg]
      exact hstep _)
    (fun beta => by
      rw [hres, sIStep_neg]
      exact hstep _)
    (fun i _ hn => by
      rw [← W.fit_neg]
      · congr 1
        unfold Spec.negTargets
        rw [takeAt_map, List.map_map, List.map_map]
        rfl
      · intro d hd
        obtain ⟨d', -, rfl⟩ := List.mem_map.1 hd
        exact zero_le_one)
    (fun beta => by rw [hres, sInitialScale_neg])
    (fun a b => by
      unfold sConverged
      have h1 : vecNorm (-b - -a) = vecNorm (b - a) := by
        unfold vecNorm
        congr 1
        refine Finset.sum_congr rfl fun j _ => ?_
        simp only [Pi.sub_apply, Pi.neg_apply]
        ring
      have h2 : vecNorm (-b) = vecNorm b := by simp [vecNorm]
      rw [h1, h2])
    fuel
  exact this

/-- The hypothesis of C191 for the default settings and a sample that changes. -/
example : 0 < sDefault.rho.const ∧ Spec.negTargets [((![1] : Fin 1 → ℝ), (1 : ℝ)), (![1], 3)] ≠ [(![1], 1), (![1], 3)] := by
  constructor
  · norm_num [sDefault, Rho.const]
  · intro h
    have := congrArg (fun l => (l.map Prod.snd).sum) h
    simp [Spec.negTargets] at this
    norm_num at this

end Robpy
