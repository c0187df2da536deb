import Verif.Model.GlobalRng
import Verif.Props.LTSWitness
import Verif.Props.SRegWitness

/-! C161: the regression estimators and numpy's global generator. -/

namespace Robpy
variable {G : Type}

namespace Spec

/-- A simulation study with `k` rounds: each round draws a data set with the program's generator and analyses it; `analyse` returns the
state of the generator, or nothing if it fails.  The result lists the data sets. -/
def study {δ : Type} (draw : G → δ × G) (analyse : δ → G → Option G) : ℕ → G → Option (List δ)
  | 0, _ => some []
  | k + 1, g => (analyse (draw g).1 (draw g).2).bind fun g' => (study draw analyse k g').map ((draw g).1 :: ·)

/-- The generator after a fit that returned. -/
def afterOk {σ : Type} : Option ((Except PyErr Unit × σ) × G) → Option G
  | some ((.ok _, _), g) => some g
  | _ => none

end Spec

/-- The rows drawn right after seeding. -/
def GlobalRng.toChoice (R : GlobalRng G) : Choice ℕ where
  pick s n k := (R.choice (R.seed s) n k).1
  length s n k h := R.length _ n k h
  nodup s n k h := R.nodup _ n k h
  lt s n k h := R.lt _ n k h

section Loop
variable {β : Type}

theorem forRng_fst {f : ℕ → G → Except PyErr β × G} {F : ℕ → Except PyErr β} (hf : ∀ i g, (f i g).1 = F i) (l : List ℕ) (g : G) :
    (forRng f l g).1 = mapExcept F l := by
  induction l generalizing g with
  | nil => rfl
  | cons i l ih =>
    unfold forRng mapExcept
    have h := hf i g
    rcases hx : f i g with ⟨e | b, g'⟩
    · rw [hx] at h
      simp only at h ⊢
      rw [← h]; rfl
    · rw [hx] at h
      simp only at h ⊢
      rw [← h, ih]; rfl

theorem forRng_snd {f : ℕ → G → Except PyErr β × G} {s : ℕ → G} (hf : ∀ i g, (f i g).2 = s i) (l : List ℕ) (g : G) {bs : List β}
    (h : (forRng f l g).1 = .ok bs) : (forRng f l g).2 = (l.getLast?.map s).getD g := by
  induction l generalizing g bs with
  | nil => rfl
  | cons i l ih =>
    unfold forRng at h ⊢
    have h2 := hf i g
    rcases hx : f i g with ⟨e | b, g'⟩
    · rw [hx] at h
      simp at h
    · rw [hx] at h h2
      simp only at h h2 ⊢
      rcases hr : (forRng f l g').1 with e | cs
      · rw [hr] at h; simp [Except.map] at h
      · rw [ih g' hr, h2]
        rcases l with _ | ⟨j, l⟩
        · simp
        · rw [List.getLast?_cons_cons, List.getLast?_eq_some_getLast (List.cons_ne_nil j l)]
          rfl

end Loop

theorem getLast?_range_succ (m : ℕ) : (List.range (m + 1)).getLast? = some m := by
  rw [List.range_succ, List.getLast?_append]; rfl

section Lts
variable {p : ℕ} (R : GlobalRng G) (LR : LinReg p) (srt : ArgSort ℝ) (cfg : LTSConfig)

theorem ltsInitialG_fst (D : List ((Fin p → ℝ) × ℝ)) (h : ℕ) (iw : Option (LinModel p)) (i : ℕ) (g : G) :
    (ltsInitialG R LR srt cfg D h iw i g).1 = ltsInitial LR srt R.toChoice cfg D h iw i := by
  unfold ltsInitialG ltsInitial
  split_ifs <;> rfl

theorem ltsInitialG_snd (D : List ((Fin p → ℝ) × ℝ)) (h : ℕ) (iw : Option (LinModel p)) (i : ℕ) (g : G) :
    (ltsInitialG R LR srt cfg D h iw i g).2 =
      if D.length < p + 1 then R.seed (cfg.randomState + i) else (R.choice (R.seed (cfg.randomState + i)) D.length (p + 1)).2 := by
  unfold ltsInitialG
  split_ifs <;> rfl

theorem ltsSearchG_fst (D : List ((Fin p → ℝ) × ℝ)) (iw : Option (LinModel p)) (fuel : ℕ) (g : G) :
    (ltsSearchG R LR srt cfg D iw fuel g).map Prod.fst = ltsSearch LR srt R.toChoice cfg D iw fuel := by
  unfold ltsSearchG ltsSearch
  rcases ltsH cfg.alpha D.length p with e | h
  · rfl
  · simp only [Run.andThen]
    rw [forRng_fst (ltsInitialG_fst R LR srt cfg D h iw)]
    rcases mapExcept (ltsInitial LR srt R.toChoice cfg D h iw) (List.range cfg.nInitialSubsets) with e | cands
    · rfl
    · simp only
      rcases takeAt cands ((srt.toFun (cands.map LTSCand.loss)).take cfg.nBestModels) with _ | ⟨c, l⟩
      · rfl
      · simp only [Option.map_map]
        exact congrFun Option.map_id _

/-- The generator after a search that found a model. -/
theorem ltsSearchG_snd {D : List ((Fin p → ℝ) × ℝ)} {iw : Option (LinModel p)} {fuel : ℕ} {g g' : G} {best : LTSCand p}
    (h : ltsSearchG R LR srt cfg D iw fuel g = some (.ok best, g')) :
    g' = (R.choice (R.seed (cfg.randomState + (cfg.nInitialSubsets - 1))) D.length (p + 1)).2 := by
  unfold ltsSearchG at h
  rcases hH : ltsH cfg.alpha D.length p with e | hh
  · rw [hH] at h; simp at h
  · rw [hH] at h
    simp only at h
    rcases hr : (forRng (ltsInitialG R LR srt cfg D hh iw) (List.range cfg.nInitialSubsets) (R.seed cfg.randomState)).1 with e | cands
    · rw [hr] at h; simp at h
    · have hsnd := forRng_snd (ltsInitialG_snd R LR srt cfg D hh iw) _ _ hr
      have hfst := forRng_fst (ltsInitialG_fst R LR srt cfg D hh iw) (List.range cfg.nInitialSubsets) (R.seed cfg.randomState)
      rw [hr] at h hfst
      simp only at h
      have hlen := (mapExcept_ok hfst.symm).length_eq
      rw [List.length_range] at hlen
      rcases hn : cfg.nInitialSubsets with _ | m
      · have : cands = [] := List.length_eq_zero_iff.1 (by omega)
        subst this
        have : srt.toFun [] = [] := List.length_eq_zero_iff.1 (by rw [srt.length]; rfl)
        simp [this, takeAt] at h
      · have hge : ¬ D.length < p + 1 := by
          intro hlt
          have h0 : ltsInitial LR srt R.toChoice cfg D hh iw 0 = .error .valueError := by
            unfold ltsInitial; rw [if_pos hlt]
          rw [hn, List.range_succ_eq_map, mapExcept_error_head h0] at hfst
          cases hfst
        rw [hn, getLast?_range_succ] at hsnd
        simp only [Option.map_some, Option.getD_some, if_neg hge] at hsnd
        rcases ht : takeAt cands ((srt.toFun (cands.map LTSCand.loss)).take cfg.nBestModels) with _ | ⟨c, l⟩
        · rw [ht] at h; simp at h
        · rw [ht] at h
          simp only at h
          obtain ⟨b, -, hb⟩ := Option.map_eq_some_iff.1 h
          have := (Prod.ext_iff.1 hb).2
          simp only at this
          rw [← this, hn, hsnd, Nat.add_sub_cancel]

/-- **C161** (result): what `FastLTSRegression.fit` returns and stores does not depend on the state of the global generator; it is
decided by the seeds `random_state`, `random_state + 1`, .... -/
theorem C161_lts_result_partial (q : ℝ) (corr corrRew : ℕ → ℕ → ℝ → Option ℝ) (st : LTSState p) (D : List ((Fin p → ℝ) × ℝ))
    (iw : Option (LinModel p)) (fuel : ℕ) (g : G) :
    (ltsFitG R LR srt q corr corrRew cfg st D iw fuel g).map Prod.fst = ltsFit LR srt R.toChoice q corr corrRew cfg st D iw fuel := by
  unfold ltsFitG ltsFit
  rw [← ltsSearchG_fst R LR srt cfg D iw fuel g]
  rcases ltsSearchG R LR srt cfg D iw fuel g with _ | ⟨e | best, g'⟩
  · rfl
  · rfl
  · simp only [Option.map_some]
    split_ifs
    · rcases lrFit LR (takeAt D (ltsMask q D best.model)) with e | m <;> rfl
    · rfl

/-- **C161** (generator): a fit that returns leaves the global generator in a state that depends on the settings and the number of rows
and columns only; whatever the program had drawn or seeded before is lost. -/
theorem C161_lts_after_partial (q : ℝ) (corr corrRew : ℕ → ℕ → ℝ → Option ℝ) (st : LTSState p) (D : List ((Fin p → ℝ) × ℝ))
    (iw : Option (LinModel p)) (fuel : ℕ) (g g' : G)
    (h : Spec.afterOk (ltsFitG R LR srt q corr corrRew cfg st D iw fuel g) = some g') :
    g' = (R.choice (R.seed (cfg.randomState + (cfg.nInitialSubsets - 1))) D.length (p + 1)).2 := by
  unfold ltsFitG at h
  rcases hs : ltsSearchG R LR srt cfg D iw fuel g with _ | ⟨e | best, g1⟩
  · rw [hs] at h; cases h
  · rw [hs] at h; cases h
  · have h1 := ltsSearchG_snd R LR srt cfg hs
    rw [hs] at h
    simp only at h
    split_ifs at h
    · rcases hl : lrFit LR (takeAt D (ltsMask q D best.model)) with e | m
      · rw [hl] at h; cases h
      · rw [hl] at h
        cases h; exact h1
    · cases h; exact h1

end Lts

section Sreg
variable {k p : ℕ} (R : GlobalRng G) (W : WLSReg) (srt : ArgSort ℝ) (cfg : SConfig)

theorem sInitialG_fst (D : List ((Fin k → ℝ) × ℝ)) (i : ℕ) (g : G) :
    (sInitialG R W cfg D i g).1 = sInitial W R.toChoice cfg D i := by
  unfold sInitialG sInitial
  split_ifs
  · rfl
  · simp only [GlobalRng.toChoice]
    rcases sISteps W cfg D cfg.nInitialISteps
      (W.fit ((takeAt D (R.choice (R.seed (cfg.randomState + i)) D.length (k + 1)).1).map fun d => (d.1, d.2, 1)),
        sInitialScale (sRes D (W.fit ((takeAt D (R.choice (R.seed (cfg.randomState + i)) D.length (k + 1)).1).map fun d => (d.1, d.2, 1)))))
      (sRes D (W.fit ((takeAt D (R.choice (R.seed (cfg.randomState + i)) D.length (k + 1)).1).map fun d => (d.1, d.2, 1)))) with e | c
    · cases e <;> rfl
    · rfl

theorem sInitialG_snd (D : List ((Fin k → ℝ) × ℝ)) (i : ℕ) (g : G) :
    (sInitialG R W cfg D i g).2 =
      if D.length < k + 1 then R.seed (cfg.randomState + i) else (R.choice (R.seed (cfg.randomState + i)) D.length (k + 1)).2 := by
  unfold sInitialG
  split_ifs <;> rfl

theorem sSearchG_fst (D : List ((Fin k → ℝ) × ℝ)) (fuel : ℕ) (g : G) :
    (sSearchG R W srt cfg D fuel g).map Prod.fst = sSearch W srt R.toChoice cfg D fuel := by
  unfold sSearchG sSearch
  simp only
  rw [forRng_fst (sInitialG_fst R W cfg D)]
  rcases mapExcept (sInitial W R.toChoice cfg D) (List.range cfg.nInitialSubsets) with e | os
  · rfl
  · simp only [Run.andThen]
    rcases sImprove W cfg D fuel (takeAt (os.filterMap id) ((srt.toFun ((os.filterMap id).map Prod.snd)).take cfg.nBestSubsets)) false
      with _ | e | _ | ⟨c, l⟩ <;> rfl

theorem sSearchG_snd {D : List ((Fin k → ℝ) × ℝ)} {fuel : ℕ} {g g' : G} {c : (Fin k → ℝ) × ℝ}
    (h : sSearchG R W srt cfg D fuel g = some (.ok c, g')) :
    g' = (R.choice (R.seed (cfg.randomState + (cfg.nInitialSubsets - 1))) D.length (k + 1)).2 := by
  unfold sSearchG at h
  simp only at h
  rcases hr : (forRng (sInitialG R W cfg D) (List.range cfg.nInitialSubsets) g).1 with e | os
  · rw [hr] at h; simp at h
  · have hsnd := forRng_snd (sInitialG_snd R W cfg D) _ _ hr
    have hfst := forRng_fst (sInitialG_fst R W cfg D) (List.range cfg.nInitialSubsets) g
    rw [hr] at h hfst
    simp only at h
    have hlen := (mapExcept_ok hfst.symm).length_eq
    rw [List.length_range] at hlen
    rcases hn : cfg.nInitialSubsets with _ | m
    · have : os = [] := List.length_eq_zero_iff.1 (by omega)
      subst this
      have : srt.toFun [] = [] := List.length_eq_zero_iff.1 (by rw [srt.length]; rfl)
      simp [this, takeAt, sImprove] at h
    · have hge : ¬ D.length < k + 1 := by
        intro hlt
        have h0 : sInitial W R.toChoice cfg D 0 = .error .valueError := by
          unfold sInitial; rw [if_pos hlt]
        rw [hn, List.range_succ_eq_map, mapExcept_error_head h0] at hfst
        cases hfst
      rw [hn, getLast?_range_succ] at hsnd
      simp only [Option.map_some, Option.getD_some, if_neg hge] at hsnd
      rcases hi : sImprove W cfg D fuel (takeAt (os.filterMap id) ((srt.toFun ((os.filterMap id).map Prod.snd)).take cfg.nBestSubsets)) false
        with _ | e | _ | ⟨c, l⟩
      · rw [hi] at h; simp at h
      · rw [hi] at h; simp at h
      · rw [hi] at h; simp at h
      · rw [hi] at h
        simp only [Option.some.injEq, Prod.mk.injEq] at h
        rw [← h.2, hn, hsnd, Nat.add_sub_cancel]

/-- **C161** (result) for `SRegression`. -/
theorem C161_s_result_partial (st : SState) (X : List (Fin p → ℝ)) (y : List ℝ) (fuel : ℕ) (g : G) :
    (sFitG R W srt cfg st X y fuel g).map Prod.fst = sFit W srt R.toChoice cfg st X y fuel := by
  unfold sFitG sFit
  rcases sDesign cfg.fitIntercept X with e | ⟨k, Z⟩
  · rfl
  · simp only
    rw [← sSearchG_fst R W srt cfg (Z.zip y) fuel g]
    rcases sSearchG R W srt cfg (Z.zip y) fuel g with _ | ⟨e | c, g'⟩ <;> rfl

/-- **C161** (generator) for `SRegression`; `k` is the number of columns of the design matrix. -/
theorem C161_s_after_partial (st : SState) (X : List (Fin p → ℝ)) (y : List ℝ) (hy : y.length = X.length) (fuel : ℕ) (g g' : G)
    (h : Spec.afterOk (sFitG R W srt cfg st X y fuel g) = some g') :
    ∃ k, (k = p ∨ (k = p + 1 ∧ cfg.fitIntercept = true ∧ ¬ hasConstant X)) ∧
      (k = p → cfg.fitIntercept = true → hasConstant X) ∧
      g' = (R.choice (R.seed (cfg.randomState + (cfg.nInitialSubsets - 1))) X.length (k + 1)).2 := by
  unfold sFitG at h
  rcases hd : sDesign cfg.fitIntercept X with e | ⟨k, Z⟩
  · rw [hd] at h; cases h
  · rw [hd] at h
    simp only at h
    have hk : (k = p ∨ (k = p + 1 ∧ cfg.fitIntercept = true ∧ ¬ hasConstant X)) ∧ (k = p → cfg.fitIntercept = true → hasConstant X) ∧
        Z.length = X.length := by
      unfold sDesign addConstant at hd
      split_ifs at hd with h1 h2 h3 <;> cases hd
      · exact ⟨.inl rfl, fun _ _ => h3, rfl⟩
      · exact ⟨.inr ⟨rfl, h1, h3⟩, fun hp => by omega, by simp⟩
      · exact ⟨.inl rfl, fun _ h => absurd h h1, rfl⟩
    rcases hs : sSearchG (k := k) R W srt cfg (Z.zip y) fuel g with _ | ⟨e | c, g1⟩
    · rw [hs] at h; cases h
    · rw [hs] at h; cases h
    · have h1 := sSearchG_snd R W srt cfg hs
      rw [hs] at h
      cases h
      refine ⟨k, hk.1, hk.2.1, ?_⟩
      rw [h1, List.length_zip, hk.2.2, hy, min_self]

end Sreg

section Study
variable {δ : Type}

theorem study_after {draw : G → δ × G} {analyse : δ → G → Option G} {c : G} (hc : ∀ g g', analyse (draw g).1 (draw g).2 = some g' → g' = c)
    (m : ℕ) (g : G) {Ds : List δ} (h : Spec.study draw analyse m g = some Ds) : Ds.tail = List.replicate (m - 1) (draw c).1 := by
  have main : ∀ m, ∀ Ds, Spec.study draw analyse m c = some Ds → Ds = List.replicate m (draw c).1 := by
    intro m
    induction m with
    | zero => intro Ds h; cases h; rfl
    | succ m ih =>
      intro Ds h
      unfold Spec.study at h
      obtain ⟨g', h1, h2⟩ := Option.bind_eq_some_iff.1 h
      obtain ⟨Es, h3, rfl⟩ := Option.map_eq_some_iff.1 h2
      rw [hc c g' h1] at h3
      rw [ih Es h3, List.replicate_succ]
  rcases m with _ | m
  · cases h; rfl
  · unfold Spec.study at h
    obtain ⟨g', h1, h2⟩ := Option.bind_eq_some_iff.1 h
    obtain ⟨Es, h3, rfl⟩ := Option.map_eq_some_iff.1 h2
    rw [hc g g' h1] at h3
    rw [main m Es h3]; rfl

/-- **C161** (consequence): a simulation study which draws data sets of a fixed size with numpy's global generator and fits
`FastLTSRegression` to each of them has one and the same data set in all rounds but the first. -/
theorem C161_lts_study_partial {p : ℕ} (R : GlobalRng G) (LR : LinReg p) (srt : ArgSort ℝ) (q : ℝ) (corr corrRew : ℕ → ℕ → ℝ → Option ℝ)
    (cfg : LTSConfig) (st : LTSState p) (fuel n : ℕ) (draw : G → List ((Fin p → ℝ) × ℝ) × G) (hn : ∀ g, (draw g).1.length = n)
    (rounds : ℕ) (g : G) (Ds : List (List ((Fin p → ℝ) × ℝ)))
    (h : Spec.study draw (fun D g => Spec.afterOk (ltsFitG R LR srt q corr corrRew cfg st D none fuel g)) rounds g = some Ds) :
    ∃ D, Ds.tail = List.replicate (rounds - 1) D :=
  ⟨_, study_after (fun g1 g2 h2 => by
    have := C161_lts_after_partial R LR srt cfg q corr corrRew st (draw g1).1 none fuel (draw g1).2 g2 h2
    rw [hn g1] at this
    exact this) rounds g h⟩

/-- **C161** (consequence) for `SRegression` and data without a constant column. -/
theorem C161_s_study_partial {p : ℕ} (R : GlobalRng G) (W : WLSReg) (srt : ArgSort ℝ) (cfg : SConfig) (st : SState) (fuel n : ℕ)
    (draw : G → (List (Fin p → ℝ) × List ℝ) × G) (hn : ∀ g, (draw g).1.1.length = n ∧ (draw g).1.2.length = n)
    (hcol : ∀ g, ¬ hasConstant (draw g).1.1)
    (rounds : ℕ) (g : G) (Ds : List (List (Fin p → ℝ) × List ℝ))
    (h : Spec.study draw (fun D g => Spec.afterOk (sFitG R W srt cfg st D.1 D.2 fuel g)) rounds g = some Ds) :
    ∃ D, Ds.tail = List.replicate (rounds - 1) D := by
  refine ⟨_, study_after (c := (R.choice (R.seed (cfg.randomState + (cfg.nInitialSubsets - 1))) n
    ((if cfg.fitIntercept then p + 1 else p) + 1)).2) (fun g1 g2 h2 => ?_) rounds g h⟩
  obtain ⟨k, h3, h4, h5⟩ := C161_s_after_partial R W srt cfg st (draw g1).1.1 (draw g1).1.2 (by rw [(hn g1).1, (hn g1).2]) fuel (draw g1).2 g2 h2
  rw [h5, (hn g1).1]
  rcases h3 with h3 | ⟨h3, h6, -⟩
  · rw [if_neg fun hi => hcol g1 (h4 h3 hi), h3]
  · rw [if_pos h6, h3]

end Study

/-- **C161**, full statement: fitting a regression estimator leaves numpy's global generator as it was. -/
def C161_statement : Prop :=
  ∀ (G : Type) (R : GlobalRng G) (g g' : G),
    (∀ (p : ℕ) (LR : LinReg p) (srt : ArgSort ℝ) (q : ℝ) (corr corrRew : ℕ → ℕ → ℝ → Option ℝ) (cfg : LTSConfig) (st : LTSState p)
      (D : List ((Fin p → ℝ) × ℝ)) (iw : Option (LinModel p)) (fuel : ℕ),
      Spec.afterOk (ltsFitG R LR srt q corr corrRew cfg st D iw fuel g) = some g' → g' = g) ∧
    ∀ (p : ℕ) (W : WLSReg) (srt : ArgSort ℝ) (cfg : SConfig) (st : SState) (X : List (Fin p → ℝ)) (y : List ℝ) (fuel : ℕ),
      Spec.afterOk (sFitG R W srt cfg st X y fuel g) = some g' → g' = g

/-- A generator that always draws the first numbers and counts its calls. -/
def countRng : GlobalRng ℕ where
  seed s := s
  choice g _ k := (List.range k, g + 1)
  length _ _ k _ := List.length_range
  nodup _ _ _ _ := List.nodup_range
  lt _ n k hk i hi := by rw [List.mem_range] at hi; omega

theorem count_choice : countRng.toChoice = choiceFirst := rfl

/-- The run of `FastLTSRegression` on four observations: it returns. -/
theorem c161_run (g : ℕ) : ∃ g', Spec.afterOk (ltsFitG countRng (linRegExists 1) (argsortStable ℝ) 2 (fun _ _ _ => some 1)
    (fun _ _ _ => some 1) c57Cfg ⟨none, none, none⟩ (c57Data 1) none 17 g) = some g' := by
  obtain ⟨st, -, hf, -⟩ := c57_run (linRegExists 1) (argsortStable ℝ) 2 (fun _ _ _ => some 1) (fun _ _ _ => some 1) 1 one_pos
  have h := C161_lts_result_partial countRng (linRegExists 1) (argsortStable ℝ) c57Cfg 2 (fun _ _ _ => some 1) (fun _ _ _ => some 1)
    ⟨none, none, none⟩ (c57Data 1) none 17 g
  rw [count_choice, hf] at h
  obtain ⟨⟨r, g'⟩, h1, h2⟩ := Option.map_eq_some_iff.1 h
  simp only at h2
  rw [h1, h2]
  exact ⟨g', rfl⟩

/-- The code violates C161: after a fit of `FastLTSRegression` the state is that of the last seed. -/
theorem C161_violated : ¬ C161_statement := by
  intro hst
  obtain ⟨g', h⟩ := c161_run 0
  have h1 := (hst ℕ countRng 0 g').1 1 (linRegExists 1) (argsortStable ℝ) 2 (fun _ _ _ => some 1) (fun _ _ _ => some 1) c57Cfg
    ⟨none, none, none⟩ (c57Data 1) none 17 h
  have h2 := C161_lts_after_partial countRng (linRegExists 1) (argsortStable ℝ) c57Cfg 2 (fun _ _ _ => some 1) (fun _ _ _ => some 1)
    ⟨none, none, none⟩ (c57Data 1) none 17 0 g' h
  rw [h1] at h2
  simp [countRng, c57Cfg] at h2

/-- So does `SRegression` with its default settings. -/
theorem C161_s_violated : ∃ g', Spec.afterOk (sFitG countRng wlsExists (argsortStable ℝ) sDefault ⟨none, none⟩ c102X [0, 0, 0, 0] 1 0) =
    some g' ∧ g' ≠ 0 := by
  obtain ⟨st', hf⟩ := c102_fit
  have h := C161_s_result_partial countRng wlsExists (argsortStable ℝ) sDefault ⟨none, none⟩ c102X [0, 0, 0, 0] 1 0
  rw [count_choice, hf] at h
  obtain ⟨⟨r, g'⟩, h1, h2⟩ := Option.map_eq_some_iff.1 h
  simp only at h2
  have h3 : Spec.afterOk (sFitG countRng wlsExists (argsortStable ℝ) sDefault ⟨none, none⟩ c102X [0, 0, 0, 0] 1 0) = some g' := by
    rw [h1, h2]; rfl
  refine ⟨g', h3, ?_⟩
  obtain ⟨k, -, -, h5⟩ := C161_s_after_partial countRng wlsExists (argsortStable ℝ) sDefault ⟨none, none⟩ c102X [0, 0, 0, 0] rfl 1 0 g' h3
  rw [h5]
  simp [countRng]

/-- A study with data that depend on the generator: the third data set is the second. -/
example : ∃ Ds D, Spec.study (fun g : ℕ => (c57Data ((g : ℝ) + 1), g + 1)) (fun D g => Spec.afterOk (ltsFitG countRng (linRegExists 1)
      (argsortStable ℝ) 2 (fun _ _ _ => some 1) (fun _ _ _ => some 1) c57Cfg ⟨none, none, none⟩ D none 17 g)) 3 0 = some Ds ∧
    Ds = [c57Data 1, D, D] := by
  have run : ∀ (b : ℝ) (g : ℕ), 0 < b → Spec.afterOk (ltsFitG countRng (linRegExists 1)
      (argsortStable ℝ) 2 (fun _ _ _ => some 1) (fun _ _ _ => some 1) c57Cfg ⟨none, none, none⟩ (c57Data b) none 17 g) = some 43 := by
    intro b g hb
    obtain ⟨st, -, hf, -⟩ := c57_run (linRegExists 1) (argsortStable ℝ) 2 (fun _ _ _ => some 1) (fun _ _ _ => some 1) b hb
    have h := C161_lts_result_partial countRng (linRegExists 1) (argsortStable ℝ) c57Cfg 2 (fun _ _ _ => some 1) (fun _ _ _ => some 1)
      ⟨none, none, none⟩ (c57Data b) none 17 g
    rw [count_choice, hf] at h
    obtain ⟨⟨r, g'⟩, h1, h2⟩ := Option.map_eq_some_iff.1 h
    simp only at h2
    have h3 : Spec.afterOk (ltsFitG countRng (linRegExists 1)
        (argsortStable ℝ) 2 (fun _ _ _ => some 1) (fun _ _ _ => some 1) c57Cfg ⟨none, none, none⟩ (c57Data b) none 17 g) = some g' := by
      rw [h1, h2]; rfl
    have h4 := C161_lts_after_partial countRng (linRegExists 1) (argsortStable ℝ) c57Cfg 2 (fun _ _ _ => some 1) (fun _ _ _ => some 1)
      ⟨none, none, none⟩ (c57Data b) none 17 g g' h3
    rw [h3, h4]
    simp [countRng, c57Cfg]
  refine ⟨[c57Data 1, c57Data 44, c57Data 44], c57Data 44, ?_, rfl⟩
  simp only [Spec.study]
  rw [run _ _ (by norm_num)]
  simp only [Option.bind_some]
  rw [run _ _ (by norm_num)]
  simp only [Option.bind_some, Option.map_some]
  norm_num
  rw [run _ _ (by norm_num)]
  rfl

end Robpy
