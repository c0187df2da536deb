import Verif.Model.LTS
import Verif.Model.SReg

/-! The regression estimators draw their starting subsets with numpy's global generator.  Here the state of that generator is passed
through `fit`. -/

namespace Robpy

/-- numpy's global generator with a state of type `G`: `np.random.seed(s)` (robpy/regression/lts.py 172, 217, s.py 170) replaces the
state, `np.random.choice(n, k, replace=False)` (lts.py 218, s.py 171) draws `k` different numbers below `n` and changes the state.
Simplification: seeds above 2**32 - 1 (ValueError) are not modelled. -/
structure GlobalRng (G : Type) where
  seed : ℕ → G
  choice : G → ℕ → ℕ → List ℕ × G
  length : ∀ g n k, k ≤ n → (choice g n k).1.length = k
  nodup : ∀ g n k, k ≤ n → (choice g n k).1.Nodup
  lt : ∀ g n k, k ≤ n → ∀ i ∈ (choice g n k).1, i < n

variable {G : Type}

/-- A `for` loop whose body may raise and changes the state of the generator, lts.py 176-195, s.py 169-182. -/
def forRng {β : Type} (f : ℕ → G → Except PyErr β × G) : List ℕ → G → Except PyErr (List β) × G
  | [], g => (.ok [], g)
  | i :: l, g =>
    match f i g with
    | (.error e, g') => (.error e, g')
    | (.ok b, g') => ((forRng f l g').1.map fun bs => b :: bs, (forRng f l g').2)

section Lts
variable {p : ℕ}

/-- One pass of the loop in `_apply_initial_C_steps` with `_get_initial_model`, lts.py 176-195, 199-220: the seed is set before the
rows are drawn. -/
noncomputable def ltsInitialG (R : GlobalRng G) (LR : LinReg p) (srt : ArgSort ℝ) (cfg : LTSConfig) (D : List ((Fin p → ℝ) × ℝ)) (h : ℕ)
    (iw : Option (LinModel p)) (i : ℕ) (_ : G) : Except PyErr (LTSCand p) × G :=
  let g := R.seed (cfg.randomState + i)
  if D.length < p + 1 then (.error .valueError, g)
  else
    let r := R.choice g D.length (p + 1)
    ((lrFit LR (takeAt D r.1)).bind fun m0 =>
      (ltsCSteps LR srt D h cfg.nInitialCSteps (ltsSubset srt D h (iw.getD m0), iw.getD m0)).map fun s =>
        { model := s.2, loss := ltsLoss D s.1 s.2, subset := s.1 }, r.2)

/-- The search in `fit`, lts.py 94-132, with `np.random.seed(self.random_state)` of line 172 and the generator afterwards. -/
noncomputable def ltsSearchG (R : GlobalRng G) (LR : LinReg p) (srt : ArgSort ℝ) (cfg : LTSConfig) (D : List ((Fin p → ℝ) × ℝ))
    (iw : Option (LinModel p)) (fuel : ℕ) (g : G) : Option (Except PyErr (LTSCand p) × G) :=
  match ltsH cfg.alpha D.length p with
  | .error e => some (.error e, g)
  | .ok h =>
    let r := forRng (ltsInitialG R LR srt cfg D h iw) (List.range cfg.nInitialSubsets) (R.seed cfg.randomState)
    match r.1 with
    | .error e => some (.error e, r.2)
    | .ok cands =>
      match takeAt cands ((srt.toFun (cands.map LTSCand.loss)).take cfg.nBestModels) with
      | [] => some (.error .indexError, r.2)
      | c :: l => (ltsImprove LR srt D h cfg.tolerance fuel (c :: l) c).map fun b => (b, r.2)

/-- `FastLTSRegression.fit`, lts.py 62-148: result, attributes and generator afterwards. -/
noncomputable def ltsFitG (R : GlobalRng G) (LR : LinReg p) (srt : ArgSort ℝ) (q : ℝ) (corr corrRew : ℕ → ℕ → ℝ → Option ℝ)
    (cfg : LTSConfig) (st : LTSState p) (D : List ((Fin p → ℝ) × ℝ)) (iw : Option (LinModel p)) (fuel : ℕ) (g : G) :
    Option ((Except PyErr Unit × LTSState p) × G) :=
  match ltsSearchG R LR srt cfg D iw fuel g with
  | none => none
  | some (.error e, g') => some ((.error e, st), g')
  | some (.ok best, g') =>
    let st1 : LTSState p :=
      { model := some best.model, bestH := some best.subset
        scale_ := some ((corr p D.length cfg.alpha).map fun f => f * Real.sqrt best.loss) }
    if cfg.reweighting then
      match lrFit LR (takeAt D (ltsMask q D best.model)) with
      | .error e => some ((.error e, st1), g')
      | .ok m =>
        some ((.ok (), { st1 with
          model := some m
          scale_ := some ((corrRew p D.length cfg.alpha).map fun f =>
            f * Real.sqrt (ltsLoss D (ltsMask q D best.model) m)) }), g')
    else some ((.ok (), st1), g')

end Lts

section Sreg
variable {k p : ℕ}

/-- One pass of the loop in `_get_initial_models`, s.py 169-182: the seed is set before the rows are drawn. -/
noncomputable def sInitialG (R : GlobalRng G) (W : WLSReg) (cfg : SConfig) (D : List ((Fin k → ℝ) × ℝ)) (i : ℕ) (_ : G) :
    Except PyErr (Option ((Fin k → ℝ) × ℝ)) × G :=
  let g := R.seed (cfg.randomState + i)
  if D.length < k + 1 then (.error .valueError, g)
  else
    let r := R.choice g D.length (k + 1)
    let beta := W.fit ((takeAt D r.1).map fun d => (d.1, d.2, 1))
    (match sISteps W cfg D cfg.nInitialISteps (beta, sInitialScale (sRes D beta)) (sRes D beta) with
      | .error .linAlgError => .ok none
      | .error e => .error e
      | .ok c => .ok (some c), r.2)

/-- `fit` on the design matrix, s.py 89-125, with the generator afterwards. -/
noncomputable def sSearchG (R : GlobalRng G) (W : WLSReg) (srt : ArgSort ℝ) (cfg : SConfig) (D : List ((Fin k → ℝ) × ℝ)) (fuel : ℕ)
    (g : G) : Option (Except PyErr ((Fin k → ℝ) × ℝ) × G) :=
  let r := forRng (sInitialG R W cfg D) (List.range cfg.nInitialSubsets) g
  match r.1 with
  | .error e => some (.error e, r.2)
  | .ok os =>
    let cands := os.filterMap id
    match sImprove W cfg D fuel (takeAt cands ((srt.toFun (cands.map Prod.snd)).take cfg.nBestSubsets)) false with
    | none => none
    | some (.error e) => some (.error e, r.2)
    | some (.ok []) => some (.error .valueError, r.2)
    | some (.ok (c :: l)) => some (.ok (sBest c l), r.2)

/-- `SRegression.fit`, s.py 83-126: result, attributes and generator afterwards. -/
noncomputable def sFitG (R : GlobalRng G) (W : WLSReg) (srt : ArgSort ℝ) (cfg : SConfig) (st : SState) (X : List (Fin p → ℝ))
    (y : List ℝ) (fuel : ℕ) (g : G) : Option ((Except PyErr Unit × SState) × G) :=
  match sDesign cfg.fitIntercept X with
  | .error e => some ((.error e, st), g)
  | .ok ⟨k, Z⟩ =>
    match sSearchG (k := k) R W srt cfg (Z.zip y) fuel g with
    | none => none
    | some (.error e, g') => some ((.error e, st), g')
    | some (.ok c, g') => some ((.ok (), { model := some ⟨k, c.1⟩, scale_ := some c.2 }), g')

end Sreg
end Robpy
