import Verif.Model.MMArrays
import Verif.Props.MM
import Verif.Props.LTSReweight

/-! # C157: which estimators can be the initial estimator of `MMRegression` -/

namespace Robpy

section
variable {p : ℕ}

/-! ## Vectors -/

/-- The array is the vector with these entries. -/
def NdArr.IsVec (a : NdArr) (l : List (Option ℝ)) : Prop := a.shape = [l.length] ∧ ∀ k, k < l.length → a.get [k] = l.getD k none

theorem bcastShape_self (n : ℕ) : bcastShape [n] [n] = some [n] := by simp [bcastShape, bcastRev, bcastDim]

theorem bcastIndex_vec {n k : ℕ} (h : k < n) : bcastIndex [n] [k] = [k] := by
  simp only [bcastIndex, List.length_cons, List.length_nil, Nat.sub_self, List.drop_zero, List.zipWith_cons_cons,
    List.zipWith_nil_right, List.cons.injEq, and_true]
  split_ifs with h1
  · omega
  · rfl

theorem NdArr.isVec_ofVec (l : List ℝ) : (NdArr.ofVec l).IsVec (l.map some) := by
  refine ⟨by simp [NdArr.ofVec], fun k hk => ?_⟩
  simp at hk
  simp [NdArr.ofVec, List.getD_eq_getElem?_getD, hk]

theorem NdArr.IsVec.op {a b : NdArr} {l l' : List (Option ℝ)} (ha : a.IsVec l) (hb : b.IsVec l') (hl : l.length = l'.length)
    (f : ℝ → ℝ → ℝ) : ∃ c, NdArr.op f a b = .ok c ∧ c.IsVec (List.zipWith (fun u v => u.bind fun x => v.map fun y => f x y) l l') := by
  unfold NdArr.op
  rw [ha.1, hb.1, ← hl, bcastShape_self]
  refine ⟨_, rfl, by simp [← hl], fun k hk => ?_⟩
  have hk' : k < l.length := by simp [← hl] at hk; exact hk
  simp only
  rw [bcastIndex_vec hk', ha.2 k hk', hb.2 k (by omega)]
  simp only [List.getD_eq_getElem?_getD, List.getElem?_zipWith]
  rw [List.getElem?_eq_getElem hk', List.getElem?_eq_getElem (by omega : k < l'.length)]
  rfl

theorem NdArr.IsVec.map {a : NdArr} {l : List (Option ℝ)} (ha : a.IsVec l) (f : ℝ → Option ℝ) :
    (a.map f).IsVec (l.map fun u => u.bind f) := by
  refine ⟨by simpa [NdArr.map] using ha.1, fun k hk => ?_⟩
  rw [List.length_map] at hk
  show (a.get [k]).bind f = _
  rw [ha.2 k hk]
  simp [List.getD_eq_getElem?_getD, hk]

theorem bcastShape_column (n p : ℕ) : bcastShape [n, 1] [n, p] = some [n, p] := by
  simp only [bcastShape, bcastRev, bcastDim, List.reverse_cons, List.reverse_nil, List.nil_append, List.cons_append]
  by_cases h : 1 = p
  · subst h; simp
  · simp [h]

theorem NdArr.IsVec.toColumn_mul {a : NdArr} {l : List (Option ℝ)} (ha : a.IsVec l) (X : List (Fin p → ℝ)) (hl : l.length = X.length) :
    ∃ A, NdArr.op (· * ·) a.toColumn (NdArr.ofRows X) = .ok A ∧ A.shape = [X.length, p] ∧
      ∀ k (hk : k < X.length) (j : Fin p), A.get [k, j.1] = (l.getD k none).map fun w => w * X[k] j := by
  unfold NdArr.op
  have hs : a.toColumn.shape = [X.length, 1] := by
    show [a.shape.prod, 1] = _
    rw [ha.1, hl]; simp
  rw [hs, show (NdArr.ofRows X).shape = [X.length, p] from rfl, bcastShape_column]
  refine ⟨_, rfl, rfl, fun k hk j => ?_⟩
  have h1 : bcastIndex [X.length, 1] [k, j.1] = [k, 0] := by
    simp only [bcastIndex, List.length_cons, List.length_nil, Nat.sub_self, List.drop_zero, List.zipWith_cons_cons,
      List.zipWith_nil_right, if_true, List.cons.injEq, and_true]
    split_ifs with h
    · omega
    · rfl
  have h2 : bcastIndex [X.length, p] [k, j.1] = [k, j.1] := by
    simp only [bcastIndex, List.length_cons, List.length_nil, Nat.sub_self, List.drop_zero, List.zipWith_cons_cons,
      List.zipWith_nil_right, List.cons.injEq, and_true]
    have := j.2
    constructor
    · split_ifs with h
      · omega
      · rfl
    · split_ifs with h
      · omega
      · rfl
  simp only
  rw [h1, h2]
  have h3 : a.toColumn.get [k, 0] = l.getD k none := by
    show a.get (unravel a.shape k) = _
    rw [ha.1, hl]
    simp only [unravel, List.prod_nil, Nat.div_one, Nat.mod_eq_of_lt hk]
    exact ha.2 k (by omega)
  have h4 : (NdArr.ofRows X).get [k, j.1] = some (X[k] j) := by
    simp [NdArr.ofRows, hk]
  rw [h3, h4]
  rcases l.getD k none with _ | w <;> rfl

theorem mapM_zipWith_mmRow (l : List (Option ℝ)) (D : List ((Fin p → ℝ) × ℝ)) (hl : l.length = D.length) :
    (List.zipWith (fun o d => o.map fun w => mmRow w d) l D).mapM id = (l.mapM id).map fun w => List.zipWith mmRow w D := by
  induction l generalizing D with
  | nil => simp
  | cons o l ih =>
    rcases D with _ | ⟨d, D⟩
    · simp at hl
    · rw [List.zipWith_cons_cons, List.mapM_cons, List.mapM_cons, ih D (by simpa using hl)]
      rcases o with _ | w
      · rfl
      · rcases l.mapM id with _ | ws <;> rfl

theorem mapM_eq_map_id {α β : Type} (f : α → Option β) (l : List α) : l.mapM f = (l.map f).mapM id := by
  induction l with
  | nil => rfl
  | cons a l ih => rw [List.mapM_cons, List.map_cons, List.mapM_cons, ih]; rfl

/-- One step on arrays is one step on lists of observations. -/
theorem lrFitNd_step (LR : LinReg p) (hp : p ≠ 0) (R : Rho ℝ) (s : ℝ) (X : List (Fin p → ℝ)) (y : List ℝ) (hy : y.length = X.length)
    {res : NdArr} {r : List ℝ} (hr : res.IsVec (r.map some)) (hlen : r.length = X.length) :
    ∃ A b, NdArr.op (· * ·) ((res.map (mmWeight R s)).map fun w => some (Real.sqrt w)).toColumn (NdArr.ofRows X) = .ok A ∧
      NdArr.op (· * ·) ((res.map (mmWeight R s)).map fun w => some (Real.sqrt w)) (NdArr.ofVec y) = .ok b ∧
      lrFitNd LR A b = some (mmFitStep LR R s (X.zip y) r) := by
  have hroot := (hr.map (mmWeight R s)).map fun w => some (Real.sqrt w)
  have e0 : ((r.map some).map fun u => u.bind (mmWeight R s)).map (fun u => u.bind fun w => some (Real.sqrt w)) =
      r.map fun v => (mmWeight R s v).map Real.sqrt := by
    simp only [List.map_map]
    refine List.map_congr_left fun v _ => ?_
    simp only [Function.comp, Option.bind_some]
    rcases mmWeight R s v with _ | w <;> rfl
  rw [e0] at hroot
  obtain ⟨A, hA, hAs, hAg⟩ := hroot.toColumn_mul X (by simp [hlen])
  obtain ⟨b, hb, hbv⟩ := hroot.op (NdArr.isVec_ofVec y) (by simp [hlen, hy]) (· * ·)
  refine ⟨A, b, hA, hb, ?_⟩
  have hbs : b.shape = [X.length] := by rw [hbv.1]; simp [hlen, hy]
  unfold lrFitNd
  rw [hAs, hbs]
  simp only [and_self, if_true]
  congr 1
  have hD : (X.zip y).length = X.length := by simp [hy]
  have hsample : NdArr.sample X.length A b = (r.mapM (mmWeight R s)).map fun w => List.zipWith mmRow w (X.zip y) := by
    rw [mapM_eq_map_id, ← mapM_zipWith_mmRow _ _ (by simp [hlen, hy])]
    unfold NdArr.sample
    rw [mapM_eq_map_id]
    congr 1
    refine List.ext_getElem (by simp [hlen, hy]) fun k h1 h2 => ?_
    have hk : k < X.length := by simpa using h1
    have hkr : k < r.length := by omega
    have hky : k < y.length := by omega
    simp only [List.getElem_map, List.getElem_range, List.getElem_zipWith, List.getElem_zip]
    have hbk := hbv.2 k (by simp [hlen, hy, hk])
    have hAk := hAg k hk
    simp only [List.getD_eq_getElem?_getD, List.getElem?_zipWith, List.getElem?_map, List.getElem?_eq_getElem hkr,
      List.getElem?_eq_getElem hky, Option.map_some, Option.getD_some] at hbk hAk
    rw [hbk]
    rcases hw : mmWeight R s r[k] with _ | w
    · simp [hw]
    · rw [hw] at hAk
      simp only [Option.map_some] at hAk
      have hcond : ∀ j : Fin p, (A.get [k, j.1]).isSome := fun j => by rw [hAk j]; rfl
      simp only [hw, Option.map_some, Option.bind_some]
      rw [if_pos hcond]
      simp only [mmRow, Option.some.injEq, Prod.mk.injEq, and_true]
      funext j
      rw [hAk j]
      rfl
  rw [hsample]
  unfold mmFitStep
  rcases r.mapM (mmWeight R s) with _ | w <;> rfl

theorem belowNd_vec {d : NdArr} {l : List ℝ} (h : d.IsVec (l.map some)) (eps : ℝ) : belowNd eps d = l.all fun v => decide (|v| < eps) := by
  have e : ∀ k (hk : k < l.length), d.get (unravel [l.length] k) = some l[k] := by
    intro k hk
    simp only [unravel, List.prod_nil, Nat.div_one, Nat.mod_eq_of_lt hk]
    rw [h.2 k (by simpa using hk)]
    simp [List.getD_eq_getElem?_getD, hk]
  unfold belowNd
  rw [h.1, List.length_map, Bool.eq_iff_iff, List.all_eq_true, List.all_eq_true]
  simp only [List.mem_range, List.prod_cons, List.prod_nil, mul_one]
  constructor
  · intro h1 v hv
    obtain ⟨k, hk, rfl⟩ := List.getElem_of_mem hv
    have := h1 k hk
    rw [e k hk] at this
    exact this
  · intro h1 k hk
    rw [e k hk]
    exact h1 l[k] (List.getElem_mem hk)

theorem mmLoopNd_vec (LR : LinReg p) (hp : p ≠ 0) (R : Rho ℝ) (s eps : ℝ) (X : List (Fin p → ℝ)) (y : List ℝ) (hy : y.length = X.length) :
    ∀ (i : ℕ) (m : Option (LinModel p)) (f : List ℝ), f.length = X.length →
      mmLoopNd LR R s eps X (NdArr.ofVec y) i m (NdArr.ofVec f) =
        some (mmLoop LR R s eps (X.zip y) i m (List.zipWith (fun v f => v - f) y f)) := by
  intro i
  induction i with
  | zero => intro m f _; rfl
  | succ i ih =>
    intro m f hf
    obtain ⟨res, h1, hv⟩ := (NdArr.isVec_ofVec y).op (NdArr.isVec_ofVec f) (by simp [hy, hf]) (· - ·)
    have ez : ∀ a b : List ℝ, List.zipWith (fun (u v : Option ℝ) => u.bind fun x => v.map fun y => x - y) (a.map some) (b.map some) =
        (List.zipWith (fun v f => v - f) a b).map some := by
      intro a b
      rw [List.zipWith_map, List.map_zipWith]
      rfl
    rw [ez] at hv
    have hrl : (List.zipWith (fun v f => v - f) y f).length = X.length := by simp [hy, hf]
    obtain ⟨A, b, h2, h3, h4⟩ := lrFitNd_step LR hp R s X y hy hv hrl
    unfold mmLoopNd mmLoop
    rw [h1]
    simp only [Run.andThen]
    rw [h2]
    simp only
    rw [h3]
    simp only
    rw [h4]
    rcases mmFitStep LR R s (X.zip y) (List.zipWith (fun v f => v - f) y f) with e | m'
    · rfl
    · simp only [Except.bind]
      obtain ⟨res', h5, hv'⟩ := (NdArr.isVec_ofVec y).op (NdArr.isVec_ofVec (X.map m'.predict)) (by simp [hy]) (· - ·)
      rw [ez] at hv'
      obtain ⟨d, h6, hd⟩ := hv'.op hv (by simp [hy, hf]) (· - ·)
      rw [ez] at hd
      rw [h5]
      simp only
      rw [h6]
      simp only
      have hres : List.zipWith (fun v f => v - f) y (X.map m'.predict) = (X.zip y).map (resid m') := by
        refine List.ext_getElem (by simp [hy]) fun k k1 k2 => ?_
        simp [resid]
      rw [belowNd_vec hd, hres]
      have hc : (List.zipWith (fun v f => v - f) ((X.zip y).map (resid m')) (List.zipWith (fun v f => v - f) y f)).all
          (fun v => decide (|v| < eps)) = mmConverged eps (List.zipWith (fun v f => v - f) y f) ((X.zip y).map (resid m')) := by
        unfold mmConverged
        generalize (X.zip y).map (resid m') = a
        generalize List.zipWith (fun v f => v - f) y f = b
        induction a generalizing b with
        | nil => simp
        | cons u a iha =>
          rcases b with _ | ⟨v, b⟩
          · simp
          · simp [iha b]
      rw [hc]
      split_ifs
      · rfl
      · rw [ih (some m') (X.map m'.predict) (by simp), hres]

/-! ## C157 -/

/-- **C157** (partial): an initial estimator with one-dimensional predictions (`SRegression`, `MMRegression`) can be used: the fit on
arrays is the fit that C55, C106, C107 and C108 speak about. -/
theorem C157_flat_partial (LR : LinReg p) (hp : p ≠ 0) (R : Rho ℝ) (eps : ℝ) (maxIter : ℕ) (f : List ℝ) (s : ℝ)
    (D : List ((Fin p → ℝ) × ℝ)) (hf : f.length = D.length) :
    mmFitNd LR R eps maxIter (NdArr.ofVec f) s (D.map Prod.fst) (D.map Prod.snd) = some (mmFit LR R eps maxIter ⟨f, s⟩ D) := by
  unfold mmFitNd mmFit
  rw [mmLoopNd_vec LR hp R s eps _ _ (by simp) maxIter none f (by simpa using hf)]
  congr 2
  · refine List.ext_getElem (by simp) fun k k1 k2 => by simp
  · rw [List.zipWith_map_left]

/-- Predictions in one column make the fit raise ValueError as soon as there are two observations. -/
theorem mmFitNd_column (LR : LinReg p) (R : Rho ℝ) (eps : ℝ) (maxIter : ℕ) (hmax : maxIter ≠ 0) (f : List ℝ) (s : ℝ)
    (D : List ((Fin p → ℝ) × ℝ)) (hn : 2 ≤ D.length) (hf : f.length = D.length) :
    mmFitNd LR R eps maxIter (NdArr.ofCol f) s (D.map Prod.fst) (D.map Prod.snd) = some (.error .valueError) := by
  obtain ⟨k, rfl⟩ := Nat.exists_eq_succ_of_ne_zero hmax
  have e1 : bcastShape [D.length] [D.length, 1] = some [D.length, D.length] := by
    simp only [bcastShape, bcastRev, bcastDim, List.reverse_cons, List.reverse_nil, List.nil_append, List.cons_append]
    rw [if_neg (by omega), if_neg (by omega), if_pos trivial]
    rfl
  have e2 : bcastShape [D.length * D.length, 1] [D.length, p] = none := by
    have h1 : D.length * D.length ≠ D.length := by nlinarith
    have h2 : D.length * D.length ≠ 1 := by nlinarith
    have h3 : D.length ≠ 1 := by omega
    simp [bcastShape, bcastRev, bcastDim, h1, h2, h3]
  have h1 : ∃ c, NdArr.op (· - ·) (NdArr.ofVec (D.map Prod.snd)) (NdArr.ofCol f) = .ok c ∧ c.shape = [D.length, D.length] := by
    unfold NdArr.op
    rw [show (NdArr.ofVec (D.map Prod.snd)).shape = [D.length] by simp [NdArr.ofVec], show (NdArr.ofCol f).shape = [D.length, 1] by
      simp [NdArr.ofCol, hf], e1]
    exact ⟨_, rfl, rfl⟩
  obtain ⟨c, hc, hs⟩ := h1
  unfold mmFitNd mmLoopNd
  rw [hc]
  simp only [Run.andThen]
  have h2 : NdArr.op (· * ·) ((c.map (mmWeight R s)).map fun w => some (Real.sqrt w)).toColumn (NdArr.ofRows (D.map Prod.fst)) =
      .error .valueError := by
    unfold NdArr.op
    rw [show ((c.map (mmWeight R s)).map fun w => some (Real.sqrt w)).toColumn.shape = [D.length * D.length, 1] by
      show [c.shape.prod, 1] = _
      rw [hs]; simp, show (NdArr.ofRows (D.map Prod.fst)).shape = [D.length, p] by simp [NdArr.ofRows], e2]
  rw [h2]

/-- **C157**: the least trimmed squares estimator cannot be the initial estimator: whatever the data and the parameters, as soon as its
own fit succeeds the fit of the MM estimator raises ValueError. -/
theorem C157_lts (LR : LinReg p) (srt : ArgSort ℝ) (ch : Choice ℕ) (q : ℝ) (corr corrRew : ℕ → ℕ → ℝ → Option ℝ) (cfg : LTSConfig)
    (st st' : LTSState p) (D : List ((Fin p → ℝ) × ℝ)) (iw : Option (LinModel p)) (fuel : ℕ)
    (hfit : ltsFit LR srt ch q corr corrRew cfg st D iw fuel = some (.ok (), st')) (f : List ℝ)
    (hf : ltsPredict st' (D.map Prod.fst) = .ok f) (LR' : LinReg p) (R : Rho ℝ) (eps s : ℝ) (maxIter : ℕ) (hmax : maxIter ≠ 0) :
    mmFitNd LR' R eps maxIter (NdArr.ofCol f) s (D.map Prod.fst) (D.map Prod.snd) = some (.error .valueError) := by
  refine mmFitNd_column LR' R eps maxIter hmax f s D ?_ ?_
  · unfold ltsFit at hfit
    rcases hb : ltsSearch LR srt ch cfg D iw fuel with _ | e | best
    · rw [hb] at hfit; simp at hfit
    · rw [hb] at hfit; simp at hfit
    · obtain ⟨h, cands, hs⟩ := ltsSearch_ok hb
      obtain ⟨h1, h2, -⟩ := hs.size
      omega
  · unfold ltsPredict at hf
    rcases hm : st'.model with _ | m
    · rw [hm] at hf; simp at hf
    · rw [hm] at hf
      have := Except.ok.inj hf
      rw [← this]; simp

end

/-- **C157** (full statement, here for the least trimmed squares estimator): if its fit succeeds with a scale, and the MM iterations
from its fitted values and its scale succeed, then `MMRegression` with this initial estimator gives their result. -/
def C157_statement : Prop :=
  ∀ (p : ℕ) (LR : LinReg p) (srt : ArgSort ℝ) (ch : Choice ℕ) (q : ℝ) (corr corrRew : ℕ → ℕ → ℝ → Option ℝ) (cfg : LTSConfig)
    (st st' : LTSState p) (D : List ((Fin p → ℝ) × ℝ)) (fuel : ℕ) (f : List ℝ) (R : Rho ℝ) (eps s : ℝ) (maxIter : ℕ)
    (r : Option (LinModel p)), 0 < R.const → 0 < eps → 0 < s →
    ltsFit LR srt ch q corr corrRew cfg st D none fuel = some (.ok (), st') → st'.scale_ = some (some s) →
    ltsPredict st' (D.map Prod.fst) = .ok f → mmFit LR R eps maxIter ⟨f, s⟩ D = .ok r →
    mmFitNd LR R eps maxIter (NdArr.ofCol f) s (D.map Prod.fst) (D.map Prod.snd) = some (.ok r)

/-- Three observations not on a line. -/
def c157Data : List ((Fin 1 → ℝ) × ℝ) := [(![0], 0), (![1], 1), (![2], 0)]

/-- All observations are used, without reweighting. -/
noncomputable def c157Cfg : LTSConfig :=
  { alpha := 1, nInitialSubsets := 2, nInitialCSteps := 2, nBestModels := 1, reweighting := false, tolerance := 1e-15, randomState := 42 }

/-- The fit of the initial estimator succeeds and fits no observation exactly. -/
theorem c157_fit : ∃ (m : LinModel 1) (s : ℝ) (H : List ℕ), 0 < s ∧
    ltsFit (linRegExists 1) (argsortStable ℝ) choiceFirst 2 (fun _ _ _ => some 1) (fun _ _ _ => some 1) c157Cfg ⟨none, none, none⟩
      c157Data none (2 ^ c157Data.length + 1) = some (.ok (), { model := some m, bestH := some H, scale_ := some (some s) }) ∧
    ∀ d ∈ c157Data, resid m d ≠ 0 := by
  have hout := (C99_search_outcome (linRegExists 1) (argsortStable ℝ) choiceFirst c157Cfg c157Data none
    (by norm_num [c157Cfg]) (2 ^ c157Data.length + 1) le_rfl).2 ⟨by norm_num [c157Cfg], by norm_num [c157Cfg]⟩
  obtain ⟨best, hb⟩ := ((hout.2 (by simp [c157Cfg])).2 ⟨by norm_num, by simp [c157Data]⟩).2 (by simp [c157Cfg])
  obtain ⟨h, h1, h2, h3, h4, -⟩ := C98_least_squares _ _ _ _ _ _ _ best hb
  have hh : h = 3 := by
    unfold ltsH at h1
    rw [if_neg (by norm_num [c157Cfg])] at h1
    have := Except.ok.inj h1
    rw [← this]
    norm_num [c157Cfg, c157Data]
  have hperm : best.subset.Perm (List.range 3) := by
    refine List.Subperm.perm_of_length_le (h2.nodup.subperm fun i hi => List.mem_range.2 (h2.lt i hi)) ?_
    rw [h2.length, hh]; simp
  have hp2 := takeAt_perm c157Data hperm
  have hr : takeAt c157Data (List.range 3) = c157Data := takeAt_range c157Data
  rw [hr] at hp2
  have hsum : ∀ b0 b, Spec.sumSq (takeAt c157Data best.subset) b0 b = b0 ^ 2 + (1 - (b0 + b 0)) ^ 2 + (b0 + 2 * b 0) ^ 2 := by
    intro b0 b
    unfold Spec.sumSq
    rw [(hp2.map _).sum_eq]
    simp [c157Data]
    ring
  have h5 := h3 (1 / 3) 0
  rw [hsum, hsum] at h5
  norm_num at h5
  rw [hsum] at h4
  have hpos : 0 < best.loss := by
    rw [h4, hh]
    have : 0 < best.model.intercept ^ 2 + (1 - (best.model.intercept + best.model.coef 0)) ^ 2 +
        (best.model.intercept + 2 * best.model.coef 0) ^ 2 := by
      nlinarith [sq_nonneg (best.model.intercept - 2 * (1 - (best.model.intercept + best.model.coef 0)) + (best.model.intercept + 2 * best.model.coef 0)),
        sq_nonneg (best.model.intercept - 1 / 3), sq_nonneg (best.model.coef 0)]
    positivity
  refine ⟨best.model, Real.sqrt best.loss, best.subset, Real.sqrt_pos.2 hpos, ?_, ?_⟩
  · unfold ltsFit
    rw [hb]
    simp [c157Cfg]
  · intro d hd
    simp only [c157Data, List.mem_cons, List.not_mem_nil, or_false] at hd
    rcases hd with rfl | rfl | rfl <;> simp only [resid, LinModel.predict, Fin.sum_univ_one, Matrix.cons_val_fin_one] <;> intro h0
    · have : best.model.intercept = 0 := by linarith
      rw [this] at h5
      nlinarith [sq_nonneg (5 * best.model.coef 0 - 1)]
    · nlinarith [sq_nonneg (best.model.intercept - 1)]
    · have : best.model.intercept = -2 * best.model.coef 0 := by linarith
      rw [this] at h5
      nlinarith [sq_nonneg (5 * best.model.coef 0 + 1)]

theorem C157_violated : ¬ C157_statement := by
  intro hst
  obtain ⟨m, s, H, hs, hfit, hres⟩ := c157_fit
  have hfit' : mmFit (linRegExists 1) (.tukey 3.44) 1e-7 1 ⟨c157Data.map fun d => m.predict d.1, s⟩ c157Data = .ok (some
      ((linRegExists 1).fit (List.zipWith mmRow ((c157Data.map (resid m)).map (mmW (.tukey 3.44) s)) c157Data))) := by
    have e : List.zipWith (fun d f => d.2 - f) c157Data (c157Data.map fun d => m.predict d.1) = c157Data.map (resid m) := by
      simp [c157Data, resid]
    unfold mmFit mmLoop mmFitStep
    simp only [e]
    rw [mapM_mmWeight, if_neg]
    · simp only
      rw [lrFit_of _ (by simp [c157Data]) (by simp)]
      simp only [Except.bind, mmLoop]
      split_ifs <;> rfl
    · intro h0
      obtain ⟨d, hd, hd0⟩ := List.mem_map.1 h0
      exact hres d hd hd0
  have hpred : ltsPredict { model := some m, bestH := some H, scale_ := some (some s) } (c157Data.map Prod.fst) =
      .ok (c157Data.map fun d => m.predict d.1) := by
    simp [ltsPredict, c157Data]
  have h1 := hst 1 (linRegExists 1) (argsortStable ℝ) choiceFirst 2 _ _ c157Cfg _ _ c157Data _ _ (.tukey 3.44) 1e-7 s 1 _
    (by norm_num [Rho.const]) (by norm_num) hs hfit rfl hpred hfit'
  rw [C157_lts _ _ _ _ _ _ _ _ _ _ _ _ hfit _ hpred _ _ _ _ _ (by simp)] at h1
  simp at h1

/-! Examples -/

/-- The hypothesis of `C157_flat_partial`, with predictions of which one is exact: the fit on arrays raises ValueError as well. -/
example : mmFitNd (linRegExists 1) (.tukey 3.44) 1e-7 500 (NdArr.ofVec [0, 2, 3]) 1 (c157Data.map Prod.fst) (c157Data.map Prod.snd) =
    some (.error .valueError) := by
  rw [C157_flat_partial _ (by simp) _ _ _ _ _ _ (by simp [c157Data])]
  rw [C106_exact _ _ _ _ (by simp) _ _ 0 (![0], 0) (by simp [c157Data]) (by simp)]

/-- The hypotheses of `C157_lts`. -/
example : ∃ st' f, ltsFit (linRegExists 1) (argsortStable ℝ) choiceFirst 2 (fun _ _ _ => some 1) (fun _ _ _ => some 1) c157Cfg
    ⟨none, none, none⟩ c157Data none (2 ^ c157Data.length + 1) = some (.ok (), st') ∧ ltsPredict st' (c157Data.map Prod.fst) = .ok f := by
  obtain ⟨m, s, H, -, hfit, -⟩ := c157_fit
  exact ⟨_, _, hfit, rfl⟩

end Robpy
