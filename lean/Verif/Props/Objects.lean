import Verif.Model.Objects
import Verif.Props.SRegWitness
import Verif.Props.MM

/-! C153: cloning.  C154, C155: `MMRegression` objects that share an initial estimator, and failed fits. -/

namespace Robpy

/-! Cloning -/

/-- `Spec.Part u v`: `u` is `v`, or occurs in it as element of a list or parameter of an estimator that has `get_params`. -/
inductive Spec.Part : PyVal → PyVal → Prop
  | refl (v : PyVal) : Spec.Part v v
  | seq {x u : PyVal} {t : Bool} {l : List PyVal} (hu : u ∈ l) (h : Spec.Part x u) : Spec.Part x (.seq t l)
  | param {x u : PyVal} {c : EstClass} {ps : List PyVal} (hc : c ≠ .ddc) (hu : u ∈ ps) (h : Spec.Part x u) : Spec.Part x (.est c ps)

/-- The arguments are those of a valid call of the constructor: the right number, a large enough `min_eigenvalue` of `CellMCD`, a list
or tuple as `lambda_range` of `RobustPowerTransformer`. -/
def Spec.Accepts (c : EstClass) (ps : List PyVal) : Prop :=
  ps.length = (paramNames c).length ∧ (c = .cellMCD → ∃ x : ℝ, ps[4]? = some (.num x) ∧ 1e-6 ≤ x) ∧
    (c = .powerTransformer → ∃ t l, ps[2]? = some (.seq t l))

/-- **C153** (full statement): `clone` of an estimator made by a valid call, with parameters that are not estimators themselves, gives
an estimator of the same class with the same parameters. -/
def C153_statement : Prop :=
  ∀ (c : EstClass) (ps : List PyVal), Spec.Accepts c ps → (∀ u ∈ ps, ∀ c' ps', ¬ Spec.Part (.est c' ps') u) →
    (PyVal.est c ps).clone true = .ok (.est c ps)

theorem construct_same {c : EstClass} {ps : List PyVal} (hc : c ≠ .powerTransformer) (h : Spec.Accepts c ps) :
    construct c ps = .ok (ps.map fun a => ⟨a, true⟩) := by
  obtain ⟨h1, h2, -⟩ := h
  unfold construct
  rw [if_pos h1]
  by_cases hm : c = .cellMCD
  · subst hm
    obtain ⟨x, hx, hx1⟩ := h2 rfl
    match ps, h1, hx with
    | [a, b, d, e, f, g], _, hx =>
      simp only [List.getElem?_cons_succ, List.getElem?_cons_zero, Option.some.injEq] at hx
      subst hx
      simp [not_lt.2 hx1]
  · cases c <;> first | rfl | exact absurd rfl hc | exact absurd rfl hm

mutual
theorem clone_ok (v : PyVal) (h : ∀ c ps, Spec.Part (.est c ps) v → c = .ddc ∨ (c ≠ .powerTransformer ∧ Spec.Accepts c ps)) :
    v.clone false = .ok v := by
  match v with
  | .num x => simp [PyVal.clone]
  | .other k => simp [PyVal.clone]
  | .seq t l =>
    rw [PyVal.clone, cloneList_ok l fun u hu c ps hp => h c ps (.seq hu hp)]
    rfl
  | .est c ps =>
    rw [PyVal.clone]
    by_cases hc : c = .ddc
    · subst hc; rfl
    · have hg : hasGetParams c = true := by cases c <;> first | rfl | exact absurd rfl hc
      obtain ⟨h1, h2⟩ := (h c ps (.refl _)).resolve_left hc
      rw [if_pos hg, cloneList_ok ps fun u hu c' ps' hp => h c' ps' (.param hc hu hp)]
      simp only [Except.bind]
      rw [construct_same h1 h2]
      simp [List.all_map, Function.comp_def]
theorem cloneList_ok (l : List PyVal)
    (h : ∀ u ∈ l, ∀ c ps, Spec.Part (.est c ps) u → c = .ddc ∨ (c ≠ .powerTransformer ∧ Spec.Accepts c ps)) :
    PyVal.cloneList false l = .ok l := by
  match l with
  | [] => rfl
  | v :: l =>
    rw [PyVal.cloneList, clone_ok v (h v (by simp))]
    simp only [Except.bind]
    rw [cloneList_ok l fun u hu => h u (by simp [hu])]
    rfl
end

theorem clone_est_safe {c : EstClass} (hc : c ≠ .ddc) (ps : List PyVal) (safe : Bool) :
    (PyVal.est c ps).clone safe = (PyVal.est c ps).clone false := by
  have hg : hasGetParams c = true := by cases c <;> first | rfl | exact absurd rfl hc
  rw [PyVal.clone, PyVal.clone, if_pos hg, if_pos hg]

/-- **C153** (partial): estimators nested to any depth (`MMRegression` with its initial estimator and so on) are cloned, with the same
parameters at every level, if no `RobustPowerTransformer` occurs and all constructor calls are valid.  Missing:
`RobustPowerTransformer`, and `DDC` itself, for which the claim is false. -/
theorem C153_clone_partial {c : EstClass} (hc : c ≠ .ddc) (ps : List PyVal)
    (h : ∀ c' ps', Spec.Part (.est c' ps') (.est c ps) → c' = .ddc ∨ (c' ≠ .powerTransformer ∧ Spec.Accepts c' ps')) :
    (PyVal.est c ps).clone true = .ok (.est c ps) := by
  rw [clone_est_safe hc]
  exact clone_ok _ h

theorem cloneList_error {safe : Bool} {l : List PyVal} {u : PyVal} (hu : u ∈ l) {e : CloneErr} (h : u.clone safe = .error e) :
    ∃ e, PyVal.cloneList safe l = .error e := by
  induction l with
  | nil => simp at hu
  | cons v l ih =>
    rw [PyVal.cloneList]
    rcases List.mem_cons.1 hu with rfl | hu
    · rw [h]; exact ⟨_, rfl⟩
    · obtain ⟨e', he⟩ := ih hu
      rcases v.clone safe with e'' | v'
      · exact ⟨_, rfl⟩
      · rw [he]; exact ⟨_, rfl⟩

theorem power_error (safe : Bool) (ps : List PyVal) : ∃ e, (PyVal.est .powerTransformer ps).clone safe = .error e := by
  rw [PyVal.clone, if_pos (show hasGetParams .powerTransformer = true from rfl)]
  rcases PyVal.cloneList false ps with e | args
  · exact ⟨_, rfl⟩
  simp only [Except.bind]
  unfold construct
  split_ifs with hl
  · match args, hl with
    | [a, b, d, e, f], _ =>
      rcases d with x | k | ⟨t, l⟩ | ⟨c, q⟩ <;> simp [listOf, Except.map]
  · exact ⟨_, rfl⟩

/-- **C153**: nothing that contains a `RobustPowerTransformer` can be cloned, whatever its parameters are. -/
theorem C153_power {ps : List PyVal} {v : PyVal} (h : Spec.Part (.est .powerTransformer ps) v) (safe : Bool) :
    ∃ e, v.clone safe = .error e := by
  induction h generalizing safe with
  | refl => exact power_error safe ps
  | @seq u t l hu _ ih =>
    obtain ⟨e, he⟩ := ih safe
    obtain ⟨e', he'⟩ := cloneList_error hu he
    rw [PyVal.clone, he']
    exact ⟨_, rfl⟩
  | @param u c ps' hc hu _ ih =>
    obtain ⟨e, he⟩ := ih false
    obtain ⟨e', he'⟩ := cloneList_error hu he
    have hg : hasGetParams c = true := by cases c <;> first | rfl | exact absurd rfl hc
    rw [PyVal.clone, if_pos hg, he']
    exact ⟨_, rfl⟩

/-- **C153**: of a `RobustPowerTransformer` made by a valid call the clone fails with RuntimeError. -/
theorem C153_runtime {ps : List PyVal} (ha : Spec.Accepts .powerTransformer ps)
    (hp : ∀ u ∈ ps, ∀ c' ps', ¬ Spec.Part (.est c' ps') u) :
    (PyVal.est .powerTransformer ps).clone true = .error .runtimeError := by
  obtain ⟨h1, -, h3⟩ := ha
  obtain ⟨t, l, h3⟩ := h3 rfl
  rw [PyVal.clone, if_pos (show hasGetParams .powerTransformer = true from rfl),
    cloneList_ok ps fun u hu c ps' h => absurd h (hp u hu c ps')]
  simp only [Except.bind]
  unfold construct
  rw [if_pos h1]
  match ps, h1, h3 with
  | [a, b, d, e, f], _, h3 =>
    simp only [List.getElem?_cons_succ, List.getElem?_cons_zero, Option.some.injEq] at h3
    subst h3
    simp [listOf, Except.map]

/-- **C153**: a `DDC` has no `get_params`; `clone` raises TypeError. -/
theorem C153_ddc (ps : List PyVal) : (PyVal.est .ddc ps).clone true = .error .typeError := rfl

theorem not_part_num (x : ℝ) (c : EstClass) (ps : List PyVal) : ¬ Spec.Part (.est c ps) (.num x) := by intro h; cases h

theorem not_part_other (k : ℕ) (c : EstClass) (ps : List PyVal) : ¬ Spec.Part (.est c ps) (.other k) := by intro h; cases h

/-- `RobustPowerTransformer()`, transfo.py 18-22. -/
def c153Power : List PyVal := [.other 0, .other 1, .seq true [.num (-4), .num 6], .num 0.99, .num 2]

theorem c153Power_parts : ∀ u ∈ c153Power, ∀ c' ps', ¬ Spec.Part (.est c' ps') u := by
  intro u hu c' ps' h
  simp only [c153Power, List.mem_cons, List.not_mem_nil, or_false] at hu
  rcases hu with rfl | rfl | rfl | rfl | rfl
  · exact not_part_other _ _ _ h
  · exact not_part_other _ _ _ h
  · cases h with
    | seq hu h =>
      simp only [List.mem_cons, List.not_mem_nil, or_false] at hu
      rcases hu with rfl | rfl <;> exact not_part_num _ _ _ h
  · exact not_part_num _ _ _ h
  · exact not_part_num _ _ _ h

theorem c153Power_accepts : Spec.Accepts .powerTransformer c153Power :=
  ⟨rfl, fun h => by simp at h, fun _ => ⟨true, _, rfl⟩⟩

theorem C153_violated : ¬ C153_statement := by
  intro h
  have h1 := h .powerTransformer c153Power c153Power_accepts c153Power_parts
  rw [C153_runtime c153Power_accepts c153Power_parts] at h1
  simp at h1

/-- `SRegression()` as a parameter, s.py 15-24. -/
def c153S : List PyVal := (List.range 10).map .other

/-- The hypotheses of `C153_clone_partial` are met by `MMRegression()`, whose first parameter is an estimator. -/
example : (PyVal.est .mm [.est .s c153S, .other 0, .num 500, .num 1e-7]).clone true =
    .ok (.est .mm [.est .s c153S, .other 0, .num 500, .num 1e-7]) := by
  refine C153_clone_partial (by simp) _ fun c' ps' h => ?_
  cases h with
  | refl => exact Or.inr ⟨by simp, rfl, by simp, by simp⟩
  | param hc hu h =>
    simp only [List.mem_cons, List.not_mem_nil, or_false] at hu
    rcases hu with rfl | rfl | rfl | rfl
    · cases h with
      | refl => exact Or.inr ⟨by simp, rfl, by simp, by simp⟩
      | param hc hu h =>
        obtain ⟨k, -, rfl⟩ := List.mem_map.1 hu
        exact absurd h (not_part_other _ _ _)
    · exact absurd h (not_part_other _ _ _)
    · exact absurd h (not_part_num _ _ _)
    · exact absurd h (not_part_num _ _ _)

/-- The hypotheses of `C153_clone_partial` are met by `CellMCD()`. -/
example : (PyVal.est .cellMCD [.num 0.75, .num 0.99, .num 1e-4, .num 100, .num 1e-4, .num 30]).clone true =
    .ok (.est .cellMCD [.num 0.75, .num 0.99, .num 1e-4, .num 100, .num 1e-4, .num 30]) := by
  refine C153_clone_partial (by simp) _ fun c' ps' h => ?_
  cases h with
  | refl => exact Or.inr ⟨by simp, rfl, fun _ => ⟨1e-4, rfl, by norm_num⟩, by simp⟩
  | param hc hu h =>
    simp only [List.mem_cons, List.not_mem_nil, or_false] at hu
    rcases hu with rfl | rfl | rfl | rfl | rfl | rfl <;> exact absurd h (not_part_num _ _ _)

/-- The hypothesis of `C153_power` is met by an estimator inside a list. -/
example : Spec.Part (.est .powerTransformer c153Power) (.seq false [.other 3, .est .powerTransformer c153Power]) :=
  .seq (by simp) (.refl _)

/-! Shared initial estimators -/

section
variable {p : ℕ} {σ : Type}

/-- **C154** (full statement): after `fit` of an `MMRegression` has returned, its predictions do not change when other `MMRegression`
objects are fitted. -/
def C154_statement : Prop :=
  ∀ (p : ℕ) (σ : Type) (E : InitEst p σ) (LR : LinReg p) (R : Rho ℝ) (eps : ℝ) (w w1 w2 : MMWorld p σ) (i : ℕ)
    (X : List (Fin p → ℝ)) (y : List ℝ) (calls : List (ℕ × List (Fin p → ℝ) × List ℝ)),
    mmObjFit E LR R eps w i X y = some (.ok (), w1) → (∀ c ∈ calls, c.1 ≠ i) → mmObjRun E LR R eps w1 calls = some w2 →
    ∀ Z, mmObjPredict E w2 i Z = mmObjPredict E w1 i Z

/-- The loop with the objects computes what `mmLoop` computes. -/
theorem mmLoopObj_eq (LR : LinReg p) (R : Rho ℝ) (s eps : ℝ) (D : List ((Fin p → ℝ) × ℝ)) (k : ℕ) :
    ∀ (o : Option (LinModel p)) (res : List ℝ),
      mmLoop LR R s eps D k o res = (mmLoopObj LR R s eps D k (o.elim .initial .linear) res).1.map fun _ =>
        match (mmLoopObj LR R s eps D k (o.elim .initial .linear) res).2 with
        | .linear m => some m
        | _ => none := by
  induction k with
  | zero => intro o res; cases o <;> rfl
  | succ k ih =>
    intro o res
    unfold mmLoop mmLoopObj
    rcases mmFitStep LR R s D res with e | m
    · rfl
    · simp only [Except.bind]
      split_ifs with h
      · rfl
      · exact ih (some m) _

theorem mmLoopObj_linear (LR : LinReg p) (R : Rho ℝ) (s eps : ℝ) (D : List ((Fin p → ℝ) × ℝ)) (k : ℕ) :
    ∀ (m : MMModel p) (res : List ℝ), (mmLoopObj LR R s eps D k m res).1 = .ok () → k ≠ 0 ∨ (∃ m', m = .linear m') →
      ∃ m', (mmLoopObj LR R s eps D k m res).2 = .linear m' := by
  induction k with
  | zero =>
    intro m res _ h
    obtain ⟨m', rfl⟩ := h.resolve_left (by simp)
    exact ⟨m', rfl⟩
  | succ k ih =>
    intro m res h _
    unfold mmLoopObj at h ⊢
    rcases hs : mmFitStep LR R s D res with e | m'
    · rw [hs] at h; simp at h
    · rw [hs] at h
      simp only at h ⊢
      split_ifs at h ⊢ with hc
      · exact ⟨m', rfl⟩
      · exact ih _ _ h (Or.inr ⟨m', rfl⟩)

/-- What one call of `fit` leaves alone. -/
theorem mmObjFit_frame {E : InitEst p σ} {LR : LinReg p} {R : Rho ℝ} {eps : ℝ} {w : MMWorld p σ} {i : ℕ} {X : List (Fin p → ℝ)}
    {y : List ℝ} {r : Except PyErr Unit × MMWorld p σ} (h : mmObjFit E LR R eps w i X y = some r) :
    (∀ j, j ≠ i → r.2.objs j = w.objs j) ∧ (∀ a, a ≠ (w.objs i).init → r.2.heap a = w.heap a) ∧
      (∀ j, (r.2.objs j).init = (w.objs j).init) := by
  have hset : ∀ (w : MMWorld p σ) (m : MMModel p) (j : ℕ), ((w.setModel i m).objs j).init = (w.objs j).init := by
    intro w m j
    unfold MMWorld.setModel
    by_cases hj : j = i
    · subst hj; simp
    · simp [Function.update_of_ne hj]
  have hset' : ∀ (w : MMWorld p σ) (m : MMModel p) (j : ℕ), j ≠ i → (w.setModel i m).objs j = w.objs j := by
    intro w m j hj
    simp [MMWorld.setModel, Function.update_of_ne hj]
  unfold mmObjFit at h
  simp only at h
  rcases hf : E.fit (w.heap (w.objs i).init) X y with _ | ⟨e | _, s⟩
  · rw [hf] at h; simp at h
  · rw [hf] at h
    simp only [Option.some.injEq] at h
    subst h
    exact ⟨fun j _ => rfl, fun a ha => by simp [MMWorld.setInit, Function.update_of_ne ha], fun j => rfl⟩
  · rw [hf] at h
    simp only at h
    have hw1 : ∀ m : MMModel p, ∀ a, a ≠ (w.objs i).init → (((w.setInit (w.objs i).init s).setModel i m).heap a) = w.heap a := by
      intro m a ha
      simp [MMWorld.setModel, MMWorld.setInit, Function.update_of_ne ha]
    rcases hsc : E.scale s with e | sc
    · rw [hsc] at h
      simp only [Option.some.injEq] at h
      subst h
      exact ⟨fun j hj => hset' _ _ j hj, hw1 _, fun j => hset _ _ j⟩
    rw [hsc] at h
    simp only at h
    split_ifs at h with hm
    · simp only [Option.some.injEq] at h
      subst h
      exact ⟨fun j hj => hset' _ _ j hj, hw1 _, fun j => hset _ _ j⟩
    rcases hp : E.predict s X with e | f
    · rw [hp] at h
      simp only [Option.some.injEq] at h
      subst h
      exact ⟨fun j hj => hset' _ _ j hj, hw1 _, fun j => hset _ _ j⟩
    · rw [hp] at h
      simp only [Option.some.injEq] at h
      subst h
      refine ⟨fun j hj => ?_, fun a ha => ?_, fun j => ?_⟩
      · simp only; rw [hset' _ _ j hj, hset' _ _ j hj]; rfl
      · exact hw1 .initial a ha
      · simp only; rw [hset, hset]; rfl

theorem mmObjRun_frame {E : InitEst p σ} {LR : LinReg p} {R : Rho ℝ} {eps : ℝ} {i : ℕ}
    {calls : List (ℕ × List (Fin p → ℝ) × List ℝ)} :
    ∀ {w w' : MMWorld p σ}, mmObjRun E LR R eps w calls = some w' → (∀ c ∈ calls, c.1 ≠ i) →
      w'.objs i = w.objs i ∧
        ((∀ c ∈ calls, (w.objs c.1).init ≠ (w.objs i).init) → w'.heap (w.objs i).init = w.heap (w.objs i).init) := by
  induction calls with
  | nil =>
    intro w w' h _
    obtain rfl : w = w' := Option.some.inj h
    exact ⟨rfl, fun _ => rfl⟩
  | cons c calls ih =>
    intro w w' h hc
    obtain ⟨k, X, y⟩ := c
    unfold mmObjRun at h
    rcases hf : mmObjFit E LR R eps w k X y with _ | r
    · rw [hf] at h; simp at h
    rw [hf] at h
    simp only [Option.bind_some] at h
    obtain ⟨h1, h2, h3⟩ := mmObjFit_frame hf
    obtain ⟨h4, h5⟩ := ih h fun c hc' => hc c (by simp [hc'])
    have hki : k ≠ i := hc (k, X, y) (by simp)
    refine ⟨by rw [h4, h1 i (Ne.symm hki)], fun hd => ?_⟩
    rw [h1 i (Ne.symm hki)] at h5
    rw [h5, h2]
    · exact fun h => hd (k, X, y) (by simp) h.symm
    · intro c hc'
      rw [h3]
      exact hd c (by simp [hc'])

theorem mmObjFit_linear {E : InitEst p σ} {LR : LinReg p} {R : Rho ℝ} {eps : ℝ} {w w1 : MMWorld p σ} {i : ℕ} {X : List (Fin p → ℝ)}
    {y : List ℝ} (hm : (w.objs i).maxIter ≠ 0) (h : mmObjFit E LR R eps w i X y = some (.ok (), w1)) :
    ∃ m, (w1.objs i).model = .linear m := by
  unfold mmObjFit at h
  simp only at h
  rcases hf : E.fit (w.heap (w.objs i).init) X y with _ | ⟨e | _, s⟩
  · rw [hf] at h; simp at h
  · rw [hf] at h; simp at h
  rw [hf] at h
  simp only at h
  rcases hsc : E.scale s with e | sc
  · rw [hsc] at h; simp at h
  rw [hsc] at h
  simp only [if_neg hm] at h
  rcases hp : E.predict s X with e | f
  · rw [hp] at h; simp at h
  rw [hp] at h
  simp only [Option.some.injEq, Prod.mk.injEq] at h
  obtain ⟨m, hm'⟩ := mmLoopObj_linear LR R sc eps (X.zip y) _ _ _ h.1 (Or.inl hm)
  refine ⟨m, ?_⟩
  rw [← h.2, hm']
  simp [MMWorld.setModel]

/-- **C154** (partial): an object with at least one iteration keeps its predictions, whatever is done with the others.  Missing:
`max_iterations=0`, for which the claim is false. -/
theorem C154_iterations_partial (E : InitEst p σ) (LR : LinReg p) (R : Rho ℝ) (eps : ℝ) (w w1 w2 : MMWorld p σ) (i : ℕ)
    (X : List (Fin p → ℝ)) (y : List ℝ) (calls : List (ℕ × List (Fin p → ℝ) × List ℝ)) (hm : (w.objs i).maxIter ≠ 0)
    (h : mmObjFit E LR R eps w i X y = some (.ok (), w1)) (hc : ∀ c ∈ calls, c.1 ≠ i)
    (hr : mmObjRun E LR R eps w1 calls = some w2) (Z : List (Fin p → ℝ)) : mmObjPredict E w2 i Z = mmObjPredict E w1 i Z := by
  obtain ⟨m, hm'⟩ := mmObjFit_linear hm h
  have h2 := (mmObjRun_frame hr hc).1
  unfold mmObjPredict
  rw [h2, hm']

/-- **C154** (partial): objects with initial estimators of their own do not influence each other, for every number of iterations, and
whether or not fits succeed. -/
theorem C154_private_partial (E : InitEst p σ) (LR : LinReg p) (R : Rho ℝ) (eps : ℝ) (w w' : MMWorld p σ) (i : ℕ)
    (calls : List (ℕ × List (Fin p → ℝ) × List ℝ)) (hc : ∀ c ∈ calls, (w.objs c.1).init ≠ (w.objs i).init)
    (hr : mmObjRun E LR R eps w calls = some w') (Z : List (Fin p → ℝ)) : mmObjPredict E w' i Z = mmObjPredict E w i Z := by
  obtain ⟨h1, h2⟩ := mmObjRun_frame hr fun c hc' h => hc c hc' (by rw [h])
  unfold mmObjPredict
  rw [h1, h2 hc]

/-- **C154**: with `max_iterations=0` the predictions after a second object with the same initial estimator has been fitted are those
of the initial estimator fitted to the data of the second object. -/
theorem C154_shared (E : InitEst p σ) (LR : LinReg p) (R : Rho ℝ) (eps : ℝ) (w : MMWorld p σ) (i j : ℕ) (hij : j ≠ i)
    (hs : (w.objs j).init = (w.objs i).init) (hi : (w.objs i).maxIter = 0) (hj : (w.objs j).maxIter = 0)
    (X X' : List (Fin p → ℝ)) (y y' : List ℝ) (s s' : σ) (h1 : E.fit (w.heap (w.objs i).init) X y = some (.ok (), s))
    (h2 : E.fit s X' y' = some (.ok (), s')) (v v' : ℝ) (h3 : E.scale s = .ok v) (h4 : E.scale s' = .ok v') :
    ∃ w1 w2, mmObjFit E LR R eps w i X y = some (.ok (), w1) ∧ mmObjRun E LR R eps w1 [(j, X', y')] = some w2 ∧
      ∀ Z, mmObjPredict E w1 i Z = E.predict s Z ∧ mmObjPredict E w2 i Z = E.predict s' Z := by
  refine ⟨(w.setInit (w.objs i).init s).setModel i .initial,
    (((w.setInit (w.objs i).init s).setModel i .initial).setInit (w.objs i).init s').setModel j .initial, ?_, ?_, fun Z => ⟨?_, ?_⟩⟩
  · unfold mmObjFit
    simp only [h1, h3, if_pos hi]
  · unfold mmObjRun mmObjFit
    have e1 : ((w.setInit (w.objs i).init s).setModel i .initial).objs j = w.objs j := by
      simp [MMWorld.setModel, MMWorld.setInit, Function.update_of_ne hij]
    have e2 : ((w.setInit (w.objs i).init s).setModel i .initial).heap (w.objs i).init = s := by
      simp [MMWorld.setModel, MMWorld.setInit]
    simp only [e1, hs, e2, h2, h4, if_pos hj, Option.bind_some]
    rfl
  · simp [mmObjPredict, MMWorld.setModel, MMWorld.setInit]
  · simp [mmObjPredict, MMWorld.setModel, MMWorld.setInit, Function.update_of_ne (Ne.symm hij)]

end

/-- Four equal rows. -/
def c154X : List (Fin 1 → ℝ) := [![1], ![1], ![1], ![1]]

theorem c154_fit1 (st : SState) : ∃ s, sFit wlsExists (argsortStable ℝ) choiceFirst sDefault st c102X [0, 0, 0, 0] 1 =
    some (.ok (), { model := some ⟨2, 0⟩, scale_ := some s }) := by
  unfold sFit sDesign addConstant
  rw [if_pos (show sDefault.fitIntercept = true from rfl), if_neg (by simp [c102X]), if_neg (by
    rintro ⟨j, v, hv, hall⟩
    have h0 := hall ![0] (by simp [c102X])
    rw [Subsingleton.elim j 0] at h0
    exact hv h0.symm)]
  simp only
  obtain ⟨s, hs⟩ := search_zero wlsExists (argsortStable ℝ) choiceFirst
    ((c102X.map fun x => (Fin.cons 1 x : Fin 2 → ℝ)).zip [0, 0, 0, 0]) (by simp [c102X]) (by simp [c102X]) 0
  have hs' : sSearch (k := 1 + 1) wlsExists (argsortStable ℝ) choiceFirst sDefault
      ((c102X.map fun x => (Fin.cons 1 x : Fin (1 + 1) → ℝ)).zip [0, 0, 0, 0]) 1 = some (.ok (0, s)) := hs
  rw [hs']
  exact ⟨s, rfl⟩

theorem c154_fit2 (st : SState) : ∃ s, sFit wlsExists (argsortStable ℝ) choiceFirst sDefault st c154X [0, 0, 0, 0] 1 =
    some (.ok (), { model := some ⟨1, 0⟩, scale_ := some s }) := by
  unfold sFit sDesign addConstant
  rw [if_pos (show sDefault.fitIntercept = true from rfl), if_neg (by simp [c154X]),
    if_pos ⟨0, 1, one_ne_zero, by simp [c154X]⟩]
  simp only
  obtain ⟨s, hs⟩ := search_zero wlsExists (argsortStable ℝ) choiceFirst (c154X.zip [0, 0, 0, 0]) (by simp [c154X])
    (by simp [c154X]) 0
  rw [hs]
  exact ⟨s, rfl⟩

theorem c154_predict (s : Option ℝ) :
    sPredict sDefault { model := some ⟨2, 0⟩, scale_ := s } c102X = .ok [0, 0, 0, 0] ∧
      sPredict sDefault { model := some ⟨1, 0⟩, scale_ := s } c102X = .error .valueError := by
  have hd : sDesign sDefault.fitIntercept c102X = .ok ⟨2, c102X.map fun x => (Fin.cons 1 x : Fin 2 → ℝ)⟩ := by
    unfold sDesign addConstant
    rw [if_pos (show sDefault.fitIntercept = true from rfl), if_neg (by simp [c102X]), if_neg (by
      rintro ⟨j, v, hv, hall⟩
      have h0 := hall ![0] (by simp [c102X])
      rw [Subsingleton.elim j 0] at h0
      exact hv h0.symm)]
  constructor
  · unfold sPredict
    simp only [hd]
    simp [c102X, dotRow]
  · unfold sPredict
    simp only [hd]
    rw [dif_neg (by omega)]

theorem sEst_fit {p : ℕ} (W : WLSReg) (srt : ArgSort ℝ) (ch : Choice ℕ) (cfg : SConfig) (fuel : ℕ) (st : SState) (X : List (Fin p → ℝ))
    (y : List ℝ) : (sEst W srt ch cfg fuel : InitEst p SState).fit st X y = sFit W srt ch cfg st X y fuel := rfl

theorem sEst_predict {p : ℕ} (W : WLSReg) (srt : ArgSort ℝ) (ch : Choice ℕ) (cfg : SConfig) (fuel : ℕ) (st : SState)
    (X : List (Fin p → ℝ)) : (sEst W srt ch cfg fuel : InitEst p SState).predict st X = sPredict cfg st X := rfl

theorem sEst_scale {p : ℕ} (W : WLSReg) (srt : ArgSort ℝ) (ch : Choice ℕ) (cfg : SConfig) (fuel : ℕ) (st : SState) :
    (sEst W srt ch cfg fuel : InitEst p SState).scale st = scaleProperty st.scale_ := rfl

/-- A program with `MMRegression(max_iterations=0)` objects that all have the default initial estimator. -/
def c154World : MMWorld 1 SState := ⟨fun _ => ⟨none, none⟩, fun _ => ⟨0, 0, .unset⟩⟩

/-- Two objects with the default initial estimator: after the second has been fitted, `predict` of the first raises. -/
theorem C154_violated : ¬ C154_statement := by
  intro h
  obtain ⟨s1, h1⟩ := c154_fit1 ⟨none, none⟩
  obtain ⟨s2, h2⟩ := c154_fit2 ⟨some ⟨2, 0⟩, some s1⟩
  obtain ⟨w1, w2, h3, h4, h5⟩ := C154_shared (sEst wlsExists (argsortStable ℝ) choiceFirst sDefault 1) (linRegExists 1) (.tukey 3.44)
    1e-7 c154World 0 1 one_ne_zero rfl rfl rfl c102X c154X [0, 0, 0, 0] [0, 0, 0, 0] ⟨some ⟨2, 0⟩, some s1⟩ ⟨some ⟨1, 0⟩, some s2⟩ 
    (by rw [sEst_fit]; exact h1) (by rw [sEst_fit]; exact h2) s1 s2 (by rw [sEst_scale]; rfl) (by rw [sEst_scale]; rfl)
  have h6 := h 1 SState _ _ _ _ _ w1 w2 0 c102X _ _ h3 (by simp) h4 c102X
  rw [(h5 c102X).1, (h5 c102X).2] at h6
  have e1 : (sEst wlsExists (argsortStable ℝ) choiceFirst sDefault 1 : InitEst 1 SState).predict ⟨some ⟨2, 0⟩, some s1⟩ c102X =
      .ok [0, 0, 0, 0] := by rw [sEst_predict]; exact (c154_predict _).1
  have e2 : (sEst wlsExists (argsortStable ℝ) choiceFirst sDefault 1 : InitEst 1 SState).predict ⟨some ⟨1, 0⟩, some s2⟩ c102X =
      .error .valueError := by rw [sEst_predict]; exact (c154_predict _).2
  rw [e1, e2] at h6
  simp at h6

/-! Failed fits -/

/-- **C155** (full statement): a `fit` of an `MMRegression` that raises does not change what `predict` does. -/
def C155_statement : Prop :=
  ∀ (p : ℕ) (W : WLSReg) (srt : ArgSort ℝ) (ch : Choice ℕ) (cfg : SConfig) (fuel : ℕ) (LR : LinReg p) (R : Rho ℝ) (eps : ℝ)
    (w w1 : MMWorld p SState) (i : ℕ) (X : List (Fin p → ℝ)) (y : List ℝ) (e : PyErr),
    mmObjFit (sEst W srt ch cfg fuel) LR R eps w i X y = some (.error e, w1) →
    ∀ Z, mmObjPredict (sEst W srt ch cfg fuel) w1 i Z = mmObjPredict (sEst W srt ch cfg fuel) w i Z

section
variable {p : ℕ}

/-- **C155** (partial): a fit that raises because the S-estimator raises changes no attribute of any object.  Missing: exceptions
raised later, for which the claim is false. -/
theorem C155_initial_partial (W : WLSReg) (srt : ArgSort ℝ) (ch : Choice ℕ) (cfg : SConfig) (fuel : ℕ) (LR : LinReg p) (R : Rho ℝ)
    (eps : ℝ) (w w1 : MMWorld p SState) (i : ℕ) (X : List (Fin p → ℝ)) (y : List ℝ) (e : PyErr) (st : SState)
    (hf : sFit W srt ch cfg (w.heap (w.objs i).init) X y fuel = some (.error e, st))
    (h : mmObjFit (sEst W srt ch cfg fuel) LR R eps w i X y = some (.error e, w1)) : w1 = w := by
  have hst : st = w.heap (w.objs i).init := by
    unfold sFit at hf
    split at hf
    · simp only [Option.some.injEq, Prod.mk.injEq] at hf; exact hf.2.symm
    · split at hf
      · simp at hf
      · simp only [Option.some.injEq, Prod.mk.injEq] at hf; exact hf.2.symm
      · simp at hf
  unfold mmObjFit at h
  have hf' : (sEst W srt ch cfg fuel : InitEst p SState).fit (w.heap (w.objs i).init) X y = some (.error e, st) := hf
  simp only [hf', Option.some.injEq, Prod.mk.injEq, true_and] at h
  rw [← h, hst]
  simp [MMWorld.setInit]

/-- **C155**: if the initial estimator fits an observation exactly, `fit` raises ValueError, and from then on `predict` gives the
predictions of the initial estimator. -/
theorem C155_exact {σ : Type} (E : InitEst p σ) (LR : LinReg p) (R : Rho ℝ) (eps : ℝ) (w : MMWorld p σ) (i : ℕ)
    (X : List (Fin p → ℝ)) (y : List ℝ) (hm : (w.objs i).maxIter ≠ 0) (s : σ) (f : List ℝ) (v : ℝ)
    (h1 : E.fit (w.heap (w.objs i).init) X y = some (.ok (), s)) (h2 : E.scale s = .ok v) (h3 : E.predict s X = .ok f)
    (h4 : ∃ x ∈ y.zip f, x.1 = x.2) :
    ∃ w1, mmObjFit E LR R eps w i X y = some (.error .valueError, w1) ∧ ∀ Z, mmObjPredict E w1 i Z = E.predict s Z := by
  obtain ⟨k, hk⟩ := Nat.exists_eq_succ_of_ne_zero hm
  refine ⟨((w.setInit (w.objs i).init s).setModel i .initial).setModel i .initial, ?_, fun Z => ?_⟩
  · have hstep : mmFitStep LR R v (X.zip y) (List.zipWith (fun v f => v - f) y f) = .error .valueError := by
      unfold mmFitStep
      rw [mapM_mmWeight, if_pos]
      obtain ⟨x, hx, hxe⟩ := h4
      rw [← List.map_uncurry_zip_eq_zipWith]
      exact List.mem_map.2 ⟨x, hx, by simp [Function.uncurry, hxe]⟩
    unfold mmObjFit
    simp only [h1, h2, if_neg hm, h3]
    rw [hk]
    unfold mmLoopObj
    rw [hstep]
  · simp [mmObjPredict, MMWorld.setModel, MMWorld.setInit]

end

/-- An unfitted `MMRegression()` fitted to targets 0: the fit raises, and then `predict` answers. -/
theorem C155_violated : ¬ C155_statement := by
  intro h
  obtain ⟨s1, h1⟩ := c154_fit1 ⟨none, none⟩
  obtain ⟨w1, h2, h3⟩ := C155_exact (sEst wlsExists (argsortStable ℝ) choiceFirst sDefault 1) (linRegExists 1) (.tukey 3.44) 1e-7
    ⟨fun _ => ⟨none, none⟩, fun _ => ⟨0, 500, .unset⟩⟩ 0 c102X [0, 0, 0, 0] (Nat.succ_ne_zero 499)
    ⟨some ⟨2, 0⟩, some s1⟩ [0, 0, 0, 0] s1
    (by rw [sEst_fit]; exact h1) (by rw [sEst_scale]; rfl) (by rw [sEst_predict]; exact (c154_predict _).1) ⟨(0, 0), by simp, rfl⟩
  have h4 := h 1 _ _ _ _ _ _ _ _ _ w1 0 c102X _ _ h2 c102X
  rw [h3] at h4
  have e1 : (sEst wlsExists (argsortStable ℝ) choiceFirst sDefault 1 : InitEst 1 SState).predict ⟨some ⟨2, 0⟩, some s1⟩ c102X =
      .ok [0, 0, 0, 0] := by rw [sEst_predict]; exact (c154_predict _).1
  rw [e1] at h4
  simp [mmObjPredict] at h4

/-- An initial estimator that predicts 0 and has scale 1. -/
def c154Zero : InitEst 1 Unit := ⟨fun _ _ _ => some (.ok (), ()), fun _ Z => .ok (Z.map fun _ => 0), fun _ => .ok 1⟩

theorem c154_zero_fit (w : MMWorld 1 Unit) (i : ℕ) (hi : (w.objs i).maxIter = 1) (a b : ℝ) (ha : a ≠ 0) (hb : b ≠ 0) :
    ∃ w1, mmObjFit c154Zero (linRegExists 1) (.tukey 3.44) 1e-7 w i [![0], ![1]] [a, b] = some (.ok (), w1) := by
  have hstep : ∃ m, mmFitStep (linRegExists 1) (.tukey 3.44) 1 ([![0], ![1]].zip [a, b]) [a - 0, b - 0] = .ok m := by
    unfold mmFitStep mmWeight
    simp [lrFit, ha, hb]
  obtain ⟨m, hm⟩ := hstep
  unfold mmObjFit
  simp only [c154Zero, hi, one_ne_zero, if_false, List.map_cons, List.map_nil, List.zipWith_cons_cons, List.zipWith_nil_left]
  unfold mmLoopObj
  rw [hm]
  simp only
  split_ifs
  · exact ⟨_, rfl⟩
  · exact ⟨_, rfl⟩

/-- The hypotheses of `C154_iterations_partial` are met by two objects with one iteration and a common initial estimator. -/
example : ∃ w1 w2, mmObjFit c154Zero (linRegExists 1) (.tukey 3.44) 1e-7 ⟨fun _ => (), fun _ => ⟨0, 1, .unset⟩⟩ 0 [![0], ![1]] [1, 2] =
    some (.ok (), w1) ∧ mmObjRun c154Zero (linRegExists 1) (.tukey 3.44) 1e-7 w1 [(1, [![0], ![1]], [3, 4])] = some w2 := by
  obtain ⟨w1, h1⟩ := c154_zero_fit ⟨fun _ => (), fun _ => ⟨0, 1, .unset⟩⟩ 0 rfl 1 2 one_ne_zero two_ne_zero
  obtain ⟨w2, h2⟩ := c154_zero_fit w1 1 (by rw [(mmObjFit_frame h1).1 1 one_ne_zero]) 3 4 three_ne_zero four_ne_zero
  refine ⟨w1, w2, h1, ?_⟩
  unfold mmObjRun
  rw [h2]
  rfl

/-- The hypotheses of `C154_private_partial` are met by objects with initial estimators of their own. -/
example : ∃ w', mmObjRun c154Zero (linRegExists 1) (.tukey 3.44) 1e-7 ⟨fun _ => (), fun k => ⟨k, 1, .unset⟩⟩
    [(1, [![0], ![1]], [3, 4])] = some w' ∧ (1 : ℕ) ≠ 0 := by
  obtain ⟨w2, h2⟩ := c154_zero_fit ⟨fun _ => (), fun k => ⟨k, 1, .unset⟩⟩ 1 rfl 3 4 three_ne_zero four_ne_zero
  refine ⟨w2, ?_, one_ne_zero⟩
  unfold mmObjRun
  rw [h2]
  rfl

/-- The hypotheses of `C155_initial_partial` are met by data without rows. -/
example (W : WLSReg) (srt : ArgSort ℝ) (ch : Choice ℕ) (fuel : ℕ) (w : MMWorld 1 SState) (LR : LinReg 1) (R : Rho ℝ) :
    sFit W srt ch sDefault (w.heap (w.objs 0).init) ([] : List (Fin 1 → ℝ)) [] fuel =
        some (.error .valueError, w.heap (w.objs 0).init) ∧
      ∃ w1, mmObjFit (sEst W srt ch sDefault fuel) LR R 1e-7 w 0 [] [] = some (.error .valueError, w1) := by
  have h : sFit W srt ch sDefault (w.heap (w.objs 0).init) ([] : List (Fin 1 → ℝ)) [] fuel =
      some (.error .valueError, w.heap (w.objs 0).init) := by
    unfold sFit sDesign addConstant
    rw [if_pos (show sDefault.fitIntercept = true from rfl), if_pos rfl]
  refine ⟨h, w.setInit (w.objs 0).init (w.heap (w.objs 0).init), ?_⟩
  unfold mmObjFit
  have h' : (sEst W srt ch sDefault fuel : InitEst 1 SState).fit (w.heap (w.objs 0).init) [] [] =
      some (.error .valueError, w.heap (w.objs 0).init) := h
  simp only [h']

end Robpy
