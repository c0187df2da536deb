import Verif.Model.Verbosity
import Verif.Props.Outlyingness

/-! C166: the `verbosity` argument of the estimators. -/

namespace Robpy

/-- The actions of a user that set the level of a logger, described by what the user sees: constructing an object of the class,
or doing something during which the package constructs one. -/
def Spec.touches (name : LogName) : UserAct → Prop
  | .new n _ => n = name
  | .fitRobpca => name = .fastMCD
  | .fitCellMCD => name = .initialDDCW
  | .fitLTS _ => name = .fastLTS
  | .fitS _ => name = .sReg
  | .fitMM => name = .sReg
  | .outlierMap => name = .fastMCD
  | .configureRoot _ _ => False

theorem getLogger_other (reg : LogRegistry LogName) {n m : LogName} (h : m ≠ n) (l : ℕ) :
    getLogger LogName.ancestors reg n l m = reg m := by
  have := (C69_one_handler LogName.ancestors reg [] n l).2.2 m h
  simpa [LogEvent.run] using this

theorem afterActs_append (reg : LogRegistry LogName) (a b : List UserAct) :
    afterActs reg (a ++ b) = afterActs (afterActs reg a) b := by
  simp [afterActs, List.flatMap_append, List.foldl_append]

theorem afterActs_untouched (name : LogName) (hn : name ≠ .root) (acts : List UserAct) (h : ∀ a ∈ acts, ¬ Spec.touches name a)
    (reg : LogRegistry LogName) : afterActs reg acts name = reg name := by
  induction acts generalizing reg with
  | nil => rfl
  | cons a l ih =>
    rw [show a :: l = [a] ++ l from rfl, afterActs_append, ih fun b hb => h b (List.mem_cons_of_mem _ hb)]
    have h0 := h a (by simp)
    cases a <;> simp only [Spec.touches] at h0 <;>
      simp only [afterActs, UserAct.events, List.flatMap_cons, List.flatMap_nil, List.append_nil, List.foldl_cons, List.foldl_nil,
        LogEvent.run]
    case new n v => exact getLogger_other _ (Ne.symm h0) _
    case fitRobpca => exact getLogger_other _ h0 _
    case fitCellMCD => exact getLogger_other _ h0 _
    case outlierMap => exact getLogger_other _ h0 _
    case fitLTS v => exact Function.update_of_ne h0 _ _
    case fitS v => exact Function.update_of_ne h0 _ _
    case fitMM => exact Function.update_of_ne h0 _ _
    case configureRoot a b => rw [Function.update_of_ne hn, Function.update_of_ne hn]

/-- No action of the package touches the root logger. -/
theorem afterActs_root (acts : List UserAct) (h : ∀ a ∈ acts, (∀ l k, a ≠ .configureRoot l k) ∧ ∀ v, a ≠ .new .root v)
    (reg : LogRegistry LogName) : afterActs reg acts .root = reg .root := by
  induction acts generalizing reg with
  | nil => rfl
  | cons a l ih =>
    rw [show a :: l = [a] ++ l from rfl, afterActs_append, ih fun b hb => h b (List.mem_cons_of_mem _ hb)]
    obtain ⟨h0, h1⟩ := h a (by simp)
    cases a <;>
      simp only [afterActs, UserAct.events, List.flatMap_cons, List.flatMap_nil, List.append_nil, List.foldl_cons, List.foldl_nil,
        LogEvent.run]
    case new n v => exact getLogger_other _ (fun e => h1 v (by rw [e])) _
    case fitRobpca => exact getLogger_other _ (by decide) _
    case fitCellMCD => exact getLogger_other _ (by decide) _
    case outlierMap => exact getLogger_other _ (by decide) _
    case fitLTS v => exact Function.update_of_ne (by decide) _ _
    case fitS v => exact Function.update_of_ne (by decide) _ _
    case fitMM => exact Function.update_of_ne (by decide) _ _
    case configureRoot a b => exact absurd rfl (h0 a b)

/-- The messages an object with the given `verbosity` is expected to show: those of at least this level. -/
def Spec.respects (reg : LogRegistry LogName) (name : LogName) (verbosity : ℕ) : Prop :=
  ∀ level, 0 < shown reg name level ↔ verbosity ≤ level

theorem LogName.ancestors_eq {name : LogName} (hn : name ≠ .root) : name.ancestors = [.root] := by
  cases name <;> first | rfl | exact absurd rfl hn

theorem effectiveLevel_pos (reg : LogRegistry LogName) (name : LogName) (h : (reg name).level ≠ 0) :
    effectiveLevel reg name = (reg name).level := by
  simp [effectiveLevel, h]

theorem get_state (reg : LogRegistry LogName) (n : LogName) (l : ℕ) :
    getLogger LogName.ancestors reg n l n = ⟨l, [l]⟩ := by
  obtain ⟨h1, h2, -⟩ := C69_one_handler LogName.ancestors reg [] n l
  simp only [List.nil_append, List.foldl_cons, List.foldl_nil, LogEvent.run] at h1 h2
  generalize getLogger LogName.ancestors reg n l n = q at h1 h2
  cases q
  simp_all

/-- **C166**, the part that holds: as long as no other object of the same class has been constructed (by the user or by the package)
after an object, exactly the messages from its `verbosity` on are shown, once by its own handler and once by every handler of the
root logger that accepts them. -/
theorem C166_partial (reg : LogRegistry LogName) (before after : List UserAct) (name : LogName) (hn : name ≠ .root) (v : ℕ) (hv : 0 < v)
    (h : ∀ a ∈ after, ¬ Spec.touches name a) :
    let final := afterActs reg (before ++ .new name v :: after)
    Spec.respects final name v ∧
    ∀ level, shown final name level =
      if v ≤ level then 1 + (final .root).handlers.countP fun k => decide (k ≤ level) else 0 := by
  intro final
  have hst : final name = ⟨v, [v]⟩ := by
    show afterActs reg (before ++ ([.new name v] ++ after)) name = _
    rw [afterActs_append, afterActs_append, afterActs_untouched name hn after h]
    simp only [afterActs, UserAct.events, List.flatMap_cons, List.flatMap_nil, List.append_nil, List.foldl_cons, List.foldl_nil,
        LogEvent.run]
    exact get_state _ _ _
  have hshown : ∀ level, shown final name level =
      if v ≤ level then 1 + (final .root).handlers.countP fun k => decide (k ≤ level) else 0 := by
    intro level
    have he : effectiveLevel final name = v := by
      rw [effectiveLevel_pos final name (by rw [hst]; exact hv.ne'), hst]
    unfold shown
    rw [he, LogName.ancestors_eq hn]
    by_cases hl : v ≤ level
    · rw [if_neg (by omega), if_pos hl]
      simp only [List.flatMap_cons, List.flatMap_nil, hst, List.append_nil, List.cons_append, List.nil_append]
      rw [if_neg (by simp), List.countP_cons_of_pos (by simpa using hl)]
      omega
    · rw [if_pos (by omega), if_neg hl]
  refine ⟨fun level => ?_, hshown⟩
  rw [hshown level]
  split_ifs with hl
  · simp [hl]
  · simp [hl]

/-- **C166** for the regression estimators, whose loggers have no handler of their own: in an interpreter without configured
logging a message of a fit with `verbosity=v` is shown exactly if its level is at least `v` and at least WARNING (30). -/
theorem C166_regression_partial (before : List UserAct) (hb : ∀ a ∈ before, (∀ l k, a ≠ .configureRoot l k) ∧
      (∀ v, a ≠ .new .root v) ∧ (∀ v, a ≠ .new .fastLTS v) ∧ ∀ v, a ≠ .new .sReg v) (v : ℕ) (hv : 0 < v) (level : ℕ) :
    (0 < shown (afterActs freshRegistry (before ++ [.fitLTS v])) .fastLTS level ↔ max v 30 ≤ level) ∧
    (0 < shown (afterActs freshRegistry (before ++ [.fitS v])) .sReg level ↔ max v 30 ≤ level) := by
  have hh : ∀ n : LogName, n = .fastLTS ∨ n = .sReg → (afterActs freshRegistry before n).handlers = [] := by
    intro n hnn
    have : ∀ reg : LogRegistry LogName, (reg n).handlers = [] → (afterActs reg before n).handlers = [] := by
      induction before with
      | nil => exact fun reg h => h
      | cons a l ih =>
        intro reg hr
        rw [show a :: l = [a] ++ l from rfl, afterActs_append]
        refine ih (fun b hb' => hb b (List.mem_cons_of_mem _ hb')) _ ?_
        obtain ⟨h0, h1, h2, h3⟩ := hb a (by simp)
        cases a <;>
          simp only [afterActs, UserAct.events, List.flatMap_cons, List.flatMap_nil, List.append_nil, List.foldl_cons,
            List.foldl_nil, LogEvent.run]
        case new m w =>
          rw [getLogger_other _ (by rintro rfl; rcases hnn with e | e
                                    · exact h2 w (by rw [e])
                                    · exact h3 w (by rw [e]))]
          exact hr
        case fitRobpca => rw [getLogger_other _ (by rcases hnn with e | e <;> rw [e] <;> decide)]; exact hr
        case fitCellMCD => rw [getLogger_other _ (by rcases hnn with e | e <;> rw [e] <;> decide)]; exact hr
        case outlierMap => rw [getLogger_other _ (by rcases hnn with e | e <;> rw [e] <;> decide)]; exact hr
        case fitLTS w => rcases hnn with e | e <;> subst e <;> simp [hr]
        case fitS w => rcases hnn with e | e <;> subst e <;> simp [hr]
        case fitMM => rcases hnn with e | e <;> subst e <;> simp [hr]
        case configureRoot x y => exact absurd rfl (h0 x y)
    exact this _ rfl
  have hroot : afterActs freshRegistry before .root = ⟨30, []⟩ := by
    rw [afterActs_root before fun a ha => ⟨(hb a ha).1, (hb a ha).2.1⟩]
    rfl
  have key : ∀ n : LogName, n ≠ .root → (afterActs freshRegistry before n).handlers = [] →
      (0 < shown (Function.update (afterActs freshRegistry before) n { afterActs freshRegistry before n with level := v }) n level ↔
        max v 30 ≤ level) := by
    intro n hn h0
    unfold shown
    rw [effectiveLevel_pos _ _ (by simp; omega), LogName.ancestors_eq hn]
    simp only [Function.update_self, List.flatMap_cons, List.flatMap_nil, h0, Function.update_of_ne (Ne.symm hn), hroot, List.append_nil]
    split_ifs with h1 h2 <;> simp_all
  exact ⟨by rw [afterActs_append]; exact key _ (by decide) (hh _ (Or.inl rfl)),
    by rw [afterActs_append]; exact key _ (by decide) (hh _ (Or.inr rfl))⟩

/-- **C166**, full statement: whatever happened before and after the construction of an object with a `verbosity`, its messages are
shown exactly from this level on. -/
def C166_statement : Prop :=
  ∀ (before after : List UserAct) (name : LogName), name ∈ [LogName.fastMCD, .detMCD, .cellMCD, .initialDDCW, .robpca] →
    ∀ v, 0 < v → Spec.respects (afterActs freshRegistry (before ++ .new name v :: after)) name v

/-- The code violates C166: `mcd = FastMCD(verbosity=logging.INFO)`, then a fit of `ROBPCA` (which constructs a `FastMCD()` itself),
then `mcd.fit(X)`: the information messages are lost. -/
theorem C166_violated : ¬ C166_statement := by
  intro h
  have h1 := (h [] [.fitRobpca] .fastMCD (by simp) 20 (by norm_num) 20).2 le_rfl
  have h2 : shown (afterActs freshRegistry ([] ++ .new .fastMCD 20 :: [.fitRobpca])) .fastMCD 20 = 0 := by decide
  omega

/-- Also in the other direction: a second object with a lower `verbosity` makes the first one talk. -/
theorem C166_violated_louder : ¬ Spec.respects (afterActs freshRegistry [.new .fastMCD 40, .new .fastMCD 10]) .fastMCD 40 := by
  intro h
  have h1 := (h 10).1 (by decide)
  omega

/-- `CellMCD(verbosity=logging.ERROR)` does not silence the warnings of the initial estimator it constructs. -/
theorem C166_violated_nested (before : List UserAct) (v : ℕ) :
    0 < shown (afterActs freshRegistry (before ++ [.new .cellMCD v, .fitCellMCD])) .initialDDCW 30 := by
  have hst : afterActs freshRegistry (before ++ [.new .cellMCD v, .fitCellMCD]) .initialDDCW = ⟨30, [30]⟩ := by
    rw [show before ++ [.new .cellMCD v, .fitCellMCD] = (before ++ [.new .cellMCD v]) ++ [.fitCellMCD] by simp, afterActs_append]
    exact get_state (afterActs freshRegistry (before ++ [.new .cellMCD v])) .initialDDCW 30
  unfold shown
  rw [effectiveLevel_pos _ _ (by rw [hst]; norm_num), hst]
  simp [hst]

/-- The hypotheses of `C166_partial` on a history with configured root logger: the message is shown twice. -/
example : shown (afterActs freshRegistry [.configureRoot 20 20, .fitRobpca, .new .fastMCD 20, .fitCellMCD]) .fastMCD 20 = 2 := by
  have := (C166_partial freshRegistry [.configureRoot 20 20, .fitRobpca] [.fitCellMCD] .fastMCD (by decide) 20 (by norm_num)
    (by simp [Spec.touches])).2 20
  rw [show ([.configureRoot 20 20, .fitRobpca, .new .fastMCD 20, .fitCellMCD] : List UserAct) =
    [.configureRoot 20 20, .fitRobpca] ++ .new .fastMCD 20 :: [.fitCellMCD] from rfl, this]
  decide

/-- The default `verbosity` of `FastLTSRegression.fit` is INFO (20), but nothing below WARNING is shown. -/
example : ¬ 0 < shown (afterActs freshRegistry [.new .robpca 10, .fitMM, .fitLTS 20]) .fastLTS 20 := by
  rw [show ([.new .robpca 10, .fitMM, .fitLTS 20] : List UserAct) = [.new .robpca 10, .fitMM] ++ [.fitLTS 20] from rfl,
    (C166_regression_partial _ (by simp) 20 (by norm_num) 20).1]
  norm_num

end Robpy
