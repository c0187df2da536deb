import Verif.Model.RobustScale
import Mathlib.Data.List.Basic
import Mathlib.Tactic.Common

/-! # Property C15: NaN policy of the univariate estimators, over all histories of fit calls -/

namespace Robpy
variable {K L : Type}

theorem not_any_isNone_iff {xs : List (Option K)} : xs.any Option.isNone = false ↔ none ∉ xs := by
  rw [List.any_eq_false]
  constructor
  · intro h hn; exact h none hn rfl
  · intro h x hx hx'
    rw [Option.isNone_iff_eq_none] at hx'
    exact h (hx' ▸ hx)

theorem any_isNone_iff {xs : List (Option K)} : xs.any Option.isNone = true ↔ none ∈ xs := by
  rw [List.any_eq_true]
  constructor
  · rintro ⟨x, hx, hx'⟩
    rw [Option.isNone_iff_eq_none] at hx'
    exact hx' ▸ hx
  · intro h; exact ⟨none, h, rfl⟩

/-- The data without its NaN cells. -/
def Spec.dropNaN {K : Type} (xs : List (Option K)) : List (Option K) :=
  (xs.filterMap id).map some

theorem filter_isSome_eq_dropNaN (xs : List (Option K)) :
    xs.filter Option.isSome = Spec.dropNaN xs := by
  unfold Spec.dropNaN
  induction xs with
  | nil => rfl
  | cons x xs ih => rcases x with _ | x <;> simp [ih]

theorem none_not_mem_dropNaN (xs : List (Option K)) : none ∉ Spec.dropNaN xs := by
  simp [Spec.dropNaN]

theorem dropNaN_eq_self {xs : List (Option K)} (h : none ∉ xs) : Spec.dropNaN xs = xs := by
  rw [← filter_isSome_eq_dropNaN, List.filter_eq_self]
  intro x hx
  rcases x with _ | x
  · exact absurd hx h
  · rfl

/-- **C15**, first part: an estimator that does not declare that it can handle NaN never sees one.
Whatever the history, replacing its `_calculate` by any other function that agrees with it on
NaN-free samples changes nothing. -/
theorem C15_never_sees_nan (est est' : Calc K L) (h : ∀ ys, none ∉ ys → est ys = est' ys)
    (hist : List (UArray K × Bool)) (st : ScaleState L) :
    st.run false est hist = st.run false est' hist := by
  induction hist generalizing st with
  | nil => rfl
  | cons q rest ih =>
    obtain ⟨X, ig⟩ := q
    simp only [ScaleState.run]
    have : st.fit false est X ig = st.fit false est' X ig := by
      unfold ScaleState.fit
      rcases X with xs | d
      · simp only
        by_cases hn : none ∈ xs
        · rw [any_isNone_iff.2 hn]
          rcases ig with _ | _
          · simp
          · simp only [Bool.not_true, Bool.and_false, Bool.false_and, Bool.false_eq_true, if_false,
              Bool.and_true, if_true]
            rw [filter_isSome_eq_dropNaN, h _ (none_not_mem_dropNaN xs)]
        · rw [not_any_isNone_iff.2 hn]
          simp only [Bool.and_false, Bool.false_eq_true, if_false]
          rw [h _ hn]
      · rfl
    rw [this]
    exact ih _

/-- **C15**, second part: `fit(X, ignore_nan=True)` is `fit` on the data without NaN, for every
estimator and state. -/
theorem C15_ignore_nan (canNan : Bool) (est : Calc K L) (st : ScaleState L) (xs : List (Option K)) :
    st.fit canNan est (.oneD xs) true = st.fit canNan est (.oneD (Spec.dropNaN xs)) false := by
  have h2 := not_any_isNone_iff.2 (none_not_mem_dropNaN xs)
  unfold ScaleState.fit
  simp only [h2, Bool.not_true, Bool.and_false, Bool.false_and, Bool.false_eq_true, if_false,
    Bool.true_and]
  by_cases hn : none ∈ xs
  · rw [any_isNone_iff.2 hn, filter_isSome_eq_dropNaN]; rfl
  · rw [not_any_isNone_iff.2 hn, dropNaN_eq_self hn]; rfl

/-- **C15**, third part: NaN without `ignore_nan`, or a non-univariate array, raises ValueError and
leaves the fitted values as they were. -/
theorem C15_error_keeps_state (est : Calc K L) (st : ScaleState L) (X : UArray K) (ig : Bool)
    (h : (∃ d, X = .otherDim d) ∨ (ig = false ∧ ∃ xs, X = .oneD xs ∧ none ∈ xs)) :
    st.fit false est X ig = (.error .valueError, st) := by
  rcases h with ⟨d, rfl⟩ | ⟨rfl, xs, rfl, hn⟩
  · rfl
  · unfold ScaleState.fit
    simp [any_isNone_iff.2 hn]

/-- Specification of a history: the sample each call hands to the estimator and what it returns;
`none` for a call that raises. -/
noncomputable def Spec.callResult {K L : Type} (est : Calc K L) (X : UArray K) (ig : Bool) : Option (L × L) :=
  match X with
  | .otherDim _ => none
  | .oneD xs =>
    open Classical in
    if none ∈ xs ∧ ig = false then none
    else match est (Spec.dropNaN xs) with
      | .ok r => some r
      | .error _ => none

/-- **C15**, fourth part: after any history, `location` and `scale` are those of the last successful
fit; they raise NotFittedError exactly if there is none. -/
theorem C15_history (est : Calc K L) (hist : List (UArray K × Bool)) :
    let st := (ScaleState.new : ScaleState L).run false est hist
    match (hist.filterMap fun q => Spec.callResult est q.1 q.2).getLast? with
    | none => st.location = .error .notFittedError ∧ st.scale = .error .notFittedError
    | some (l, s) => st.location = .ok l ∧ st.scale = .ok s := by
  -- one call
  have step : ∀ (st : ScaleState L) X ig, (st.fit false est X ig).2 =
      match Spec.callResult est X ig with
      | none => st
      | some (l, s) => ⟨some l, some s⟩ := by
    intro st X ig
    unfold ScaleState.fit Spec.callResult
    rcases X with xs | d
    · simp only
      by_cases hn : none ∈ xs
      · rcases ig with _ | _
        · simp [any_isNone_iff.2 hn, hn]
        · simp only [any_isNone_iff.2 hn, filter_isSome_eq_dropNaN]
          rcases hq : est (Spec.dropNaN xs) with e | ⟨l, s⟩ <;> simp [hq]
      · have hd := dropNaN_eq_self hn
        simp only [not_any_isNone_iff.2 hn, hd, hn]
        rcases hq : est xs with e | ⟨l, s⟩ <;> simp [hq]
    · rfl
  have key : ∀ (hist : List (UArray K × Bool)) (st : ScaleState L),
      st.run false est hist =
        match (hist.filterMap fun q => Spec.callResult est q.1 q.2).getLast? with
        | none => st
        | some (l, s) => ⟨some l, some s⟩ := by
    intro hist
    induction hist with
    | nil => intro st; rfl
    | cons q rest ih =>
      intro st
      obtain ⟨X, ig⟩ := q
      simp only [ScaleState.run]
      rw [ih, step]
      rcases hr : Spec.callResult est X ig with _ | ⟨l, s⟩
      · simp only [List.filterMap_cons, hr]
      · simp only [List.filterMap_cons, hr, List.getLast?_cons]
        rcases hq : (rest.filterMap fun q => Spec.callResult est q.1 q.2).getLast? with _ | ⟨l', s'⟩ <;>
          simp only [hq, Option.getD]
  simp only [key]
  rcases hq : (hist.filterMap fun q => Spec.callResult est q.1 q.2).getLast? with _ | ⟨l, s⟩ <;>
    simp only [hq]
  · exact ⟨rfl, rfl⟩
  · exact ⟨rfl, rfl⟩

/-- A concrete history: NaN data rejected, then ignored, then a 2-d array rejected. -/
example :
    let est : Calc ℕ ℕ := fun xs => .ok (xs.length, (xs.filterMap id).sum)
    let st := (ScaleState.new : ScaleState ℕ).run false est
      [(.oneD [some 4, none], false), (.oneD [some 4, none, some 3], true), (.otherDim 2, false)]
    st.location = .ok 2 ∧ st.scale = .ok 7 := by decide

end Robpy
