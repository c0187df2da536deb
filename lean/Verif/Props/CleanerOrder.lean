import Verif.Props.DataCleaner
import Verif.Lemmas.Median
import Mathlib.Data.List.Perm.Lattice
import Mathlib.Data.Option.Basic

/-! # C202: the order of the rows and columns and `DataCleaner` -/

namespace Spec
open Robpy

/-- The same table with the rows and the columns in another order: the labels are reordered, each cell keeps its labels. -/
def sameTable {R C K : Type} (X Y : Frame R C K) : Prop := X.rows.Perm Y.rows ∧ X.cols.Perm Y.cols ∧ Y.cell = X.cell

/-- Two calls raise the same error, or both return and the results correspond. -/
def agree {α β : Type} (P : α → β → Prop) : Except PyErr α → Except PyErr β → Prop
  | .ok a, .ok b => P a b
  | .error e, .error e' => e' = e
  | _, _ => False

/-- Two cleaners which name the same rows and columns, perhaps in another order. -/
def sameCleaner {R C : Type} (s t : CleanerState R C) : Prop :=
  t.cleanNaFirst = s.cleanNaFirst ∧
  Option.Rel (fun f g => f.nonNumeric.Perm g.nonNumeric ∧ f.discrete.Perm g.discrete ∧ f.badScale.Perm g.badScale) s.fitted t.fitted ∧
  Option.Rel List.Perm s.colsRownumbers t.colsRownumbers ∧ Option.Rel List.Perm s.colsMissings t.colsMissings ∧
  Option.Rel List.Perm s.rowsMissings t.rowsMissings

/-- The column consists of the numbers 0, 1, 2, ... from the first row to the last. -/
def countsRows {R C K : Type} [Field K] (X : Frame R C K) (c : C) : Prop :=
  ∀ i (h : i < X.rows.length), X.cell (X.rows[i]) c = .num (i : K)

end Spec

namespace Robpy

theorem agree_bind {α β γ δ : Type} {P : α → β → Prop} {S : γ → δ → Prop} {x : Except PyErr α} {y : Except PyErr β}
    {f : α → Except PyErr γ} {g : β → Except PyErr δ} (h : Spec.agree P x y) (hfg : ∀ a b, P a b → Spec.agree S (f a) (g b)) :
    Spec.agree S (x.bind f) (y.bind g) := by
  rcases x with e | a <;> rcases y with e' | b
  · exact h
  · exact h.elim
  · exact h.elim
  · exact hfg a b h

theorem agree_map {α β γ δ : Type} {P : α → β → Prop} {S : γ → δ → Prop} {x : Except PyErr α} {y : Except PyErr β}
    {f : α → γ} {g : β → δ} (h : Spec.agree P x y) (hfg : ∀ a b, P a b → S (f a) (g b)) :
    Spec.agree S (x.map f) (y.map g) := by
  rcases x with e | a <;> rcases y with e' | b
  · exact h
  · exact h.elim
  · exact h.elim
  · exact hfg a b h

section
variable {R C K : Type} [DecidableEq R] [DecidableEq C] [Field K] [LinearOrder K]

theorem filter_perm_congr {α : Type} {l m : List α} (h : l.Perm m) {f g : α → Bool} (hfg : ∀ a ∈ l, f a = g a) :
    (l.filter f).Perm (m.filter g) := by
  rw [List.filter_congr hfg]
  exact h.filter g

theorem dropCols_agree {X Y : Frame R C K} (h : Spec.sameTable X Y) {cs ds : List C} (hc : cs.Perm ds) :
    Spec.agree Spec.sameTable (X.dropCols cs) (Y.dropCols ds) := by
  obtain ⟨h1, h2, h3⟩ := h
  unfold Frame.dropCols
  have hiff : (∀ c ∈ ds, c ∈ Y.cols) ↔ ∀ c ∈ cs, c ∈ X.cols :=
    ⟨fun h c hm => h2.mem_iff.2 (h c (hc.mem_iff.1 hm)), fun h c hm => h2.mem_iff.1 (h c (hc.mem_iff.2 hm))⟩
  by_cases h0 : ∀ c ∈ cs, c ∈ X.cols
  · rw [if_pos h0, if_pos (hiff.2 h0)]
    exact ⟨h1, filter_perm_congr h2 fun c _ => by simp only [hc.mem_iff], h3⟩
  · rw [if_neg h0, if_neg fun h => h0 (hiff.1 h)]
    rfl

theorem dropRows_agree {X Y : Frame R C K} (h : Spec.sameTable X Y) {rs ss : List R} (hr : rs.Perm ss) :
    Spec.agree Spec.sameTable (X.dropRows rs) (Y.dropRows ss) := by
  obtain ⟨h1, h2, h3⟩ := h
  unfold Frame.dropRows
  have hiff : (∀ c ∈ ss, c ∈ Y.rows) ↔ ∀ c ∈ rs, c ∈ X.rows :=
    ⟨fun h c hm => h1.mem_iff.2 (h c (hr.mem_iff.1 hm)), fun h c hm => h1.mem_iff.1 (h c (hr.mem_iff.2 hm))⟩
  by_cases h0 : ∀ c ∈ rs, c ∈ X.rows
  · rw [if_pos h0, if_pos (hiff.2 h0)]
    exact ⟨filter_perm_congr h1 fun c _ => by simp only [hr.mem_iff], h2, h3⟩
  · rw [if_neg h0, if_neg fun h => h0 (hiff.1 h)]
    rfl

theorem column_same {X Y : Frame R C K} (h : Spec.sameTable X Y) (c : C) : (X.column c).Perm (Y.column c) := by
  obtain ⟨h1, -, h3⟩ := h
  unfold Frame.column
  rw [h3]
  exact h1.map _

theorem nonNumericCols_same {X Y : Frame R C K} (h : Spec.sameTable X Y) : (nonNumericCols X).Perm (nonNumericCols Y) := by
  unfold nonNumericCols
  exact filter_perm_congr h.2.1 fun c _ => (column_same h c).any_eq

theorem discreteCols_same (cfg : CleanerConfig K) {X Y : Frame R C K} (h : Spec.sameTable X Y) :
    (discreteCols cfg X).Perm (discreteCols cfg Y) := by
  unfold discreteCols
  refine filter_perm_congr h.2.1 fun c _ => ?_
  unfold nunique
  rw [((column_same h c).filter _).dedup.length_eq]

theorem badScaleCols_same (cfg : CleanerConfig K) {X Y : Frame R C K} (h : Spec.sameTable X Y) :
    (badScaleCols cfg X).Perm (badScaleCols cfg Y) := by
  unfold badScaleCols
  have h2 := (nonNumericCols_same h).append (discreteCols_same cfg h)
  refine filter_perm_congr (filter_perm_congr h.2.1 fun c _ => by simp only [h2.mem_iff]) fun c _ => ?_
  have hp : (finiteValues (X.column c)).Perm (finiteValues (Y.column c)) := (column_same h c).filterMap _
  rw [madRaw_perm hp]

/-- `fit` names the same columns for every order of the rows and columns. -/
theorem cleanerFit_same (cfg : CleanerConfig K) {s t : CleanerState R C} (hst : Spec.sameCleaner s t) {X Y : Frame R C K}
    (h : Spec.sameTable X Y) : Spec.sameCleaner (cleanerFit cfg s X) (cleanerFit cfg t Y) :=
  ⟨hst.1, .some ⟨nonNumericCols_same h, discreteCols_same cfg h, badScaleCols_same cfg h⟩, hst.2.2⟩

theorem missingColsOf_same (cfg : CleanerConfig K) {X Y : Frame R C K} (h : Spec.sameTable X Y) :
    (missingColsOf cfg X).Perm (missingColsOf cfg Y) := by
  unfold missingColsOf
  refine filter_perm_congr h.2.1 fun c _ => ?_
  unfold Frame.missInCol
  rw [h.2.2, h.1.countP_eq, h.1.length_eq]

theorem missingRowsOf_same (cfg : CleanerConfig K) {X Y : Frame R C K} (h : Spec.sameTable X Y) :
    (missingRowsOf cfg X).Perm (missingRowsOf cfg Y) := by
  unfold missingRowsOf
  refine filter_perm_congr h.1 fun r _ => ?_
  unfold Frame.missInRow
  rw [h.2.2, h.2.1.countP_eq, h.2.1.length_eq]

theorem setMissingCols_same (cfg : CleanerConfig K) {s t : CleanerState R C} (hst : Spec.sameCleaner s t) {X Y : Frame R C K}
    (h : Spec.sameTable X Y) : Spec.agree Spec.sameCleaner (setMissingCols cfg s X) (setMissingCols cfg t Y) := by
  obtain ⟨h1, h2, h3, h4, h5⟩ := hst
  obtain ⟨na, f, cr, cm, rm⟩ := s
  obtain ⟨na', f', cr', cm', rm'⟩ := t
  unfold setMissingCols
  simp only at h1 h2 h3 h4 h5 ⊢
  cases h5 with
  | none => exact ⟨h1, h2, h3, .some (missingColsOf_same cfg h), .none⟩
  | some hr => exact agree_map (dropRows_agree h hr) fun a b hab => ⟨h1, h2, h3, .some (missingColsOf_same cfg hab), .some hr⟩

theorem setMissingRows_same (cfg : CleanerConfig K) {s t : CleanerState R C} (hst : Spec.sameCleaner s t) {X Y : Frame R C K}
    (h : Spec.sameTable X Y) : Spec.agree Spec.sameCleaner (setMissingRows cfg s X) (setMissingRows cfg t Y) := by
  obtain ⟨h1, h2, h3, h4, h5⟩ := hst
  obtain ⟨na, f, cr, cm, rm⟩ := s
  obtain ⟨na', f', cr', cm', rm'⟩ := t
  unfold setMissingRows
  simp only at h1 h2 h3 h4 h5 ⊢
  cases h4 with
  | none => exact ⟨h1, h2, h3, .none, .some (missingRowsOf_same cfg h)⟩
  | some hr => exact agree_map (dropCols_agree h hr) fun a b hab => ⟨h1, h2, h3, .some hr, .some (missingRowsOf_same cfg hab)⟩

theorem cleanNa_same (cfg : CleanerConfig K) {s t : CleanerState R C} (hst : Spec.sameCleaner s t) {X Y : Frame R C K}
    (h : Spec.sameTable X Y) : Spec.agree Spec.sameCleaner (cleanNa cfg s X) (cleanNa cfg t Y) := by
  unfold cleanNa
  rw [hst.1]
  rcases s.cleanNaFirst with _ | _ | _ | _
  · rfl
  · exact agree_bind (setMissingCols_same cfg hst h) fun a b hab => setMissingRows_same cfg hab h
  · exact agree_bind (setMissingRows_same cfg hst h) fun a b hab => setMissingCols_same cfg hab h
  · rfl

theorem replaceInf_same {X Y : Frame R C K} (h : Spec.sameTable X Y) : Spec.sameTable X.replaceInf Y.replaceInf :=
  ⟨h.1, h.2.1, by unfold Frame.replaceInf; rw [h.2.2]⟩

theorem mem_rowNumberCols_iff (X : Frame R C K) (c : C) : c ∈ rowNumberCols X.replaceInf ↔ c ∈ X.cols ∧ Spec.countsRows X c := by
  unfold rowNumberCols Spec.countsRows
  rw [List.mem_filter]
  refine and_congr Iff.rfl ?_
  rw [List.all_eq_true]
  have hinf : ∀ (v : Cell K) (i : K), v.replaceInf = .num i ↔ v = .num i := by
    intro v i
    rcases v with _ | _ | _ | _ <;> simp [Cell.replaceInf]
  constructor
  · intro h i hi
    have hm : (X.rows[i], i) ∈ X.replaceInf.rows.zipIdx := by
      rw [List.mem_zipIdx_iff_getElem?]
      exact List.getElem?_eq_getElem hi
    have := h _ hm
    simp only [decide_eq_true_eq] at this
    exact (hinf _ _).1 this
  · rintro h ⟨r, i⟩ hm
    rw [List.mem_zipIdx_iff_getElem?] at hm
    obtain ⟨hi, he⟩ := List.getElem?_eq_some_iff.1 hm
    simp only [decide_eq_true_eq] at he ⊢
    refine (hinf _ _).2 ?_
    exact (congrArg (fun r => X.cell r c) he).symm.trans (h i hi)

theorem rowNumberCols_same {X Y : Frame R C K} (h : Spec.sameTable X Y)
    (hn : Y.rows = X.rows ∨ ∀ c ∈ X.cols, ¬ Spec.countsRows X c ∧ ¬ Spec.countsRows Y c) :
    (rowNumberCols X.replaceInf).Perm (rowNumberCols Y.replaceInf) := by
  rcases hn with hr | hn
  · unfold rowNumberCols
    refine filter_perm_congr h.2.1 fun c _ => ?_
    unfold Frame.replaceInf
    rw [h.2.2, hr]
  · have h1 : rowNumberCols X.replaceInf = [] :=
      List.eq_nil_iff_forall_not_mem.2 fun c hc => (hn c ((mem_rowNumberCols_iff X c).1 hc).1).1 ((mem_rowNumberCols_iff X c).1 hc).2
    have h2 : rowNumberCols Y.replaceInf = [] :=
      List.eq_nil_iff_forall_not_mem.2 fun c hc =>
        (hn c (h.2.1.mem_iff.2 ((mem_rowNumberCols_iff Y c).1 hc).1)).2 ((mem_rowNumberCols_iff Y c).1 hc).2
    rw [h1, h2]

theorem perm_getD {α : Type} {a b : Option (List α)} (h : Option.Rel List.Perm a b) : (a.getD []).Perm (b.getD []) := by
  cases h with
  | some h => exact h
  | none => exact List.Perm.refl _

/-- **C202** (partial): for every order of the columns, and for every order of the rows if no column counts the rows, `fit` followed
by `transform` keeps the same rows and columns with the same cells and reports the same dropped labels, or raises the same error.
Missing: columns that count the rows in one order and not in the other. -/
theorem C202_order_partial (cfg : CleanerConfig K) {s t : CleanerState R C} (hst : Spec.sameCleaner s t) {A B X Y : Frame R C K}
    (hA : Spec.sameTable A B) (h : Spec.sameTable X Y)
    (hn : Y.rows = X.rows ∨ ∀ c ∈ X.cols, ¬ Spec.countsRows X c ∧ ¬ Spec.countsRows Y c) :
    Spec.agree (fun r q => Spec.sameCleaner r.1 q.1 ∧ Spec.sameTable r.2 q.2) (cleanerTransform cfg (cleanerFit cfg s A) X)
      (cleanerTransform cfg (cleanerFit cfg t B) Y) := by
  have hf := cleanerFit_same cfg hst hA
  generalize cleanerFit cfg s A = s at hf ⊢
  generalize cleanerFit cfg t B = t at hf ⊢
  have hX := replaceInf_same h
  have hrn := rowNumberCols_same h hn
  obtain ⟨h1, h2, h3, h4, h5⟩ := hf
  obtain ⟨na, f, cr, cm, rm⟩ := s
  obtain ⟨na', f', cr', cm', rm'⟩ := t
  simp only at h1 h2 h3 h4 h5
  subst h1
  unfold cleanerTransform
  rw [← h.1.length_eq]
  by_cases hlen : X.rows.length < cfg.minNRows
  · rw [if_pos hlen, if_pos hlen]; rfl
  rw [if_neg hlen, if_neg hlen]
  simp only
  rw [← hX.1.length_eq, ← hX.2.1.length_eq]
  generalize X.replaceInf = X' at hX hrn ⊢
  generalize Y.replaceInf = Y' at hX hrn ⊢
  cases h2 with
  | none => rfl
  | @some f g hfg =>
    obtain ⟨f1, f2, f3⟩ := hfg
    have hL := (f1.append f2).append f3
    simp only
    refine agree_bind (dropCols_agree hX hL) fun X2 Y2 h2 => ?_
    have hs : Spec.sameCleaner
        (⟨resolveNaFirst na' X'.rows.length X'.cols.length, some f, some (rowNumberCols X'), cm, rm⟩ : CleanerState R C)
        ⟨resolveNaFirst na' X'.rows.length X'.cols.length, some g, some (rowNumberCols Y'), cm', rm'⟩ :=
      ⟨rfl, .some ⟨f1, f2, f3⟩, .some hrn, h4, h5⟩
    refine agree_bind (cleanNa_same cfg hs h2) fun u v huv => ?_
    have hcm : (u.colsMissings.getD []).Perm (v.colsMissings.getD []) := perm_getD huv.2.2.2.1
    have hrm : (u.rowsMissings.getD []).Perm (v.rowsMissings.getD []) := perm_getD huv.2.2.2.2
    refine agree_bind (dropCols_agree hX ((hL.append hrn).append hcm)) fun X3 Y3 h3 => ?_
    exact agree_bind (dropRows_agree h3 hrm) fun X4 Y4 h4 => ⟨huv, h4⟩

end

/-- **C202** (full statement): the order of the rows and columns does not matter to `DataCleaner`. -/
def C202_statement : Prop :=
  ∀ (cfg : CleanerConfig ℚ) (na : NaFirst) (A B X Y : Frame ℕ ℕ ℚ), Spec.sameTable A B → Spec.sameTable X Y →
    Spec.agree (fun r q => Spec.sameTable r.2 q.2) (cleanerTransform cfg (cleanerFit cfg (CleanerState.new na) A) X)
      (cleanerTransform cfg (cleanerFit cfg (CleanerState.new na) B) Y)

/-- Column 0 counts the rows, column 1 does not; the rows in the given order. -/
def c202Frame (rows : List ℕ) : Frame ℕ ℕ ℚ := ⟨rows, [0, 1], fun r c => if c = 0 then .num r else .num (r * r + 1)⟩

theorem c202_results :
    (cleanerTransform cfgA (cleanerFit cfgA (CleanerState.new .rows) (c202Frame [0, 1, 2])) (c202Frame [0, 1, 2])).map (fun r => r.2.cols) =
      .ok [1] ∧
    (cleanerTransform cfgA (cleanerFit cfgA (CleanerState.new .rows) (c202Frame [2, 0, 1])) (c202Frame [2, 0, 1])).map (fun r => r.2.cols) =
      .ok [0, 1] := by
  constructor <;> decide +kernel

/-- The column that counts the rows is removed in this order of the rows and kept when the rows are sorted in another way. -/
theorem C202_violated : ¬ C202_statement := by
  intro h
  have hs : Spec.sameTable (c202Frame [0, 1, 2]) (c202Frame [2, 0, 1]) := ⟨by simp only [c202Frame]; decide, List.Perm.refl _, rfl⟩
  have h1 := h cfgA .rows _ _ _ _ hs hs
  obtain ⟨r1, r2⟩ := c202_results
  generalize cleanerTransform cfgA (cleanerFit cfgA (CleanerState.new .rows) (c202Frame [0, 1, 2])) (c202Frame [0, 1, 2]) = x at h1 r1
  generalize cleanerTransform cfgA (cleanerFit cfgA (CleanerState.new .rows) (c202Frame [2, 0, 1])) (c202Frame [2, 0, 1]) = y at h1 r2
  rcases x with e | a
  · cases r1
  rcases y with e | b
  · cases r2
  have e1 : a.2.cols = [1] := Except.ok.inj r1
  have e2 : b.2.cols = [0, 1] := Except.ok.inj r2
  have := h1.2.1.length_eq
  rw [e1, e2] at this
  cases this

/-- The same table as `frameA`, rows and columns in reverse order. -/
def c202Reversed : Frame ℕ ℕ ℚ := ⟨frameA.rows.reverse, frameA.cols.reverse, frameA.cell⟩

/-- C202 for `frameA`: no column counts the rows, in neither order. -/
example : Spec.agree (fun r q => Spec.sameCleaner r.1 q.1 ∧ Spec.sameTable r.2 q.2)
    (cleanerTransform cfgA (cleanerFit cfgA (CleanerState.new .automatic) frameA) frameA)
    (cleanerTransform cfgA (cleanerFit cfgA (CleanerState.new .automatic) c202Reversed) c202Reversed) := by
  have hs : Spec.sameTable frameA c202Reversed := ⟨(List.reverse_perm _).symm, (List.reverse_perm _).symm, rfl⟩
  refine C202_order_partial cfgA ⟨rfl, .none, .none, .none, .none⟩ hs hs (.inr fun c hc => ?_)
  have hc' : c = 0 ∨ c = 1 ∨ c = 2 ∨ c = 3 ∨ c = 4 := by simpa [frameA] using hc
  constructor <;> intro h
  · have h0 := h 0 (by decide)
    have h3 := h 3 (by decide)
    revert h0 h3
    rcases hc' with rfl | rfl | rfl | rfl | rfl <;> decide +kernel
  · have h0 := h 0 (by decide)
    have h3 := h 3 (by decide)
    revert h0 h3
    rcases hc' with rfl | rfl | rfl | rfl | rfl <;> decide +kernel

end Robpy
