import Verif.Model.DataCleaner
import Mathlib.Algebra.Order.Ring.Rat
import Mathlib.Algebra.Field.Rat
import Mathlib.Tactic.NormNum
import Mathlib.Tactic.Tauto

/-! # Properties C28, C29, C30: DataCleaner -/

namespace Spec

open Robpy

/-- Fraction of missing cells among the given cells. -/
def missingFraction {K : Type} [Field K] [LinearOrder K] (cells : List (Cell K)) : K :=
  (cells.countP fun v => v = .missing : ℕ) / (cells.length : K)

end Spec

namespace Robpy

section
variable {R C K : Type} [DecidableEq R] [DecidableEq C] [Field K] [LinearOrder K]

omit [DecidableEq R] [Field K] [LinearOrder K] in
theorem dropCols_ok {X Y : Frame R C K} {cs : List C} (h : X.dropCols cs = .ok Y) :
    (∀ c ∈ cs, c ∈ X.cols) ∧ Y = { X with cols := X.cols.filter fun c => c ∉ cs } := by
  unfold Frame.dropCols at h
  split_ifs at h with h1
  exact ⟨h1, (Except.ok.inj h).symm⟩

omit [DecidableEq C] [Field K] [LinearOrder K] in
theorem dropRows_ok {X Y : Frame R C K} {rs : List R} (h : X.dropRows rs = .ok Y) :
    (∀ r ∈ rs, r ∈ X.rows) ∧ Y = { X with rows := X.rows.filter fun r => r ∉ rs } := by
  unfold Frame.dropRows at h
  split_ifs at h with h1
  exact ⟨h1, (Except.ok.inj h).symm⟩

theorem setMissingCols_ok {cfg : CleanerConfig K} {st st' : CleanerState R C} {X : Frame R C K}
    (h : setMissingCols cfg st X = .ok st') :
    st' = { st with colsMissings := st'.colsMissings } ∧ ∃ X',
      X' = { X with rows := X.rows.filter fun r => r ∉ st.rowsMissings.getD [] } ∧
      st'.colsMissings = some (missingColsOf cfg X') := by
  unfold setMissingCols at h
  rcases hr : st.rowsMissings with _ | rs
  · rw [hr] at h
    have := Except.ok.inj h
    subst this
    refine ⟨by simp [hr], X, by simp, rfl⟩
  · rw [hr] at h
    simp only at h
    rcases hd : X.dropRows rs with e | X'
    · rw [hd] at h; simp [Except.map] at h
    · rw [hd] at h
      have := Except.ok.inj h
      subst this
      exact ⟨by simp [hr], X', (dropRows_ok hd).2, rfl⟩

theorem setMissingRows_ok {cfg : CleanerConfig K} {st st' : CleanerState R C} {X : Frame R C K}
    (h : setMissingRows cfg st X = .ok st') :
    st' = { st with rowsMissings := st'.rowsMissings } ∧ ∃ X',
      X' = { X with cols := X.cols.filter fun c => c ∉ st.colsMissings.getD [] } ∧
      st'.rowsMissings = some (missingRowsOf cfg X') := by
  unfold setMissingRows at h
  rcases hr : st.colsMissings with _ | rs
  · rw [hr] at h
    have := Except.ok.inj h
    subst this
    refine ⟨by simp [hr], X, by simp, rfl⟩
  · rw [hr] at h
    simp only at h
    rcases hd : X.dropCols rs with e | X'
    · rw [hd] at h; simp [Except.map] at h
    · rw [hd] at h
      have := Except.ok.inj h
      subst this
      exact ⟨by simp [hr], X', (dropCols_ok hd).2, rfl⟩

/-- What the missing-value passes set, in both orders. -/
theorem cleanNa_ok {cfg : CleanerConfig K} {st st' : CleanerState R C} {X : Frame R C K}
    (h : cleanNa cfg st X = .ok st') :
    st'.fitted = st.fitted ∧ st'.colsRownumbers = st.colsRownumbers ∧
    ∃ cm rm, st'.colsMissings = some cm ∧ st'.rowsMissings = some rm ∧
      ((st.cleanNaFirst = .rows ∧
        rm = missingRowsOf cfg { X with cols := X.cols.filter fun c => c ∉ st.colsMissings.getD [] } ∧
        cm = missingColsOf cfg { X with rows := X.rows.filter fun r => r ∉ rm }) ∨
       (st.cleanNaFirst = .columns ∧
        cm = missingColsOf cfg { X with rows := X.rows.filter fun r => r ∉ st.rowsMissings.getD [] } ∧
        rm = missingRowsOf cfg { X with cols := X.cols.filter fun c => c ∉ cm })) := by
  unfold cleanNa at h
  rcases hn : st.cleanNaFirst with _ | _ | _ | _
  · rw [hn] at h; simp at h
  · rw [hn] at h
    simp only at h
    rcases h1 : setMissingCols cfg st X with e | st1
    · rw [h1] at h; simp [Except.bind] at h
    · rw [h1] at h
      replace h : setMissingRows cfg st1 X = .ok st' := h
      obtain ⟨a1, X1, a2, a3⟩ := setMissingCols_ok h1
      obtain ⟨b1, X2, b2, b3⟩ := setMissingRows_ok h
      refine ⟨by rw [b1, a1], by rw [b1, a1], _, _, by rw [b1]; exact a3, b3, Or.inr ⟨rfl, ?_, ?_⟩⟩
      · rw [a2]
      · rw [b2, a3]; rfl
  · rw [hn] at h
    simp only at h
    rcases h1 : setMissingRows cfg st X with e | st1
    · rw [h1] at h; simp [Except.bind] at h
    · rw [h1] at h
      replace h : setMissingCols cfg st1 X = .ok st' := h
      obtain ⟨a1, X1, a2, a3⟩ := setMissingRows_ok h1
      obtain ⟨b1, X2, b2, b3⟩ := setMissingCols_ok h
      refine ⟨by rw [b1, a1], by rw [b1, a1], _, _, b3, by rw [b1]; exact a3, Or.inl ⟨rfl, ?_, ?_⟩⟩
      · rw [a2]
      · rw [b2, a3]; rfl
  · rw [hn] at h; simp at h

/-- Everything a successful `transform` computes. -/
theorem transform_ok {cfg : CleanerConfig K} {st st' : CleanerState R C} {X Y : Frame R C K}
    (h : cleanerTransform cfg st X = .ok (st', Y)) :
    ∃ f cm rm, st.fitted = some f ∧ st'.fitted = some f ∧
      st'.colsRownumbers = some (rowNumberCols X.replaceInf) ∧
      st'.colsMissings = some cm ∧ st'.rowsMissings = some rm ∧
      Y.rows = X.rows.filter (fun r => r ∉ rm) ∧
      Y.cols = X.cols.filter (fun c => c ∉ f.nonNumeric ++ f.discrete ++ f.badScale ++
        rowNumberCols X.replaceInf ++ cm) ∧
      Y.cell = X.replaceInf.cell ∧
      (∀ c ∈ f.nonNumeric ++ f.discrete ++ f.badScale ++ rowNumberCols X.replaceInf ++ cm, c ∈ X.cols) ∧
      (∀ r ∈ rm, r ∈ X.rows) ∧
      ∃ X2 : Frame R C K, X2.rows = X.rows ∧
        X2.cols = X.cols.filter (fun c => c ∉ f.nonNumeric ++ f.discrete ++ f.badScale) ∧
        X2.cell = X.replaceInf.cell ∧
        ((resolveNaFirst st.cleanNaFirst X.rows.length X.cols.length = .rows ∧
          rm = missingRowsOf cfg { X2 with cols := X2.cols.filter fun c => c ∉ st.colsMissings.getD [] } ∧
          cm = missingColsOf cfg { X2 with rows := X2.rows.filter fun r => r ∉ rm }) ∨
        (resolveNaFirst st.cleanNaFirst X.rows.length X.cols.length = .columns ∧
          cm = missingColsOf cfg { X2 with rows := X2.rows.filter fun r => r ∉ st.rowsMissings.getD [] } ∧
          rm = missingRowsOf cfg { X2 with cols := X2.cols.filter fun c => c ∉ cm })) := by
  unfold cleanerTransform at h
  split_ifs at h with h0
  simp only at h
  rcases hf : st.fitted with _ | f
  · rw [hf] at h; simp at h
  · rw [hf] at h
    simp only at h
    rcases h1 : X.replaceInf.dropCols (f.nonNumeric ++ f.discrete ++ f.badScale) with e | X2
    · rw [h1] at h; simp [Except.bind] at h
    · rw [h1] at h
      simp only [Except.bind] at h
      obtain ⟨-, hX2⟩ := dropCols_ok h1
      generalize hst1 : ({ st with colsRownumbers := some (rowNumberCols X.replaceInf), cleanNaFirst := resolveNaFirst st.cleanNaFirst X.replaceInf.rows.length X.replaceInf.cols.length, fitted := some f } : CleanerState R C) = st1 at h
      rcases h2 : cleanNa cfg st1 X2 with e | st2
      · rw [h2] at h; simp at h
      · rw [h2] at h
        simp only at h
        obtain ⟨c1, c2, cm, rm, c3, c4, c5⟩ := cleanNa_ok h2
        rw [c3, c4] at h
        simp only [Option.getD_some] at h
        rcases h3 : X.replaceInf.dropCols (f.nonNumeric ++ f.discrete ++ f.badScale ++
            rowNumberCols X.replaceInf ++ cm) with e | Y1
        · rw [h3] at h; simp at h
        · rw [h3] at h
          simp only at h
          rcases h4 : Y1.dropRows rm with e | Y2
          · rw [h4] at h; simp at h
          · rw [h4] at h
            simp only [Except.ok.injEq, Prod.mk.injEq] at h
            obtain ⟨rfl, rfl⟩ := h
            obtain ⟨d1, d2⟩ := dropCols_ok h3
            obtain ⟨e1, e2⟩ := dropRows_ok h4
            subst hst1
            refine ⟨f, cm, rm, rfl, c1, c2, c3, c4, ?_, ?_, ?_, d1, ?_, X2, ?_, ?_, ?_, ?_⟩
            · rw [e2, d2]; rfl
            · rw [e2, d2]; rfl
            · rw [e2, d2]
            · intro r hr; have := e1 r hr; rw [d2] at this; exact this
            · rw [hX2]; rfl
            · rw [hX2]; rfl
            · rw [hX2]
            · exact c5

/-! ## C28 -/

/-- **C28**: whatever happened before, a successful `transform` returns the input cells (infinities
replaced by missing) at retained labels in the original order; a column is absent from the output iff
it is reported in `dropped_columns`, a row iff it is reported in `dropped_rows`, and only labels of the
input are reported. -/
theorem C28_only_removes (cfg : CleanerConfig K) (st st' : CleanerState R C) (X Y : Frame R C K)
    (h : cleanerTransform cfg st X = .ok (st', Y)) :
    List.Sublist Y.rows X.rows ∧ List.Sublist Y.cols X.cols ∧
    (∀ r c, Y.cell r c = match X.cell r c with | .inf _ => .missing | v => v) ∧
    ∃ dc dr, droppedColumns st' = .ok dc ∧ droppedRows st' = .ok dr ∧
      (∀ c, c ∈ Y.cols ↔ c ∈ X.cols ∧ c ∉ dc) ∧ (∀ r, r ∈ Y.rows ↔ r ∈ X.rows ∧ r ∉ dr) ∧
      (∀ c ∈ dc, c ∈ X.cols) ∧ (∀ r ∈ dr, r ∈ X.rows) := by
  obtain ⟨f, cm, rm, h1, h2, h3, h4, h5, h6, h7, h8, h9, h10, -⟩ := transform_ok h
  refine ⟨by rw [h6]; exact List.filter_sublist, by rw [h7]; exact List.filter_sublist, ?_,
    f.nonNumeric ++ rowNumberCols X.replaceInf ++ f.discrete ++ f.badScale ++ cm, rm,
    by unfold droppedColumns; rw [h2, h3, h4], by unfold droppedRows; rw [h5], ?_, ?_, ?_, h10⟩
  · intro r c
    rw [h8]
    unfold Frame.replaceInf Cell.replaceInf
    rfl
  · intro c
    rw [h7, List.mem_filter]
    simp only [List.mem_append, decide_eq_true_eq]
    tauto
  · intro r
    rw [h6, List.mem_filter]
    simp
  · intro c hc
    apply h9
    simp only [List.mem_append] at hc ⊢
    tauto

omit [DecidableEq R] in
theorem fitted_subset (cfg : CleanerConfig K) (X : Frame R C K) :
    ∀ c ∈ nonNumericCols X ++ discreteCols cfg X ++ badScaleCols cfg X, c ∈ X.cols := by
  intro c hc
  simp only [List.mem_append, nonNumericCols, discreteCols, badScaleCols, List.mem_filter] at hc
  rcases hc with (h | h) | h
  · exact h.1
  · exact h.1
  · exact h.1.1

/-- **C28**, no spurious failure: on a fresh cleaner fitted on a frame with these columns, `transform`
of a frame with enough rows succeeds for every supported `clean_na_first`. -/
theorem C28_fresh_succeeds (cfg : CleanerConfig K) (na : NaFirst) (hna : na ≠ .other)
    (A X : Frame R C K) (hcols : A.cols ⊆ X.cols) (hn : cfg.minNRows ≤ X.rows.length) :
    ∃ st' Y, cleanerTransform cfg (cleanerFit cfg (CleanerState.new na) A) X = .ok (st', Y) := by
  have hsub := fitted_subset cfg A
  unfold cleanerTransform
  rw [if_neg (not_lt.2 hn)]
  simp only [cleanerFit, CleanerState.new]
  set L := nonNumericCols A ++ discreteCols cfg A ++ badScaleCols cfg A with hL
  have h1 : X.replaceInf.dropCols L =
      .ok { X.replaceInf with cols := X.cols.filter fun c => c ∉ L } := by
    unfold Frame.dropCols
    rw [if_pos (show ∀ c ∈ L, c ∈ X.replaceInf.cols from fun c hc => hcols (hsub c hc))]; rfl
  have hdc : ∀ (F : Frame R C K), F.dropCols (missingColsOf cfg F) =
      .ok { F with cols := F.cols.filter fun c => c ∉ missingColsOf cfg F } := by
    intro F
    unfold Frame.dropCols
    rw [if_pos (show ∀ c ∈ missingColsOf cfg F, c ∈ F.cols from fun c hc => (List.mem_filter.1 hc).1)]
  have hdr : ∀ (F : Frame R C K), F.dropRows (missingRowsOf cfg F) =
      .ok { F with rows := F.rows.filter fun c => c ∉ missingRowsOf cfg F } := by
    intro F
    unfold Frame.dropRows
    rw [if_pos (show ∀ c ∈ missingRowsOf cfg F, c ∈ F.rows from fun c hc => (List.mem_filter.1 hc).1)]
  have fin : ∀ (cm : List C) (rm : List R) (s : CleanerState R C), (∀ c ∈ cm, c ∈ X.cols) → (∀ r ∈ rm, r ∈ X.rows) →
      s.colsMissings = some cm → s.rowsMissings = some rm →
      ∃ st' Y, ((X.replaceInf.dropCols (L ++ rowNumberCols X.replaceInf ++ s.colsMissings.getD [])).bind fun Y =>
        (Y.dropRows (s.rowsMissings.getD [])).bind fun Y => .ok (s, Y)) = Except.ok (st', Y) := by
    intro cm rm s hcm hrm e1 e2
    rw [e1, e2]
    simp only [Option.getD_some]
    have : X.replaceInf.dropCols (L ++ rowNumberCols X.replaceInf ++ cm) =
        .ok { X.replaceInf with cols := X.cols.filter fun c => c ∉ (L ++ rowNumberCols X.replaceInf ++ cm) } := by
      unfold Frame.dropCols
      rw [if_pos]; · rfl
      intro c hc
      simp only [List.mem_append] at hc
      rcases hc with (hc | hc) | hc
      · exact hcols (hsub c hc)
      · exact (List.mem_filter.1 hc).1
      · exact hcm c hc
    rw [this]
    simp only [Except.bind, Frame.dropRows]
    rw [if_pos (show ∀ r ∈ rm, r ∈ X.replaceInf.rows from hrm)]
    exact ⟨_, _, rfl⟩
  have hres : resolveNaFirst na X.replaceInf.rows.length X.replaceInf.cols.length = .columns ∨
      resolveNaFirst na X.replaceInf.rows.length X.replaceInf.cols.length = .rows := by
    unfold resolveNaFirst
    rcases na with _ | _ | _ | _
    · simp only [if_true]; split_ifs <;> simp
    · simp
    · simp
    · exact absurd rfl hna
  set X2 : Frame R C K := { X.replaceInf with cols := X.cols.filter fun c => c ∉ L } with hX2
  have hclean : ∀ s0 : CleanerState R C, s0.rowsMissings = none → s0.colsMissings = none →
      (s0.cleanNaFirst = .columns ∨ s0.cleanNaFirst = .rows) →
      ∃ s cm rm, cleanNa cfg s0 X2 = .ok s ∧ s.colsMissings = some cm ∧ s.rowsMissings = some rm ∧
        (∀ c ∈ cm, c ∈ X.cols) ∧ (∀ r ∈ rm, r ∈ X.rows) := by
    intro s0 hr0 hc0 hs0
    rcases hs0 with h | h
    · refine ⟨_, _, _, by simp only [cleanNa, h, setMissingCols, hr0, Except.bind, setMissingRows, hdc X2, Except.map]; rfl,
        rfl, rfl, fun c hc => ?_, fun r hr => ?_⟩
      · exact (List.mem_filter.1 (List.mem_filter.1 hc).1).1
      · exact (List.mem_filter.1 hr).1
    · refine ⟨_, _, _, by simp only [cleanNa, h, setMissingRows, hc0, Except.bind, setMissingCols, hdr X2, Except.map]; rfl,
        rfl, rfl, fun c hc => ?_, fun r hr => ?_⟩
      · exact (List.mem_filter.1 (List.mem_filter.1 hc).1).1
      · exact (List.mem_filter.1 hr).1
  rw [h1]
  show ∃ st' Y, (cleanNa cfg _ X2).bind _ = _
  obtain ⟨s, cm, rm, c1, c2, c3, c4, c5⟩ := hclean
    { cleanNaFirst := resolveNaFirst na X.replaceInf.rows.length X.replaceInf.cols.length
      fitted := some ⟨nonNumericCols A, discreteCols cfg A, badScaleCols cfg A⟩
      colsRownumbers := some (rowNumberCols X.replaceInf), colsMissings := none, rowsMissings := none }
    rfl rfl hres
  rw [c1]
  exact fin cm rm s c4 c5 c2 c3

/-- **C28**, error branches: too few rows raise ValueError, an unfitted cleaner AttributeError, and
the reports raise NotFittedError before the first transform. -/
theorem C28_errors (cfg : CleanerConfig K) (st : CleanerState R C) (X : Frame R C K) :
    (X.rows.length < cfg.minNRows → cleanerTransform cfg st X = .error .valueError) ∧
    (cfg.minNRows ≤ X.rows.length → st.fitted = none → cleanerTransform cfg st X = .error .attributeError) ∧
    (∀ na (A : Frame R C K), droppedColumns (cleanerFit cfg (CleanerState.new na) A : CleanerState R C) = .error .notFittedError ∧
      droppedRows (cleanerFit cfg (CleanerState.new na) A : CleanerState R C) = .error .notFittedError) := by
  refine ⟨fun h => by simp [cleanerTransform, h], fun h hf => ?_, fun na A => ⟨rfl, rfl⟩⟩
  unfold cleanerTransform
  rw [if_neg (not_lt.2 h)]
  simp only [hf]

end

/-! ## Concrete frames -/

/-- Four rows, five columns; rows 0..3, column 0 misses row 0, columns 1,2,3 miss two rows each. -/
def frameA : Frame ℕ ℕ ℚ where
  rows := [0, 1, 2, 3]
  cols := [0, 1, 2, 3, 4]
  cell r c :=
    if (r, c) ∈ ([(0, 0), (1, 1), (1, 2), (2, 2), (2, 3), (3, 1), (3, 3)] : List (ℕ × ℕ)) then .missing
    else if (r, c) = (0, 4) then .inf true
    else .num (r * r + 7 * c + 1)

/-- The default configuration, except that columns with few distinct values are kept. -/
def cfgA : CleanerConfig ℚ := ⟨1/2, 1/2, 0, 1/1000000000000, 3⟩

example : ∃ st' Y, cleanerTransform cfgA (cleanerFit cfgA (CleanerState.new .automatic) frameA) frameA =
    .ok (st', Y) := C28_fresh_succeeds cfgA .automatic (by decide) frameA frameA (fun _ h => h) (by decide)

/-! ## C29 -/

/-- Full statement of C29. -/
def C29_statement : Prop :=
  ∀ (cfg : CleanerConfig ℚ) (na : NaFirst) (A X : Frame ℕ ℕ ℚ) (st' : CleanerState ℕ ℕ) (Y : Frame ℕ ℕ ℚ),
    cleanerTransform cfg (cleanerFit cfg (CleanerState.new na) A) X = .ok (st', Y) →
    Y.rows ≠ [] → Y.cols ≠ [] →
    (∀ c ∈ Y.cols, Spec.missingFraction (Y.rows.map fun r => Y.cell r c) < cfg.maxMissingFracCols) ∧
    (∀ r ∈ Y.rows, Spec.missingFraction (Y.cols.map fun c => Y.cell r c) < cfg.maxMissingFracRows)

/-- A frame as `frameA` without infinities. -/
def frameB : Frame ℕ ℕ ℚ where
  rows := [0, 1, 2, 3]
  cols := [0, 1, 2, 3, 4]
  cell r c :=
    if (r, c) ∈ ([(0, 0), (1, 1), (1, 2), (2, 2), (2, 3), (3, 1), (3, 3)] : List (ℕ × ℕ)) then .missing
    else .num (r * r + 7 * c + 1)

/-- **C29 is violated** for rows: with default thresholds, row 0 keeps half of its output cells
missing because other columns were removed after the row had been judged. -/
theorem C29_violated : ¬ C29_statement := by
  intro h
  obtain ⟨st', Y, hY⟩ := C28_fresh_succeeds cfgA .automatic (by decide) frameB frameB (fun _ h => h) (by decide)
  have h2 : (match cleanerTransform cfgA (cleanerFit cfgA (CleanerState.new .automatic) frameB) frameB with
      | .ok (_, Y) => decide (Y.rows = [0, 1, 2, 3] ∧ Y.cols = [0, 4] ∧ Y.cell 0 0 = .missing ∧ Y.cell 0 4 ≠ .missing)
      | .error _ => false) = true := by decide +kernel
  rw [hY] at h2
  simp only [decide_eq_true_eq] at h2
  obtain ⟨a, b, c, d⟩ := h2
  have := (h cfgA .automatic frameB frameB st' Y hY (by simp [a]) (by simp [b])).2 0 (by simp [a])
  rw [b] at this
  simp only [List.map_cons, List.map_nil, c, Spec.missingFraction, cfgA] at this
  rw [List.countP_cons_of_pos (by simp), List.countP_cons_of_neg (by simpa using d)] at this
  norm_num at this

section
variable {R C K : Type} [DecidableEq R] [DecidableEq C] [Field K] [LinearOrder K]

omit [DecidableEq R] [DecidableEq C] in
theorem missingFraction_col (X : Frame R C K) (c : C) :
    Spec.missingFraction (X.rows.map fun r => X.cell r c) = (X.missInCol c : K) / (X.rows.length : K) := by
  unfold Spec.missingFraction Frame.missInCol
  rw [List.countP_map, List.length_map]
  rfl

omit [DecidableEq R] [DecidableEq C] in
theorem missingFraction_row (X : Frame R C K) (r : R) :
    Spec.missingFraction (X.cols.map fun c => X.cell r c) = (X.missInRow r : K) / (X.cols.length : K) := by
  unfold Spec.missingFraction Frame.missInRow
  rw [List.countP_map, List.length_map]
  rfl

/-- **C29**, what does hold for rows-first cleaning: every retained column is below the column
threshold, measured on the output.  Missing: the row threshold (see `C29_violated`). -/
theorem C29_rows_first_partial (cfg : CleanerConfig K) (st st' : CleanerState R C) (X Y : Frame R C K)
    (h : cleanerTransform cfg st X = .ok (st', Y))
    (hna : resolveNaFirst st.cleanNaFirst X.rows.length X.cols.length = .rows) (hr : Y.rows ≠ []) :
    ∀ c ∈ Y.cols, Spec.missingFraction (Y.rows.map fun r => Y.cell r c) < cfg.maxMissingFracCols := by
  obtain ⟨f, cm, rm, h1, h2, h3, h4, h5, h6, h7, h8, h9, h10, X2, x1, x2, x3, hcase⟩ := transform_ok h
  rcases hcase with ⟨-, -, hcm⟩ | ⟨hc, -⟩
  · intro c hc
    rw [h7, List.mem_filter] at hc
    obtain ⟨hcX, hcn⟩ := hc
    simp only [List.mem_append, not_or, decide_eq_true_eq] at hcn
    obtain ⟨⟨⟨⟨n1, n2⟩, n3⟩, -⟩, n5⟩ := hcn
    rw [hcm, missingColsOf, List.mem_filter] at n5
    simp only [not_and, Bool.not_eq_true] at n5
    have := n5 (by rw [x2, List.mem_filter]; simp [hcX, n1, n2, n3])
    unfold fracGE at this
    have hrows : X2.rows.filter (fun r => r ∉ rm) = Y.rows := by rw [x1, h6]
    rw [missingFraction_col]
    simp only [hrows, decide_eq_false_iff_not, not_and] at this
    have h0 := this (by rw [ne_eq, List.length_eq_zero_iff]; exact hr)
    rw [not_le] at h0
    have e : Frame.missInCol { X2 with rows := X2.rows.filter fun r => r ∉ rm } c = Y.missInCol c := by
      unfold Frame.missInCol
      rw [h8]
      simp only [hrows, x3]
    simp only [hrows] at e
    rw [e] at h0
    exact h0
  · rw [hna] at hc; simp at hc

/-- **C29**, what does hold for columns-first cleaning: if no column holds the row numbers, every
retained row is below the row threshold, measured on the output.  Missing: the column threshold, and
rows when row-number columns are removed. -/
theorem C29_columns_first_partial (cfg : CleanerConfig K) (st st' : CleanerState R C) (X Y : Frame R C K)
    (h : cleanerTransform cfg st X = .ok (st', Y))
    (hna : resolveNaFirst st.cleanNaFirst X.rows.length X.cols.length = .columns)
    (hrn : rowNumberCols X.replaceInf = []) (hc : Y.cols ≠ []) :
    ∀ r ∈ Y.rows, Spec.missingFraction (Y.cols.map fun c => Y.cell r c) < cfg.maxMissingFracRows := by
  obtain ⟨f, cm, rm, h1, h2, h3, h4, h5, h6, h7, h8, h9, h10, X2, x1, x2, x3, hcase⟩ := transform_ok h
  rcases hcase with ⟨hc', -⟩ | ⟨-, -, hrm⟩
  · rw [hna] at hc'; simp at hc'
  · intro r hr
    rw [h6, List.mem_filter] at hr
    obtain ⟨hrX, hrn'⟩ := hr
    simp only [decide_eq_true_eq] at hrn'
    rw [hrm, missingRowsOf, List.mem_filter] at hrn'
    simp only [not_and, Bool.not_eq_true] at hrn'
    have := hrn' (by rw [x1]; exact hrX)
    unfold fracGE at this
    have hcols : X2.cols.filter (fun c => c ∉ cm) = Y.cols := by
      rw [x2, h7, hrn, List.filter_filter]
      apply List.filter_congr
      intro c _
      simp only [List.append_nil, List.mem_append, not_or, Bool.decide_and, decide_not]
      rcases decide (c ∈ cm) <;> simp
    rw [missingFraction_row]
    simp only [hcols, decide_eq_false_iff_not, not_and] at this
    have h0 := this (by rw [ne_eq, List.length_eq_zero_iff]; exact hc)
    rw [not_le] at h0
    have e : Frame.missInRow { X2 with cols := X2.cols.filter fun c => c ∉ cm } r = Y.missInRow r := by
      unfold Frame.missInRow
      rw [h8]
      simp only [hcols, x3]
    simp only [hcols] at e
    rw [e] at h0
    exact h0

end

example : resolveNaFirst .automatic frameA.rows.length frameA.cols.length = .rows ∧
    resolveNaFirst .columns frameA.rows.length frameA.cols.length = .columns ∧
    rowNumberCols frameA.replaceInf = [] := by decide +kernel

/-! ## C30 -/

/-- Full statement of C30: the output of `transform(B)` on a fitted cleaner is the same after
`transform(A)`. -/
def C30_statement : Prop :=
  ∀ (cfg : CleanerConfig ℚ) (na : NaFirst) (T A B : Frame ℕ ℕ ℚ) (st1 : CleanerState ℕ ℕ) (Y : Frame ℕ ℕ ℚ),
    cleanerTransform cfg (cleanerFit cfg (CleanerState.new na) T) A = .ok (st1, Y) →
    (cleanerTransform cfg st1 B).map (fun r => (r.2.rows, r.2.cols)) =
    (cleanerTransform cfg (cleanerFit cfg (CleanerState.new na) T) B).map (fun r => (r.2.rows, r.2.cols))

/-- Same columns as `frameB`, rows 10..13; row 10 misses columns 1, 2, 3. -/
def frameC : Frame ℕ ℕ ℚ where
  rows := [10, 11, 12, 13]
  cols := [0, 1, 2, 3, 4]
  cell r c := if r = 10 ∧ (c = 1 ∨ c = 2 ∨ c = 3) then .missing else .num (r * r + 7 * c + 1)

/-- A frame with one bad row, label 3. -/
def frameD : Frame ℕ ℕ ℚ where
  rows := [0, 1, 2, 3]
  cols := [0, 1, 2, 3, 4]
  cell r c := if r = 3 then .missing else .num (r * r + 7 * c + 1)

/-- **C30 is violated** with default settings: fitted and used on `frameB`, the cleaner keeps row 10 of
`frameC` (three of five cells missing), because the columns removed last time are ignored when rows
are judged; a fresh cleaner removes it.  With columns-first cleaning a second transform raises KeyError
when the new frame does not contain the row labels removed last time. -/
theorem C30_violated : ¬ C30_statement ∧
    (∃ st1 Y, cleanerTransform cfgA (cleanerFit cfgA (CleanerState.new .columns) frameB) frameD = .ok (st1, Y) ∧
      (cleanerTransform cfgA st1 frameC).map (fun r => r.2.rows) = .error .keyError) := by
  constructor
  · intro h
    obtain ⟨st1, Y, hY⟩ := C28_fresh_succeeds cfgA .automatic (by decide) frameB frameB (fun _ h => h) (by decide)
    have h1 := h cfgA .automatic frameB frameB frameC st1 Y hY
    have h2 : (match cleanerTransform cfgA (cleanerFit cfgA (CleanerState.new .automatic) frameB) frameB with
        | .ok (s, _) => match (cleanerTransform cfgA s frameC).map (fun r => (r.2.rows, r.2.cols)),
            (cleanerTransform cfgA (cleanerFit cfgA (CleanerState.new .automatic) frameB) frameC).map
              (fun r => (r.2.rows, r.2.cols)) with
          | .ok a, .ok b => decide (a = b)
          | _, _ => true
        | .error _ => true) = false := by decide +kernel
    rw [hY] at h2
    simp only at h2
    rw [h1] at h2
    obtain ⟨s, Z, hZ⟩ := C28_fresh_succeeds cfgA .automatic (by decide) frameB frameC (fun _ h => h) (by decide)
    rw [hZ] at h2
    simp [Except.map] at h2
  · obtain ⟨st1, Y, hY⟩ := C28_fresh_succeeds cfgA .columns (by decide) frameB frameD (fun _ h => h) (by decide)
    refine ⟨st1, Y, hY, ?_⟩
    have h2 : (match cleanerTransform cfgA (cleanerFit cfgA (CleanerState.new .columns) frameB) frameD with
        | .ok (s, _) => match cleanerTransform cfgA s frameC with
          | .ok _ => false
          | .error e => decide (e = .keyError)
        | .error _ => false) = true := by decide +kernel
    rw [hY] at h2
    simp only at h2
    rcases hc : cleanerTransform cfgA st1 frameC with e | r
    · rw [hc] at h2
      simp only [decide_eq_true_eq] at h2
      rw [h2]; rfl
    · rw [hc] at h2; simp at h2

section
variable {R C K : Type} [DecidableEq R] [DecidableEq C] [Field K] [LinearOrder K]

/-- **C30**, what does hold: with an explicit cleaning order, if the earlier transforms found nothing
to remove for missing values, the next transform returns what a fresh fitted cleaner returns.
Missing: histories in which something was removed, and `automatic`. -/
theorem C30_partial (cfg : CleanerConfig K) (na : NaFirst) (hna : na ≠ .automatic) (T A B : Frame R C K)
    (st1 : CleanerState R C) (Y : Frame R C K)
    (h : cleanerTransform cfg (cleanerFit cfg (CleanerState.new na) T) A = .ok (st1, Y))
    (hr : st1.rowsMissings = some []) (hc : st1.colsMissings = some []) :
    (cleanerTransform cfg st1 B).map (fun r => r.2) =
    (cleanerTransform cfg (cleanerFit cfg (CleanerState.new na) T) B).map (fun r => r.2) := by
  have hnf : st1.cleanNaFirst = na := by
    unfold cleanerTransform at h
    split_ifs at h
    simp only [cleanerFit, CleanerState.new] at h
    rcases h1 : A.replaceInf.dropCols (nonNumericCols T ++ discreteCols cfg T ++ badScaleCols cfg T) with e | X2
    · rw [h1] at h; simp [Except.bind] at h
    rw [h1] at h
    simp only [Except.bind] at h
    generalize hs0 : (CleanerState.mk (resolveNaFirst na A.replaceInf.rows.length A.replaceInf.cols.length) _ _ _ _ : CleanerState R C) = s0 at h
    have hs0' : s0.cleanNaFirst = na := by rw [← hs0]; simp [resolveNaFirst, hna]
    rcases h2 : cleanNa cfg s0 X2 with e | s2
    · rw [h2] at h; simp at h
    rw [h2] at h
    simp only at h
    have hs2 : s2.cleanNaFirst = na := by
      unfold cleanNa at h2
      rw [hs0'] at h2
      rcases na with _ | _ | _ | _
      · simp at h2
      · simp only at h2
        rcases h3 : setMissingCols cfg s0 X2 with e | s1
        · rw [h3] at h2; simp [Except.bind] at h2
        · rw [h3] at h2
          replace h2 : setMissingRows cfg s1 X2 = .ok s2 := h2
          rw [(setMissingRows_ok h2).1, (setMissingCols_ok h3).1]; exact hs0'
      · simp only at h2
        rcases h3 : setMissingRows cfg s0 X2 with e | s1
        · rw [h3] at h2; simp [Except.bind] at h2
        · rw [h3] at h2
          replace h2 : setMissingCols cfg s1 X2 = .ok s2 := h2
          rw [(setMissingCols_ok h2).1, (setMissingRows_ok h3).1]; exact hs0'
      · simp at h2
    split at h
    · simp at h
    · split at h
      · simp at h
      · simp only [Except.ok.injEq, Prod.mk.injEq] at h
        rw [← h.1]; exact hs2
  obtain ⟨f, cm, rm, f1, f2, f3, -⟩ := transform_ok h
  have hf : st1.fitted = some ⟨nonNumericCols T, discreteCols cfg T, badScaleCols cfg T⟩ := by
    rw [f2, ← f1]; rfl
  obtain ⟨m1, m2, m3, m4, m5⟩ := st1
  simp only at hr hc hnf hf
  subst hr hc hnf hf
  have dR : ∀ F : Frame R C K, F.dropRows [] = .ok F := by
    intro F; simp [Frame.dropRows]
  have dC : ∀ F : Frame R C K, F.dropCols [] = .ok F := by
    intro F; simp [Frame.dropCols]
  unfold cleanerTransform
  split_ifs
  · rfl
  · simp only [cleanerFit, CleanerState.new]
    rcases B.replaceInf.dropCols (nonNumericCols T ++ discreteCols cfg T ++ badScaleCols cfg T) with e | X2
    · rfl
    · simp only [Except.bind, cleanNa, resolveNaFirst, if_neg hna]
      rcases m1 with _ | _ | _ | _
      · rfl
      · simp only [setMissingCols, dR, Except.map, setMissingRows, Except.bind]
      · simp only [setMissingRows, dC, Except.map, setMissingCols, Except.bind]
      · rfl

end

/-- A frame without missing values: the hypotheses of `C30_partial` are met. -/
example : (match cleanerTransform cfgA (cleanerFit cfgA (CleanerState.new .rows) frameB)
      { frameB with cell := fun r c => .num (r * r + 7 * c + 1) } with
    | .ok (s, _) => decide (s.rowsMissings = some [] ∧ s.colsMissings = some [])
    | .error _ => false) = true := by decide +kernel

end Robpy
