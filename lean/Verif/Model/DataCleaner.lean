import Verif.Model.Basics
import Mathlib.Data.List.Dedup

/-! Model of `robpy/preprocessing/data_cleaner.py`. -/

namespace Robpy

/-- A cell of a data frame: a finite number, an infinity, a missing value, or a value that
`pd.to_numeric(..., errors="coerce")` turns into NaN (robpy/preprocessing/data_cleaner.py 161). -/
inductive Cell (K : Type) where
  | num (x : K) | inf (positive : Bool) | missing | text (id : ℕ)
  deriving DecidableEq

section
variable {R C K : Type} [DecidableEq R] [DecidableEq C] [Field K] [LinearOrder K]

/-- A data frame: row labels, column labels and cells.  Simplification: labels are unique, so a cell is
found by its labels (robpy/preprocessing/data_cleaner.py 62, 76). -/
structure Frame (R C K : Type) where
  rows : List R
  cols : List C
  cell : R → C → Cell K

/-- `X.replace([np.inf, -np.inf], np.nan)`, robpy/preprocessing/data_cleaner.py 86, 173. -/
def Cell.replaceInf : Cell K → Cell K
  | .inf _ => .missing
  | c => c

/-- See `Cell.replaceInf`, robpy/preprocessing/data_cleaner.py 86. -/
def Frame.replaceInf (X : Frame R C K) : Frame R C K := { X with cell := fun r c => (X.cell r c).replaceInf }

/-- `X.drop(columns=...)`, robpy/preprocessing/data_cleaner.py 90-98, 173, 213: KeyError when a label
is absent. -/
def Frame.dropCols (X : Frame R C K) (cs : List C) : Except PyErr (Frame R C K) :=
  if ∀ c ∈ cs, c ∈ X.cols then .ok { X with cols := X.cols.filter fun c => c ∉ cs } else .error .keyError

/-- `X.drop(index=...)`, robpy/preprocessing/data_cleaner.py 100, 207. -/
def Frame.dropRows (X : Frame R C K) (rs : List R) : Except PyErr (Frame R C K) :=
  if ∀ r ∈ rs, r ∈ X.rows then .ok { X with rows := X.rows.filter fun r => r ∉ rs } else .error .keyError

/-- Constructor arguments, robpy/preprocessing/data_cleaner.py 54-59. -/
structure CleanerConfig (K : Type) where
  maxMissingFracCols : K
  maxMissingFracRows : K
  minUniqueValues : ℕ
  minAbsScale : K
  minNRows : ℕ

/-- `clean_na_first`, robpy/preprocessing/data_cleaner.py 58; `other` is any unsupported string. -/
inductive NaFirst where
  | automatic | columns | rows | other
  deriving DecidableEq

/-- The attributes set by `fit`, robpy/preprocessing/data_cleaner.py 158-202. -/
structure CleanerFit (C : Type) where
  nonNumeric : List C
  discrete : List C
  badScale : List C

/-- The attributes of a `DataCleaner`; `none` is an attribute that does not exist yet. -/
structure CleanerState (R C : Type) where
  cleanNaFirst : NaFirst
  fitted : Option (CleanerFit C)
  colsRownumbers : Option (List C)
  colsMissings : Option (List C)
  rowsMissings : Option (List R)

/-- A new `DataCleaner`, robpy/preprocessing/data_cleaner.py 54-60. -/
def CleanerState.new (na : NaFirst) : CleanerState R C := ⟨na, none, none, none, none⟩

/-- The values of a column. -/
def Frame.column (X : Frame R C K) (c : C) : List (Cell K) := X.rows.map fun r => X.cell r c

/-- `_get_non_numeric_columns_to_drop`, robpy/preprocessing/data_cleaner.py 158-162. -/
def nonNumericCols (X : Frame R C K) : List C :=
  X.cols.filter fun c => (X.column c).any fun v => match v with | .text _ => true | _ => false

/-- `X.nunique()` of one column (missing values not counted), robpy/preprocessing/data_cleaner.py 190. -/
def nunique (col : List (Cell K)) : ℕ := (col.filter fun v => v ≠ .missing).dedup.length

/-- `_get_discrete_columns_to_drop`, robpy/preprocessing/data_cleaner.py 188-190. -/
def discreteCols (cfg : CleanerConfig K) (X : Frame R C K) : List C :=
  X.cols.filter fun c => nunique (X.column c) ≤ cfg.minUniqueValues

/-- The finite values of a column, robpy/preprocessing/data_cleaner.py 197-199 with `nan_policy="omit"`.
Simplification: the extra replacement of `True`/`False` is a no-op on a float column and not modelled. -/
def finiteValues (col : List (Cell K)) : List K :=
  col.filterMap fun v => match v with | .num x => some x | _ => none

/-- `_get_bad_scale_columns_to_drop`, robpy/preprocessing/data_cleaner.py 192-202; a column without
finite values has NaN scale, and the comparison is then false. -/
def badScaleCols (cfg : CleanerConfig K) (X : Frame R C K) : List C :=
  (X.cols.filter fun c => c ∉ nonNumericCols X ++ discreteCols cfg X).filter fun c =>
    match madRaw (finiteValues (X.column c)) with
    | none => false
    | some m => m ≤ cfg.minAbsScale

/-- `DataCleaner.fit`, robpy/preprocessing/data_cleaner.py 62-74. -/
def cleanerFit (cfg : CleanerConfig K) (st : CleanerState R C) (X : Frame R C K) : CleanerState R C :=
  { st with fitted := some ⟨nonNumericCols X, discreteCols cfg X, badScaleCols cfg X⟩ }

/-- `mean of isna() >= threshold`: false for an empty axis, whose mean is NaN
(robpy/preprocessing/data_cleaner.py 208, 214). -/
def fracGE (cnt n : ℕ) (thr : K) : Bool := n ≠ 0 ∧ thr ≤ (cnt : K) / (n : K)

/-- Number of missing cells of a column. -/
def Frame.missInCol (X : Frame R C K) (c : C) : ℕ := X.rows.countP fun r => X.cell r c = .missing

/-- Number of missing cells of a row. -/
def Frame.missInRow (X : Frame R C K) (r : R) : ℕ := X.cols.countP fun c => X.cell r c = .missing

/-- `_set_row_numbers_cols`, robpy/preprocessing/data_cleaner.py 164-166. -/
def rowNumberCols (X : Frame R C K) : List C :=
  X.cols.filter fun c => X.rows.zipIdx.all fun ri => X.cell ri.1 c = .num (ri.2 : K)

/-- `X.columns[X.isna().mean() >= self.max_missing_frac_cols]`, robpy/preprocessing/data_cleaner.py 208. -/
def missingColsOf (cfg : CleanerConfig K) (X : Frame R C K) : List C :=
  X.cols.filter fun c => fracGE (X.missInCol c) X.rows.length cfg.maxMissingFracCols

/-- `X.index[X.isna().mean(axis=1) >= self.max_missing_frac_rows]`,
robpy/preprocessing/data_cleaner.py 214. -/
def missingRowsOf (cfg : CleanerConfig K) (X : Frame R C K) : List R :=
  X.rows.filter fun r => fracGE (X.missInRow r) X.cols.length cfg.maxMissingFracRows

/-- `_set_missing_cols`, robpy/preprocessing/data_cleaner.py 204-208: rows found missing earlier, if
the attribute exists, are dropped first. -/
def setMissingCols (cfg : CleanerConfig K) (st : CleanerState R C) (X : Frame R C K) :
    Except PyErr (CleanerState R C) :=
  match st.rowsMissings with
  | none => .ok { st with colsMissings := some (missingColsOf cfg X) }
  | some rs => (X.dropRows rs).map fun X' => { st with colsMissings := some (missingColsOf cfg X') }

/-- `_set_missing_rows`, robpy/preprocessing/data_cleaner.py 210-214: columns found missing earlier,
if the attribute exists, are dropped first. -/
def setMissingRows (cfg : CleanerConfig K) (st : CleanerState R C) (X : Frame R C K) :
    Except PyErr (CleanerState R C) :=
  match st.colsMissings with
  | none => .ok { st with rowsMissings := some (missingRowsOf cfg X) }
  | some cs => (X.dropCols cs).map fun X' => { st with rowsMissings := some (missingRowsOf cfg X') }

/-- The resolution of `"automatic"`, robpy/preprocessing/data_cleaner.py 170-171. -/
def resolveNaFirst (na : NaFirst) (n p : ℕ) : NaFirst :=
  if na = .automatic then (if p ≥ 5 * n then .columns else .rows) else na

/-- The two passes of `_set_missing_cols_and_rows`, robpy/preprocessing/data_cleaner.py 176-186. -/
def cleanNa (cfg : CleanerConfig K) (st : CleanerState R C) (X : Frame R C K) :
    Except PyErr (CleanerState R C) :=
  match st.cleanNaFirst with
  | .columns => (setMissingCols cfg st X).bind fun st => setMissingRows cfg st X
  | .rows => (setMissingRows cfg st X).bind fun st => setMissingCols cfg st X
  | _ => .error .valueError

/-- `DataCleaner.transform`, robpy/preprocessing/data_cleaner.py 76-104 with 164-186: the new state and
the output.  Simplification: when an exception is raised the partly updated attributes are lost. -/
def cleanerTransform (cfg : CleanerConfig K) (st : CleanerState R C) (X0 : Frame R C K) :
    Except PyErr (CleanerState R C × Frame R C K) :=
  if X0.rows.length < cfg.minNRows then .error .valueError
  else
    let X := X0.replaceInf
    let st1 := { st with
      colsRownumbers := some (rowNumberCols X)
      cleanNaFirst := resolveNaFirst st.cleanNaFirst X.rows.length X.cols.length }
    match st1.fitted with
    | none => .error .attributeError
    | some f =>
      (X.dropCols (f.nonNumeric ++ f.discrete ++ f.badScale)).bind fun X2 =>
      (cleanNa cfg st1 X2).bind fun st2 =>
      (X.dropCols (f.nonNumeric ++ f.discrete ++ f.badScale ++ rowNumberCols X ++
        st2.colsMissings.getD [])).bind fun Y =>
      (Y.dropRows (st2.rowsMissings.getD [])).bind fun Y => .ok (st2, Y)

/-- `dropped_columns`, robpy/preprocessing/data_cleaner.py 106-133. -/
def droppedColumns (st : CleanerState R C) : Except PyErr (List C) :=
  match st.fitted, st.colsRownumbers, st.colsMissings with
  | some f, some a, some b => .ok (f.nonNumeric ++ a ++ f.discrete ++ f.badScale ++ b)
  | _, _, _ => .error .notFittedError

/-- `dropped_rows`, robpy/preprocessing/data_cleaner.py 135-148. -/
def droppedRows (st : CleanerState R C) : Except PyErr (List R) :=
  match st.rowsMissings with
  | some a => .ok a
  | none => .error .notFittedError

end

end Robpy
