import Verif.Model.MCD
import Mathlib.Data.Real.Basic

/-! Model of the plotting part of `robpy/outliers/ddc.py`: `get_custom_cmap` (17-26) and `DDC.cellmap` (229-304).  What
is passed to matplotlib and seaborn is modelled, not the drawing. -/

namespace Robpy

/-- A colour, as red, green and blue between 0 and 255 (ddc.py 20-24). -/
abbrev Colour := Fin 3 → ℝ

/-- `"#4652a3"`, ddc.py 20. -/
def cmapBlue : Colour := ![70, 82, 163]
/-- `"#8d6d8c"`, ddc.py 21. -/
def cmapPurple : Colour := ![141, 109, 140]
/-- `"#f7f286"`, the default of `neutral_color`, ddc.py 17. -/
def cmapNeutral : Colour := ![247, 242, 134]
/-- `"#ec2123"`, ddc.py 24. -/
def cmapRed : Colour := ![236, 33, 35]

/-- `matplotlib.colors.Normalize(-vmax_clip, vmax_clip)`, ddc.py 18: ValueError if the limits are not in order; 0 if they are
equal. -/
noncomputable def cmapNorm (v x : ℝ) : Except PyErr ℝ :=
  if v < -v then .error .valueError else if -v = v then .ok 0 else .ok ((x - -v) / (v - -v))

/-- The list `colors` of ddc.py 19-25, with the default neutral colour. -/
noncomputable def cmapAnchors (v : ℝ) : Except PyErr (List (ℝ × Colour)) :=
  mapExcept (fun a : ℝ × Colour => (cmapNorm v a.1).map fun x => (x, a.2))
    [(-v, cmapBlue), (-(v + 2.5) / 2, cmapPurple), (-2.5, cmapNeutral), (2.5, cmapNeutral), (v, cmapRed)]

/-- The numbers are in increasing order (equal ones are allowed): the check of `LinearSegmentedColormap`, ddc.py 26. -/
def cmapIncreasing : List ℝ → Prop
  | [] => True
  | [_] => True
  | a :: b :: l => a ≤ b ∧ cmapIncreasing (b :: l)

/-- `get_custom_cmap`, ddc.py 17-26.  `LinearSegmentedColormap` wants anchors in increasing order which start at 0 and
end at 1, and raises ValueError otherwise.  Simplification: matplotlib checks this when the colours are first looked up, here
it is done at once. -/
noncomputable def customCmap (v : ℝ) : Except PyErr (List (ℝ × Colour)) :=
  (cmapAnchors v).bind fun l =>
    open Classical in
    if cmapIncreasing (l.map Prod.fst) ∧ (l.map Prod.fst).head? = some 0 ∧ (l.map Prod.fst).getLast? = some 1 then .ok l
    else .error .valueError

/-- Linear interpolation between the anchors of a `LinearSegmentedColormap`, ddc.py 26, for a number inside their range. -/
noncomputable def segmentColour : List (ℝ × Colour) → ℝ → Colour
  | [], _ => 0
  | [a], _ => a.2
  | a :: b :: l, x =>
    if x ≤ b.1 then (if a.1 = b.1 then b.2 else a.2 + ((x - a.1) / (b.1 - a.1)) • (b.2 - a.2))
    else segmentColour (b :: l) x

/-- The colour that `sns.heatmap` with `vmin=-vmax_clip, vmax=vmax_clip` gives to a residual (ddc.py 291-303): the first
colour from `vmin` down, the last colour from `vmax` up.  Simplification: matplotlib rounds the colours to a table of 256
entries. -/
noncomputable def heatColour (v : ℝ) (anchors : List (ℝ × Colour)) (r : ℝ) : Colour :=
  if r ≤ -v then ((anchors.map Prod.snd).headD 0)
  else if v ≤ r then ((anchors.map Prod.snd).getLastD 0)
  else segmentColour anchors ((r - -v) / (v - -v))

/-- A data frame with its labels (which need not be unique), `plot_data` and `X_annot` of ddc.py 273-287. -/
structure LFrame (R C V : Type) where
  index : List R
  columns : List C
  rows : List (List V)

section
variable {R C V L : Type} [DecidableEq R] [DecidableEq C] [DecidableEq L]

/-- `pd.DataFrame(values, index=..., columns=...)` of an array, ddc.py 273: ValueError if the shape does not fit. -/
def LFrame.make (values : List (List V)) (index : List R) (columns : List C) : Except PyErr (LFrame R C V) :=
  if values.length = index.length ∧ ∀ r ∈ values, r.length = columns.length then .ok ⟨index, columns, values⟩
  else .error .valueError

/-- Entry in row `a` and column `b` (by position) of a frame, ddc.py 273. -/
def LFrame.at? (F : LFrame R C V) (a b : ℕ) : Option V := (F.rows[a]?).bind fun r => r[b]?

/-- `row_zoom` and `col_zoom`, ddc.py 236-237: `None`, a tuple (a slice of positions), or an index of labels. -/
inductive Zoom (L : Type) where
  | all
  | slice (a b : ℤ)
  | labels (l : List L)

/-- A bound of a Python slice for `n` positions, ddc.py 277: a negative one counts from the end. -/
def sliceBound (n : ℕ) (a : ℤ) : ℕ := if a < 0 then (n + a).toNat else min n a.toNat

/-- The positions that a zoom selects: `.iloc[a:b]` (ddc.py 277-278, 284-285) or `.loc[labels]` (ddc.py 280-281, 287-288), which
raises KeyError if a label does not occur and takes every position of a label that occurs more than once. -/
def Zoom.positions (z : Zoom L) (index : List L) : Except PyErr (List ℕ) :=
  match z with
  | .all => .ok (List.range index.length)
  | .slice a b => .ok ((List.range index.length).filter fun i =>
      decide (sliceBound index.length a ≤ i ∧ i < sliceBound index.length b))
  | .labels l =>
    if ∀ x ∈ l, x ∈ index then
      .ok (l.flatMap fun x => (List.range index.length).filter fun i => decide (index[i]? = some x))
    else .error .keyError

/-- Selection of rows, ddc.py 277-281. -/
def LFrame.zoomRows (F : LFrame R C V) (z : Zoom R) : Except PyErr (LFrame R C V) :=
  (z.positions F.index).map fun pos => { F with index := takeAt F.index pos, rows := takeAt F.rows pos }

/-- Selection of columns, ddc.py 284-288. -/
def LFrame.zoomCols (F : LFrame R C V) (z : Zoom C) : Except PyErr (LFrame R C V) :=
  (z.positions F.columns).map fun pos => { F with columns := takeAt F.columns pos, rows := F.rows.map fun r => takeAt r pos }

/-- The attributes that `cellmap` reads, ddc.py 267-272; `none` is an attribute that does not exist. -/
structure CellMapState where
  isFitted : Option Bool
  stdResiduals : Option (List (List (Option ℝ)))

/-- What is passed to `sns.heatmap`, ddc.py 291-303; NaN residuals are `none` (seaborn leaves such cells blank).  `cmap` is
`none` for a colour map of the caller. -/
structure CellMapPlot (R C V : Type) where
  data : LFrame R C (Option ℝ)
  annot : Option (LFrame R C V)
  vmax : ℝ
  linewidth : ℝ
  cmap : Option (List (ℝ × Colour))

/-- Line widths, ddc.py 301: `1 / len(plot_data)` raises ZeroDivisionError for no rows. -/
noncomputable def cellmapLinewidth (nrows : ℕ) (figHeight : ℝ) : Except PyErr ℝ :=
  if nrows = 0 then .error .zeroDivisionError else .ok (1 / (nrows : ℝ) * figHeight * (1 / 10))

/-- The residuals to plot, ddc.py 271-272. -/
def cellmapResiduals (st : CellMapState) (residuals : Option (List (List (Option ℝ)))) : Except PyErr (List (List (Option ℝ))) :=
  match residuals, st.stdResiduals with
  | some r, _ => .ok r
  | none, some r => .ok r
  | none, none => .error .attributeError

/-- `DDC.cellmap`, ddc.py 229-304.  `X` is the frame of the caller, `residuals` the argument `standardized_residuals`,
`figHeight` is `figsize[1]`, `custom` says that `cmap == "custom"`. -/
noncomputable def cellmap (st : CellMapState) (X : LFrame R C V) (residuals : Option (List (List (Option ℝ)))) (annotate : Bool)
    (figHeight : ℝ) (rowZoom : Zoom R) (colZoom : Zoom C) (vmax : ℝ) (custom : Bool) : Except PyErr (CellMapPlot R C V) :=
  match st.isFitted with
  | none => .error .attributeError
  | some false => .error .valueError
  | some true =>
    (if custom then (customCmap vmax).map some else .ok none).bind fun cmap =>
    (cellmapResiduals st residuals).bind fun res =>
    (LFrame.make res X.index X.columns).bind fun plot =>
    (plot.zoomRows rowZoom).bind fun plot =>
    (X.zoomRows rowZoom).bind fun xAnnot =>
    (plot.zoomCols colZoom).bind fun plot =>
    (xAnnot.zoomCols colZoom).bind fun xAnnot =>
    (cellmapLinewidth plot.index.length figHeight).map fun lw =>
      { data := plot, annot := if annotate then some xAnnot else none, vmax := vmax, linewidth := lw, cmap := cmap }

end

end Robpy
