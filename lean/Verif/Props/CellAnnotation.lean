import Verif.Props.CellPlot

/-! # C152: the annotation quantile of `cell_MCD_plot` -/

namespace Robpy

variable {n p : ℕ}

/-- **C152**, annotation quantile: the cells named with an annotation quantile are the cells named in a plot which is drawn with that
quantile, and the points and lines are those of a plot without annotation quantile. -/
theorem C152_annotation (est : List ℝ → Option ℝ × Option ℝ) (fitted : Option (Cells n p × CellResult n p)) (cut : PlotCutoffs) (a ρ : ℝ)
    (type : PlotType) (j : Fin p) (second : Option (Fin p)) {out : PlotOut n}
    (h : cellPlot est fitted { cut with annot := some a, annotRadius := some ρ } true type j second = .ok out) :
    (∃ o, cellPlot est fitted { cut with line := a, radius := ρ, annot := none, annotRadius := none } true type j second = .ok o ∧
        o.named = out.named) ∧
      ∃ o, cellPlot est fitted { cut with annot := none, annotRadius := none } false type j second = .ok o ∧
        o.x = out.x ∧ o.y = out.y ∧ o.hLines = out.hLines ∧ o.vLines = out.vLines := by
  rcases fitted with _ | ⟨X, r⟩
  · cases h
  cases type with
  | other => cases h
  | bivariate =>
    rcases second with _ | k
    · cases h
    simp only [cellPlot, if_true, Option.getD_some, Option.getD_none] at h ⊢
    rcases hl : annoteEllipse ρ ![r.location j, r.location k] (pairCov r.covariance j k) (fun i => X i j) fun i => X i k with e | l
    · rw [hl] at h; cases h
    rw [hl] at h
    rw [← Except.ok.inj h]
    exact ⟨⟨_, rfl, rfl⟩, ⟨_, rfl, rfl, rfl, rfl, rfl⟩⟩
  | _ =>
    rw [← Except.ok.inj h]
    exact ⟨⟨_, rfl, rfl⟩, ⟨_, rfl, rfl, rfl, rfl, rfl⟩⟩

/-- C152 for an index plot with lines at 2.57 that names the cells beyond 3. -/
example (X : Cells 5 2) (r : CellResult 5 2) (est : List ℝ → Option ℝ × Option ℝ) :
    ∃ out, cellPlot est (some (X, r)) { line := 2.57, radius := 3.03, annot := some 3, annotRadius := some 3.4 } true .indexplot 0 none = .ok out ∧
      ∃ o, cellPlot est (some (X, r)) { line := 3, radius := 3.4, annot := none, annotRadius := none } true .indexplot 0 none = .ok o ∧
        o.named = out.named :=
  ⟨_, rfl, (C152_annotation est (some (X, r)) { line := 2.57, radius := 3.03, annot := none, annotRadius := none } 3 3.4 .indexplot 0 none rfl).1⟩

end Robpy
