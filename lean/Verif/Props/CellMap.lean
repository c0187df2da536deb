import Verif.Model.CellMap
import Verif.Lemmas.Select
import Verif.Lemmas.MCD
import Verif.Props.Covariance
import Mathlib.Tactic.Linarith
import Mathlib.Tactic.FieldSimp
import Mathlib.Tactic.NormNum

/-! # Properties C182, C183, C184: the cell map of DDC -/

namespace Robpy

section
variable {R C V L : Type} [DecidableEq R] [DecidableEq C] [DecidableEq L]

/-- Specification: the shape of the values fits the labels. -/
def Spec.frameShape (F : LFrame R C V) : Prop :=
  F.rows.length = F.index.length ∧ ∀ r ∈ F.rows, r.length = F.columns.length

/-! ## C182: rows, columns, residuals and annotations stay together -/

theorem takeAt_get {α : Type} (xs : List α) (idx : List ℕ) (h : ∀ i ∈ idx, i < xs.length) (a : ℕ) :
    (takeAt xs idx)[a]? = (idx[a]?).bind fun i => xs[i]? := by
  induction idx generalizing a with
  | nil => simp [takeAt]
  | cons i l ih =>
    have hi := h i (by simp)
    have e : takeAt xs (i :: l) = xs[i] :: takeAt xs l := by simp [takeAt, List.getElem?_eq_getElem hi]
    rw [e]
    rcases a with _ | a
    · simp [List.getElem?_eq_getElem hi]
    · simpa using ih (fun j hj => h j (List.mem_cons_of_mem _ hj)) a

theorem positions_lt {z : Zoom L} {index : List L} {pos : List ℕ} (h : z.positions index = .ok pos) :
    ∀ i ∈ pos, i < index.length := by
  intro i hi
  rcases z with _ | ⟨a, b⟩ | l
  · obtain rfl := Except.ok.inj h
    exact List.mem_range.1 hi
  · obtain rfl := Except.ok.inj h
    exact List.mem_range.1 (List.mem_filter.1 hi).1
  · unfold Zoom.positions at h
    simp only at h
    split_ifs at h with h0
    obtain rfl := Except.ok.inj h
    obtain ⟨x, -, hx⟩ := List.mem_flatMap.1 hi
    exact List.mem_range.1 (List.mem_filter.1 hx).1

theorem zoomRows_spec {F F' : LFrame R C V} {z : Zoom R} (hF : Spec.frameShape F) (h : F.zoomRows z = .ok F') :
    ∃ pos, z.positions F.index = .ok pos ∧ (∀ i ∈ pos, i < F.index.length) ∧ F'.index = takeAt F.index pos ∧
      F'.columns = F.columns ∧ Spec.frameShape F' ∧ ∀ a b, F'.at? a b = (pos[a]?).bind fun i => F.at? i b := by
  unfold LFrame.zoomRows at h
  rcases hp : z.positions F.index with e | pos
  · rw [hp] at h; cases h
  rw [hp] at h
  obtain rfl := Except.ok.inj h
  have hlt := positions_lt hp
  have hlt' : ∀ i ∈ pos, i < F.rows.length := fun i hi => by rw [hF.1]; exact hlt i hi
  refine ⟨pos, rfl, hlt, rfl, rfl, ⟨?_, ?_⟩, ?_⟩
  · rw [takeAt_length _ _ hlt', takeAt_length _ _ hlt]
  · intro r hr
    unfold takeAt at hr
    obtain ⟨i, -, hi⟩ := List.mem_filterMap.1 hr
    exact hF.2 r (List.mem_of_getElem? hi)
  · intro a b
    unfold LFrame.at?
    simp only
    rw [takeAt_get _ _ hlt']
    rcases pos[a]? with _ | i <;> rfl

theorem zoomCols_spec {F F' : LFrame R C V} {z : Zoom C} (hF : Spec.frameShape F) (h : F.zoomCols z = .ok F') :
    ∃ pos, z.positions F.columns = .ok pos ∧ (∀ i ∈ pos, i < F.columns.length) ∧ F'.columns = takeAt F.columns pos ∧
      F'.index = F.index ∧ Spec.frameShape F' ∧ ∀ a b, F'.at? a b = (pos[b]?).bind fun j => F.at? a j := by
  unfold LFrame.zoomCols at h
  rcases hp : z.positions F.columns with e | pos
  · rw [hp] at h; cases h
  rw [hp] at h
  obtain rfl := Except.ok.inj h
  have hlt := positions_lt hp
  refine ⟨pos, rfl, hlt, rfl, rfl, ⟨by simpa using hF.1, ?_⟩, ?_⟩
  · intro r hr
    obtain ⟨r', hr', rfl⟩ := List.mem_map.1 hr
    rw [takeAt_length _ _ fun i hi => by rw [hF.2 r' hr']; exact hlt i hi]
    exact (takeAt_length _ _ hlt).symm
  · intro a b
    unfold LFrame.at?
    simp only
    rw [List.getElem?_map]
    rcases hr : F.rows[a]? with _ | r
    · rcases pos[b]? with _ | j <;> rfl
    · simp only [Option.map_some, Option.bind_some]
      rw [takeAt_get _ _ fun i hi => by rw [hF.2 r (List.mem_of_getElem? hr)]; exact hlt i hi]

/-- The steps of a call that succeeds. -/
theorem cellmap_steps {st : CellMapState} {X : LFrame R C V} {residuals : Option (List (List (Option ℝ)))} {annotate : Bool}
    {figHeight : ℝ} {rowZoom : Zoom R} {colZoom : Zoom C} {vmax : ℝ} {custom : Bool} {m : CellMapPlot R C V}
    (h : cellmap st X residuals annotate figHeight rowZoom colZoom vmax custom = .ok m) :
    st.isFitted = some true ∧ ∃ res P1 A1 A2, cellmapResiduals st residuals = .ok res ∧
      Spec.frameShape (⟨X.index, X.columns, res⟩ : LFrame R C (Option ℝ)) ∧
      (⟨X.index, X.columns, res⟩ : LFrame R C (Option ℝ)).zoomRows rowZoom = .ok P1 ∧ X.zoomRows rowZoom = .ok A1 ∧
      P1.zoomCols colZoom = .ok m.data ∧ A1.zoomCols colZoom = .ok A2 ∧ m.annot = (if annotate then some A2 else none) ∧
      m.vmax = vmax ∧ m.data.index.length ≠ 0 ∧ (custom = true → ∃ l, customCmap vmax = .ok l ∧ m.cmap = some l) := by
  unfold cellmap at h
  rcases hf : st.isFitted with _ | _ | _
  · rw [hf] at h; cases h
  · rw [hf] at h; cases h
  rw [hf] at h
  simp only at h
  rcases hc : (if custom then (customCmap vmax).map some else .ok none : Except PyErr (Option (List (ℝ × Colour)))) with e | cmap
  · rw [hc] at h; cases h
  rw [hc] at h
  simp only [Except.bind] at h
  rcases h1 : cellmapResiduals st residuals with e | res
  · rw [h1] at h; cases h
  rw [h1] at h
  simp only at h
  rcases h2 : LFrame.make res X.index X.columns with e | P
  · rw [h2] at h; cases h
  rw [h2] at h
  simp only at h
  rcases h3 : P.zoomRows rowZoom with e | P1
  · rw [h3] at h; cases h
  rw [h3] at h
  simp only at h
  rcases h4 : X.zoomRows rowZoom with e | A1
  · rw [h4] at h; cases h
  rw [h4] at h
  simp only at h
  rcases h5 : P1.zoomCols colZoom with e | P2
  · rw [h5] at h; cases h
  rw [h5] at h
  simp only at h
  rcases h6 : A1.zoomCols colZoom with e | A2
  · rw [h6] at h; cases h
  rw [h6] at h
  simp only at h
  rcases h7 : cellmapLinewidth P2.index.length figHeight with e | lw
  · rw [h7] at h; cases h
  rw [h7] at h
  obtain rfl := Except.ok.inj h
  unfold LFrame.make at h2
  split_ifs at h2 with hs
  obtain rfl := Except.ok.inj h2
  refine ⟨rfl, res, P1, A1, A2, rfl, hs, h3, rfl, h5, h6, rfl, rfl, ?_, ?_⟩
  · intro h0
    unfold cellmapLinewidth at h7
    rw [if_pos h0] at h7
    cases h7
  · intro hcu
    rw [if_pos hcu] at hc
    rcases hcm : customCmap vmax with e | l
    · rw [hcm] at hc; cases hc
    · rw [hcm] at hc
      exact ⟨l, rfl, (Except.ok.inj hc).symm⟩

/-- **C182**: the cell drawn under a row label and a column label shows the residual of a cell of `X` with these labels, and
the annotation is the value of the same cell; the annotations carry the labels of the plot. -/
theorem C182_aligned {st : CellMapState} {X : LFrame R C V} {residuals : Option (List (List (Option ℝ)))} {annotate : Bool}
    {figHeight : ℝ} {rowZoom : Zoom R} {colZoom : Zoom C} {vmax : ℝ} {custom : Bool} {m : CellMapPlot R C V}
    (hX : Spec.frameShape X) (h : cellmap st X residuals annotate figHeight rowZoom colZoom vmax custom = .ok m) :
    Spec.frameShape m.data ∧ (m.annot.isSome = annotate) ∧
    ∃ res, (residuals = some res ∨ residuals = none ∧ st.stdResiduals = some res) ∧
    ∀ (a b : ℕ) (r : R) (c : C), m.data.index[a]? = some r → m.data.columns[b]? = some c →
      ∃ i j, X.index[i]? = some r ∧ X.columns[j]? = some c ∧
        (∃ x, m.data.at? a b = some x ∧ (res[i]?).bind (fun l => l[j]?) = some x) ∧
        ∀ A, m.annot = some A → A.index = m.data.index ∧ A.columns = m.data.columns ∧
          ∃ v, A.at? a b = some v ∧ X.at? i j = some v := by
  obtain ⟨-, res, P1, A1, A2, hres, hshape, h3, h4, h5, h6, hann, -, -, -⟩ := cellmap_steps h
  obtain ⟨pos, q1, q2, q3, q4, q5, q6⟩ := zoomRows_spec hshape h3
  obtain ⟨pos', r1, r2, r3, r4, r5, r6⟩ := zoomRows_spec hX h4
  obtain rfl : pos = pos' := by
    rw [show (⟨X.index, X.columns, res⟩ : LFrame R C (Option ℝ)).index = X.index from rfl, r1] at q1
    exact (Except.ok.inj q1).symm
  obtain ⟨cos, s1, s2, s3, s4, s5, s6⟩ := zoomCols_spec q5 h5
  obtain ⟨cos', t1, t2, t3, t4, t5, t6⟩ := zoomCols_spec r5 h6
  obtain rfl : cos = cos' := by
    rw [q4] at s1
    rw [r4] at t1
    rw [show (⟨X.index, X.columns, res⟩ : LFrame R C (Option ℝ)).columns = X.columns from rfl, t1] at s1
    exact (Except.ok.inj s1).symm
  refine ⟨s5, by rw [hann]; cases annotate <;> rfl, res, ?_, ?_⟩
  · unfold cellmapResiduals at hres
    rcases residuals with _ | r
    · rcases hs : st.stdResiduals with _ | r
      · rw [hs] at hres; cases hres
      · rw [hs] at hres
        exact .inr ⟨rfl, by rw [Except.ok.inj hres]⟩
    · exact .inl (by rw [Except.ok.inj hres])
  intro a b r c ha hb
  rw [s4, q3, takeAt_get _ _ q2] at ha
  rw [s3, takeAt_get _ _ s2] at hb
  rcases hi : pos[a]? with _ | i
  · rw [hi] at ha; cases ha
  rcases hj : cos[b]? with _ | j
  · rw [hj] at hb; cases hb
  rw [hi] at ha
  rw [hj, q4] at hb
  simp only [Option.bind_some] at ha hb
  have hil : i < X.index.length := q2 i (List.mem_of_getElem? hi)
  have hjl : j < X.columns.length := by
    have := s2 j (List.mem_of_getElem? hj)
    rwa [q4] at this
  have hresl : i < res.length := by rw [hshape.1]; exact hil
  have hxl : i < X.rows.length := by rw [hX.1]; exact hil
  have hrow : j < res[i].length := by
    rw [hshape.2 _ (List.getElem_mem hresl)]; exact hjl
  have hxrow : j < X.rows[i].length := by
    rw [hX.2 _ (List.getElem_mem hxl)]; exact hjl
  refine ⟨i, j, ha, hb, ⟨res[i][j], ?_, ?_⟩, ?_⟩
  · rw [s6, hj]
    simp only [Option.bind_some]
    rw [q6, hi]
    simp [LFrame.at?, List.getElem?_eq_getElem hresl, List.getElem?_eq_getElem hrow]
  · simp [List.getElem?_eq_getElem hresl, List.getElem?_eq_getElem hrow]
  · intro A hA
    rw [hann] at hA
    split_ifs at hA with hann'
    obtain rfl := Option.some.inj hA
    refine ⟨by rw [t4, s4, r3, q3], by rw [t3, s3, r4, q4], X.rows[i][j], ?_, ?_⟩
    · rw [t6, hj]
      simp only [Option.bind_some]
      rw [r6, hi]
      simp [LFrame.at?, List.getElem?_eq_getElem hxl, List.getElem?_eq_getElem hxrow]
    · simp [LFrame.at?, List.getElem?_eq_getElem hxl, List.getElem?_eq_getElem hxrow]

/-- Specification: the labels that a zoom shows. -/
def Spec.shown (z : Zoom L) (index out : List L) : Prop :=
  match z with
  | .all => out = index
  | .slice a b => (0 ≤ a → 0 ≤ b → out = (index.take b.toNat).drop a.toNat)
  | .labels l => (index.Nodup → out = l)

theorem range_filter_slice (n a b : ℕ) : ((List.range n).filter fun i => decide (min n a ≤ i ∧ i < min n b)) =
    ((List.range n).take b).drop a := by
  refine List.Perm.eq_of_pairwise (le := (· < ·)) (fun _ _ _ _ h1 h2 => absurd h1 (by omega)) ?_ ?_ ?_
  · exact List.pairwise_lt_range.sublist List.filter_sublist
  · exact List.pairwise_lt_range.sublist ((List.drop_sublist _ _).trans (List.take_sublist _ _))
  · refine (List.perm_ext_iff_of_nodup ?_ ?_).2 ?_
    · exact List.nodup_range.filter _
    · exact List.nodup_range.sublist ((List.drop_sublist _ _).trans (List.take_sublist _ _))
    · intro i
      rw [List.mem_filter, List.mem_range, List.take_range, decide_eq_true_eq]
      constructor
      · rintro ⟨h1, h2, h3⟩
        refine List.mem_of_getElem? (i := i - a) ?_
        rw [List.getElem?_drop, List.getElem?_range (by omega)]
        congr 1; omega
      · intro h
        obtain ⟨k, hk⟩ := List.getElem?_of_mem h
        rw [List.getElem?_drop] at hk
        obtain ⟨hl, he⟩ := List.getElem?_eq_some_iff.1 hk
        simp at hl he
        omega

theorem takeAt_drop_take {α : Type} (xs : List α) (a b : ℕ) : takeAt xs (((List.range xs.length).take b).drop a) = (xs.take b).drop a := by
  apply List.ext_getElem?
  intro k
  rw [takeAt_get]
  · rw [List.getElem?_drop, List.getElem?_drop, List.getElem?_take, List.getElem?_take]
    split_ifs with h
    · rcases lt_or_ge (a + k) xs.length with h2 | h2
      · rw [List.getElem?_range h2]; rfl
      · rw [List.getElem?_eq_none (by simpa using h2), List.getElem?_eq_none h2]; rfl
    · rfl
  · intro i hi
    exact List.mem_range.1 (List.mem_of_mem_take (List.mem_of_mem_drop hi))

theorem filter_label {index : List L} (hn : index.Nodup) {x : L} (hx : x ∈ index) :
    takeAt index ((List.range index.length).filter fun i => decide (index[i]? = some x)) = [x] := by
  obtain ⟨k, hk⟩ := List.getElem?_of_mem hx
  obtain ⟨hkl, hke⟩ := List.getElem?_eq_some_iff.1 hk
  have : ((List.range index.length).filter fun i => decide (index[i]? = some x)) = [k] := by
    refine List.perm_singleton.1 ((List.perm_ext_iff_of_nodup (List.nodup_range.filter _) (by simp)).2 fun i => ?_)
    rw [List.mem_filter, List.mem_range, decide_eq_true_eq, List.mem_singleton]
    constructor
    · rintro ⟨h1, h2⟩
      rw [List.getElem?_eq_getElem h1] at h2
      rw [← hke] at h2
      exact (List.Nodup.getElem_inj_iff hn).1 (Option.some.inj h2)
    · rintro rfl
      exact ⟨hkl, hk⟩
  rw [this]
  simp [takeAt, hk]

theorem positions_shown {z : Zoom L} {index : List L} {pos : List ℕ} (h : z.positions index = .ok pos) :
    Spec.shown z index (takeAt index pos) := by
  rcases z with _ | ⟨a, b⟩ | l
  · obtain rfl := Except.ok.inj h
    exact takeAt_range index
  · obtain rfl := Except.ok.inj h
    intro ha hb
    unfold sliceBound
    rw [if_neg (by omega), if_neg (by omega), range_filter_slice, takeAt_drop_take]
  · intro hn
    unfold Zoom.positions at h
    simp only at h
    split_ifs at h with h0
    obtain rfl := Except.ok.inj h
    clear h
    induction l with
    | nil => rfl
    | cons x l ih =>
      rw [List.flatMap_cons, takeAt_append, filter_label hn (h0 x (by simp)), ih fun y hy => h0 y (List.mem_cons_of_mem _ hy)]
      rfl

/-- **C182**: which rows and columns are drawn, and in which order. -/
theorem C182_zoom {st : CellMapState} {X : LFrame R C V} {residuals : Option (List (List (Option ℝ)))} {annotate : Bool}
    {figHeight : ℝ} {rowZoom : Zoom R} {colZoom : Zoom C} {vmax : ℝ} {custom : Bool} {m : CellMapPlot R C V}
    (hX : Spec.frameShape X) (h : cellmap st X residuals annotate figHeight rowZoom colZoom vmax custom = .ok m) :
    Spec.shown rowZoom X.index m.data.index ∧ Spec.shown colZoom X.columns m.data.columns := by
  obtain ⟨-, res, P1, A1, A2, hres, hshape, h3, h4, h5, h6, hann, -, -, -⟩ := cellmap_steps h
  obtain ⟨pos, q1, q2, q3, q4, q5, q6⟩ := zoomRows_spec hshape h3
  obtain ⟨cos, s1, s2, s3, s4, s5, s6⟩ := zoomCols_spec q5 h5
  rw [q4] at s1 s3
  rw [s4, q3, s3]
  exact ⟨positions_shown q1, positions_shown s1⟩

/-! ## C183, C184: the colours -/

theorem cmapNorm_pos {v : ℝ} (hv : 0 < v) (x : ℝ) : cmapNorm v x = .ok ((x + v) / (2 * v)) := by
  unfold cmapNorm
  rw [if_neg (by linarith), if_neg (by intro h; linarith)]
  congr 1
  ring

/-- The anchors for a positive limit. -/
theorem cmapAnchors_pos {v : ℝ} (hv : 0 < v) : cmapAnchors v = .ok [(0, cmapBlue), ((v - 2.5) / (4 * v), cmapPurple),
    ((v - 2.5) / (2 * v), cmapNeutral), ((v + 2.5) / (2 * v), cmapNeutral), (1, cmapRed)] := by
  unfold cmapAnchors
  simp only [mapExcept, cmapNorm_pos hv, Except.map, Except.bind]
  have e1 : (-v + v) / (2 * v) = 0 := by simp
  have e2 : (-(v + 2.5) / 2 + v) / (2 * v) = (v - 2.5) / (4 * v) := by field_simp; ring
  have e3 : (-2.5 + v) / (2 * v) = (v - 2.5) / (2 * v) := by ring
  have e4 : (2.5 + v) / (2 * v) = (v + 2.5) / (2 * v) := by ring
  have e5 : (v + v) / (2 * v) = 1 := by field_simp; ring
  rw [e1, e2, e3, e4, e5]

/-- **C184**, what holds: the colour map exists exactly when `vmax_clip` is at least 2.5. -/
theorem C184_cmap_partial (v : ℝ) : (∃ l, customCmap v = .ok l) ↔ 2.5 ≤ v := by
  rcases lt_trichotomy v 0 with hv | rfl | hv
  · have : cmapAnchors v = .error .valueError := by
      unfold cmapAnchors
      simp only [mapExcept, cmapNorm]
      rw [if_pos (by linarith)]
      rfl
    unfold customCmap
    rw [this]
    constructor
    · rintro ⟨l, hl⟩; cases hl
    · intro h; norm_num at h; linarith
  · have : cmapAnchors 0 = .ok [(0, cmapBlue), (0, cmapPurple), (0, cmapNeutral), (0, cmapNeutral), (0, cmapRed)] := by
      unfold cmapAnchors
      simp [mapExcept, cmapNorm, Except.map, Except.bind]
    unfold customCmap
    rw [this]
    simp only [Except.bind]
    constructor
    · rintro ⟨l, hl⟩
      rw [if_neg (by simp)] at hl
      cases hl
    · intro h; norm_num at h
  · unfold customCmap
    rw [cmapAnchors_pos hv]
    simp only [Except.bind]
    constructor
    · rintro ⟨l, hl⟩
      by_contra hcon
      rw [if_neg] at hl
      · cases hl
      · rintro ⟨⟨h1, -⟩, -⟩
        simp only at h1
        rw [le_div_iff₀ (by linarith)] at h1
        linarith
    · intro h
      refine ⟨_, if_pos ⟨?_, by simp, by simp⟩⟩
      simp only [List.map_cons, List.map_nil, cmapIncreasing, and_true]
      refine ⟨div_nonneg (by linarith) (by linarith), ?_, ?_, ?_⟩
      · rw [div_le_div_iff₀ (by linarith) (by linarith)]
        nlinarith
      · rw [div_le_div_iff_of_pos_right (by linarith)]; norm_num; linarith
      · rw [div_le_one (by linarith)]; linarith

theorem customCmap_eq {v : ℝ} {l : List (ℝ × Colour)} (h : customCmap v = .ok l) : 2.5 ≤ v ∧ l = [(0, cmapBlue),
    ((v - 2.5) / (4 * v), cmapPurple), ((v - 2.5) / (2 * v), cmapNeutral), ((v + 2.5) / (2 * v), cmapNeutral), (1, cmapRed)] := by
  have hv := (C184_cmap_partial v).1 ⟨l, h⟩
  have hv0 : 0 < v := by norm_num at hv; linarith
  refine ⟨hv, ?_⟩
  unfold customCmap at h
  rw [cmapAnchors_pos hv0] at h
  simp only [Except.bind] at h
  generalize hl : ([(0, cmapBlue), ((v - 2.5) / (4 * v), cmapPurple), ((v - 2.5) / (2 * v), cmapNeutral),
    ((v + 2.5) / (2 * v), cmapNeutral), (1, cmapRed)] : List (ℝ × Colour)) = l' at h
  split_ifs at h with hc
  exact (Except.ok.inj h).symm

/-- Specification: the colour on the straight line from `a` (at `t = 0`) to `b` (at `t = 1`). -/
def Spec.mix (a b : Colour) (t : ℝ) : Colour := fun k => (1 - t) * a k + t * b k

/-- The colours for a neutral zone of any half width `t`. -/
theorem heatColour_zones {t v : ℝ} (ht : 0 < t) (hv : t < v) (r : ℝ) {l : List (ℝ × Colour)} (hl : l = [(0, cmapBlue),
      ((v - t) / (4 * v), cmapPurple), ((v - t) / (2 * v), cmapNeutral), ((v + t) / (2 * v), cmapNeutral), (1, cmapRed)]) :
    (r ≤ -v → heatColour v l r = cmapBlue) ∧
    (-v ≤ r → r ≤ -(v + t) / 2 → heatColour v l r = Spec.mix cmapBlue cmapPurple ((r + v) / ((v - t) / 2))) ∧
    (-(v + t) / 2 ≤ r → r ≤ -t → heatColour v l r = Spec.mix cmapNeutral cmapPurple ((-t - r) / ((v - t) / 2))) ∧
    (|r| ≤ t → heatColour v l r = cmapNeutral) ∧
    (t ≤ r → r ≤ v → heatColour v l r = Spec.mix cmapNeutral cmapRed ((r - t) / (v - t))) ∧
    (v ≤ r → heatColour v l r = cmapRed) := by
  subst hl
  have hdn : v - t ≠ 0 := by intro h; linarith
  have hd : 0 < v - t := by linarith
  have hv0 : 0 < v := by linarith
  have hx1 : ∀ r : ℝ, (r - -v) / (v - -v) ≤ (v - t) / (4 * v) ↔ r ≤ -(v + t) / 2 := by
    intro r
    rw [div_le_div_iff₀ (by linarith) (by linarith)]
    constructor
    · intro h; by_contra hc; push Not at hc; nlinarith
    · intro h; nlinarith
  have hx2 : ∀ r : ℝ, (r - -v) / (v - -v) ≤ (v - t) / (2 * v) ↔ r ≤ -t := by
    intro r
    rw [show v - -v = 2 * v by ring, div_le_div_iff_of_pos_right (by linarith)]
    constructor <;> intro h <;> linarith
  have hx3 : ∀ r : ℝ, (r - -v) / (v - -v) ≤ (v + t) / (2 * v) ↔ r ≤ t := by
    intro r
    rw [show v - -v = 2 * v by ring, div_le_div_iff_of_pos_right (by linarith)]
    constructor <;> intro h <;> linarith
  have hx4 : ∀ r : ℝ, (r - -v) / (v - -v) ≤ 1 ↔ r ≤ v := by
    intro r
    rw [div_le_one (by linarith)]
    constructor <;> intro h <;> linarith
  have n1 : (0:ℝ) ≠ (v - t) / (4 * v) := (div_pos hd (by linarith)).ne
  have n2 : (v - t) / (4 * v) ≠ (v - t) / (2 * v) := by
    intro h
    rw [div_eq_div_iff (by linarith) (by linarith)] at h
    nlinarith
  have n3 : (v - t) / (2 * v) ≠ (v + t) / (2 * v) := by
    intro h
    rw [div_left_inj' (by linarith)] at h
    linarith
  have n4 : (v + t) / (2 * v) ≠ 1 := by
    intro h
    rw [div_eq_one_iff_eq (by linarith)] at h
    linarith
  -- the five formulas inside the limits
  have low : r ≤ -v → heatColour v [(0, cmapBlue), ((v - t) / (4 * v), cmapPurple), ((v - t) / (2 * v), cmapNeutral),
      ((v + t) / (2 * v), cmapNeutral), (1, cmapRed)] r = cmapBlue := by
    intro hr
    unfold heatColour
    rw [if_pos hr]; rfl
  have high : v ≤ r → heatColour v [(0, cmapBlue), ((v - t) / (4 * v), cmapPurple), ((v - t) / (2 * v), cmapNeutral),
      ((v + t) / (2 * v), cmapNeutral), (1, cmapRed)] r = cmapRed := by
    intro hr
    unfold heatColour
    rw [if_neg (by linarith), if_pos hr]; rfl
  refine ⟨low, ?_, ?_, ?_, ?_, high⟩
  · intro h1 h2
    rcases h1.eq_or_lt with rfl | h1
    · rw [low le_rfl]
      funext k; simp [Spec.mix]
    unfold heatColour
    rw [if_neg (by linarith), if_neg (by linarith), segmentColour, if_pos ((hx1 r).2 h2), if_neg n1]
    funext k
    simp only [Spec.mix, Pi.add_apply, Pi.smul_apply, Pi.sub_apply, smul_eq_mul]
    have : ((r - -v) / (v - -v) - 0) / ((v - t) / (4 * v) - 0) = (r + v) / ((v - t) / 2) := by
      rw [sub_zero, sub_zero]; field_simp; ring
    rw [this]; ring
  · intro h1 h2
    rcases h1.eq_or_lt with h1 | h1
    · have hr1 : (r - -v) / (v - -v) ≤ (v - t) / (4 * v) := (hx1 r).2 h1.ge
      unfold heatColour
      rw [if_neg (by linarith), if_neg (by linarith), segmentColour, if_pos hr1, if_neg n1]
      funext k
      simp only [Spec.mix, Pi.add_apply, Pi.smul_apply, Pi.sub_apply, smul_eq_mul]
      have e1 : ((r - -v) / (v - -v) - 0) / ((v - t) / (4 * v) - 0) = 1 := by
        rw [← h1, sub_zero, sub_zero]; field_simp; ring
      have e2 : (-t - r) / ((v - t) / 2) = 1 := by
        rw [← h1]; field_simp; ring
      rw [e1, e2]; ring
    unfold heatColour
    rw [if_neg (by linarith), if_neg (by linarith), segmentColour,
      if_neg (by rw [hx1]; exact not_le.2 h1), segmentColour, if_pos ((hx2 r).2 h2), if_neg n2]
    funext k
    simp only [Spec.mix, Pi.add_apply, Pi.smul_apply, Pi.sub_apply, smul_eq_mul]
    have : ((r - -v) / (v - -v) - (v - t) / (4 * v)) / ((v - t) / (2 * v) - (v - t) / (4 * v)) =
        1 - (-t - r) / ((v - t) / 2) := by
      field_simp; ring
    rw [this]; ring
  · intro habs
    obtain ⟨h1, h2⟩ := abs_le.1 habs
    rcases h1.eq_or_lt with h1 | h1
    · have hr2 : (r - -v) / (v - -v) ≤ (v - t) / (2 * v) := (hx2 r).2 h1.ge
      unfold heatColour
      rw [if_neg (by linarith), if_neg (by linarith), segmentColour,
        if_neg (by rw [hx1]; linarith), segmentColour, if_pos hr2, if_neg n2]
      funext k
      simp only [Pi.add_apply, Pi.smul_apply, Pi.sub_apply, smul_eq_mul]
      have e1 : ((r - -v) / (v - -v) - (v - t) / (4 * v)) / ((v - t) / (2 * v) - (v - t) / (4 * v)) = 1 := by
        rw [← h1]; field_simp; ring
      rw [e1]; ring
    unfold heatColour
    rw [if_neg (by linarith), if_neg (by linarith), segmentColour,
      if_neg (by rw [hx1]; linarith), segmentColour, if_neg (by rw [hx2]; exact not_le.2 h1), segmentColour,
      if_pos ((hx3 r).2 h2), if_neg n3]
    simp
  · intro h1 h2
    rcases h2.eq_or_lt with rfl | h2
    · rw [high le_rfl, div_self hd.ne']
      funext k; simp [Spec.mix]
    rcases h1.eq_or_lt with h1 | h1
    · unfold heatColour
      rw [if_neg (by linarith), if_neg (by linarith), segmentColour,
        if_neg (by rw [hx1]; linarith), segmentColour, if_neg (by rw [hx2]; linarith), segmentColour,
        if_pos ((hx3 r).2 h1.ge), if_neg n3]
      funext k
      rw [← h1]
      simp [Spec.mix]
    unfold heatColour
    rw [if_neg (by linarith), if_neg (by linarith), segmentColour,
      if_neg (by rw [hx1]; linarith), segmentColour, if_neg (by rw [hx2]; linarith), segmentColour,
      if_neg (by rw [hx3]; exact not_le.2 h1), segmentColour, if_pos ((hx4 r).2 h2.le), if_neg n4]
    funext k
    simp only [Spec.mix, Pi.add_apply, Pi.smul_apply, Pi.sub_apply, smul_eq_mul]
    have : ((r - -v) / (v - -v) - (v + t) / (2 * v)) / (1 - (v + t) / (2 * v)) = (r - t) / (v - t) := by
      have e : 1 - (v + t) / (2 * v) = (v - t) / (2 * v) := by field_simp; ring
      rw [e]
      field_simp; ring
    rw [this]; ring

/-- **C183**, what holds: the colour of every residual, for a limit above 2.5. -/
theorem C183_colours_partial {v : ℝ} {l : List (ℝ × Colour)} (h : customCmap v = .ok l) (hv : 2.5 < v) (r : ℝ) :
    (r ≤ -v → heatColour v l r = cmapBlue) ∧
    (-v ≤ r → r ≤ -(v + 2.5) / 2 → heatColour v l r = Spec.mix cmapBlue cmapPurple ((r + v) / ((v - 2.5) / 2))) ∧
    (-(v + 2.5) / 2 ≤ r → r ≤ -2.5 → heatColour v l r = Spec.mix cmapNeutral cmapPurple ((-2.5 - r) / ((v - 2.5) / 2))) ∧
    (|r| ≤ 2.5 → heatColour v l r = cmapNeutral) ∧
    (2.5 ≤ r → r ≤ v → heatColour v l r = Spec.mix cmapNeutral cmapRed ((r - 2.5) / (v - 2.5))) ∧
    (v ≤ r → heatColour v l r = cmapRed) :=
  heatColour_zones (by norm_num) hv r (customCmap_eq h).2

/-- **C183**, what holds: the neutral colour means that the absolute residual is at most 2.5. -/
theorem C183_neutral_partial {v : ℝ} {l : List (ℝ × Colour)} (h : customCmap v = .ok l) (hv : 2.5 < v) (r : ℝ) :
    heatColour v l r = cmapNeutral ↔ |r| ≤ 2.5 := by
  obtain ⟨h1, h2, h3, h4, h5, h6⟩ := C183_colours_partial h hv r
  have hd : 0 < v - 2.5 := by linarith
  refine ⟨fun he => ?_, h4⟩
  by_contra hr
  rw [abs_le, not_and_or, not_le, not_le] at hr
  have hc : ∀ c : Colour, heatColour v l r = c → c 0 = 247 := fun c hc => by rw [← hc, he]; simp [cmapNeutral]
  rcases hr with hr | hr
  · rcases le_total r (-v) with ha | ha
    · have := hc _ (h1 ha)
      simp [cmapBlue] at this
    rcases le_total r (-(v + 2.5) / 2) with hb | hb
    · have := hc _ (h2 ha hb)
      simp only [Spec.mix, cmapBlue, cmapPurple, Matrix.cons_val_zero] at this
      have ht : (r + v) / ((v - 2.5) / 2) ≤ 1 := by
        rw [div_le_one (by linarith)]; norm_num at hb ⊢; linarith
      linarith
    · have := hc _ (h3 hb hr.le)
      simp only [Spec.mix, cmapNeutral, cmapPurple, Matrix.cons_val_zero] at this
      have ht : 0 < (-2.5 - r) / ((v - 2.5) / 2) := div_pos (by linarith) (by linarith)
      linarith
  · rcases le_total v r with ha | ha
    · have := hc _ (h6 ha)
      simp [cmapRed] at this
    · have := hc _ (h5 hr.le ha)
      simp only [Spec.mix, cmapNeutral, cmapRed, Matrix.cons_val_zero] at this
      have ht : 0 < (r - 2.5) / (v - 2.5) := div_pos (by linarith) hd
      linarith

/-- **C183**, full statement: with the custom colours, the cells that are drawn in a colour other than the neutral one are
those that DDC flags (absolute residual above its cutoff, ddc.py 170). -/
def C183_statement : Prop :=
  ∀ (cutoff v r : ℝ) (l : List (ℝ × Colour)), 0 < cutoff → cutoff < v → 2.5 < v → customCmap v = .ok l →
    (heatColour v l r ≠ cmapNeutral ↔ cutoff < |r|)

/-- For every cutoff other than 2.5 some flagged cell is drawn in the neutral colour or the other way round. -/
theorem C183_other_cutoff {cutoff v : ℝ} (h0 : 0 < cutoff) (hne : cutoff ≠ 2.5) {l : List (ℝ × Colour)} (h : customCmap v = .ok l)
    (hv : 2.5 < v) : ∃ r, ¬(heatColour v l r ≠ cmapNeutral ↔ cutoff < |r|) := by
  refine ⟨(cutoff + 2.5) / 2, ?_⟩
  have hpos : 0 < (cutoff + 2.5) / 2 := by norm_num; linarith
  rw [ne_eq, C183_neutral_partial h hv, abs_of_pos hpos, not_le]
  intro hiff
  rcases lt_or_gt_of_ne hne with hlt | hgt
  · have := hiff.2 (by linarith)
    linarith
  · have := hiff.1 (by linarith)
    linarith

/-- **C183** is violated: e.g. for a cutoff of 2. -/
theorem C183_violated : ¬ C183_statement := by
  intro h
  obtain ⟨l, hl⟩ := (C184_cmap_partial 3).2 (by norm_num)
  obtain ⟨r, hr⟩ := C183_other_cutoff (cutoff := 2) (by norm_num) (by norm_num) hl (by norm_num)
  exact hr (h 2 3 r l (by norm_num) (by norm_num) (by norm_num) hl)

/-- The hypotheses of the C183 theorems for the limit 3. -/
example : ∃ l, customCmap 3 = .ok l ∧ heatColour 3 l 2.75 = Spec.mix cmapNeutral cmapRed (1 / 2) := by
  obtain ⟨l, hl⟩ := (C184_cmap_partial 3).2 (by norm_num)
  refine ⟨l, hl, ?_⟩
  rw [(C183_colours_partial hl (by norm_num) 2.75).2.2.2.2.1 (by norm_num) (by norm_num)]
  norm_num

/-- **C184**, full statement: the cell map of a fitted model can be drawn for every positive limit of the colours, every
non-empty frame of the fitted shape and every zoom by positions. -/
def C184_statement : Prop :=
  ∀ (X : LFrame ℕ ℕ ℝ) (res : List (List (Option ℝ))) (rowZoom colZoom : Zoom ℕ) (figHeight vmax : ℝ) (annotate : Bool), 0 < vmax →
    0 < figHeight → Spec.frameShape X → Spec.frameShape (⟨X.index, X.columns, res⟩ : LFrame ℕ ℕ (Option ℝ)) → X.index ≠ [] →
    (∀ l, rowZoom ≠ .labels l) → (∀ l, colZoom ≠ .labels l) →
    ∃ m, cellmap ⟨some true, some res⟩ X none annotate figHeight rowZoom colZoom vmax true = .ok m

/-- **C184** is violated: for a limit of 2. -/
theorem C184_violated : ¬ C184_statement := by
  intro h
  obtain ⟨m, hm⟩ := h ⟨[0], [0], [[1]]⟩ [[some 1]] .all .all 10 2 false (by norm_num) (by norm_num)
    ⟨rfl, by simp⟩ ⟨rfl, by simp⟩ (by simp) (by simp) (by simp)
  obtain ⟨l, hl, -⟩ := (cellmap_steps hm).2.choose_spec.choose_spec.choose_spec.choose_spec.2.2.2.2.2.2.2.2.2 rfl
  have := (C184_cmap_partial 2).1 ⟨l, hl⟩
  norm_num at this

/-- **C184**, what holds: the call succeeds exactly when the model is fitted, the limit is at least 2.5 (or the colours are those
of the caller), the residuals have the shape of the frame, the labels of a zoom exist and some row is selected. -/
theorem C184_iff_partial (st : CellMapState) (X : LFrame R C V) (residuals : Option (List (List (Option ℝ)))) (annotate : Bool)
    (figHeight : ℝ) (rowZoom : Zoom R) (colZoom : Zoom C) (vmax : ℝ) (custom : Bool) (hX : Spec.frameShape X) :
    (∃ m, cellmap st X residuals annotate figHeight rowZoom colZoom vmax custom = .ok m) ↔
      st.isFitted = some true ∧ (custom = true → 2.5 ≤ vmax) ∧
      (∃ res, (residuals = some res ∨ residuals = none ∧ st.stdResiduals = some res) ∧
        Spec.frameShape (⟨X.index, X.columns, res⟩ : LFrame R C (Option ℝ))) ∧
      (∃ pos, rowZoom.positions X.index = .ok pos ∧ pos ≠ []) ∧ ∃ pos, colZoom.positions X.columns = .ok pos := by
  constructor
  · rintro ⟨m, h⟩
    obtain ⟨hf, res, P1, A1, A2, hres, hshape, h3, h4, h5, h6, hann, -, hlen, hcm⟩ := cellmap_steps h
    obtain ⟨pos, q1, q2, q3, q4, q5, q6⟩ := zoomRows_spec hshape h3
    obtain ⟨cos, s1, s2, s3, s4, s5, s6⟩ := zoomCols_spec q5 h5
    refine ⟨hf, fun hc => ?_, ⟨res, ?_, hshape⟩, ⟨pos, q1, ?_⟩, cos, by rw [q4] at s1; exact s1⟩
    · obtain ⟨l, hl, -⟩ := hcm hc
      exact (C184_cmap_partial vmax).1 ⟨l, hl⟩
    · unfold cellmapResiduals at hres
      rcases residuals with _ | r
      · rcases hs : st.stdResiduals with _ | r
        · rw [hs] at hres; cases hres
        · rw [hs] at hres
          exact .inr ⟨rfl, by rw [Except.ok.inj hres]⟩
      · exact .inl (by rw [Except.ok.inj hres])
    · rintro rfl
      rw [s4, q3] at hlen
      exact hlen rfl
  · rintro ⟨hf, hc, ⟨res, hres, hshape⟩, ⟨pos, hpos, hne⟩, cos, hcos⟩
    have hr : cellmapResiduals st residuals = .ok res := by
      unfold cellmapResiduals
      rcases hres with rfl | ⟨rfl, hs⟩
      · rfl
      · rw [hs]
    obtain ⟨cm, hcm⟩ : ∃ cm, (if custom then (customCmap vmax).map some else .ok none : Except PyErr (Option (List (ℝ × Colour)))) = .ok cm := by
      cases custom
      · exact ⟨none, rfl⟩
      · obtain ⟨l, hl⟩ := (C184_cmap_partial vmax).2 (hc rfl)
        exact ⟨some l, by simp [hl, Except.map]⟩
    have hlen : (takeAt X.index pos).length ≠ 0 := by
      rw [takeAt_length _ _ (positions_lt hpos)]
      exact fun h0 => hne (List.length_eq_zero_iff.1 h0)
    unfold cellmap
    rw [hf]
    simp only
    rw [hcm, hr]
    simp only [Except.bind]
    unfold LFrame.make
    rw [if_pos (show res.length = X.index.length ∧ ∀ r ∈ res, r.length = X.columns.length from hshape)]
    simp only [LFrame.zoomRows, hpos, Except.map, LFrame.zoomCols, hcos, cellmapLinewidth, if_neg hlen]
    exact ⟨_, rfl⟩

/-- A zoom to no rows raises ZeroDivisionError. -/
theorem C184_empty_zoom : cellmap (V := ℝ) ⟨some true, some [[some 1]]⟩ (⟨[0], [0], [[1]]⟩ : LFrame ℕ ℕ ℝ) none false 10 (.slice 1 1) .all 3 true =
    .error .zeroDivisionError := by
  obtain ⟨l, hl⟩ := (C184_cmap_partial 3).2 (by norm_num)
  unfold cellmap
  simp [hl, Except.map, Except.bind, cellmapResiduals, LFrame.make, LFrame.zoomRows, LFrame.zoomCols, Zoom.positions, takeAt,
    cellmapLinewidth, sliceBound]

/-- The hypotheses of `C182_aligned` and `C182_zoom`: two rows, two columns, zoom by labels and by positions. -/
example : ∃ m, cellmap ⟨some true, some [[some 1, none], [some 3, some (-4)]]⟩
    (⟨["a", "b"], ["x", "y"], [[10, 20], [30, 40]]⟩ : LFrame String String ℝ) none true 10 (.labels ["b", "a"]) (.slice 1 2) 3 true = .ok m :=
  (C184_iff_partial _ _ _ _ _ _ _ _ _ ⟨rfl, by simp⟩).2 ⟨rfl, by norm_num, ⟨_, .inr ⟨rfl, rfl⟩, rfl, by simp⟩,
    ⟨[1, 0], by simp [Zoom.positions, List.range_succ], by simp⟩, _, rfl⟩

end

end Robpy
