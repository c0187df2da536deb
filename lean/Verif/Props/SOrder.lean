import Verif.Props.SEquiv

/-! C192: the order of the rows and S-regression. -/

namespace Robpy
variable {k : ℕ}

theorem wssr_perm {D D' : List ((Fin k → ℝ) × ℝ × ℝ)} (h : D'.Perm D) (m : Fin k → ℝ) : wssr D' m = wssr D m :=
  (h.map _).sum_eq

theorem WLSReg.fit_perm (W : WLSReg) {D D' : List ((Fin k → ℝ) × ℝ × ℝ)} (h : D'.Perm D) (hw : ∀ d ∈ D, 0 ≤ d.2.2) :
    W.fit D' = W.fit D := by
  refine W.fit_unique (fun d hd => hw d (h.mem_iff.1 hd)) ?_ ?_
  · intro m
    rw [wssr_perm h, wssr_perm h]
    exact W.isMin D hw m
  · intro m hm
    rw [wssr_perm h, wssr_perm h] at hm
    exact W.minNorm D hw m hm

theorem sScaleStep_perm (R : Rho ℝ) (b : ℝ) {res res' : List ℝ} (h : res'.Perm res) (s : ℝ) :
    sScaleStep R b res' s = sScaleStep R b res s := by
  unfold sScaleStep sRhoMean
  rw [(h.map fun r => R.rho (r / s)).sum_eq, h.length_eq]

theorem sGetScale_perm (R : Rho ℝ) (b tol : ℝ) {res res' : List ℝ} (h : res'.Perm res) (j : ℕ) (s : ℝ) :
    sGetScale R b tol res' j s = sGetScale R b tol res j s := by
  induction j generalizing s with
  | zero => rfl
  | succ j ih =>
    unfold sGetScale
    rw [sScaleStep_perm R b h]
    rcases sScaleStep R b res s with _ | s'
    · rfl
    · simp only
      rw [ih]

theorem sInitialScale_perm {res res' : List ℝ} (h : res'.Perm res) : sInitialScale res' = sInitialScale res := by
  unfold sInitialScale
  rw [npMedian_perm (h.map _)]

theorem sWeighted_sRes (D : List ((Fin k → ℝ) × ℝ)) (beta : Fin k → ℝ) (w : ℝ → ℝ) :
    sWeighted D ((sRes D beta).map w) = D.map fun d => (d.1, d.2, w (dotRow d.1 beta - d.2)) := by
  unfold sWeighted sRes
  induction D with
  | nil => rfl
  | cons d D ih => simp only [List.map_cons, List.zipWith_cons_cons, ih]

/-- An i-step does not depend on the order of the rows. -/
theorem sIStep_perm (W : WLSReg) (cfg : SConfig) (hc : 0 < cfg.rho.const) {D D' : List ((Fin k → ℝ) × ℝ)} (h : D'.Perm D)
    (beta : Fin k → ℝ) : sIStep W cfg D' (sRes D' beta) = sIStep W cfg D (sRes D beta) := by
  have hr : (sRes D' beta).Perm (sRes D beta) := h.map _
  unfold sIStep
  rw [sInitialScale_perm hr, sGetScale_perm _ _ _ hr]
  rcases hs : sGetScale cfg.rho cfg.b cfg.scaleTolerance (sRes D beta) cfg.maxScaleIterations (sInitialScale (sRes D beta)) with
    e | (_ | s)
  · rfl
  · rfl
  · simp only
    rw [sWeighted_sRes, sWeighted_sRes, W.fit_perm (h.map _)]
    intro d hd
    obtain ⟨d', -, rfl⟩ := List.mem_map.1 hd
    exact sWeight_nonneg hc (sGetScale_nonneg _ _ _ _ _ (sInitialScale_nonneg _) hs) _

/-- **C192**: S-regression depends on the order of the rows through its draws only: if every start draws the same observations the result
is the same, also when the search raises or does not end, for every setting and without any condition on ties. -/
theorem C192_order (W : WLSReg) (srt : ArgSort ℝ) (ch ch' : Choice ℕ) (cfg : SConfig) (hc : 0 < cfg.rho.const)
    (D D' : List ((Fin k → ℝ) × ℝ)) (h : D'.Perm D)
    (hdraw : ∀ i < cfg.nInitialSubsets, (takeAt D' (ch'.pick (cfg.randomState + i) D'.length (k + 1))).Perm
      (takeAt D (ch.pick (cfg.randomState + i) D.length (k + 1)))) (fuel : ℕ) :
    sSearch W srt ch' cfg D' fuel = sSearch W srt ch cfg D fuel := by
  have := sSearch_sim W srt ch ch' cfg D D' id h.length_eq
    (fun beta => by
      rw [id, sIStep_perm W cfg hc h]
      rcases sIStep W cfg D (sRes D beta) with e | c <;> rfl)
    (fun beta => by
      rw [sIStep_neg, sIStep_neg, id, sIStep_perm W cfg hc h]
      rcases sIStep W cfg D (sRes D beta) with e | c <;> rfl)
    (fun i hi _ => by
      rw [id, ← h.length_eq (l₁ := D')]
      refine W.fit_perm ?_ ?_
      · have := hdraw i hi
        rw [← h.length_eq] at this
        exact this.map _
      · intro d hd
        obtain ⟨d', -, rfl⟩ := List.mem_map.1 hd
        exact zero_le_one)
    (fun beta => sInitialScale_perm (h.map _)) (fun _ _ => rfl) fuel
  rw [this]
  rcases sSearch W srt ch cfg D fuel with _ | (e | c) <;> rfl

theorem perm_positions {α : Type} {D' D : List α} (h : D'.Perm D) : ∃ π : ℕ → ℕ, Function.Injective π ∧ ∀ i, D'[π i]? = D[i]? := by
  induction h with
  | nil => exact ⟨id, Function.injective_id, fun _ => rfl⟩
  | cons a _ ih =>
    obtain ⟨π, h1, h2⟩ := ih
    refine ⟨fun i => match i with | 0 => 0 | i + 1 => π i + 1, ?_, ?_⟩
    · intro i j hij
      rcases i with _ | i <;> rcases j with _ | j <;> simp at hij ⊢
      exact h1 hij
    · intro i
      rcases i with _ | i
      · rfl
      · simpa using h2 i
  | swap a b l =>
    refine ⟨fun i => match i with | 0 => 1 | 1 => 0 | i + 2 => i + 2, ?_, ?_⟩
    · intro i j hij
      rcases i with _ | _ | i <;> rcases j with _ | _ | j <;> simp at hij ⊢
      exact hij
    · intro i
      rcases i with _ | _ | i <;> rfl
  | trans _ _ ih1 ih2 =>
    obtain ⟨π1, h1, h1'⟩ := ih1
    obtain ⟨π2, h2, h2'⟩ := ih2
    exact ⟨fun i => π1 (π2 i), h1.comp h2, fun i => (h1' _).trans (h2' i)⟩

/-- For every reordering there are draws that meet the hypothesis of C192. -/
theorem corresponding_draws {α : Type} (ch : Choice ℕ) {D D' : List α} (h : D'.Perm D) :
    ∃ ch' : Choice ℕ, ∀ seed m, takeAt D' (ch'.pick seed D'.length m) = takeAt D (ch.pick seed D.length m) := by
  obtain ⟨π, hinj, hπ⟩ := perm_positions h
  refine ⟨⟨fun s n m => if n = D'.length then (ch.pick s n m).map π else ch.pick s n m, ?_, ?_, ?_⟩, ?_⟩
  · intro s n m hm
    split_ifs
    · rw [List.length_map, ch.length s n m hm]
    · exact ch.length s n m hm
  · intro s n m hm
    split_ifs
    · exact (ch.nodup s n m hm).map hinj
    · exact ch.nodup s n m hm
  · intro s n m hm i hi
    split_ifs at hi with hn
    · obtain ⟨j, hj, rfl⟩ := List.mem_map.1 hi
      have hlt := ch.lt s n m hm j hj
      rw [hn] at hlt ⊢
      rw [h.length_eq] at hlt
      by_contra hge
      have := hπ j
      rw [List.getElem?_eq_none (not_lt.1 hge), List.getElem?_eq_getElem hlt] at this
      simp at this
    · exact ch.lt s n m hm i hi
  · intro s m
    simp only [if_true]
    rw [h.length_eq]
    unfold takeAt
    rw [List.filterMap_map]
    congr 1
    funext i
    exact hπ i

/-- C192 for the default settings and the reversed sample. -/
example (W : WLSReg) (srt : ArgSort ℝ) (ch : Choice ℕ) (fuel : ℕ) : ∃ ch' : Choice ℕ,
    sSearch W srt ch' sDefault [((![1, 5] : Fin 2 → ℝ), (2 : ℝ)), (![1, 0], 7), (![1, 3], 1), (![1, 4], 4)] fuel =
      sSearch W srt ch sDefault [(![1, 4], 4), (![1, 3], 1), (![1, 0], 7), (![1, 5], 2)] fuel := by
  have hp : [((![1, 5] : Fin 2 → ℝ), (2 : ℝ)), (![1, 0], 7), (![1, 3], 1), (![1, 4], 4)].Perm
      [(![1, 4], 4), (![1, 3], 1), (![1, 0], 7), (![1, 5], 2)] := List.reverse_perm [(![1, 4], 4), (![1, 3], 1), (![1, 0], 7), (![1, 5], 2)]
  obtain ⟨ch', hch⟩ := corresponding_draws ch hp
  exact ⟨ch', C192_order W srt ch ch' sDefault (by norm_num [sDefault, Rho.const]) _ _ hp (fun i _ => by rw [hch]) fuel⟩

end Robpy
