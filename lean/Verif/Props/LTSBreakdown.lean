import Verif.Props.OGKBreakdown
import Verif.Props.LTSReweight

/-! C171: FastLTS under contamination. -/

namespace Robpy
open Matrix

/-- Intercept and slopes are at most `K` in absolute value. -/
def Spec.coefBounded {p : ℕ} (K : ℝ) (m : LinModel p) : Prop := |m.intercept| ≤ K ∧ ∀ j, |m.coef j| ≤ K

/-- What is asked of the numbers of observations and of the draws: the subset size is at most the number of good
observations, every subset of this size has more than `p` good ones among them, and one of the initial draws consists of good
observations only. -/
def Spec.ltsSetting {p : ℕ} (ch : Choice ℕ) (cfg : LTSConfig) (X O G : List ((Fin p → ℝ) × ℝ)) : Prop :=
  X.Perm (O ++ G) ∧ (∀ h, ltsH cfg.alpha X.length p = .ok h → h ≤ G.length ∧ O.length + p + 1 ≤ h) ∧
    ∃ i < cfg.nInitialSubsets, (takeAt X (ch.pick (cfg.randomState + i) X.length (p + 1))).Subperm G

/-- Full statement: the coefficients FastLTS reports are bounded by a number which depends on the good observations
only. -/
def C171_statement : Prop :=
  ∀ (p : ℕ) (LR : LinReg p) (q : ℝ) (corr corrRew : ℕ → ℕ → ℝ → Option ℝ) (G : List ((Fin p → ℝ) × ℝ)),
    2 ≤ q → Spec.RowsInGeneralPosition (G.map Prod.fst) → ∃ K : ℝ, ∀ (srt : ArgSort ℝ) (ch : Choice ℕ) (cfg : LTSConfig)
      (X O : List ((Fin p → ℝ) × ℝ)) (st st' : LTSState p) (fuel : ℕ), Spec.ltsSetting ch cfg X O G →
      ltsFit LR srt ch q corr corrRew cfg st X none fuel = some (.ok (), st') →
      ∃ m, st'.model = some m ∧ Spec.coefBounded K m

section
variable {p : ℕ}

theorem resid_dot (m : LinModel p) (d : (Fin p → ℝ) × ℝ) : resid m d = d.2 - (m.intercept + d.1 ⬝ᵥ m.coef) := rfl

/-- A bound for targets and features. -/
theorem obs_bounded (G : List ((Fin p → ℝ) × ℝ)) : ∃ A > 0, ∀ d ∈ G, |d.2| ≤ A ∧ d.1 ⬝ᵥ d.1 ≤ A ^ 2 := by
  obtain ⟨R, hR, h⟩ := rows_bounded (G.map Prod.fst)
  have hs : ∀ d ∈ G, |d.2| ≤ (G.map fun d => |d.2|).sum := fun d hd => List.single_le_sum (by
    intro z hz
    obtain ⟨y, -, rfl⟩ := List.mem_map.1 hz
    exact abs_nonneg _) _ (List.mem_map.2 ⟨d, hd, rfl⟩)
  have h0 : 0 ≤ (G.map fun d => |d.2|).sum := List.sum_nonneg (by
    intro z hz
    obtain ⟨y, -, rfl⟩ := List.mem_map.1 hz
    exact abs_nonneg _)
  refine ⟨R + (G.map fun d => |d.2|).sum, by linarith, fun d hd => ⟨(hs d hd).trans (by linarith), ?_⟩⟩
  refine (h d.1 (List.mem_map.2 ⟨d, hd, rfl⟩)).trans ?_
  exact pow_le_pow_left₀ hR.le (by linarith) 2

/-- A model which leaves small residuals at more than `p` good observations is bounded. -/
theorem model_bounded {G : List ((Fin p → ℝ) × ℝ)} (hG : Spec.RowsInGeneralPosition (G.map Prod.fst)) (r : ℝ) :
    ∃ K, 0 ≤ K ∧ ∀ m : LinModel p, p + 1 ≤ G.countP (fun d => decide (|resid m d| ≤ r)) →
      |m.intercept| ≤ K ∧ m.coef ⬝ᵥ m.coef ≤ K ^ 2 := by
  obtain ⟨δ, hδ, hs⟩ := slab_bound hG
  obtain ⟨A, hA, hb⟩ := obs_bounded G
  set ρ := (|r| + A + 1) / δ with hρ
  have hρ0 : 0 < ρ := by positivity
  refine ⟨ρ + (|r| + A + A * ρ), by positivity, fun m hm => ?_⟩
  have h1 : m.coef ⬝ᵥ m.coef ≤ ρ ^ 2 := by
    by_contra hcon
    push Not at hcon
    set nb := Real.sqrt (m.coef ⬝ᵥ m.coef) with hnb
    have hpos : 0 < m.coef ⬝ᵥ m.coef := lt_of_le_of_lt (sq_nonneg ρ) hcon
    have hnb0 : 0 < nb := Real.sqrt_pos.2 hpos
    have hlt : ρ < nb := Real.lt_sqrt_of_sq_lt hcon
    have hu : (nb⁻¹ • m.coef) ⬝ᵥ (nb⁻¹ • m.coef) = 1 := by
      rw [smul_dotProduct, dotProduct_smul, smul_eq_mul, smul_eq_mul, ← Real.mul_self_sqrt hpos.le, ← hnb]
      field_simp
    have := hs (nb⁻¹ • m.coef) (-(m.intercept / nb)) hu
    rw [List.countP_map] at this
    have hle : G.countP (fun d => decide (|resid m d| ≤ r)) ≤
        G.countP ((fun x => decide (|x ⬝ᵥ (nb⁻¹ • m.coef) - -(m.intercept / nb)| < δ)) ∘ Prod.fst) := by
      refine List.countP_mono_left fun d hd hdr => ?_
      simp only [Function.comp, decide_eq_true_eq] at hdr ⊢
      have e : d.1 ⬝ᵥ (nb⁻¹ • m.coef) - -(m.intercept / nb) = (m.intercept + d.1 ⬝ᵥ m.coef) / nb := by
        rw [dotProduct_smul, smul_eq_mul]; field_simp; ring
      rw [e, abs_div, abs_of_pos hnb0, div_lt_iff₀ hnb0]
      rw [resid_dot] at hdr
      have h2 := (hb d hd).1
      have h3 : |m.intercept + d.1 ⬝ᵥ m.coef| ≤ |r| + A := by
        have h4 := abs_le.1 hdr
        have h5 := abs_le.1 h2
        have h6 := le_abs_self r
        rw [abs_le]; constructor <;> linarith [h4.1, h4.2]
      have h7 : |r| + A + 1 = ρ * δ := by rw [hρ]; field_simp
      nlinarith
    omega
  obtain ⟨d, hd, hdr⟩ : ∃ d ∈ G, |resid m d| ≤ r := by
    have : 0 < G.countP (fun d => decide (|resid m d| ≤ r)) := by omega
    obtain ⟨d, hd, h⟩ := List.countP_pos_iff.1 this
    exact ⟨d, hd, by simpa using h⟩
  constructor
  · have h2 := (hb d hd).2
    have h3 : |d.1 ⬝ᵥ m.coef| ≤ A * ρ := by
      refine abs_le_of_sq_le_sq ?_ (by positivity)
      calc (d.1 ⬝ᵥ m.coef) ^ 2 ≤ (d.1 ⬝ᵥ d.1) * (m.coef ⬝ᵥ m.coef) := dot_sq_le _ _
        _ ≤ A ^ 2 * ρ ^ 2 := mul_le_mul h2 h1 (dot_self_nonneg _) (sq_nonneg _)
        _ = (A * ρ) ^ 2 := by ring
    rw [resid_dot] at hdr
    have h4 := abs_le.1 hdr
    have h5 := abs_le.1 (hb d hd).1
    have h6 := abs_le.1 h3
    have h7 := le_abs_self r
    rw [abs_le]; constructor <;> linarith [h4.1, h4.2]
  · refine h1.trans (pow_le_pow_left₀ hρ0.le ?_ 2)
    have : 0 ≤ |r| + A + A * ρ := by positivity
    linarith

theorem coef_le_of_sq {K : ℝ} (hK : 0 ≤ K) {m : LinModel p} (h : m.coef ⬝ᵥ m.coef ≤ K ^ 2) (j : Fin p) : |m.coef j| ≤ K := by
  refine abs_le_of_sq_le_sq ?_ hK
  refine le_trans ?_ h
  rw [pow_two]
  exact Finset.single_le_sum (f := fun j => m.coef j * m.coef j) (fun j _ => mul_self_nonneg _) (Finset.mem_univ j)

/-- Residuals of a bounded model at the good observations. -/
theorem resid_bounded {G : List ((Fin p → ℝ) × ℝ)} {A K : ℝ} (hA : 0 < A) (hK : 0 ≤ K)
    (hb : ∀ d ∈ G, |d.2| ≤ A ∧ d.1 ⬝ᵥ d.1 ≤ A ^ 2) {m : LinModel p} (h1 : |m.intercept| ≤ K)
    (h2 : m.coef ⬝ᵥ m.coef ≤ K ^ 2) {d : (Fin p → ℝ) × ℝ} (hd : d ∈ G) : |resid m d| ≤ A + K + A * K := by
  have h3 : |d.1 ⬝ᵥ m.coef| ≤ A * K := by
    refine abs_le_of_sq_le_sq ?_ (by positivity)
    calc (d.1 ⬝ᵥ m.coef) ^ 2 ≤ (d.1 ⬝ᵥ d.1) * (m.coef ⬝ᵥ m.coef) := dot_sq_le _ _
      _ ≤ A ^ 2 * K ^ 2 := mul_le_mul (hb d hd).2 h2 (dot_self_nonneg _) (sq_nonneg _)
      _ = (A * K) ^ 2 := by ring
  rw [resid_dot]
  have h5 := abs_le.1 (hb d hd).1
  have h6 := abs_le.1 h3
  have h7 := abs_le.1 h1
  rw [abs_le]; constructor <;> linarith [h5.1, h5.2, h6.1, h6.2, h7.1, h7.2]

/-- The objective of a model whose residuals at the good observations are bounded. -/
theorem objective_le {X O G : List ((Fin p → ℝ) × ℝ)} (hX : X.Perm (O ++ G)) {h : ℕ} (hh : h ≤ G.length) {m : LinModel p} {r : ℝ}
    (hr : ∀ d ∈ G, |resid m d| ≤ r) : Spec.ltsObjective h X m ≤ r ^ 2 := by
  have hJ : ((G.take h).map fun d => resid m d ^ 2).length = h := by simp [hh]
  have h1 := sum_take_le_subperm (J := (G.take h).map fun d => resid m d ^ 2)
    (List.pairwise_insertionSort (· ≤ ·) (X.map fun d => resid m d ^ 2)) (by
      refine List.Subperm.trans (l₂ := X.map fun d => resid m d ^ 2) ?_ (List.perm_insertionSort _ _).symm.subperm
      obtain ⟨l, hp, hs⟩ := ((List.take_sublist h G).trans (List.sublist_append_right O G)).subperm.trans hX.symm.subperm
      exact ⟨l.map _, hp.map _, hs.map _⟩)
  rw [hJ] at h1
  have h2 : ((G.take h).map fun d => resid m d ^ 2).sum ≤ h * r ^ 2 := by
    have := List.sum_le_card_nsmul ((G.take h).map fun d => resid m d ^ 2) (r ^ 2) (by
      intro z hz
      obtain ⟨d, hd, rfl⟩ := List.mem_map.1 hz
      exact sq_le_sq' (abs_le.1 (hr d (List.mem_of_mem_take hd))).1 (abs_le.1 (hr d (List.mem_of_mem_take hd))).2)
    rwa [hJ, nsmul_eq_mul] at this
  unfold Spec.ltsObjective
  rcases Nat.eq_zero_or_pos h with rfl | hpos
  · simpa using sq_nonneg r
  · rw [div_le_iff₀ (by exact_mod_cast hpos), mul_comm]
    exact h1.trans h2

/-- A small objective means small residuals at more than `p` good observations. -/
theorem count_of_objective {X O G : List ((Fin p → ℝ) × ℝ)} (hX : X.Perm (O ++ G)) {h : ℕ} (hh : h ≤ G.length)
    (hO : O.length + p + 1 ≤ h) {m : LinModel p} {r : ℝ} (hr0 : 0 ≤ r) (hr : Spec.ltsObjective h X m ≤ r ^ 2) :
    p + 1 ≤ G.countP (fun d => decide (|resid m d| ≤ Real.sqrt (h * r ^ 2))) := by
  have hlen : X.length = O.length + G.length := by simpa using hX.length_eq
  have hpos : (0:ℝ) < h := by exact_mod_cast (by omega : 0 < h)
  unfold Spec.ltsObjective at hr
  rw [div_le_iff₀ hpos] at hr
  set L := (X.map fun d => (d.2 - (m.intercept + ∑ j, d.1 j * m.coef j)) ^ 2).insertionSort (· ≤ ·) with hL
  have hperm : L.Perm (X.map fun d => resid m d ^ 2) := List.perm_insertionSort _ _
  have hnn : ∀ z ∈ L.take h, 0 ≤ z := by
    intro z hz
    have := hperm.mem_iff.1 (List.mem_of_mem_take hz)
    obtain ⟨d, -, rfl⟩ := List.mem_map.1 this
    exact sq_nonneg _
  have h1 : (L.take h).countP (fun z => decide (z ≤ h * r ^ 2)) = h := by
    have : (L.take h).length = h := by rw [List.length_take, hperm.length_eq, List.length_map]; omega
    conv_rhs => rw [← this]
    refine List.countP_eq_length.2 fun z hz => ?_
    rw [decide_eq_true_eq]
    exact (List.single_le_sum hnn z hz).trans (by linarith)
  have h2 : h ≤ L.countP (fun z => decide (z ≤ h * r ^ 2)) := by
    conv_lhs => rw [← h1]
    exact (List.take_sublist _ _).countP_le
  rw [hperm.countP_eq, List.countP_map, hX.countP_eq, List.countP_append] at h2
  have h3 := List.countP_le_length (p := (fun z => decide (z ≤ (h:ℝ) * r ^ 2)) ∘ fun d => resid m d ^ 2) (l := O)
  have h4 : G.countP ((fun z => decide (z ≤ (h:ℝ) * r ^ 2)) ∘ fun d => resid m d ^ 2) ≤
      G.countP (fun d => decide (|resid m d| ≤ Real.sqrt (h * r ^ 2))) := by
    refine List.countP_mono_left fun d _ hd => ?_
    simp only [Function.comp, decide_eq_true_eq] at hd ⊢
    exact Real.abs_le_sqrt hd
  omega

/-- The model the search returns, from a start with bounded residuals at the good observations. -/
theorem search_from_start {G : List ((Fin p → ℝ) × ℝ)} (hG : Spec.RowsInGeneralPosition (G.map Prod.fst)) (r : ℝ) (hr0 : 0 ≤ r) :
    ∃ K, 0 ≤ K ∧ ∀ (X O : List ((Fin p → ℝ) × ℝ)) (h : ℕ) (m0 m : LinModel p), X.Perm (O ++ G) → h ≤ G.length →
      O.length + p + 1 ≤ h → (∀ d ∈ G, |resid m0 d| ≤ r) → Spec.ltsObjective h X m ≤ Spec.ltsObjective h X m0 →
      |m.intercept| ≤ K ∧ m.coef ⬝ᵥ m.coef ≤ K ^ 2 := by
  obtain ⟨K, hK, hb⟩ := model_bounded hG (Real.sqrt (G.length * r ^ 2))
  refine ⟨K, hK, ?_⟩
  intro X O h m0 m hX hh hO hm0 hobj
  refine hb m ((count_of_objective hX hh hO hr0 (hobj.trans (objective_le hX hh hm0))).trans ?_)
  refine List.countP_mono_left fun d _ hd => ?_
  simp only [decide_eq_true_eq] at hd ⊢
  refine hd.trans (Real.sqrt_le_sqrt (mul_le_mul_of_nonneg_right ?_ (sq_nonneg r)))
  exact_mod_cast hh

theorem C171_search_norm (LR : LinReg p) {G : List ((Fin p → ℝ) × ℝ)} (hG : Spec.RowsInGeneralPosition (G.map Prod.fst)) :
    ∃ K, 0 ≤ K ∧ ∀ (srt : ArgSort ℝ) (ch : Choice ℕ) (cfg : LTSConfig) (X O : List ((Fin p → ℝ) × ℝ)) (fuel : ℕ) (best : LTSCand p),
      Spec.ltsSetting ch cfg X O G → ltsSearch LR srt ch cfg X none fuel = some (.ok best) →
      |best.model.intercept| ≤ K ∧ best.model.coef ⬝ᵥ best.model.coef ≤ K ^ 2 := by
  -- the fit to a clean draw
  set B := (G.map fun d => d.2 ^ 2).sum with hB
  obtain ⟨K0, hK0, h0⟩ := model_bounded hG (Real.sqrt B)
  obtain ⟨A, hA, hA2⟩ := obs_bounded G
  obtain ⟨K, hK, h1⟩ := search_from_start hG (A + K0 + A * K0) (by positivity)
  refine ⟨K, hK, ?_⟩
  rintro srt ch cfg X O fuel best ⟨hX, hh, i, hi, hsub⟩ hb
  obtain ⟨h, e1, hobj⟩ := C51_each_start LR srt ch cfg X none fuel best hb i hi
  obtain ⟨hh1, hh2⟩ := hh h e1
  have hlen : X.length = O.length + G.length := by simpa using hX.length_eq
  set S := takeAt X (ch.pick (cfg.randomState + i) X.length (p + 1)) with hS
  have hSl : S.length = p + 1 := by
    rw [hS, takeAt_length _ _ (ch.lt _ _ _ (by omega)), ch.length _ _ _ (by omega)]
  have hSne : S ≠ [] := by rintro h0; rw [h0] at hSl; simp at hSl
  have hm0 := h0 (LR.fit S) (by
    have h2 : S.countP (fun d => decide (|resid (LR.fit S) d| ≤ Real.sqrt B)) = p + 1 := by
      rw [← hSl]
      refine List.countP_eq_length.2 fun d hd => ?_
      rw [decide_eq_true_eq]
      refine Real.abs_le_sqrt ?_
      have h3 : resid (LR.fit S) d ^ 2 ≤ ssr S (LR.fit S) := List.single_le_sum (by
        intro z hz
        obtain ⟨y, -, rfl⟩ := List.mem_map.1 hz
        exact sq_nonneg _) _ (List.mem_map.2 ⟨d, hd, rfl⟩)
      have h4 := LR.isMin S hSne ⟨0, 0⟩
      have h5 : ssr S ⟨0, 0⟩ = (S.map fun d => d.2 ^ 2).sum := by
        unfold ssr
        congr 1
        exact List.map_congr_left fun d _ => by simp [resid, LinModel.predict]
      have h6 : (S.map fun d => d.2 ^ 2).sum ≤ B := subperm_sum_le hsub _ fun d => sq_nonneg _
      linarith
    rw [← h2]
    exact hsub.countP_le _)
  refine h1 X O h (LR.fit S) best.model hX hh1 hh2 (fun d hd => ?_) hobj
  exact resid_bounded hA hK0 hA2 hm0.1 hm0.2 hd

/-- **C171**, the estimate before reweighting: whenever one of the draws is clean, the coefficients are bounded by a
number which depends on the good observations only. -/
theorem C171_search (LR : LinReg p) {G : List ((Fin p → ℝ) × ℝ)} (hG : Spec.RowsInGeneralPosition (G.map Prod.fst)) :
    ∃ K, ∀ (srt : ArgSort ℝ) (ch : Choice ℕ) (cfg : LTSConfig) (X O : List ((Fin p → ℝ) × ℝ)) (fuel : ℕ) (best : LTSCand p),
      Spec.ltsSetting ch cfg X O G → ltsSearch LR srt ch cfg X none fuel = some (.ok best) → Spec.coefBounded K best.model := by
  obtain ⟨K, hK, h⟩ := C171_search_norm LR hG
  exact ⟨K, fun srt ch cfg X O fuel best h1 h2 =>
    ⟨(h srt ch cfg X O fuel best h1 h2).1, coef_le_of_sq hK (h srt ch cfg X O fuel best h1 h2).2⟩⟩

/-- **C171** with initial weights, which replace the draws. -/
theorem C171_weights (LR : LinReg p) {G : List ((Fin p → ℝ) × ℝ)} (hG : Spec.RowsInGeneralPosition (G.map Prod.fst)) (m0 : LinModel p) :
    ∃ K, ∀ (srt : ArgSort ℝ) (ch : Choice ℕ) (cfg : LTSConfig) (X O : List ((Fin p → ℝ) × ℝ)) (fuel : ℕ) (best : LTSCand p),
      X.Perm (O ++ G) → (∀ h, ltsH cfg.alpha X.length p = .ok h → h ≤ G.length ∧ O.length + p + 1 ≤ h) →
      ltsSearch LR srt ch cfg X (some m0) fuel = some (.ok best) → Spec.coefBounded K best.model := by
  set r := (G.map fun d => |resid m0 d|).sum with hr
  have hnn : ∀ z ∈ G.map fun d => |resid m0 d|, 0 ≤ z := by
    intro z hz
    obtain ⟨y, -, rfl⟩ := List.mem_map.1 hz
    exact abs_nonneg _
  obtain ⟨K, hK, h1⟩ := search_from_start hG r (List.sum_nonneg hnn)
  refine ⟨K, ?_⟩
  intro srt ch cfg X O fuel best hX hh hb
  obtain ⟨h', cands, hs⟩ := ltsSearch_ok hb
  have hpos : 0 < cfg.nInitialSubsets := by
    obtain ⟨c, l, hc, -⟩ := hs.improve
    rcases Nat.eq_zero_or_pos cfg.nInitialSubsets with h0 | h0
    · have := hs.cands_eq
      rw [h0] at this
      have hc0 := (mapExcept_ok this).length_eq
      have : cands = [] := List.length_eq_zero_iff.1 (by simpa using hc0.symm)
      have hm : c ∈ cands := mem_takeAt (by rw [hc]; simp)
      rw [this] at hm
      simp at hm
    · exact h0
  obtain ⟨h, e1, hobj⟩ := C51_each_start LR srt ch cfg X (some m0) fuel best hb 0 hpos
  obtain ⟨hh1, hh2⟩ := hh h e1
  obtain ⟨h2, h3⟩ := h1 X O h m0 best.model hX hh1 hh2 (fun d hd =>
    List.single_le_sum hnn _ (List.mem_map.2 ⟨d, hd, rfl⟩)) hobj
  exact ⟨h2, coef_le_of_sq hK h3⟩

/-- **C171** (partial: without the reweighting step, `reweighting=False`). -/
theorem C171_raw_partial (LR : LinReg p) (q : ℝ) (corr corrRew : ℕ → ℕ → ℝ → Option ℝ) {G : List ((Fin p → ℝ) × ℝ)}
    (hG : Spec.RowsInGeneralPosition (G.map Prod.fst)) :
    ∃ K : ℝ, ∀ (srt : ArgSort ℝ) (ch : Choice ℕ) (cfg : LTSConfig)
      (X O : List ((Fin p → ℝ) × ℝ)) (st st' : LTSState p) (fuel : ℕ), Spec.ltsSetting ch cfg X O G → cfg.reweighting = false →
      ltsFit LR srt ch q corr corrRew cfg st X none fuel = some (.ok (), st') →
      ∃ m, st'.model = some m ∧ Spec.coefBounded K m := by
  obtain ⟨K, hK⟩ := C171_search LR hG
  refine ⟨K, ?_⟩
  intro srt ch cfg X O st st' fuel hset hrew hfit
  unfold ltsFit at hfit
  rcases hs : ltsSearch LR srt ch cfg X none fuel with _ | (e | best)
  · simp [hs] at hfit
  · simp [hs] at hfit
  · simp only [hs, hrew] at hfit
    have := (Prod.mk.inj (Option.some.inj hfit)).2
    rw [← this]
    exact ⟨_, rfl, hK srt ch cfg X O fuel best hset hs⟩

/-- With the reweighting step, two outliers are enough, whatever the number of good observations: the further one
inflates the standard deviation of the residuals, so that the nearer one, itself arbitrarily far away, gets weight 1. -/
theorem C171_two_outliers (LR : LinReg p) {q : ℝ} (hq : 0 < q) (corr corrRew : ℕ → ℕ → ℝ → Option ℝ) {G : List ((Fin p → ℝ) × ℝ)}
    (hG : Spec.RowsInGeneralPosition (G.map Prod.fst)) (K : ℝ) :
    ∃ y1 y2 : ℝ, y1 < y2 ∧ ∀ (srt : ArgSort ℝ) (ch : Choice ℕ) (cfg : LTSConfig) (X : List ((Fin p → ℝ) × ℝ)) (st st' : LTSState p) (fuel : ℕ),
      Spec.ltsSetting ch cfg X [(0, y1), (0, y2)] G → cfg.reweighting = true →
      ltsFit LR srt ch q corr corrRew cfg st X none fuel = some (.ok (), st') →
      ∃ m, st'.model = some m ∧ ¬ Spec.coefBounded K m := by
  obtain ⟨K0, hK0, hsearch⟩ := C171_search_norm LR hG
  obtain ⟨A, hA, hA2⟩ := obs_bounded G
  obtain ⟨n, hn⟩ : ∃ n : ℝ, n = (G.length : ℝ) + 2 := ⟨_, rfl⟩
  have hn0 : 0 < n := by rw [hn]; positivity
  -- bounds of the residuals of a bounded model
  obtain ⟨KK, hKK⟩ : ∃ KK : ℝ, KK = |K| * (p + 1) := ⟨_, rfl⟩
  have hKK0 : 0 ≤ KK := by rw [hKK]; positivity
  set B := A + KK + A * KK with hB
  have hB0 : 0 < B := by positivity
  set M := KK + n * B + 1 with hM
  have hM0 : 0 < M := by positivity
  set T := M + Real.sqrt (2 * n) * ((M + K0 + 1) / q) with hT
  have hTM : M < T := by
    have : 0 < Real.sqrt (2 * n) * ((M + K0 + 1) / q) := by positivity
    linarith
  refine ⟨M, T, hTM, ?_⟩
  intro srt ch cfg X st st' fuel hset hrew hfit
  have hX := hset.1
  have hlen : (X.length : ℝ) = n := by
    have := hX.length_eq
    rw [this, hn]
    simp
    ring
  have hXne : X ≠ [] := by rintro rfl; simp at hlen; linarith
  unfold ltsFit at hfit
  rcases hs : ltsSearch LR srt ch cfg X none fuel with _ | (e | best)
  · simp [hs] at hfit
  · simp [hs] at hfit
  simp only [hs, hrew, if_true] at hfit
  rcases hl : lrFit LR (takeAt X (ltsMask q X best.model)) with e | m
  · simp [hl] at hfit
  simp only [hl] at hfit
  have hst := (Prod.mk.inj (Option.some.inj hfit)).2
  rw [← hst]
  refine ⟨m, rfl, ?_⟩
  rintro ⟨hb1, hb2⟩
  obtain ⟨hraw, -⟩ := hsearch srt ch cfg X _ fuel best hset hs
  -- the nearer outlier is kept
  set s := npStd (X.map (resid best.model)) with hsdef
  have hr0 : ∀ (m : LinModel p) (y : ℝ), resid m (0, y) = y - m.intercept := by
    intro m y
    rw [resid_dot]
    simp
  have hs1 : (M + K0 + 1) / q ≤ s := by
    have h1 := npStd_sq (X.map (resid best.model)) (by simpa using hXne)
    rw [List.length_map, hlen, ← hsdef] at h1
    set μ := (X.map (resid best.model)).sum / n with hμ
    have h2 : (resid best.model (0, M) - μ) ^ 2 + (resid best.model (0, T) - μ) ^ 2 ≤ n * s ^ 2 := by
      rw [h1, List.map_map, (hX.map _).sum_eq]
      simp only [List.cons_append, List.nil_append, List.map_cons, List.sum_cons, Function.comp]
      have : 0 ≤ (G.map fun d => (resid best.model d - μ) ^ 2).sum := List.sum_nonneg (by
        intro z hz
        obtain ⟨y, -, rfl⟩ := List.mem_map.1 hz
        exact sq_nonneg _)
      have e : ((fun x => (x - μ) ^ 2) ∘ resid best.model) = fun d => (resid best.model d - μ) ^ 2 := rfl
      rw [e]
      linarith
    have h3 : (T - M) ^ 2 ≤ 2 * n * s ^ 2 := by
      rw [hr0, hr0] at h2
      nlinarith [sq_nonneg ((M - best.model.intercept - μ) + (T - best.model.intercept - μ))]
    have h4 : T - M = Real.sqrt (2 * n) * ((M + K0 + 1) / q) := by rw [hT]; ring
    rw [h4, mul_pow, Real.sq_sqrt (by positivity)] at h3
    have h5 : ((M + K0 + 1) / q) ^ 2 ≤ s ^ 2 := le_of_mul_le_mul_left h3 (by positivity)
    exact abs_le_of_sq_le_sq h5 (Real.sqrt_nonneg _) |> fun h => (le_abs_self _).trans h
  have hs0 : 0 < s := lt_of_lt_of_le (by positivity) hs1
  have hmem : ((0, M) : (Fin p → ℝ) × ℝ) ∈ takeAt X (ltsMask q X best.model) := by
    rw [takeAt_ltsMask, List.mem_filter]
    refine ⟨hX.mem_iff.2 (by simp), ?_⟩
    unfold ltsKeep
    rw [Bool.and_eq_true, decide_eq_true_eq, decide_eq_true_eq, ← hsdef, abs_div, abs_of_pos hs0, div_le_iff₀ hs0, hr0]
    refine ⟨hs0.ne', ?_⟩
    have h1 := abs_le.1 hraw
    have h2 : M + K0 + 1 ≤ q * s := by
      rw [div_le_iff₀ hq] at hs1
      linarith
    rw [abs_le]; constructor <;> linarith [h1.1, h1.2]
  -- the residuals of the reported model sum to zero
  set R := takeAt X (ltsMask q X best.model) with hR
  obtain ⟨hRne, -, rfl⟩ := lrFit_ok hl
  have hz := sum_resid_zero (isLeastSquares_fit LR hRne)
  set m := LR.fit R with hm
  have hi : |m.intercept| ≤ KK := hb1.trans (by
    rw [hKK]
    have := le_abs_self K
    have h0 := abs_nonneg K
    have hp : (0:ℝ) ≤ p := Nat.cast_nonneg _
    nlinarith)
  have hc : m.coef ⬝ᵥ m.coef ≤ KK ^ 2 := by
    have h1 : m.coef ⬝ᵥ m.coef ≤ p * |K| ^ 2 := by
      simp only [dotProduct]
      have := Finset.sum_le_card_nsmul (Finset.univ : Finset (Fin p)) (fun j => m.coef j * m.coef j) (|K| ^ 2) (fun j _ => by
        rw [← pow_two, ← sq_abs]
        exact pow_le_pow_left₀ (abs_nonneg _) ((hb2 j).trans (le_abs_self K)) 2)
      simpa using this
    refine h1.trans ?_
    rw [hKK, mul_pow, mul_comm (|K| ^ 2)]
    have hp : (0:ℝ) ≤ p := Nat.cast_nonneg _
    exact mul_le_mul_of_nonneg_right (by nlinarith) (sq_nonneg _)
  have hge : ∀ d ∈ R, -B ≤ resid m d := by
    intro d hd
    have hdX : d ∈ X := mem_takeAt hd
    have := hX.mem_iff.1 hdX
    have h1 := abs_le.1 hi
    have h2 : 0 ≤ A * KK := by positivity
    rcases List.mem_append.1 this with h | h
    · rcases List.mem_cons.1 h with rfl | h
      · rw [hr0]; linarith [h1.2]
      · obtain rfl := List.mem_singleton.1 h
        rw [hr0]; linarith [h1.2]
    · exact (abs_le.1 (resid_bounded hA hKK0 hA2 hi hc h)).1
  have hsum : resid m (0, M) + B ≤ (R.map fun d => resid m d + B).sum := List.single_le_sum (by
    intro z hz
    obtain ⟨d, hd, rfl⟩ := List.mem_map.1 hz
    linarith [hge d hd]) _ (List.mem_map.2 ⟨(0, M), hmem, rfl⟩)
  have hadd : ∀ l : List ((Fin p → ℝ) × ℝ), (l.map fun d => resid m d + B).sum = (l.map (resid m)).sum + l.length * B := by
    intro l
    induction l with
    | nil => simp
    | cons a l ih => simp only [List.map_cons, List.sum_cons, ih, List.length_cons, Nat.cast_add, Nat.cast_one]; ring
  rw [hadd, hz, hr0] at hsum
  have hRl : (R.length : ℝ) ≤ n := by
    rw [← hlen, hR, takeAt_ltsMask]
    exact_mod_cast List.length_filter_le _ _
  have h1 := abs_le.1 hi
  nlinarith [mul_le_mul_of_nonneg_right hRl hB0.le, h1.2]

end

/-! Six good observations and two outliers -/

theorem line_gp (ts : List ℝ) (h : ts.Nodup) : Spec.RowsInGeneralPosition (ts.map fun t => ![t]) := by
  intro v hv c
  have h0 : v 0 ≠ 0 := fun h0 => hv (funext fun j => by fin_cases j; simpa using h0)
  rw [List.countP_map]
  refine le_trans (le_of_eq ?_) (List.nodup_iff_count_le_one.1 h (c / v 0))
  rw [List.count_eq_countP]
  refine List.countP_congr fun t _ => ?_
  simp only [Function.comp, decide_eq_true_eq, beq_iff_eq, dotProduct, Fin.sum_univ_one, Matrix.cons_val_zero]
  rw [eq_div_iff h0]

/-- Good observations on the line `y = 0`. -/
def c171Good : List ((Fin 1 → ℝ) × ℝ) := [0, 1, 2, 3, 4, 5].map fun t : ℝ => (![t], 0)

theorem c171_gp : Spec.RowsInGeneralPosition (c171Good.map Prod.fst) := by
  have := line_gp [0, 1, 2, 3, 4, 5] (by norm_num)
  unfold c171Good
  rw [List.map_map]
  exact this

/-- The hypotheses of the theorems hold for any two outliers. -/
theorem c171_setting (rew : Bool) (a b : (Fin 1 → ℝ) × ℝ) :
    Spec.ltsSetting choiceFirst (c53Cfg rew) (c171Good ++ [a, b]) [a, b] c171Good := by
  refine ⟨List.perm_append_comm, fun h hh => ?_, 0, by simp [c53Cfg], ?_⟩
  · unfold ltsH at hh
    rw [if_neg (by norm_num [c53Cfg])] at hh
    have hh := Except.ok.inj hh
    have hl : (c171Good ++ [a, b]).length = 8 := by simp [c171Good]
    rw [hl] at hh
    have hf : ⌊((8 : ℕ) : ℝ) * (c53Cfg rew).alpha⌋₊ = 4 := by
      rw [show ((8 : ℕ) : ℝ) * (c53Cfg rew).alpha = (4 : ℕ) by norm_num [c53Cfg]]
      exact Nat.floor_natCast 4
    rw [hf] at hh
    have : h = 5 := by rw [← hh]; norm_num
    subst this
    simp [c171Good]
  · simp only [choiceFirst]
    have : takeAt (c171Good ++ [a, b]) (List.range (1 + 1)) = c171Good.take 2 := by
      simp [c171Good, takeAt, List.range_succ]
    rw [this]
    exact (List.take_sublist _ _).subperm

theorem c171_search_exists (rew : Bool) (a b : (Fin 1 → ℝ) × ℝ) :
    ∃ best, ltsSearch (linRegExists 1) (argsortStable ℝ) choiceFirst (c53Cfg rew) (c171Good ++ [a, b]) none (2 ^ 8 + 1) =
      some (.ok best) := by
  have hout := (C99_search_outcome (linRegExists 1) (argsortStable ℝ) choiceFirst (c53Cfg rew) (c171Good ++ [a, b]) none
    (by norm_num [c53Cfg]) (2 ^ 8 + 1) (by simp [c171Good])).2 ⟨by norm_num [c53Cfg], by norm_num [c53Cfg]⟩
  exact ((hout.2 (by simp [c53Cfg])).2 ⟨by norm_num, by simp [c171Good]⟩).2 (by simp [c53Cfg])

/-- **C171** is violated: the reweighting step, on by default, lets outliers in. -/
theorem C171_violated : ¬ C171_statement := by
  intro hst
  obtain ⟨K, hK⟩ := hst 1 (linRegExists 1) 2.24 (fun _ _ _ => none) (fun _ _ _ => none) c171Good (by norm_num) c171_gp
  obtain ⟨y1, y2, hlt, h⟩ := C171_two_outliers (linRegExists 1) (q := 2.24) (by norm_num) (fun _ _ _ => none) (fun _ _ _ => none)
    c171_gp K
  obtain ⟨best, hb⟩ := c171_search_exists true (0, y1) (0, y2)
  obtain ⟨st', hfit⟩ := (C53_fit_partial (linRegExists 1) (argsortStable ℝ) choiceFirst 2.24 (by norm_num) (by norm_num)
    (fun _ _ _ => none) (fun _ _ _ => none) (c53Cfg true) rfl ⟨none, none, none⟩ (c171Good ++ [(0, y1), (0, y2)]) none (2 ^ 8 + 1)
    best hb).1 (by
      by_contra hcon
      push Not at hcon
      have h1 := hcon _ (List.mem_map.2 ⟨(0, y1), by simp, rfl⟩)
      have h2 := hcon _ (List.mem_map.2 ⟨(0, y2), by simp, rfl⟩)
      simp only [Pi.zero_apply, zero_mul, Finset.sum_const_zero, add_zero] at h1 h2
      linarith)
  obtain ⟨m, e1, e2⟩ := h _ _ _ _ _ _ _ (c171_setting true _ _) rfl hfit
  obtain ⟨m', e3, e4⟩ := hK _ _ _ _ _ _ _ _ (c171_setting true _ _) hfit
  rw [e1] at e3
  obtain rfl := Option.some.inj e3
  exact e2 e4

/-- The estimate without reweighting on the same observations and any two others. -/
example : ∃ K, ∀ a b : (Fin 1 → ℝ) × ℝ, ∃ st' m, ltsFit (linRegExists 1) (argsortStable ℝ) choiceFirst 2.24 (fun _ _ _ => none)
    (fun _ _ _ => none) (c53Cfg false) ⟨none, none, none⟩ (c171Good ++ [a, b]) none (2 ^ 8 + 1) = some (.ok (), st') ∧
      st'.model = some m ∧ Spec.coefBounded K m := by
  obtain ⟨K, hK⟩ := C171_raw_partial (linRegExists 1) 2.24 (fun _ _ _ => none) (fun _ _ _ => none) c171_gp
  refine ⟨K, fun a b => ?_⟩
  obtain ⟨best, hb⟩ := c171_search_exists false a b
  have hfit : ∃ st', ltsFit (linRegExists 1) (argsortStable ℝ) choiceFirst 2.24 (fun _ _ _ => none)
      (fun _ _ _ => none) (c53Cfg false) ⟨none, none, none⟩ (c171Good ++ [a, b]) none (2 ^ 8 + 1) = some (.ok (), st') := by
    unfold ltsFit
    simp only [hb]
    exact ⟨_, rfl⟩
  obtain ⟨st', hfit⟩ := hfit
  obtain ⟨m, h1, h2⟩ := hK _ _ _ _ _ _ _ _ (c171_setting false a b) rfl hfit
  exact ⟨st', m, hfit, h1, h2⟩

/-- With initial weights. -/
example (m0 : LinModel 1) : ∃ K, ∀ a b : (Fin 1 → ℝ) × ℝ, ∃ best, ltsSearch (linRegExists 1) (argsortStable ℝ) choiceFirst (c53Cfg false)
    (c171Good ++ [a, b]) (some m0) (2 ^ 8 + 1) = some (.ok best) ∧ Spec.coefBounded K best.model := by
  obtain ⟨K, hK⟩ := C171_weights (linRegExists 1) c171_gp m0
  refine ⟨K, fun a b => ?_⟩
  have hout := (C99_search_outcome (linRegExists 1) (argsortStable ℝ) choiceFirst (c53Cfg false) (c171Good ++ [a, b]) (some m0)
    (by norm_num [c53Cfg]) (2 ^ 8 + 1) (by simp [c171Good])).2 ⟨by norm_num [c53Cfg], by norm_num [c53Cfg]⟩
  obtain ⟨best, hb⟩ := ((hout.2 (by simp [c53Cfg])).2 ⟨by norm_num, by simp [c171Good]⟩).2 (by simp [c53Cfg])
  have hset := c171_setting false a b
  exact ⟨best, hb, hK _ _ _ _ _ _ _ hset.1 hset.2.1 hb⟩

end Robpy
