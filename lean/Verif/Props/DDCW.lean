import Verif.Model.DDCW
import Verif.Props.LinAlg
import Verif.Props.CellFit
import Mathlib.Data.List.Sort
import Mathlib.Tactic.Linarith
import Mathlib.Tactic.NormNum

/-! Properties of `InitialDDCW`: which cells it replaces, when it deletes rows, what its result satisfies. -/

namespace Robpy
open Matrix

/-! ## An ordering that meets the contract of `np.argsort` -/

/-- The order of `np.argsort`: NaN last. -/
def nanLe (a b : Option ℝ) : Prop := b = none ∨ ∃ x y, a = some x ∧ b = some y ∧ x ≤ y

theorem nanLe_total (a b : Option ℝ) : nanLe a b ∨ nanLe b a := by
  rcases a with _ | x
  · exact Or.inr (Or.inl rfl)
  · rcases b with _ | y
    · exact Or.inl (Or.inl rfl)
    · rcases le_total x y with h | h
      · exact Or.inl (Or.inr ⟨x, y, rfl, rfl, h⟩)
      · exact Or.inr (Or.inr ⟨y, x, rfl, rfl, h⟩)

theorem nanLe_trans {a b c : Option ℝ} (h1 : nanLe a b) (h2 : nanLe b c) : nanLe a c := by
  rcases h2 with h2 | ⟨y, z, hb, hc, hyz⟩
  · exact Or.inl h2
  · rcases h1 with h1 | ⟨x, y', ha, hb', hxy⟩
    · rw [h1] at hb; cases hb
    · rw [hb] at hb'
      have := Option.some.inj hb'
      subst this
      exact Or.inr ⟨x, z, ha, hc, hxy.trans hyz⟩

open Classical in
/-- A stable sort of the indices. -/
noncomputable def stableArgsort {n : ℕ} (x : Fin n → Option ℝ) : List (Fin n) :=
  (List.finRange n).insertionSort fun i j => nanLe (x i) (x j)

open Classical in
theorem stableArgsort_spec : NanArgSort @stableArgsort where
  nodup x := ((List.perm_insertionSort _ _).nodup_iff).2 (List.nodup_finRange _)
  mem x i := ((List.perm_insertionSort _ _).mem_iff).2 (List.mem_finRange i)
  sorted {n} x := by
    have : IsTotal (Fin n) (fun i j => nanLe (x i) (x j)) := ⟨fun i j => nanLe_total _ _⟩
    have : IsTrans (Fin n) (fun i j => nanLe (x i) (x j)) := ⟨fun i j k => nanLe_trans⟩
    exact List.pairwise_insertionSort (fun i j => nanLe (x i) (x j)) (List.finRange n)

/-! ## C47: the cap -/

namespace Spec

/-- The number of marked rows. -/
def marked {n : ℕ} (w : Fin n → Bool) : ℕ := (Finset.univ.filter fun k => w k = true).card

end Spec

variable {n p : ℕ} {argsort : {n : ℕ} → (Fin n → Option ℝ) → List (Fin n)}

theorem argsort_length (ha : NanArgSort @argsort) (x : Fin n → Option ℝ) : (argsort x).length = n := by
  have h : (argsort x).toFinset = Finset.univ := by
    ext i; simp [ha.mem x i]
  have := List.toFinset_card_of_nodup (ha.nodup x)
  rw [h, Finset.card_univ, Fintype.card_fin] at this
  exact this.symm

/-- **C47**: in a column in which `DDC` flags more than the share `1 - alpha`, exactly `n // 4` cells are marked
instead. -/
theorem C47_capped (ha : NanArgSort @argsort) {alpha : ℝ} {flags : Fin n → Bool} {res : Fin n → Option ℝ}
    (h : 1 - alpha < (Spec.marked flags : ℝ) / n) :
    Spec.marked (capColumn argsort alpha flags res) = n / 4 := by
  unfold capColumn
  rw [if_pos (by exact h)]
  simp only
  set o := (argsort fun k => (res k).map fun r => |r|).reverse with ho
  have hl : o.length = n := by rw [ho, List.length_reverse, argsort_length ha]
  have hnd : (o.take (n / 4)).Nodup := (List.nodup_reverse.2 (ha.nodup _)).sublist (List.take_sublist _ _)
  have e : (Finset.univ.filter fun k => decide (k ∈ o.take (n / 4)) = true) = (o.take (n / 4)).toFinset := by
    ext k; simp
  unfold Spec.marked
  rw [e, List.toFinset_card_of_nodup hnd, List.length_take, hl]
  omega

/-- **C47**: for `alpha` at most 0.75 no column has more than `(1 - alpha) n` marked cells, whatever `DDC`
returns. -/
theorem C47_cap_partial (ha : NanArgSort @argsort) {alpha : ℝ} (hal : alpha ≤ 0.75) (d : DDCOutput n p) (i : Fin p) :
    (Spec.marked fun k => ddcwFlags argsort alpha d k i : ℝ) ≤ (1 - alpha) * n := by
  rcases Nat.eq_zero_or_pos n with h0 | h0
  · subst h0
    simp [Spec.marked]
  have hn : (0:ℝ) < n := by exact_mod_cast h0
  by_cases h : 1 - alpha < (Spec.marked (fun k => d.cellwise k i) : ℝ) / n
  · have e := C47_capped (res := fun k => d.stdRes k i) ha h
    have e' : Spec.marked (fun k => ddcwFlags argsort alpha d k i) = n / 4 := e
    rw [e']
    have h1 : ((n / 4 : ℕ) : ℝ) ≤ n / 4 := by simpa using (Nat.cast_div_le (m := n) (n := 4) (α := ℝ))
    nlinarith
  · have e : (fun k => ddcwFlags argsort alpha d k i) = fun k => d.cellwise k i := by
      unfold ddcwFlags capColumn
      rw [if_neg (by exact h)]
    rw [e]
    rw [not_lt, div_le_iff₀ hn] at h
    exact h

/-! ## C125: which cells are marked in a capped column -/

/-- **C125**: in a capped column without missing residuals every marked cell has at least the absolute residual
of every cell that is not marked. -/
theorem C125_largest_partial (ha : NanArgSort @argsort) {alpha : ℝ} {flags : Fin n → Bool} {res : Fin n → Option ℝ}
    (h : 1 - alpha < (Spec.marked flags : ℝ) / n) {r : Fin n → ℝ} (hr : ∀ k, res k = some (r k)) {k l : Fin n}
    (hk : capColumn argsort alpha flags res k = true) (hl : capColumn argsort alpha flags res l = false) :
    |r l| ≤ |r k| := by
  unfold capColumn at hk hl
  rw [if_pos (by exact h)] at hk hl
  simp only [decide_eq_true_eq, decide_eq_false_iff_not] at hk hl
  set x : Fin n → Option ℝ := fun k => (res k).map fun r => |r| with hx
  have hs : ((argsort x).reverse).Pairwise fun i j => nanLe (x j) (x i) := by
    rw [List.pairwise_reverse]
    exact ha.sorted x
  rw [← List.take_append_drop (n / 4) (argsort x).reverse, List.pairwise_append] at hs
  have hm : l ∈ (argsort x).reverse := List.mem_reverse.2 (ha.mem x l)
  rw [← List.take_append_drop (n / 4) (argsort x).reverse, List.mem_append] at hm
  have h2 := hs.2.2 k hk l (hm.resolve_left hl)
  rcases h2 with h2 | ⟨a, b, h3, h4, h5⟩
  · simp [hx, hr] at h2
  · simp only [hx, hr, Option.map_some, Option.some.injEq] at h3 h4
    rw [h3, h4]; exact h5

/-- The first `n // 4` places of the ordering go to cells without a residual if there are that many. -/
theorem C125_missing_take_the_places (ha : NanArgSort @argsort) {alpha : ℝ} {flags : Fin n → Bool}
    {res : Fin n → Option ℝ} (h : 1 - alpha < (Spec.marked flags : ℝ) / n)
    (hm : n / 4 ≤ (Finset.univ.filter fun k => res k = none).card) {k : Fin n}
    (hk : capColumn argsort alpha flags res k = true) : res k = none := by
  classical
  by_contra hne
  unfold capColumn at hk
  rw [if_pos (by exact h)] at hk
  simp only [decide_eq_true_eq] at hk
  set x : Fin n → Option ℝ := fun k => (res k).map fun r => |r| with hx
  have hxn : ∀ j, x j = none ↔ res j = none := by intro j; simp [hx]
  set o := (argsort x).reverse with ho
  have hs : o.Pairwise fun i j => nanLe (x j) (x i) := by
    rw [ho, List.pairwise_reverse]; exact ha.sorted x
  have hnd : o.Nodup := List.nodup_reverse.2 (ha.nodup _)
  -- every cell without residual stands before `k`, hence among the first places
  have hsub : (Finset.univ.filter fun j => res j = none) ⊆ (o.take (n / 4)).toFinset.erase k := by
    intro j hj
    rw [Finset.mem_filter] at hj
    have hjk : j ≠ k := by rintro rfl; exact hne hj.2
    rw [Finset.mem_erase, List.mem_toFinset]
    refine ⟨hjk, ?_⟩
    by_contra hnot
    have hmem : j ∈ o := List.mem_reverse.2 (ha.mem x j)
    rw [← List.take_append_drop (n / 4) o, List.pairwise_append] at hs
    rw [← List.take_append_drop (n / 4) o, List.mem_append] at hmem
    rcases hs.2.2 k hk j (hmem.resolve_left hnot) with h2 | ⟨a, b, h3, -, -⟩
    · exact hne ((hxn k).1 h2)
    · rw [(hxn j).2 hj.2] at h3; cases h3
  have h1 := Finset.card_le_card hsub
  rw [Finset.card_erase_of_mem (List.mem_toFinset.2 hk),
    List.toFinset_card_of_nodup (hnd.sublist (List.take_sublist _ _)), List.length_take] at h1
  have h4 : 0 < (o.take (n / 4)).length := List.length_pos_of_mem hk
  rw [List.length_take] at h4
  omega

/-- The full statement of C125: a marked cell in a capped column is not replaced by cells with a smaller absolute
residual or without one: if a present cell is not marked, every marked cell has a residual at least as large. -/
def C125_statement : Prop :=
  ∀ (argsort : {n : ℕ} → (Fin n → Option ℝ) → List (Fin n)), NanArgSort @argsort →
    ∀ (n : ℕ) (alpha : ℝ) (flags : Fin n → Bool) (res : Fin n → Option ℝ), 0.5 ≤ alpha → alpha ≤ 1 →
      (∀ k, flags k = true → res k ≠ none) → 1 - alpha < (Spec.marked flags : ℝ) / n →
        ∀ k l b, capColumn argsort alpha flags res k = true → capColumn argsort alpha flags res l = false →
          res l = some b → ∃ a, res k = some a ∧ |b| ≤ |a|

/-- **C125** is violated by the code: with four rows of which one is missing, the missing cell is marked and the
cell with residual 10 is not. -/
theorem C125_violated : ¬ C125_statement := by
  intro h
  let flags : Fin 4 → Bool := ![false, true, true, false]
  let res : Fin 4 → Option ℝ := ![none, some 10, some 9, some 0]
  have hm : Spec.marked flags = 2 := by decide
  have hcap : 1 - (0.75:ℝ) < (Spec.marked flags : ℝ) / (4 : ℕ) := by rw [hm]; norm_num
  have hc := C47_capped (res := res) stableArgsort_spec hcap
  have hpos : ∃ k, capColumn stableArgsort 0.75 flags res k = true := by
    by_contra hno
    push Not at hno
    have : Spec.marked (capColumn stableArgsort 0.75 flags res) = 0 := by
      unfold Spec.marked
      rw [Finset.card_eq_zero, Finset.filter_eq_empty_iff]
      intro k _; exact hno k
    omega
  obtain ⟨k, hk⟩ := hpos
  have hmiss : (4:ℕ) / 4 ≤ (Finset.univ.filter fun k => res k = none).card := by
    have : (0 : Fin 4) ∈ Finset.univ.filter fun k => res k = none := by simp [res]
    exact Finset.card_pos.2 ⟨0, this⟩
  have hkn := C125_missing_take_the_places stableArgsort_spec hcap hmiss hk
  have h1 : capColumn stableArgsort 0.75 flags res 1 = false := by
    by_contra h1
    have := C125_missing_take_the_places stableArgsort_spec hcap hmiss (k := 1) (by simpa using h1)
    simp [res] at this
  obtain ⟨a, ha, -⟩ := h @stableArgsort stableArgsort_spec 4 0.75 flags res (by norm_num) (by norm_num)
    (by intro k hk; fin_cases k <;> simp [flags, res] at hk ⊢) hcap k 1 10 hk h1 (by simp [res])
  rw [hkn] at ha; cases ha

end Robpy
