import Verif.Model.UnivariateMCD
import Verif.Spec.Stats
import Verif.Lemmas.Sort
import Mathlib.Algebra.Order.BigOperators.Group.Multiset
import Mathlib.Algebra.BigOperators.Ring.Multiset
import Mathlib.Algebra.CharZero.Defs
import Mathlib.Tactic.FieldSimp
import Mathlib.Tactic.Positivity

/-! Lemmas about mean, variance and windows of sorted lists. -/

namespace Robpy
open Spec

variable {K : Type} [Field K] [LinearOrder K] [IsStrictOrderedRing K]

/-- Sum of squared deviations from `c`. -/
def ssq (c : K) (s : Multiset K) : K := (s.map fun x => (x - c) ^ 2).sum

omit [LinearOrder K] [IsStrictOrderedRing K] in
theorem mean_eq_avg (xs : List K) : mean xs = avg (xs : Multiset K) := by
  simp [mean, avg]

omit [LinearOrder K] [IsStrictOrderedRing K] in
theorem var_eq_popVar (xs : List K) : var xs = popVar (xs : Multiset K) := by
  unfold var popVar
  rw [mean, mean_eq_avg]
  simp

omit [LinearOrder K] [IsStrictOrderedRing K] in
theorem popVar_eq (s : Multiset K) : popVar s = ssq (avg s) s / (Multiset.card s : K) := rfl

omit [LinearOrder K] [IsStrictOrderedRing K] in
theorem ssq_expand (c d : K) (s : Multiset K) :
    ssq c s = ssq d s + 2 * (d - c) * s.sum - 2 * (Multiset.card s : K) * d * (d - c)
      + (Multiset.card s : K) * (d - c) ^ 2 := by
  unfold ssq
  induction s using Multiset.induction with
  | empty => simp
  | cons a s ih =>
    simp only [Multiset.map_cons, Multiset.sum_cons, Multiset.card_cons, ih]
    push_cast
    ring

theorem ssq_avg (c : K) (s : Multiset K) (hs : 0 < Multiset.card s) :
    ssq c s = ssq (avg s) s + (Multiset.card s : K) * (avg s - c) ^ 2 := by
  have hc : (Multiset.card s : K) ≠ 0 := by exact_mod_cast hs.ne'
  have : s.sum = (Multiset.card s : K) * avg s := by unfold avg; field_simp
  rw [ssq_expand c (avg s), this]
  ring

theorem ssq_avg_le (c : K) (s : Multiset K) : ssq (avg s) s ≤ ssq c s := by
  rcases Nat.eq_zero_or_pos (Multiset.card s) with h | h
  · rw [Multiset.card_eq_zero] at h; subst h; simp [ssq]
  · rw [ssq_avg c s h]
    have : (0:K) ≤ (Multiset.card s : K) * (avg s - c) ^ 2 := by positivity
    linarith

theorem ssq_nonneg (c : K) (s : Multiset K) : 0 ≤ ssq c s := by
  unfold ssq
  apply Multiset.sum_nonneg
  intro x hx
  obtain ⟨y, _, rfl⟩ := Multiset.mem_map.1 hx
  positivity

theorem popVar_nonneg (s : Multiset K) : 0 ≤ popVar s := by
  rw [popVar_eq]; exact div_nonneg (ssq_nonneg _ _) (by positivity)

omit [IsStrictOrderedRing K] in
/-- Removing the worst element: any `h`-subset can be moved into the rest without increasing
the sum of `f`. -/
theorem exchange [IsStrictOrderedRing K] (f : K → K) (e : K) (s H : Multiset K) (hle : ∀ x ∈ s, f x ≤ f e)
    (hH : H ≤ e ::ₘ s) (hcard : Multiset.card H ≤ Multiset.card s) :
    ∃ H' ≤ s, Multiset.card H' = Multiset.card H ∧ (H'.map f).sum ≤ (H.map f).sum := by
  by_cases he : e ∈ H
  · obtain ⟨H0, rfl⟩ := Multiset.exists_cons_of_mem he
    have h0 : H0 ≤ s := (Multiset.cons_le_cons_iff e).1 hH
    obtain ⟨R, rfl⟩ := Multiset.le_iff_exists_add.1 h0
    have : 0 < Multiset.card R := by
      simp only [Multiset.card_cons, Multiset.card_add] at hcard
      omega
    obtain ⟨y, hy⟩ := Multiset.card_pos_iff_exists_mem.1 this
    obtain ⟨R0, rfl⟩ := Multiset.exists_cons_of_mem hy
    refine ⟨y ::ₘ H0, ?_, by simp, ?_⟩
    · rw [Multiset.add_cons, Multiset.cons_le_cons_iff]
      exact Multiset.le_add_right _ _
    · simp only [Multiset.map_cons, Multiset.sum_cons]
      have := hle y (by simp)
      linarith
  · exact ⟨H, (Multiset.le_cons_of_notMem he).1 hH, rfl, le_rfl⟩

/-- A function without interior strict maximum (e.g. `(x - m)²`). -/
def QuasiConvex (f : K → K) : Prop := ∀ a x b, a ≤ x → x ≤ b → f x ≤ max (f a) (f b)

theorem quasiConvex_sq (m : K) : QuasiConvex (fun x : K => (x - m) ^ 2) := by
  intro a x b h1 h2
  simp only [le_max_iff]
  rcases le_total m x with h | h
  · right; nlinarith
  · left; nlinarith

theorem window_length {s : List K} {h i : ℕ} (hi : i + h ≤ s.length) : (window s h i).length = h := by
  simp [window]; omega

theorem window_le (s : List K) (h i : ℕ) : (window s h i : Multiset K) ≤ (s : Multiset K) :=
  Multiset.coe_le.2 (((List.take_sublist _ _).trans (List.drop_sublist _ _)).subperm)

/-- Among all `h`-subsets of a sorted list some window has the smallest sum of a
quasi-convex function. -/
theorem exists_best_window (f : K → K) (hf : QuasiConvex f) (s : List K) (hs : s.Pairwise (· ≤ ·))
    (H : Multiset K) (hH : H ≤ (s : Multiset K)) :
    ∃ i, i + Multiset.card H ≤ s.length ∧
      ((window s (Multiset.card H) i : Multiset K).map f).sum ≤ (H.map f).sum := by
  induction hlen : s.length generalizing s H with
  | zero =>
    have : s = [] := List.length_eq_zero_iff.1 hlen
    subst this
    have : H = 0 := by simpa using hH
    subst this
    exact ⟨0, by simp, by simp [window]⟩
  | succ n ih =>
    have hcard := Multiset.card_le_card hH
    rw [Multiset.coe_card, hlen] at hcard
    rcases Nat.lt_or_ge n (Multiset.card H) with hc | hc
    · have hc' : Multiset.card H = n + 1 := by omega
      have : H = (s : Multiset K) := Multiset.eq_of_le_of_card_le hH (by rw [Multiset.coe_card]; omega)
      refine ⟨0, by omega, ?_⟩
      rw [this]
      simp only [window, List.drop_zero, Multiset.coe_card, List.take_length]
      exact le_rfl
    · have hne : s ≠ [] := by intro h; simp [h] at hlen
      set a := s.head hne with ha
      set b := s.getLast hne with hb
      have hbd : ∀ x ∈ s, a ≤ x ∧ x ≤ b := by
        intro x hx
        obtain ⟨i, hi, rfl⟩ := List.mem_iff_getElem.1 hx
        rw [ha, hb, List.head_eq_getElem, List.getLast_eq_getElem]
        constructor
        · rcases Nat.eq_zero_or_pos i with h0 | h0
          · subst h0; exact le_rfl
          · exact List.pairwise_iff_getElem.1 hs _ _ _ _ h0
        · rcases Nat.lt_or_ge i (s.length - 1) with h0 | h0
          · exact List.pairwise_iff_getElem.1 hs _ _ _ _ h0
          · have : i = s.length - 1 := by omega
            subst this; exact le_rfl
      rcases le_total (f b) (f a) with hab | hab
      · have hmax : ∀ x ∈ s, f x ≤ f a := fun x hx => by
          have := hf a x b (hbd x hx).1 (hbd x hx).2
          rwa [max_eq_left hab] at this
        have hcons : s = a :: s.tail := (List.cons_head_tail hne).symm
        have hco : (s : Multiset K) = a ::ₘ (s.tail : Multiset K) := by
          conv_lhs => rw [hcons]
          rfl
        have hlt : s.tail.length = n := by simp [hlen]
        obtain ⟨H', h1, h2, h3⟩ := exchange f a (s.tail : Multiset K) H
          (fun x hx => hmax x (List.mem_of_mem_tail (by simpa using hx))) (hco ▸ hH)
          (by rw [Multiset.coe_card, hlt]; exact hc)
        obtain ⟨i, hi, hsum⟩ := ih s.tail (hs.sublist (List.tail_sublist s)) H' h1 hlt
        refine ⟨i + 1, by omega, ?_⟩
        rw [h2] at hsum
        have : window s (Multiset.card H) (i+1) = window s.tail (Multiset.card H) i := by
          unfold window; rw [← List.drop_one, List.drop_drop, add_comm]
        rw [this]
        exact hsum.trans h3
      · have hmax : ∀ x ∈ s, f x ≤ f b := fun x hx => by
          have := hf a x b (hbd x hx).1 (hbd x hx).2
          rwa [max_eq_right hab] at this
        have hcons : s = s.dropLast ++ [b] := (List.dropLast_concat_getLast hne).symm
        have hco : (s : Multiset K) = b ::ₘ (s.dropLast : Multiset K) := by
          conv_lhs => rw [hcons]
          rw [← Multiset.coe_add, add_comm]; rfl
        have hlt : s.dropLast.length = n := by simp [hlen]
        obtain ⟨H', h1, h2, h3⟩ := exchange f b (s.dropLast : Multiset K) H
          (fun x hx => hmax x (List.mem_of_mem_dropLast (by simpa using hx))) (hco ▸ hH)
          (by rw [Multiset.coe_card, hlt]; exact hc)
        obtain ⟨i, hi, hsum⟩ := ih s.dropLast (hs.sublist (List.dropLast_sublist s)) H' h1 hlt
        refine ⟨i, by omega, ?_⟩
        rw [h2] at hsum
        have : window s (Multiset.card H) i = window s.dropLast (Multiset.card H) i := by
          unfold window
          conv_lhs => rw [hcons]
          rw [List.drop_append_of_le_length (by omega), List.take_append_of_le_length]
          rw [List.length_drop]; omega
        rw [this]
        exact hsum.trans h3

/-- Some window has a variance at most that of the given subset. -/
theorem exists_window_popVar_le (s : List K) (hs : s.Pairwise (· ≤ ·)) (H : Multiset K)
    (hH : H ≤ (s : Multiset K)) (h0 : 0 < Multiset.card H) :
    ∃ i, i + Multiset.card H ≤ s.length ∧ var (window s (Multiset.card H) i) ≤ popVar H := by
  obtain ⟨i, hi, hsum⟩ := exists_best_window (fun x => (x - avg H) ^ 2) (quasiConvex_sq _) s hs H hH
  refine ⟨i, hi, ?_⟩
  rw [var_eq_popVar, popVar_eq, popVar_eq, Multiset.coe_card, window_length hi]
  have hc : (0:K) < (Multiset.card H : K) := by exact_mod_cast h0
  rw [div_le_div_iff_of_pos_right hc]
  exact (ssq_avg_le (avg H) _).trans hsum

/-! ### The window loop -/

theorem rawFold_spec (s : List K) (h : ℕ) (l : List ℕ) (st : Option K × ℕ)
    (hst : ∀ v, st.1 = some v → var (window s h st.2) = v) (hl : l ≠ [] ∨ st.1 ≠ none) :
    ∃ v, (l.foldl (rawStep s h) st).1 = some v ∧
      var (window s h (l.foldl (rawStep s h) st).2) = v ∧
      (∀ i ∈ l, v ≤ var (window s h i)) ∧ (∀ w, st.1 = some w → v ≤ w) ∧
      ((l.foldl (rawStep s h) st).2 ∈ l ∨ (l.foldl (rawStep s h) st) = st) := by
  induction l generalizing st with
  | nil =>
    simp only [ne_eq, not_true_eq_false, false_or] at hl
    obtain ⟨v, hv⟩ := Option.ne_none_iff_exists'.1 hl
    refine ⟨v, by simpa using hv, by simpa using hst v hv, by simp, ?_, by simp⟩
    intro w hw
    rw [hv] at hw
    exact (Option.some.inj hw).le
  | cons i l ih =>
    rw [List.foldl_cons]
    have hnew : ∃ u, (rawStep s h st i).1 = some u ∧ var (window s h (rawStep s h st i).2) = u ∧
        u ≤ var (window s h i) ∧ (∀ w, st.1 = some w → u ≤ w) ∧
        ((rawStep s h st i).2 = i ∨ rawStep s h st i = st) := by
      unfold rawStep
      rcases hst1 : st.1 with _ | w
      · exact ⟨_, rfl, rfl, le_rfl, by simp, Or.inl rfl⟩
      · simp only
        split_ifs with hlt
        · refine ⟨_, rfl, rfl, le_rfl, ?_, Or.inl rfl⟩
          intro w' hw'
          cases hw'
          exact hlt.le
        · refine ⟨w, hst1, hst w hst1, not_lt.1 hlt, ?_, Or.inr rfl⟩
          intro w' hw'
          cases hw'
          exact le_rfl
    obtain ⟨u, hu1, hu2, hu3, hu4, hu5⟩ := hnew
    obtain ⟨v, hv1, hv2, hv3, hv4, hv5⟩ := ih (rawStep s h st i)
      (fun v hv => by rw [hu1] at hv; cases hv; exact hu2) (Or.inr (by rw [hu1]; simp))
    refine ⟨v, hv1, hv2, ?_, fun w hw => (hv4 u hu1).trans (hu4 w hw), ?_⟩
    · intro j hj
      rcases List.mem_cons.1 hj with rfl | hj
      · exact (hv4 u hu1).trans hu3
      · exact hv3 j hj
    · rcases hv5 with hv5 | hv5
      · left; exact List.mem_cons_of_mem _ hv5
      · rw [hv5]
        rcases hu5 with hu5 | hu5
        · left; rw [hu5]; simp
        · right; exact hu5

theorem rawEstimates_spec (h : ℕ) (X : List K) (h0 : 0 < h) (hn : h ≤ X.length) :
    ∃ v l W, rawEstimates h X = some (v, l) ∧ W ≤ (X : Multiset K) ∧ Multiset.card W = h ∧
      popVar W = v ∧ avg W = l ∧
      ∀ H ≤ (X : Multiset K), Multiset.card H = h → v ≤ popVar H := by
  obtain ⟨v, h1, h2, h3, -, h5⟩ := rawFold_spec (npSort X) h (List.range (X.length - h + 1)) (none, 1)
    (by simp) (Or.inl (by simp))
  set st := (List.range (X.length - h + 1)).foldl (rawStep (npSort X) h) (none, 1) with hst
  have hmem : st.2 < X.length - h + 1 := by
    rcases h5 with h5 | h5
    · simpa using h5
    · rw [h5] at h1; simp at h1
  have hperm : ((npSort X : List K) : Multiset K) = (X : Multiset K) :=
    Multiset.coe_eq_coe.2 (npSort_perm X)
  refine ⟨v, mean (window (npSort X) h st.2), (window (npSort X) h st.2 : List K), ?_, ?_, ?_, ?_, ?_, ?_⟩
  · simp only [rawEstimates, ← hst, h1]
  · rw [← hperm]; exact window_le _ _ _
  · rw [Multiset.coe_card]; exact window_length (by rw [npSort_length]; omega)
  · rw [← var_eq_popVar, h2]
  · rw [mean_eq_avg]
  · intro H hH hc
    rw [← hperm] at hH
    obtain ⟨i, hi, hle⟩ := exists_window_popVar_le (npSort X) (npSort_pairwise X) H hH (by omega)
    rw [npSort_length] at hi
    rw [hc] at hle hi
    exact (h3 i (by rw [List.mem_range]; omega)).trans hle

end Robpy
