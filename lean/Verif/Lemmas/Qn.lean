import Verif.Model.Qn
import Verif.Lemmas.WeightedMedian
import Mathlib.Algebra.Order.BigOperators.Group.Finset
import Mathlib.Algebra.BigOperators.Ring.Finset
import Mathlib.Data.List.GetD
import Mathlib.Data.Finset.Prod
import Mathlib.Order.Interval.Finset.Nat
import Mathlib.Tactic.Positivity

/-! Loop invariant and correctness proof for the Qn algorithm. -/

namespace Robpy
open Spec

section generic

theorem mapM_ok {α β : Type} (l : List α) (f : α → Except PyErr β) (g : α → β)
    (h : ∀ a ∈ l, f a = .ok (g a)) : l.mapM f = .ok (l.map g) := by
  induction l with
  | nil => rfl
  | cons a l ih =>
    rw [List.mapM_cons, h a (by simp), ih (fun b hb => h b (by simp [hb]))]
    rfl

theorem countP_eq_card {α : Type} (p : α → Prop) [DecidablePred p] (l : List α) (d : α) :
    l.countP (fun a => decide (p a)) =
      ((Finset.range l.length).filter fun i => p (l.getD i d)).card := by
  induction l with
  | nil => simp
  | cons a l ih =>
    rw [List.countP_cons, ih, List.length_cons, Finset.range_eq_Ico, Finset.range_eq_Ico,
      ← Finset.insert_Ico_add_one_left_eq_Ico (by omega : 0 < l.length + 1), Finset.filter_insert]
    have e : ((Finset.Ico (0+1) (l.length + 1)).filter fun i => p ((a :: l).getD i d)).card =
        ((Finset.Ico 0 l.length).filter fun i => p (l.getD i d)).card := by
      symm
      apply Finset.card_bij (fun i _ => i + 1)
      · intro i hi
        simp only [Finset.mem_filter, Finset.mem_Ico] at hi ⊢
        refine ⟨by omega, by simpa using hi.2⟩
      · intro i _ j _ h; omega
      · intro i hi
        simp only [Finset.mem_filter, Finset.mem_Ico] at hi
        refine ⟨i - 1, ?_, by omega⟩
        obtain ⟨t, rfl⟩ : ∃ t, i = t + 1 := ⟨i - 1, by omega⟩
        simp only [Finset.mem_filter, Finset.mem_Ico]
        refine ⟨by omega, by simpa using hi.2⟩
    by_cases hp : p a
    · simp only [hp, decide_true, if_true, List.getD_cons_zero]
      rw [Finset.card_insert_of_notMem (by simp), e]
    · simp only [hp, decide_false, if_false, List.getD_cons_zero, Bool.false_eq_true]
      rw [e]; simp

/-- An upward closed subset of `0..n-1` is a final segment. -/
theorem mem_upper_iff {n : ℕ} (S : Finset ℕ) (hS : ∀ m ∈ S, m < n)
    (hup : ∀ m ∈ S, ∀ m', m ≤ m' → m' < n → m' ∈ S) {m : ℕ} (hm : m < n) :
    m ∈ S ↔ n ≤ m + S.card := by
  constructor
  · intro h
    have : Finset.Ico m n ⊆ S := fun x hx => by
      rw [Finset.mem_Ico] at hx
      exact hup m h x hx.1 hx.2
    have := Finset.card_le_card this
    rw [Nat.card_Ico] at this
    omega
  · intro h
    by_contra hc
    have : S ⊆ Finset.Ico (m+1) n := fun x hx => by
      rw [Finset.mem_Ico]
      refine ⟨?_, hS x hx⟩
      by_contra hlt
      exact hc (hup x hx m (by omega) hm)
    have := Finset.card_le_card this
    rw [Nat.card_Ico] at this
    omega

end generic

variable {K : Type} [Field K] [LinearOrder K] [IsStrictOrderedRing K]

/-- Matrix entry in row `i`, column `j` (1-based): `y[i] - y[n - j]`. -/
def qnE (n : ℕ) (ys : List K) (i j : ℕ) : K := arr ys i - arr ys (n - j)

/-- All cells of the matrix. -/
def qnCells (n : ℕ) : Finset (ℕ × ℕ) := Finset.range n ×ˢ Finset.Icc 1 n

omit [IsStrictOrderedRing K] in
theorem mem_qnCells {n : ℕ} {q : ℕ × ℕ} : q ∈ qnCells n ↔ q.1 < n ∧ 1 ≤ q.2 ∧ q.2 ≤ n := by
  simp [qnCells]

theorem arr_mono {ys : List K} (hs : ys.Pairwise (· ≤ ·)) {a b : ℕ} (hab : a ≤ b)
    (hb : b < ys.length) : arr ys a ≤ arr ys b := by
  unfold arr
  rw [List.getD_eq_getElem _ _ hb, List.getD_eq_getElem _ _ (by omega)]
  rcases Nat.lt_or_ge a b with h | h
  · exact List.pairwise_iff_getElem.1 hs a b _ _ h
  · have : a = b := by omega
    subst this; exact le_rfl

theorem qnP_eq (ys : List K) (t : K) (i : ℕ) :
    qnP ys t i = (((Finset.range ys.length).filter fun m => arr ys i - arr ys m < t).card : ℤ) := by
  unfold qnP searchsortedLeft
  rw [List.countP_map, List.countP_reverse]
  rw [show ((fun x => decide (x < t - arr ys i)) ∘ fun a : K => -a) =
      fun a => decide (arr ys i - a < t) from ?_]
  · rw [countP_eq_card (fun a => arr ys i - a < t) ys 0]
    rfl
  · funext a
    simp only [Function.comp]
    congr 1
    apply propext
    constructor <;> intro h <;> linarith

theorem qnQ_eq (ys : List K) (t : K) (i : ℕ) :
    qnQ ys t i = (((Finset.range ys.length).filter fun m => arr ys i - arr ys m ≤ t).card : ℤ) + 1 := by
  unfold qnQ searchsortedRight
  rw [List.countP_map, List.countP_reverse]
  rw [show ((fun x => decide (x ≤ t - arr ys i)) ∘ fun a : K => -a) =
      fun a => decide (arr ys i - a ≤ t) from ?_]
  · rw [countP_eq_card (fun a => arr ys i - a ≤ t) ys 0]
    rfl
  · funext a
    simp only [Function.comp]
    congr 1
    apply propext
    constructor <;> intro h <;> linarith

section rows
variable {ys : List K} (hs : ys.Pairwise (· ≤ ·)) {n : ℕ} (hn : ys.length = n)
include hs hn

theorem le_qnP_iff (t : K) (i : ℕ) {j : ℕ} (hj1 : 1 ≤ j) (hj : j ≤ n) :
    (j : ℤ) ≤ qnP ys t i ↔ qnE n ys i j < t := by
  have := mem_upper_iff (n := n) ((Finset.range ys.length).filter fun m => arr ys i - arr ys m < t)
    (by intro m hm; simp at hm; omega)
    (by
      intro m hm m' hmm' hm'
      simp only [Finset.mem_filter, Finset.mem_range] at hm ⊢
      have := arr_mono hs hmm' (by omega)
      exact ⟨by omega, by linarith [hm.2]⟩) (m := n - j) (by omega)
  rw [qnP_eq]
  simp only [Finset.mem_filter, Finset.mem_range] at this
  unfold qnE
  constructor
  · intro h
    exact (this.2 (by omega)).2
  · intro h
    have := this.1 ⟨by omega, h⟩
    omega

theorem lt_qnQ_iff (t : K) (i : ℕ) {j : ℕ} (hj1 : 1 ≤ j) (hj : j ≤ n) :
    (j : ℤ) < qnQ ys t i ↔ qnE n ys i j ≤ t := by
  have := mem_upper_iff (n := n) ((Finset.range ys.length).filter fun m => arr ys i - arr ys m ≤ t)
    (by intro m hm; simp at hm; omega)
    (by
      intro m hm m' hmm' hm'
      simp only [Finset.mem_filter, Finset.mem_range] at hm ⊢
      have := arr_mono hs hmm' (by omega)
      exact ⟨by omega, by linarith [hm.2]⟩) (m := n - j) (by omega)
  rw [qnQ_eq]
  simp only [Finset.mem_filter, Finset.mem_range] at this
  unfold qnE
  constructor
  · intro h
    exact (this.2 (by omega)).2
  · intro h
    have := this.1 ⟨by omega, h⟩
    omega

omit hs in
theorem qnP_bounds (t : K) (i : ℕ) : 0 ≤ qnP ys t i ∧ qnP ys t i ≤ n := by
  rw [qnP_eq]
  have := Finset.card_filter_le (Finset.range ys.length) (fun m => arr ys i - arr ys m < t)
  rw [Finset.card_range] at this
  omega

omit hs in
theorem qnQ_bounds (t : K) (i : ℕ) : 1 ≤ qnQ ys t i ∧ qnQ ys t i ≤ n + 1 := by
  rw [qnQ_eq]
  have := Finset.card_filter_le (Finset.range ys.length) (fun m => arr ys i - arr ys m ≤ t)
  rw [Finset.card_range] at this
  omega

end rows

/-- Number of cells in the first `f i` columns of each row. -/
theorem card_cells_le (n : ℕ) (f : ℕ → ℤ) (hf : ∀ i < n, 0 ≤ f i ∧ f i ≤ n) :
    (((qnCells n).filter fun q => (q.2 : ℤ) ≤ f q.1).card : ℤ) = ∑ i ∈ Finset.range n, f i := by
  unfold qnCells
  rw [Finset.card_filter, Finset.sum_product]
  push_cast
  apply Finset.sum_congr rfl
  intro i hi
  rw [Finset.mem_range] at hi
  obtain ⟨h0, h1⟩ := hf i hi
  rw [Finset.sum_ite, Finset.sum_const_zero, add_zero, Finset.sum_const, nsmul_eq_mul, mul_one]
  have : (Finset.Icc 1 n).filter (fun j : ℕ => (j : ℤ) ≤ f i) = Finset.Icc 1 (f i).toNat := by
    ext j
    simp only [Finset.mem_filter, Finset.mem_Icc]
    omega
  rw [this, Nat.card_Icc]
  omega

/-- The loop invariant. -/
structure QnInv (n : ℕ) (ys : List K) (knew : ℤ) (s : QnState) : Prop where
  left_pos : ∀ i < n, 1 ≤ s.left i
  left_le : ∀ i < n, s.left i ≤ s.right i + 1
  right_le : ∀ i < n, s.right i ≤ n
  row0 : s.left 0 = n + 1
  sumL : s.nL = ∑ i ∈ Finset.range n, (s.left i - 1)
  sumR : s.nR = ∑ i ∈ Finset.range n, s.right i
  kL : s.nL < knew
  kR : knew ≤ s.nR
  ordL : ∀ q ∈ qnCells n, ∀ r ∈ qnCells n, (q.2 : ℤ) < s.left q.1 → s.left r.1 ≤ r.2 →
    qnE n ys q.1 q.2 ≤ qnE n ys r.1 r.2
  ordR : ∀ q ∈ qnCells n, ∀ r ∈ qnCells n, (q.2 : ℤ) ≤ s.right q.1 → s.right r.1 < r.2 →
    qnE n ys q.1 q.2 ≤ qnE n ys r.1 r.2

/-- `v` is the knew-th smallest of all `n²` entries. -/
def QnRank (n : ℕ) (ys : List K) (knew : ℤ) (v : K) : Prop :=
  (((qnCells n).filter fun q => qnE n ys q.1 q.2 < v).card : ℤ) < knew ∧
  knew ≤ (((qnCells n).filter fun q => qnE n ys q.1 q.2 ≤ v).card : ℤ)

section inv
variable {ys : List K} {n : ℕ} {knew : ℤ} {s : QnState}

theorem QnInv.cardL (h : QnInv n ys knew s) :
    (((qnCells n).filter fun q => (q.2 : ℤ) < s.left q.1).card : ℤ) = s.nL := by
  rw [h.sumL, ← card_cells_le n (fun i => s.left i - 1)]
  · congr 2
    apply Finset.filter_congr
    intro q _
    constructor <;> intro h <;> omega
  · intro i hi
    have h1 := h.left_pos i hi
    have h2 := h.left_le i hi
    have h3 := h.right_le i hi
    omega

theorem QnInv.cardR (h : QnInv n ys knew s) :
    (((qnCells n).filter fun q => (q.2 : ℤ) ≤ s.right q.1).card : ℤ) = s.nR := by
  rw [h.sumR, ← card_cells_le n (fun i => s.right i)]
  intro i hi
  have h1 := h.left_pos i hi
  have h2 := h.left_le i hi
  have h3 := h.right_le i hi
  omega

variable (hs : ys.Pairwise (· ≤ ·)) (hn : ys.length = n)
include hs hn

theorem card_lt_eq (t : K) :
    (((qnCells n).filter fun q => qnE n ys q.1 q.2 < t).card : ℤ) =
      ∑ i ∈ Finset.range n, qnP ys t i := by
  rw [← card_cells_le n (fun i => qnP ys t i) (fun i _ => qnP_bounds hn t i)]
  congr 2
  apply Finset.filter_congr
  intro q hq
  rw [mem_qnCells] at hq
  exact (le_qnP_iff hs hn t q.1 hq.2.1 hq.2.2).symm

theorem card_le_eq (t : K) :
    (((qnCells n).filter fun q => qnE n ys q.1 q.2 ≤ t).card : ℤ) =
      (∑ i ∈ Finset.range n, qnQ ys t i) - n := by
  have : (∑ i ∈ Finset.range n, qnQ ys t i) - n = ∑ i ∈ Finset.range n, (qnQ ys t i - 1) := by
    rw [Finset.sum_sub_distrib]
    simp
  rw [this, ← card_cells_le n (fun i => qnQ ys t i - 1)
    (fun i _ => by have := qnQ_bounds hn t i; omega)]
  congr 2
  apply Finset.filter_congr
  intro q hq
  rw [mem_qnCells] at hq
  rw [← lt_qnQ_iff hs hn t q.1 hq.2.1 hq.2.2]
  omega

/-- Effect of one loop iteration for a trial value which is a matrix entry between the
bounds. -/
theorem QnInv.move (h : QnInv n ys knew s) {c : ℕ × ℕ} (hc : c ∈ qnCells n)
    (hcl : s.left c.1 ≤ c.2) (hcr : (c.2 : ℤ) ≤ s.right c.1) {trial : K}
    (ht : qnE n ys c.1 c.2 = trial) :
    (knew ≤ ∑ i ∈ Finset.range n, qnP ys trial i →
      QnInv n ys knew { s with right := qnP ys trial, nR := ∑ i ∈ Finset.range n, qnP ys trial i } ∧
      ∑ i ∈ Finset.range n, qnP ys trial i < s.nR) ∧
    (knew > (∑ i ∈ Finset.range n, qnQ ys trial i) - n →
      QnInv n ys knew { s with left := qnQ ys trial, nL := (∑ i ∈ Finset.range n, qnQ ys trial i) - n } ∧
      s.nL < (∑ i ∈ Finset.range n, qnQ ys trial i) - n) := by
  have hcn := mem_qnCells.1 hc
  constructor
  · intro hk
    refine ⟨?_, ?_⟩
    · refine ⟨h.left_pos, ?_, fun i _ => (qnP_bounds hn trial i).2, h.row0, h.sumL, rfl, h.kL, hk,
        h.ordL, ?_⟩
      · -- weights stay non-negative
        intro i hi
        by_contra hlt
        push Not at hlt
        simp only at hlt
        -- entry (i, left i - 1) is discarded on the left but not below trial
        set j := (s.left i - 1).toNat with hj
        have hb := qnP_bounds hn trial i
        have h2 := h.left_le i hi
        have h3 := h.right_le i hi
        have hjn : 1 ≤ j ∧ j ≤ n := by omega
        have hnot : ¬ qnE n ys i j < trial := by
          rw [← le_qnP_iff hs hn trial i hjn.1 hjn.2]
          omega
        have hsub : ((qnCells n).filter fun q => qnE n ys q.1 q.2 < trial) ⊆
            ((qnCells n).filter fun q => (q.2 : ℤ) < s.left q.1) := by
          intro q hq
          rw [Finset.mem_filter] at hq ⊢
          refine ⟨hq.1, ?_⟩
          by_contra hge
          have := h.ordL (i, j) (mem_qnCells.2 ⟨hi, hjn⟩) q hq.1 (by simp only; omega) (by omega)
          simp only at this
          exact hnot (lt_of_le_of_lt this hq.2)
        have := Finset.card_le_card hsub
        have e1 := card_lt_eq hs hn trial
        have e2 := h.cardL
        have := h.kL
        omega
      · intro q hq r hr hq1 hr1
        have hq' := mem_qnCells.1 hq
        have hr' := mem_qnCells.1 hr
        simp only at hq1 hr1
        have a1 := (le_qnP_iff hs hn trial q.1 hq'.2.1 hq'.2.2).1 hq1
        have a2 : ¬ qnE n ys r.1 r.2 < trial := by
          rw [← le_qnP_iff hs hn trial r.1 hr'.2.1 hr'.2.2]; omega
        exact a1.le.trans (not_lt.1 a2)
    · rw [← card_lt_eq hs hn trial, ← h.cardR]
      have : ((qnCells n).filter fun q => qnE n ys q.1 q.2 < trial) ⊂
          ((qnCells n).filter fun q => (q.2 : ℤ) ≤ s.right q.1) := by
        rw [Finset.ssubset_iff_of_subset]
        · exact ⟨c, Finset.mem_filter.2 ⟨hc, hcr⟩, fun hx => by
            rw [Finset.mem_filter, ht] at hx
            exact absurd hx.2 (lt_irrefl _)⟩
        · intro q hq
          rw [Finset.mem_filter] at hq ⊢
          refine ⟨hq.1, ?_⟩
          by_contra hge
          have := h.ordR c hc q hq.1 hcr (by omega)
          rw [ht] at this
          exact absurd hq.2 (not_lt.2 this)
      have := Finset.card_lt_card this
      exact_mod_cast this
  · intro hk
    have key := card_le_eq hs hn trial
    refine ⟨?_, ?_⟩
    · refine ⟨fun i _ => (qnQ_bounds hn trial i).1, ?_, h.right_le, ?_, ?_, h.sumR, hk, h.kR,
        ?_, h.ordR⟩
      · intro i hi
        by_contra hlt
        push Not at hlt
        simp only at hlt
        set j := (s.right i + 1).toNat with hj
        have hb := qnQ_bounds hn trial i
        have h1 := h.left_pos i hi
        have h2 := h.left_le i hi
        have h3 := h.right_le i hi
        have hjn : 1 ≤ j ∧ j ≤ n := by omega
        have hle : qnE n ys i j ≤ trial := by
          rw [← lt_qnQ_iff hs hn trial i hjn.1 hjn.2]
          omega
        have hsub : ((qnCells n).filter fun q => (q.2 : ℤ) ≤ s.right q.1) ⊆
            ((qnCells n).filter fun q => qnE n ys q.1 q.2 ≤ trial) := by
          intro q hq
          rw [Finset.mem_filter] at hq ⊢
          refine ⟨hq.1, ?_⟩
          have := h.ordR q hq.1 (i, j) (mem_qnCells.2 ⟨hi, hjn⟩) hq.2 (by simp only; omega)
          exact this.trans hle
        have := Finset.card_le_card hsub
        have e2 := h.cardR
        have := h.kR
        omega
      · simp only
        have hb := qnQ_bounds hn trial 0
        by_contra hne
        have hn0 : 0 < n := by omega
        have hlt : ¬ qnE n ys 0 n ≤ trial := by
          rw [← lt_qnQ_iff hs hn trial 0 (by omega) (le_refl n)]
          omega
        have := h.ordL (0, n) (mem_qnCells.2 ⟨hn0, by simp only; omega⟩) c hc
          (by simp only [h.row0]; omega) hcl
        rw [ht] at this
        exact hlt this
      · simp only [Finset.sum_sub_distrib]
        simp
      · intro q hq r hr hq1 hr1
        have hq' := mem_qnCells.1 hq
        have hr' := mem_qnCells.1 hr
        simp only at hq1 hr1
        have a1 := (lt_qnQ_iff hs hn trial q.1 hq'.2.1 hq'.2.2).1 hq1
        have a2 : ¬ qnE n ys r.1 r.2 ≤ trial := by
          rw [← lt_qnQ_iff hs hn trial r.1 hr'.2.1 hr'.2.2]; omega
        exact a1.trans (not_le.1 a2).le
    · rw [← key, ← h.cardL]
      have : ((qnCells n).filter fun q => (q.2 : ℤ) < s.left q.1) ⊂
          ((qnCells n).filter fun q => qnE n ys q.1 q.2 ≤ trial) := by
        rw [Finset.ssubset_iff_of_subset]
        · exact ⟨c, Finset.mem_filter.2 ⟨hc, ht.le⟩, fun hx => by
            rw [Finset.mem_filter] at hx
            exact absurd hx.2 (by omega)⟩
        · intro q hq
          rw [Finset.mem_filter] at hq ⊢
          refine ⟨hq.1, ?_⟩
          have := h.ordL q hq.1 c hc hq.2 hcl
          rwa [ht] at this
      have := Finset.card_lt_card this
      exact_mod_cast this

end inv

end Robpy
