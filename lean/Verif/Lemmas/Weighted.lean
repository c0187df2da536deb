import Verif.Model.Tau
import Verif.Lemmas.Median
import Mathlib.Algebra.Order.BigOperators.Group.List
import Mathlib.Tactic.Positivity

/-! # Weighted means -/

namespace Robpy
variable {K : Type} [Field K] [LinearOrder K] [IsStrictOrderedRing K]

theorem sum_map_nonneg (w : K → K) (X : List K) (h : ∀ x ∈ X, 0 ≤ w x) : 0 ≤ (X.map w).sum := by
  induction X with
  | nil => simp
  | cons x X ih =>
    simp only [List.map_cons, List.sum_cons]
    have := h x (by simp)
    have := ih fun y hy => h y (by simp [hy])
    linarith

theorem sum_map_pos (w : K → K) (X : List K) (h : ∀ x ∈ X, 0 ≤ w x) (hp : ∃ x ∈ X, 0 < w x) :
    0 < (X.map w).sum := by
  induction X with
  | nil => obtain ⟨x, hx, -⟩ := hp; simp at hx
  | cons x X ih =>
    simp only [List.map_cons, List.sum_cons]
    have h0 := h x (by simp)
    have h1 := sum_map_nonneg w X fun y hy => h y (by simp [hy])
    obtain ⟨y, hy, hyp⟩ := hp
    rcases List.mem_cons.1 hy with rfl | hy
    · linarith
    · have := ih (fun y hy => h y (by simp [hy])) ⟨y, hy, hyp⟩
      linarith

theorem sum_map_le_mul (w : K → K) (X : List K) (lo hi : K) (h : ∀ x ∈ X, 0 ≤ w x)
    (hb : ∀ x ∈ X, lo ≤ x ∧ x ≤ hi) :
    lo * (X.map w).sum ≤ (X.map fun x => w x * x).sum ∧
    (X.map fun x => w x * x).sum ≤ hi * (X.map w).sum := by
  induction X with
  | nil => simp
  | cons x X ih =>
    simp only [List.map_cons, List.sum_cons]
    have h0 := h x (by simp)
    have h1 := ih (fun y hy => h y (by simp [hy])) (fun y hy => hb y (by simp [hy]))
    have h2 := hb x (by simp)
    constructor <;> nlinarith

/-- A weighted mean with non-negative weights lies in the hull of the data. -/
theorem weightedMean_hull (w : K → K) (X : List K) (h : ∀ x ∈ X, 0 ≤ w x) (hp : ∃ x ∈ X, 0 < w x) :
    ∃ l, weightedMean w X = some l ∧
      ∀ lo hi, (∀ x ∈ X, lo ≤ x ∧ x ≤ hi) → lo ≤ l ∧ l ≤ hi := by
  have hs := sum_map_pos w X h hp
  unfold weightedMean
  rw [if_neg hs.ne']
  refine ⟨_, rfl, ?_⟩
  intro lo hi hb
  have := sum_map_le_mul w X lo hi h hb
  constructor
  · rw [le_div_iff₀ hs]; exact this.1
  · rw [div_le_iff₀ hs]; exact this.2

omit [IsStrictOrderedRing K] in
/-- Equivariance of a weighted mean whose weights are invariant. -/
theorem weightedMean_affine (w w' : K → K) (a b : K) (X : List K)
    (h : ∀ x ∈ X, w' (a * x + b) = w x) :
    weightedMean w' (X.map fun x => a * x + b) = (weightedMean w X).map fun l => a * l + b := by
  have e1 : (X.map fun x => a * x + b).map w' = X.map w := by
    rw [List.map_map]
    apply List.map_congr_left
    intro x hx
    exact h x hx
  have e2 : ((X.map fun x => a * x + b).map fun x => w' x * x).sum =
      a * (X.map fun x => w x * x).sum + b * (X.map w).sum := by
    rw [List.map_map]
    clear e1
    induction X with
    | nil => simp
    | cons x X ih =>
      simp only [List.map_cons, List.sum_cons, Function.comp]
      rw [h x (by simp)]
      have := ih fun y hy => h y (by simp [hy])
      rw [this]; ring
  unfold weightedMean
  rw [e1, e2]
  split_ifs with h0
  · rfl
  · simp only [Option.map_some]
    congr 1
    field_simp

omit [IsStrictOrderedRing K] in
theorem weightedMean_perm (w : K → K) {X Y : List K} (h : X.Perm Y) :
    weightedMean w X = weightedMean w Y := by
  unfold weightedMean
  rw [(h.map w).sum_eq, (h.map fun x => w x * x).sum_eq]

end Robpy
