import Verif.Model.Utils
import Verif.Lemmas.LinAlg
import Mathlib.Algebra.Order.BigOperators.Group.List
import Mathlib.Algebra.Order.Chebyshev
import Mathlib.Analysis.SpecialFunctions.Pow.Real

/-! # Properties C63, C64, C90: the L1-median -/

namespace Spec

/-- Sum of the Euclidean distances of the observations to a point. -/
noncomputable def sumDist {p : ℕ} (X : List (Fin p → ℝ)) (mu : Fin p → ℝ) : ℝ :=
  (X.map fun x => Real.sqrt (∑ j, (x j - mu j) ^ 2)).sum

end Spec

namespace Robpy
variable {p : ℕ}

theorem rowDist_nonneg (x mu : Fin p → ℝ) : 0 ≤ rowDist x mu := Real.sqrt_nonneg _

theorem rowDist_sq (x mu : Fin p → ℝ) : rowDist x mu ^ 2 = ∑ j, (x j - mu j) ^ 2 := by
  unfold rowDist
  rw [Real.sq_sqrt (Finset.sum_nonneg fun j _ => mul_self_nonneg _)]
  exact Finset.sum_congr rfl fun j _ => (sq _).symm

theorem sumDist_eq (X : List (Fin p → ℝ)) (mu : Fin p → ℝ) :
    Spec.sumDist X mu = (X.map fun x => rowDist x mu).sum := by
  unfold Spec.sumDist rowDist
  simp only [sq]

theorem rowDist_eq_zero {x mu : Fin p → ℝ} : rowDist x mu = 0 ↔ x = mu := by
  constructor
  · intro h
    have h1 := rowDist_sq x mu
    rw [h, zero_pow two_ne_zero] at h1
    have h2 := (Finset.sum_eq_zero_iff_of_nonneg fun j _ => sq_nonneg (x j - mu j)).1 h1.symm
    funext j
    exact sub_eq_zero.1 (pow_eq_zero_iff two_ne_zero |>.1 (h2 j (Finset.mem_univ j)))
  · rintro rfl
    simp [rowDist]

theorem list_sum_expand {α : Type} (X : List α) (w f : α → ℝ) (c : ℝ) :
    (X.map fun x => w x * (f x - c) ^ 2).sum =
      (X.map fun x => w x * f x ^ 2).sum - 2 * c * (X.map fun x => w x * f x).sum + c ^ 2 * (X.map w).sum := by
  induction X with
  | nil => simp
  | cons x l ih => simp only [List.map_cons, List.sum_cons, ih]; ring

theorem list_sum_shift {α : Type} (X : List α) (w f : α → ℝ) (a b : ℝ)
    (h : (X.map w).sum * b = (X.map fun x => w x * f x).sum) :
    (X.map fun x => w x * (f x - b) ^ 2).sum =
      (X.map fun x => w x * (f x - a) ^ 2).sum - (X.map w).sum * (a - b) ^ 2 := by
  rw [list_sum_expand, list_sum_expand, ← h]
  ring

theorem list_sum_comm {α : Type} (X : List α) (f : α → Fin p → ℝ) :
    (X.map fun x => ∑ j, f x j).sum = ∑ j, (X.map fun x => f x j).sum := by
  induction X with
  | nil => simp
  | cons x l ih => simp only [List.map_cons, List.sum_cons, ih, Finset.sum_add_distrib]

theorem list_sum_mul_div {α : Type} (X : List α) (f w : α → ℝ) (W : ℝ) :
    (X.map fun x => f x * w x / W).sum = (X.map fun x => w x * f x).sum / W := by
  induction X with
  | nil => simp
  | cons x l ih => simp only [List.map_cons, List.sum_cons, ih]; ring

theorem l1WeightSum_pos {X : List (Fin p → ℝ)} {mu : Fin p → ℝ} (hX : X ≠ []) (h : mu ∉ X) :
    0 < l1WeightSum X mu := by
  unfold l1WeightSum
  refine List.sum_pos _ ?_ (by simpa using hX)
  intro v hv
  obtain ⟨x, hx, rfl⟩ := List.mem_map.1 hv
  have : rowDist x mu ≠ 0 := fun h0 => h (rowDist_eq_zero.1 h0 ▸ hx)
  exact one_div_pos.2 (lt_of_le_of_ne (rowDist_nonneg _ _) this.symm)

theorem l1Next_of_mem {X : List (Fin p → ℝ)} {mu : Fin p → ℝ} (h : mu ∈ X) : l1Next X (some mu) = none := by
  unfold l1Next
  exact if_pos ⟨mu, h, rowDist_eq_zero.2 rfl⟩

theorem l1Next_of_not_mem {X : List (Fin p → ℝ)} {mu : Fin p → ℝ} (h : mu ∉ X) :
    l1Next X (some mu) = some fun j => (X.map fun x => x j * (1 / rowDist x mu) / l1WeightSum X mu).sum := by
  unfold l1Next
  exact if_neg fun ⟨x, hx, h0⟩ => h (rowDist_eq_zero.1 h0 ▸ hx)

/-- The next iterate is a weighted mean with positive weights. -/
theorem l1Next_mean {X : List (Fin p → ℝ)} {mu mu1 : Fin p → ℝ} (hX : X ≠ []) (h : mu ∉ X)
    (hn : l1Next X (some mu) = some mu1) (j : Fin p) :
    l1WeightSum X mu * mu1 j = (X.map fun x => (1 / rowDist x mu) * x j).sum := by
  rw [l1Next_of_not_mem h] at hn
  obtain rfl := Option.some.inj hn
  simp only
  rw [list_sum_mul_div X (fun x => x j) (fun x => 1 / rowDist x mu)]
  exact mul_div_cancel₀ _ (l1WeightSum_pos hX h).ne'

/-! ## C64 -/

/-- **C64**: an iteration from a point that is not an observation decreases the sum of distances by at least half the
squared length of the step times the sum of the inverse distances. -/
theorem C64_descent {X : List (Fin p → ℝ)} {mu mu1 : Fin p → ℝ} (hX : X ≠ []) (h : mu ∉ X)
    (hn : l1Next X (some mu) = some mu1) :
    Spec.sumDist X mu1 + (X.map fun x => 1 / Real.sqrt (∑ j, (x j - mu j) ^ 2)).sum / 2 * ∑ j, (mu j - mu1 j) ^ 2 ≤
      Spec.sumDist X mu := by
  have hpos : ∀ x ∈ X, 0 < rowDist x mu := fun x hx =>
    lt_of_le_of_ne (rowDist_nonneg _ _) fun h0 => h (rowDist_eq_zero.1 h0.symm ▸ hx)
  have hW : (X.map fun x => 1 / Real.sqrt (∑ j, (x j - mu j) ^ 2)).sum = l1WeightSum X mu := by
    unfold l1WeightSum rowDist
    simp only [sq]
  rw [hW, sumDist_eq, sumDist_eq]
  have h1 : ∀ j, (X.map fun x => (1 / rowDist x mu) * (x j - mu1 j) ^ 2).sum =
      (X.map fun x => (1 / rowDist x mu) * (x j - mu j) ^ 2).sum - l1WeightSum X mu * (mu j - mu1 j) ^ 2 := fun j =>
    list_sum_shift X (fun x => 1 / rowDist x mu) (fun x => x j) (mu j) (mu1 j) (l1Next_mean hX h hn j)
  have h2 : (X.map fun x => (1 / rowDist x mu) * rowDist x mu1 ^ 2).sum =
      (X.map fun x => (1 / rowDist x mu) * rowDist x mu ^ 2).sum - l1WeightSum X mu * ∑ j, (mu j - mu1 j) ^ 2 := by
    simp only [rowDist_sq, Finset.mul_sum]
    rw [list_sum_comm, list_sum_comm, ← Finset.sum_sub_distrib]
    exact Finset.sum_congr rfl fun j _ => h1 j
  have h3 : (X.map fun x => (1 / rowDist x mu) * rowDist x mu ^ 2) = X.map fun x => rowDist x mu :=
    List.map_congr_left fun x hx => by have := (hpos x hx).ne'; field_simp
  rw [h3] at h2
  have h4 : (X.map fun x => rowDist x mu1).sum ≤
      (X.map fun x => (1 / rowDist x mu) * rowDist x mu1 ^ 2 / 2 + rowDist x mu / 2).sum := by
    refine List.sum_le_sum fun x hx => ?_
    have hd := hpos x hx
    have : (1 / rowDist x mu) * rowDist x mu1 ^ 2 / 2 + rowDist x mu / 2 - rowDist x mu1 =
        (rowDist x mu1 - rowDist x mu) ^ 2 / (2 * rowDist x mu) := by field_simp; ring
    have h5 : 0 ≤ (rowDist x mu1 - rowDist x mu) ^ 2 / (2 * rowDist x mu) := by positivity
    linarith
  have h6 : (X.map fun x => (1 / rowDist x mu) * rowDist x mu1 ^ 2 / 2 + rowDist x mu / 2).sum =
      (X.map fun x => (1 / rowDist x mu) * rowDist x mu1 ^ 2).sum / 2 + (X.map fun x => rowDist x mu).sum / 2 := by
    generalize X = L
    induction L with
    | nil => simp
    | cons x l ih => simp only [List.map_cons, List.sum_cons, ih]; ring
  rw [h6, h2] at h4
  linarith

/-- **C64**: the sum of distances does not increase. -/
theorem C64_monotone {X : List (Fin p → ℝ)} {mu mu1 : Fin p → ℝ} (hX : X ≠ []) (h : mu ∉ X)
    (hn : l1Next X (some mu) = some mu1) : Spec.sumDist X mu1 ≤ Spec.sumDist X mu := by
  have h1 := C64_descent hX h hn
  have h2 : 0 ≤ (X.map fun x => 1 / Real.sqrt (∑ j, (x j - mu j) ^ 2)).sum / 2 * ∑ j, (mu j - mu1 j) ^ 2 := by
    refine mul_nonneg (div_nonneg (List.sum_nonneg ?_) zero_le_two) (Finset.sum_nonneg fun j _ => sq_nonneg _)
    intro v hv
    obtain ⟨x, -, rfl⟩ := List.mem_map.1 hv
    positivity
  linarith

/-- `C64_descent` applies to a point between two observations. -/
example : ∃ mu1, l1Next [![(0:ℝ)], ![3]] (some ![1]) = some mu1 ∧ ![(1:ℝ)] ∉ [![(0:ℝ)], ![3]] := by
  have h : ![(1:ℝ)] ∉ [![(0:ℝ)], ![3]] := by
    intro h
    simp at h
  exact ⟨_, l1Next_of_not_mem h, h⟩

/-! ## C63 -/

/-- The sequence of iterates, starting with the mean of the data. -/
noncomputable def l1Iter (X : List (Fin p → ℝ)) : ℕ → Option (Fin p → ℝ)
  | 0 => if X = [] then none else some (meanRow X)
  | k + 1 => l1Next X (l1Iter X k)

theorem l1Next_hull {X : List (Fin p → ℝ)} {mu mu1 : Fin p → ℝ} (hX : X ≠ [])
    (hn : l1Next X (some mu) = some mu1) (j : Fin p) (lo hi : ℝ) (hb : ∀ x ∈ X, lo ≤ x j ∧ x j ≤ hi) :
    lo ≤ mu1 j ∧ mu1 j ≤ hi := by
  have h : mu ∉ X := fun h => by rw [l1Next_of_mem h] at hn; simp at hn
  have hW := l1WeightSum_pos hX h
  have hm := l1Next_mean hX h hn j
  have e : ∀ c : ℝ, l1WeightSum X mu * c = (X.map fun x => (1 / rowDist x mu) * c).sum := fun c => by
    unfold l1WeightSum
    rw [← List.sum_map_mul_right]
  constructor
  · refine le_of_mul_le_mul_left ?_ hW
    rw [hm, e]
    exact List.sum_le_sum fun x hx => mul_le_mul_of_nonneg_left (hb x hx).1 (one_div_nonneg.2 (rowDist_nonneg _ _))
  · refine le_of_mul_le_mul_left ?_ hW
    rw [hm, e]
    exact List.sum_le_sum fun x hx => mul_le_mul_of_nonneg_left (hb x hx).2 (one_div_nonneg.2 (rowDist_nonneg _ _))

theorem l1Step_stop {eps : ℝ} {X : List (Fin p → ℝ)} {s : Option (Fin p → ℝ)} {b : Fin p → ℝ}
    (h : l1Step eps X s = .ok (.inr b)) :
    ∃ a, s = some a ∧ l1Next X (some a) = some b ∧ ∑ j, |a j - b j| < eps := by
  unfold l1Step at h
  rcases s with _ | a
  · simp at h
  rcases hn : l1Next X (some a) with _ | c
  · rw [hn] at h; simp at h
  rw [hn] at h
  simp only at h
  split_ifs at h with hc
  · simp only [Except.ok.injEq, Sum.inr.injEq] at h
    exact ⟨a, rfl, by rw [← h, hn], h ▸ hc⟩
  · simp at h

theorem l1Step_no_error {eps : ℝ} {X : List (Fin p → ℝ)} (s : Option (Fin p → ℝ)) :
    (∃ b, l1Step eps X s = .ok (.inr b)) ∨ l1Step eps X s = .ok (.inl (l1Next X s)) := by
  unfold l1Step
  rcases s with _ | a
  · exact Or.inr rfl
  rcases hn : l1Next X (some a) with _ | c
  · exact Or.inr rfl
  simp only
  split_ifs
  · exact Or.inl ⟨c, rfl⟩
  · exact Or.inr rfl

/-- What a run returns is an iterate that is closer than `eps` to its predecessor. -/
theorem l1Loop_result {eps : ℝ} {X : List (Fin p → ℝ)} (fuel : ℕ) (k : ℕ) (r : Except PyErr (Fin p → ℝ))
    (h : runLoop (l1Step eps X) fuel (l1Iter X k) = some r) :
    ∃ b a i, r = .ok b ∧ l1Iter X i = some a ∧ l1Iter X (i + 1) = some b ∧ ∑ j, |a j - b j| < eps := by
  induction fuel generalizing k with
  | zero => simp [runLoop] at h
  | succ n ih =>
    rcases l1Step_no_error (eps := eps) (X := X) (l1Iter X k) with ⟨b, hb⟩ | hb
    · rw [runLoop, hb] at h
      obtain ⟨a, ha, hn, hlt⟩ := l1Step_stop hb
      exact ⟨b, a, k, (Option.some.inj h).symm, ha, by rw [l1Iter, ha, hn], hlt⟩
    · rw [runLoop, hb] at h
      exact ih (k + 1) h

theorem meanRow_bounds {X : List (Fin p → ℝ)} (hX : X ≠ []) (j : Fin p) (lo hi : ℝ)
    (hb : ∀ x ∈ X, lo ≤ x j ∧ x j ≤ hi) : lo ≤ meanRow X j ∧ meanRow X j ≤ hi := by
  have hn : (0:ℝ) < X.length := by exact_mod_cast List.length_pos_iff.2 hX
  unfold meanRow mean
  rw [List.length_map, le_div_iff₀ hn, div_le_iff₀ hn]
  have e : ∀ c : ℝ, c * X.length = (X.map fun _ => c).sum := fun c => by simp [mul_comm]
  rw [e lo, e hi]
  exact ⟨List.sum_le_sum fun x hx => (hb x hx).1, List.sum_le_sum fun x hx => (hb x hx).2⟩

/-- **C63**, the part about the result: whatever `l1median` returns lies, in each coordinate, between the smallest and
the largest observation, and the last iteration moved it by less than `eps`. -/
theorem C63_hull_partial (eps : ℝ) (X : List (Fin p → ℝ)) (hX : X ≠ []) (fuel : ℕ) (r : Except PyErr (Fin p → ℝ))
    (h : l1median eps X fuel = some r) :
    ∃ mu a, r = .ok mu ∧ a ∉ X ∧ l1Next X (some a) = some mu ∧ ∑ j, |a j - mu j| < eps ∧
      ∀ j lo hi, (∀ x ∈ X, lo ≤ x j ∧ x j ≤ hi) → lo ≤ mu j ∧ mu j ≤ hi := by
  obtain ⟨b, a, i, hr, h1, h2, h3⟩ := l1Loop_result fuel 0 r h
  rw [l1Iter, h1] at h2
  exact ⟨b, a, hr, fun ha => by rw [l1Next_of_mem ha] at h2; simp at h2, h2, h3,
    fun j lo hi hb => l1Next_hull hX h2 j lo hi hb⟩

theorem l1Loop_none {eps : ℝ} {X : List (Fin p → ℝ)} (hX : X ≠ []) (fuel : ℕ) :
    runLoop (l1Step eps X) fuel none = none := by
  induction fuel with
  | zero => rfl
  | succ n ih =>
    have : l1Step eps X none = .ok (.inl none) := by simp [l1Step, l1Next, hX]
    rw [runLoop, this]
    exact ih

theorem l1Loop_mem {eps : ℝ} {X : List (Fin p → ℝ)} {mu : Fin p → ℝ} (h : mu ∈ X) (fuel : ℕ) :
    runLoop (l1Step eps X) fuel (some mu) = none := by
  cases fuel with
  | zero => rfl
  | succ n =>
    have : l1Step eps X (some mu) = .ok (.inl none) := by simp [l1Step, l1Next_of_mem h]
    rw [runLoop, this]
    exact l1Loop_none (List.ne_nil_of_mem h) n

/-- **C63**, full statement: `l1median` returns a point in the coordinatewise hull of every data set. -/
def C63_statement : Prop :=
  ∀ (p : ℕ) (eps : ℝ) (X : List (Fin p → ℝ)), 0 < p → 0 < eps → X ≠ [] →
    ∃ fuel mu, l1median eps X fuel = some (.ok mu) ∧
      ∀ j lo hi, (∀ x ∈ X, lo ≤ x j ∧ x j ≤ hi) → lo ≤ mu j ∧ mu j ≤ hi

/-- **C63**: if the mean is one of the observations, `l1median` never returns. -/
theorem C63_never (eps : ℝ) (X : List (Fin p → ℝ)) (h : meanRow X ∈ X) (fuel : ℕ) : l1median eps X fuel = none := by
  unfold l1median
  rw [if_neg (List.ne_nil_of_mem h)]
  exact l1Loop_mem h fuel

/-- **C63** is violated by the code: for -1, 0, 1 (and for every constant data set) it does not terminate. -/
theorem C63_violated : ¬ C63_statement := by
  intro h
  obtain ⟨fuel, mu, h1, -⟩ := h 1 1 [![-1], ![0], ![1]] one_pos one_pos (by simp)
  rw [C63_never] at h1
  · simp at h1
  · have : meanRow [![(-1:ℝ)], ![0], ![1]] = ![0] := by
      funext j
      fin_cases j
      simp [meanRow, mean]
    rw [this]
    simp

example (a : ℝ) (n : ℕ) (fuel : ℕ) : l1median 1 (List.replicate (n + 1) ![a]) fuel = none := by
  refine C63_never 1 _ ?_ fuel
  have : meanRow (List.replicate (n + 1) ![a]) = ![a] := by
    funext j
    have hn : ((n:ℝ) + 1) ≠ 0 := by positivity
    fin_cases j
    simp [meanRow, mean]
    field_simp
  rw [this]
  simp

theorem rowDist_le_sumDist {X : List (Fin p → ℝ)} {x mu : Fin p → ℝ} (hx : x ∈ X) :
    rowDist x mu ≤ Spec.sumDist X mu := by
  rw [sumDist_eq]
  exact List.single_le_sum (by
    intro v hv
    obtain ⟨y, -, rfl⟩ := List.mem_map.1 hv
    exact rowDist_nonneg _ _) _ (List.mem_map.2 ⟨x, hx, rfl⟩)

theorem sumDist_nonneg (X : List (Fin p → ℝ)) (mu : Fin p → ℝ) : 0 ≤ Spec.sumDist X mu := by
  rw [sumDist_eq]
  refine List.sum_nonneg ?_
  intro v hv
  obtain ⟨x, -, rfl⟩ := List.mem_map.1 hv
  exact rowDist_nonneg _ _

/-- A step of length at least `eps` (sum of absolute coordinates) decreases the sum of distances by a fixed amount. -/
theorem l1_decrease {eps : ℝ} {X : List (Fin p → ℝ)} {mu mu1 : Fin p → ℝ} (hp : 0 < p) (heps : 0 < eps) (hX : X ≠ [])
    (h : mu ∉ X) (hn : l1Next X (some mu) = some mu1) (F : ℝ) (hF : Spec.sumDist X mu ≤ F)
    (hstep : eps ≤ ∑ j, |mu j - mu1 j|) : Spec.sumDist X mu1 + eps ^ 2 / (2 * F * p) ≤ Spec.sumDist X mu := by
  have h1 := C64_descent hX h hn
  obtain ⟨x, hx⟩ := List.exists_mem_of_ne_nil X hX
  have hd : 0 < rowDist x mu := lt_of_le_of_ne (rowDist_nonneg _ _) fun h0 => h (rowDist_eq_zero.1 h0.symm ▸ hx)
  have hdF : rowDist x mu ≤ F := (rowDist_le_sumDist hx).trans hF
  have hF0 : 0 < F := hd.trans_le hdF
  have hW : 1 / F ≤ (X.map fun x => 1 / Real.sqrt (∑ j, (x j - mu j) ^ 2)).sum := by
    have e : rowDist x mu = Real.sqrt (∑ j, (x j - mu j) ^ 2) := by unfold rowDist; simp only [sq]
    refine (one_div_le_one_div_of_le hd hdF).trans ?_
    refine List.single_le_sum ?_ _ (List.mem_map.2 ⟨x, hx, by rw [e]⟩)
    intro v hv
    obtain ⟨y, -, rfl⟩ := List.mem_map.1 hv
    positivity
  have hp' : (0:ℝ) < p := by exact_mod_cast hp
  have hcs : (∑ j, |mu j - mu1 j|) ^ 2 ≤ p * ∑ j, (mu j - mu1 j) ^ 2 := by
    have := sq_sum_le_card_mul_sum_sq (s := (Finset.univ : Finset (Fin p))) (f := fun j => |mu j - mu1 j|)
    simpa using this
  have hsq : eps ^ 2 / p ≤ ∑ j, (mu j - mu1 j) ^ 2 := by
    rw [div_le_iff₀ hp', mul_comm]
    exact (pow_le_pow_left₀ heps.le hstep 2).trans hcs
  have h2 : 1 / F / 2 * (eps ^ 2 / p) ≤
      (X.map fun x => 1 / Real.sqrt (∑ j, (x j - mu j) ^ 2)).sum / 2 * ∑ j, (mu j - mu1 j) ^ 2 := by
    refine mul_le_mul (by linarith) hsq (by positivity) ?_
    have : 0 < 1 / F := by positivity
    linarith
  have h3 : 1 / F / 2 * (eps ^ 2 / p) = eps ^ 2 / (2 * F * p) := by field_simp
  linarith

theorem l1Loop_terminates {eps : ℝ} {X : List (Fin p → ℝ)} (hp : 0 < p) (heps : 0 < eps) (hX : X ≠ [])
    (F : ℝ) (hgood : ∀ i a, l1Iter X i = some a → a ∉ X) (n k : ℕ) (mu : Fin p → ℝ) (hk : l1Iter X k = some mu)
    (hF : Spec.sumDist X mu ≤ F) (hn : Spec.sumDist X mu < n * (eps ^ 2 / (2 * F * p))) :
    ∃ fuel r, runLoop (l1Step eps X) fuel (l1Iter X k) = some r := by
  induction n generalizing k mu with
  | zero =>
    have := sumDist_nonneg X mu
    simp at hn
    linarith
  | succ n ih =>
    rcases l1Step_no_error (eps := eps) (X := X) (l1Iter X k) with ⟨b, hb⟩ | hb
    · exact ⟨1, .ok b, by simp [runLoop, hb]⟩
    · have hmem := hgood k mu hk
      obtain ⟨mu1, h1⟩ : ∃ mu1, l1Next X (some mu) = some mu1 := ⟨_, l1Next_of_not_mem hmem⟩
      have hstep : eps ≤ ∑ j, |mu j - mu1 j| := by
        by_contra hlt
        push Not at hlt
        unfold l1Step at hb
        rw [hk, h1] at hb
        simp [hlt] at hb
      have hdec := l1_decrease hp heps hX hmem h1 F hF hstep
      have hk1 : l1Iter X (k + 1) = some mu1 := by rw [l1Iter, hk, h1]
      have hpos : 0 ≤ eps ^ 2 / (2 * F * p) := by
        have := (sumDist_nonneg X mu).trans hF
        positivity
      obtain ⟨fuel, r, hr⟩ := ih (k + 1) mu1 hk1 (by linarith) (by push_cast at hn; linarith)
      exact ⟨fuel + 1, r, by rw [runLoop, hb]; exact hr⟩

/-- **C63**, termination: on non-empty data with at least one column, `l1median` returns if no iterate coincides with
an observation. -/
theorem C63_terminates_partial (eps : ℝ) (heps : 0 < eps) (hp : 0 < p) (X : List (Fin p → ℝ)) (hX : X ≠ [])
    (hgood : ∀ i a, l1Iter X i = some a → a ∉ X) : ∃ fuel mu, l1median eps X fuel = some (.ok mu) := by
  have hk : l1Iter X 0 = some (meanRow X) := by rw [l1Iter, if_neg hX]
  have hmem := hgood 0 _ hk
  obtain ⟨x, hx⟩ := List.exists_mem_of_ne_nil X hX
  have hd : 0 < rowDist x (meanRow X) :=
    lt_of_le_of_ne (rowDist_nonneg _ _) fun h0 => hmem (rowDist_eq_zero.1 h0.symm ▸ hx)
  have hF0 : 0 < Spec.sumDist X (meanRow X) := hd.trans_le (rowDist_le_sumDist hx)
  have hp' : (0:ℝ) < p := by exact_mod_cast hp
  have hpos : 0 < eps ^ 2 / (2 * Spec.sumDist X (meanRow X) * p) := by positivity
  obtain ⟨n, hn⟩ := exists_nat_gt (Spec.sumDist X (meanRow X) / (eps ^ 2 / (2 * Spec.sumDist X (meanRow X) * p)))
  rw [div_lt_iff₀ hpos] at hn
  obtain ⟨fuel, r, hr⟩ := l1Loop_terminates hp heps hX _ hgood n 0 _ hk le_rfl hn
  obtain ⟨mu, -, -, rfl, -⟩ := l1Loop_result fuel 0 r hr
  exact ⟨fuel, mu, hr⟩

/-- **C63**, exactly when `l1median` returns: two consecutive iterates, neither of them NaN, are closer than `eps`. -/
theorem C63_iff (eps : ℝ) (X : List (Fin p → ℝ)) :
    (∃ fuel mu, l1median eps X fuel = some (.ok mu)) ↔
      ∃ i a b, l1Iter X i = some a ∧ l1Iter X (i + 1) = some b ∧ ∑ j, |a j - b j| < eps := by
  constructor
  · rintro ⟨fuel, mu, h⟩
    obtain ⟨b, a, i, -, h1, h2, h3⟩ := l1Loop_result fuel 0 _ h
    exact ⟨i, a, b, h1, h2, h3⟩
  · rintro ⟨i, a, b, h1, h2, h3⟩
    have key : ∀ n k, k + n = i → ∃ fuel mu, runLoop (l1Step eps X) fuel (l1Iter X k) = some (.ok mu) := by
      intro n
      induction n with
      | zero =>
        rintro k rfl
        rw [Nat.add_zero] at h1
        rw [Nat.add_zero, l1Iter, h1] at h2
        refine ⟨1, b, ?_⟩
        simp [runLoop, l1Step, h1, h2, h3]
      | succ n ih =>
        intro k hk
        rcases l1Step_no_error (eps := eps) (X := X) (l1Iter X k) with ⟨c, hc⟩ | hc
        · exact ⟨1, c, by simp [runLoop, hc]⟩
        · obtain ⟨fuel, mu, h⟩ := ih (k + 1) (by omega)
          exact ⟨fuel + 1, mu, by rw [runLoop, hc]; exact h⟩
    exact key i 0 (by omega)

theorem l1_two_not_mem : ![(1 / 2 : ℝ)] ∉ [![(0:ℝ)], ![1]] := by
  intro h
  rcases List.mem_cons.1 h with h | h
  · have := congrFun h 0
    norm_num at this
  · have := congrFun (List.mem_singleton.1 h) 0
    norm_num at this

theorem l1_two (i : ℕ) : l1Iter [![(0:ℝ)], ![1]] i = some ![1 / 2] := by
  induction i with
  | zero =>
    rw [l1Iter, if_neg (by simp)]
    congr 1
    funext j
    fin_cases j
    simp [meanRow, mean]
  | succ i ih =>
    rw [l1Iter, ih, l1Next_of_not_mem l1_two_not_mem]
    congr 1
    funext j
    have d0 : rowDist ![(0:ℝ)] ![1 / 2] = rowDist ![(1:ℝ)] ![1 / 2] := by
      unfold rowDist
      congr 1
      simp only [Finset.univ_unique, Fin.default_eq_zero, Finset.sum_singleton, Matrix.cons_val_zero]
      norm_num
    have d1 : rowDist ![(1:ℝ)] ![1 / 2] ≠ 0 := fun h => by
      have := congrFun (rowDist_eq_zero.1 h) 0
      norm_num at this
    fin_cases j
    simp only [l1WeightSum, List.map_cons, List.map_nil, d0, List.sum_cons, List.sum_nil]
    generalize rowDist ![(1:ℝ)] ![1 / 2] = d at d1
    simp
    field_simp
    norm_num

/-- `C63_terminates_partial` applies to two observations. -/
example (eps : ℝ) (heps : 0 < eps) : ∃ fuel mu, l1median eps [![0], ![1]] fuel = some (.ok mu) := by
  refine C63_terminates_partial eps heps one_pos _ (by simp) fun i a ha => ?_
  rw [l1_two] at ha
  obtain rfl := Option.some.inj ha
  exact l1_two_not_mem

/-! ## C90 -/

/-- The observations `c * x + b`. -/
def moveRows (c : ℝ) (b : Fin p → ℝ) (X : List (Fin p → ℝ)) : List (Fin p → ℝ) := X.map fun x j => c * x j + b j

theorem rowDist_move (c : ℝ) (b x mu : Fin p → ℝ) :
    rowDist (fun j => c * x j + b j) (fun j => c * mu j + b j) = |c| * rowDist x mu := by
  unfold rowDist
  rw [← Real.sqrt_sq_eq_abs, ← Real.sqrt_mul (sq_nonneg c), Finset.mul_sum]
  congr 1
  exact Finset.sum_congr rfl fun j _ => by ring

theorem mem_moveRows {c : ℝ} (hc : c ≠ 0) (b : Fin p → ℝ) (X : List (Fin p → ℝ)) (mu : Fin p → ℝ) :
    (fun j => c * mu j + b j) ∈ moveRows c b X ↔ mu ∈ X := by
  unfold moveRows
  constructor
  · intro h
    obtain ⟨x, hx, he⟩ := List.mem_map.1 h
    have : x = mu := by
      funext j
      have := congrFun he j
      exact mul_left_cancel₀ hc (add_right_cancel this)
    exact this ▸ hx
  · exact fun h => List.mem_map.2 ⟨mu, h, rfl⟩

theorem l1Next_move {c : ℝ} (hc : c ≠ 0) (b : Fin p → ℝ) {X : List (Fin p → ℝ)} (hX : X ≠ []) (mu : Option (Fin p → ℝ)) :
    l1Next (moveRows c b X) (mu.map fun v j => c * v j + b j) = (l1Next X mu).map fun v j => c * v j + b j := by
  rcases mu with _ | mu
  · simp [l1Next, moveRows, hX]
  rw [Option.map_some]
  by_cases h : mu ∈ X
  · rw [l1Next_of_mem h, l1Next_of_mem ((mem_moveRows hc b X mu).2 h)]
    rfl
  have h' := fun hm => h ((mem_moveRows hc b X mu).1 hm)
  obtain ⟨nu, hnu⟩ : ∃ nu, l1Next X (some mu) = some nu := ⟨_, l1Next_of_not_mem h⟩
  obtain ⟨nu', hnu'⟩ : ∃ nu', l1Next (moveRows c b X) (some fun j => c * mu j + b j) = some nu' :=
    ⟨_, l1Next_of_not_mem h'⟩
  have hX' : moveRows c b X ≠ [] := by simpa [moveRows] using hX
  have habs : |c| ≠ 0 := abs_ne_zero.2 hc
  have hW : l1WeightSum (moveRows c b X) (fun j => c * mu j + b j) = |c|⁻¹ * l1WeightSum X mu := by
    unfold l1WeightSum moveRows
    rw [List.map_map, ← List.sum_map_mul_left]
    congr 1
    refine List.map_congr_left fun x _ => ?_
    simp only [Function.comp, rowDist_move]
    field_simp
  rw [hnu, hnu', Option.map_some]
  congr 1
  funext j
  have e := l1Next_mean hX h hnu j
  have e' := l1Next_mean hX' h' hnu' j
  rw [hW] at e'
  have hs : ((moveRows c b X).map fun x => (1 / rowDist x fun j => c * mu j + b j) * x j).sum =
      |c|⁻¹ * (c * (X.map fun x => (1 / rowDist x mu) * x j).sum + b j * l1WeightSum X mu) := by
    unfold moveRows l1WeightSum
    rw [List.map_map]
    clear e e' hW hnu hnu' h h' hX hX'
    induction X with
    | nil => simp
    | cons x l ih =>
      simp only [List.map_cons, List.sum_cons, ih, Function.comp, rowDist_move]
      field_simp
      ring
  rw [hs, ← e] at e'
  have hWp := l1WeightSum_pos hX h
  have hci : |c|⁻¹ ≠ 0 := inv_ne_zero habs
  have : l1WeightSum X mu * nu' j = l1WeightSum X mu * (c * nu j + b j) := by
    rw [mul_assoc] at e'
    have := mul_left_cancel₀ hci e'
    rw [this]
    ring
  exact mul_left_cancel₀ hWp.ne' this

theorem l1Loop_move {eps c : ℝ} (hc : c ≠ 0) (b : Fin p → ℝ) {X : List (Fin p → ℝ)} (hX : X ≠ []) (fuel : ℕ)
    (mu : Option (Fin p → ℝ)) :
    runLoop (l1Step (|c| * eps) (moveRows c b X)) fuel (mu.map fun v j => c * v j + b j) =
      (runLoop (l1Step eps X) fuel mu).map fun r => r.map fun v j => c * v j + b j := by
  induction fuel generalizing mu with
  | zero => rfl
  | succ n ih =>
    have hstep : l1Step (|c| * eps) (moveRows c b X) (mu.map fun v j => c * v j + b j) =
        (l1Step eps X mu).map fun s => s.map (fun o => o.map fun v j => c * v j + b j) (fun v j => c * v j + b j) := by
      unfold l1Step
      rw [l1Next_move hc b hX]
      rcases mu with _ | a
      · rfl
      rcases l1Next X (some a) with _ | d
      · rfl
      simp only [Option.map_some]
      have : ∑ j, |c * a j + b j - (c * d j + b j)| = |c| * ∑ j, |a j - d j| := by
        rw [Finset.mul_sum]
        refine Finset.sum_congr rfl fun j _ => ?_
        rw [← abs_mul]
        congr 1
        ring
      rw [this]
      have hiff : |c| * ∑ j, |a j - d j| < |c| * eps ↔ ∑ j, |a j - d j| < eps :=
        mul_lt_mul_iff_right₀ (abs_pos.2 hc)
      by_cases hlt : ∑ j, |a j - d j| < eps
      · rw [if_pos hlt, if_pos (hiff.2 hlt)]; rfl
      · rw [if_neg hlt, if_neg fun h => hlt (hiff.1 h)]; rfl
    rw [runLoop, runLoop, hstep]
    rcases l1Step eps X mu with e | (s | v)
    · rfl
    · exact ih s
    · rfl

/-- **C90**: `l1median` moves with the data: for data `c * x + b` (and tolerance `|c| * eps`) it returns `c * mu + b`, and it
fails to return exactly when it does for `x`.  In particular it is equivariant under shifts. -/
theorem C90_equivariant (eps c : ℝ) (hc : c ≠ 0) (b : Fin p → ℝ) (X : List (Fin p → ℝ)) (hX : X ≠ []) (fuel : ℕ) :
    l1median (|c| * eps) (X.map fun x j => c * x j + b j) fuel =
      (l1median eps X fuel).map fun r => r.map fun mu j => c * mu j + b j := by
  have hmean : meanRow (X.map fun x j => c * x j + b j) = fun j => c * meanRow X j + b j := by
    funext j
    have hn : (X.length : ℝ) ≠ 0 := by exact_mod_cast (List.length_pos_iff.2 hX).ne'
    have : ((X.map fun x => c * x j + b j).sum) = c * (X.map fun x => x j).sum + X.length * b j := by
      clear hX hn
      induction X with
      | nil => simp
      | cons x l ih => simp only [List.map_cons, List.sum_cons, ih, List.length_cons]; push_cast; ring
    simp only [meanRow, mean, List.map_map, List.length_map, Function.comp_def, this]
    field_simp
  unfold l1median
  rw [if_neg hX, if_neg (by simpa using hX), hmean]
  exact l1Loop_move hc b hX fuel (some (meanRow X))

theorem C90_shift (eps : ℝ) (b : Fin p → ℝ) (X : List (Fin p → ℝ)) (hX : X ≠ []) (fuel : ℕ) :
    l1median eps (X.map fun x => x + b) fuel = (l1median eps X fuel).map fun r => r.map fun mu => mu + b := by
  have h := C90_equivariant eps 1 one_ne_zero b X hX fuel
  simp only [abs_one, one_mul] at h
  exact h

/-- **C90**: the order of the observations does not matter. -/
theorem C90_perm (eps : ℝ) {X Y : List (Fin p → ℝ)} (h : X.Perm Y) (fuel : ℕ) :
    l1median eps X fuel = l1median eps Y fuel := by
  have hnil : X = [] ↔ Y = [] := ⟨fun e => by subst e; exact h.nil_eq.symm, fun e => by subst e; exact h.eq_nil⟩
  have hnext : l1Next X = l1Next Y := by
    funext mu
    rcases mu with _ | mu
    · simp [l1Next, hnil]
    by_cases hm : mu ∈ X
    · rw [l1Next_of_mem hm, l1Next_of_mem (h.mem_iff.1 hm)]
    · rw [l1Next_of_not_mem hm, l1Next_of_not_mem fun h' => hm (h.mem_iff.2 h')]
      have hW : l1WeightSum X mu = l1WeightSum Y mu := (h.map _).sum_eq
      rw [hW]
      congr 1
      funext j
      exact (h.map _).sum_eq
  have hstep : l1Step eps X = l1Step eps Y := by
    funext mu
    unfold l1Step
    rw [hnext]
  unfold l1median
  rw [hstep, meanRow_perm h]
  by_cases hx : X = []
  · rw [if_pos hx, if_pos (hnil.1 hx)]
  · rw [if_neg hx, if_neg fun h' => hx (hnil.2 h')]

/-- `C90_shift` says something about data for which `l1median` returns. -/
example : ∃ fuel mu, l1median 1 [![0], ![1]] fuel = some (.ok mu) ∧
    l1median 1 ([![0], ![1]].map fun x => x + ![5]) fuel = some (.ok (mu + ![5])) := by
  obtain ⟨fuel, mu, h⟩ : ∃ fuel mu, l1median 1 [![(0:ℝ)], ![1]] fuel = some (.ok mu) := by
    exact (C63_iff _ _).2 ⟨0, _, _, l1_two 0, l1_two 1, by simp⟩
  exact ⟨fuel, mu, h, by rw [C90_shift _ _ _ (by simp), h]; rfl⟩

end Robpy
