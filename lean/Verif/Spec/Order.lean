import Mathlib.Data.List.Count
import Mathlib.Algebra.Order.Field.Basic
import Mathlib.Algebra.BigOperators.Group.List.Basic

/-!
# Specifications about order statistics, independent of the model
-/

namespace Spec
variable {K : Type*}

/-- `v` is the `k`-th smallest (counted from 1) element of the collection `xs`: fewer than
`k` elements are below `v`, at least `k` elements are at most `v`. -/
def IsKthSmallest [LinearOrder K] (k : ℕ) (xs : List K) (v : K) : Prop :=
  xs.countP (fun x => x < v) < k ∧ k ≤ xs.countP (fun x => x ≤ v)

/-- All distances `|x_i - x_j|`, `i < j`. -/
def pairDists [Lattice K] [AddGroup K] : List K → List K
  | [] => []
  | x :: xs => xs.map (fun y => |x - y|) ++ pairDists xs

/-- Total weight of the entries of `xs` whose value satisfies `p`. -/
def weightOf {W : Type*} [AddMonoid W] (p : K → Bool) (xs : List (K × W)) : W :=
  ((xs.filter fun q => p q.1).map Prod.snd).sum

/-- `v` is a (high) weighted median: it has positive weight, strictly less lies at most half
of the weight, and up to `v` (inclusive) more than half of the weight. -/
def IsWeightedMedian {W : Type*} [LinearOrder K] [Ring W] [LinearOrder W]
    (xs : List (K × W)) (v : K) : Prop :=
  0 < weightOf (fun x => decide (x = v)) xs ∧
  2 * weightOf (fun x => decide (x < v)) xs ≤ (xs.map Prod.snd).sum ∧
  (xs.map Prod.snd).sum < 2 * weightOf (fun x => decide (x ≤ v)) xs

end Spec
