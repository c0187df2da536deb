import Mathlib.Data.Multiset.Basic
import Mathlib.Algebra.Order.Field.Basic
import Mathlib.Algebra.BigOperators.Group.Multiset.Basic

/-! Elementary statistics of finite collections, independent of the model. -/

namespace Spec
variable {K : Type*} [Field K]

/-- Arithmetic mean of a collection. -/
def avg (s : Multiset K) : K := s.sum / (Multiset.card s : K)

/-- Population variance of a collection. -/
def popVar (s : Multiset K) : K := (s.map fun x => (x - avg s) ^ 2).sum / (Multiset.card s : K)

end Spec
