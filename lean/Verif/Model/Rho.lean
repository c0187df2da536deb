import Mathlib.Algebra.Order.Field.Basic

/-! Model of `robpy/utils/rho.py`, elementwise (the code applies them to arrays). -/

namespace Robpy
variable {K : Type} [Field K] [LinearOrder K]

/-- `TukeyBisquare.rho`, robpy/utils/rho.py 27-32. -/
def tukeyRho (c x : K) : K :=
  if |x| ≤ c then x ^ 2 / 2 - x ^ 4 / (2 * c ^ 2) + x ^ 6 / (6 * c ^ 4) else c ^ 2 / 6

/-- `TukeyBisquare.psi`, robpy/utils/rho.py 34-35. -/
def tukeyPsi (c x : K) : K := if |x| ≤ c then x * (1 - (x / c) ^ 2) ^ 2 else 0

/-- `np.sign` on finite values, used in robpy/utils/rho.py 53. -/
def npSign (x : K) : K := if x < 0 then -1 else if 0 < x then 1 else 0

/-- `Huber.rho`, robpy/utils/rho.py 49-50. -/
def huberRho (b x : K) : K := if |x| ≤ b then x ^ 2 / 2 else b * |x| - b ^ 2 / 2

/-- `Huber.psi`, robpy/utils/rho.py 52-53. -/
def huberPsi (b x : K) : K := if |x| ≤ b then x else b * npSign x

/-- The two subclasses of `BaseRho` (robpy/utils/rho.py 16, 38) with their constant. -/
inductive Rho (K : Type) where
  | tukey (c : K)
  | huber (b : K)

/-- Dynamic dispatch of `BaseRho.rho`, robpy/utils/rho.py 9. -/
def Rho.rho : Rho K → K → K
  | .tukey c => tukeyRho c
  | .huber b => huberRho b

/-- Dynamic dispatch of `BaseRho.psi`, robpy/utils/rho.py 12. -/
def Rho.psi : Rho K → K → K
  | .tukey c => tukeyPsi c
  | .huber b => huberPsi b

/-- The tuning constant (`self.c` robpy/utils/rho.py 25, `self.b` robpy/utils/rho.py 47). -/
def Rho.const : Rho K → K
  | .tukey c => c
  | .huber b => b

end Robpy
