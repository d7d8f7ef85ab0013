import Verif.Py.Double
import Verif.Spec.RoundedBoot

/-!
Specification of arithmetic that is only known on part of the numbers: roundings that agree on zero and on the numbers of a range of
sizes, such as the rounding to 53 bits and the arithmetic of `float64` between underflow and overflow.
-/

namespace Mizar.Spec
open Mizar

/-- `r'` rounds zero and the numbers from `2^lo` to `2^hi` in size as `r` does; nothing is known of it elsewhere. -/
def AgreesOn (lo hi : ℤ) (r r' : ℚ → ℚ) : Prop := ∀ q, q = 0 ∨ (2 : ℚ) ^ lo ≤ |q| ∧ |q| ≤ 2 ^ hi → r' q = r q

/-- A sum in the order of the tree with every addition rounded by `r`. -/
def SumTree.evalWith (r : ℚ → ℚ) : SumTree → ℚ
  | leaf x => x
  | node a b => r (a.evalWith r + b.evalWith r)

end Mizar.Spec
