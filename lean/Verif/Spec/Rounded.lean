import Verif.Py.Round
import Mathlib.Data.Sign.Basic

/-!
Specification of a position valued in floating point.
-/

namespace Mizar.Spec
open Mizar

/-- The return of a position opened at `x` and valued at `y`, as computed in floats with `p` bits. -/
def floatReturn (p : ℕ) (x y : ℚ) : ℚ := roundBits p (roundBits p (y / x) - 1)

/-- Price `y` is above the profit-taking barrier of a position opened at `x`, as seen by the floating-point computation. -/
def beyondProfit (p : ℕ) (x side ptf vol y : ℚ) : Prop :=
  0 < ptf ∧ roundBits p (ptf * vol) < side * floatReturn p x y

/-- Price `y` is below the stop-loss barrier. -/
def beyondLoss (p : ℕ) (x side slf vol y : ℚ) : Prop :=
  0 < slf ∧ side * floatReturn p x y < -roundBits p (slf * vol)

/-- The label a position deserves: the sign of the price move, or, for a metalabel, whether the side was right. -/
def deservedLabel (metalabeling : Bool) (x y side : ℚ) : Option ℚ :=
  if metalabeling then (if 0 < side * (y - x) then some 1 else if side * (y - x) < 0 then some 0 else none)
  else some ((SignType.sign (y - x) : ℤ) : ℚ)

end Mizar.Spec
