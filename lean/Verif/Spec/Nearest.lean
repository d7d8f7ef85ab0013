import Verif.Py.Round

/-! Specification of correct rounding, independent of how `roundBits` computes it. -/

namespace Mizar.Spec

/-- `x` has `p` bits and no number with `p` bits is nearer to `q`. -/
def Nearest (p : ℕ) (q x : ℚ) : Prop := IsFloat p x ∧ ∀ y, IsFloat p y → |x - q| ≤ |y - q|

/-- `x` is written with a mantissa of `p` bits, which is even (or `x` is 0). -/
def EvenMantissa (p : ℕ) (x : ℚ) : Prop := ∃ m e : ℤ, 2 ^ (p - 1) ≤ |m| ∧ |m| ≤ 2 ^ p ∧ m % 2 = 0 ∧ x = m * 2 ^ e

end Mizar.Spec
