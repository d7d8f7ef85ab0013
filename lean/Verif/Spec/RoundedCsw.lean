import Verif.Spec.RoundedReturns
import Verif.Spec.RoundedHighLow
import Verif.Py.Round

/-! What is said about the Chu-Stinchcombe-White test in floating point. -/

namespace Mizar.Spec

/-- A complete series of floats. -/
def CompleteQ (s : List (ℤ × XF ℚ)) (y : ℕ → ℚ) : Prop := ∀ i < s.length, (s.map (·.2))[i]? = some (.fin (y i))

/-- What the arithmetic is assumed to be: `p` binary digits, a correctly rounded square root, a logarithm off by at most one unit in the
last place, and sums of at most `n` numbers in any order, each number going through at most `d` additions. -/
structure Arith (p n d : ℕ) (sq lg : ℚ → ℚ) (sm : List ℚ → ℚ) : Prop where
  bits : 8 ≤ p
  sqrt : GoodSqrt p sq
  log : GoodLog p lg
  adds : Adds (roundBits p) n d sm

end Mizar.Spec
