import Verif.Py.Series
import Mathlib.Analysis.SpecialFunctions.Log.Basic
import Mathlib.Analysis.Real.Sqrt

/-! What is said about estimators made of logarithms in floating point. -/

namespace Mizar.Spec

/-- A bar with a finite positive quotient of its prices. -/
def Usable (high low : XF ℚ) : Prop := ∃ a b, high = .fin a ∧ low = .fin b ∧ 0 < a / b

/-- Two columns of positive prices, of the same length. -/
structure Bars (H L : List ℚ) : Prop where
  len : H.length = L.length
  high : ∀ x ∈ H, 0 < x
  low : ∀ x ∈ L, 0 < x

/-- A rounded value and an exact one: both missing, or both numbers that differ by at most `δ`. -/
def NearR (δ : ℝ) (x : XF ℚ) (y : XF ℝ) : Prop := (x = .nan ∧ y = .nan) ∨ ∃ a b, x = .fin a ∧ y = .fin b ∧ |(a : ℝ) - b| ≤ δ

/-- The numbers of a column as real numbers. -/
def toReal : XF ℚ → XF ℝ
  | .nan => .nan
  | .ninf => .ninf
  | .pinf => .pinf
  | .fin x => .fin x

/-- A logarithm of numbers with `p` binary digits that is off by at most one unit in the last place. -/
def GoodLog (p : ℕ) (lg : ℚ → ℚ) : Prop := ∀ x : ℚ, 0 < x → |(lg x : ℝ) - Real.log x| ≤ 2 * |Real.log x| / 2 ^ p

/-- A correctly rounded square root. -/
def GoodSqrt (p : ℕ) (sq : ℚ → ℚ) : Prop := ∀ x : ℚ, 0 ≤ x → |(sq x : ℝ) - √x| ≤ √x / 2 ^ p

/-- An exponential that is off by at most one unit in the last place. -/
def GoodExp (p : ℕ) (ex : ℚ → ℚ) : Prop := ∀ x : ℚ, |(ex x : ℝ) - Real.exp x| ≤ 2 * Real.exp x / 2 ^ p

end Mizar.Spec
