import Verif.Spec.Ols

/-! Specification for C70-C73: trend scanning. -/

namespace Mizar.Spec

/-- Rows of the regression of `n` values from `start` on a constant and the time that passed. -/
def trendRows (y : ℕ → ℝ) (start n : ℕ) : List (RRow 2) := (List.range n).map fun i : ℕ => (![1, (i : ℝ)], y (start + i))

/-- The `n` values from `start` do not lie on a line. -/
def Curved (y : ℕ → ℝ) (start n : ℕ) : Prop := ∀ a b : ℝ, ∃ i : ℕ, i < n ∧ y (start + i) ≠ a + b * i

/-- `t` is the t-value of the trend over `n` values from `start`. -/
def IsTrendT (y : ℕ → ℝ) (start n : ℕ) (t : ℝ) : Prop := IsTValue (trendRows y start n) 1 t

/-- Among the windows of `lo ≤ n < hi` values from `start`, the one of `n` values is the first whose t-value `t` has the
greatest absolute value. -/
def IsBestWindow (y : ℕ → ℝ) (start lo hi n : ℕ) (t : ℝ) : Prop :=
  lo ≤ n ∧ n < hi ∧ IsTrendT y start n t ∧
    ∀ n' t', lo ≤ n' → n' < hi → IsTrendT y start n' t' → |t'| ≤ |t| ∧ (n' < n → |t'| < |t|)

end Mizar.Spec
