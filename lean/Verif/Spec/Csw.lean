import Mathlib.Analysis.SpecialFunctions.Sqrt
import Mathlib.Analysis.SpecialFunctions.Log.Basic

/-!
Specification for C66: the Chu-Stinchcombe-White statistic.  The series is a function of the position from 0; `t` and
`n` count from 1, so that the value at `t` is `y (t - 1)`.
-/

namespace Mizar.Spec
open Finset

/-- Variance of the one-step changes among the first `t` values. -/
noncomputable def stepVar (y : ℕ → ℝ) (t : ℕ) : ℝ := (∑ i ∈ range (t - 1), (y (i + 1) - y i) ^ 2) / ((t : ℝ) - 1)

/-- The difference each test looks at. -/
def SideFn (side : String) (g : ℝ → ℝ → ℝ) : Prop :=
  (side = "one_sided_positive" ∧ g = fun a b => a - b) ∨ (side = "one_sided_negative" ∧ g = fun a b => b - a) ∨
  (side = "two_sided" ∧ g = fun a b => |a - b|)

/-- The standardised departure of the value at `t` from the one at `n`. -/
noncomputable def departure (g : ℝ → ℝ → ℝ) (y : ℕ → ℝ) (t n : ℕ) : ℝ :=
  g (y (t - 1)) (y (n - 1)) / Real.sqrt (stepVar y t * ((t : ℝ) - n))

/-- `n` is the first among `1, …, k` at which `S` is greatest. -/
def IsFirstMax (S : ℕ → ℝ) (k n : ℕ) : Prop :=
  1 ≤ n ∧ n ≤ k ∧ (∀ m, 1 ≤ m → m < n → S m < S n) ∧ ∀ m, 1 ≤ m → m ≤ k → S m ≤ S n

end Mizar.Spec
