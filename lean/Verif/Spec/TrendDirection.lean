import Mathlib.Algebra.BigOperators.Group.Finset.Basic
import Mathlib.Data.Real.Basic

/-! Specification for C148: the direction of the values in a window. -/

namespace Mizar.Spec
open Finset

/-- The moves between all pairs of the `n` values from `start`, each weighted with the time between the two. -/
noncomputable def pairMoves (y : ℕ → ℝ) (start n : ℕ) : ℝ :=
  ∑ j ∈ range n, ∑ i ∈ range j, ((j : ℝ) - i) * (y (start + j) - y (start + i))

/-- The `n` values from `start` never fall. -/
def NeverFalls (y : ℕ → ℝ) (start n : ℕ) : Prop := ∀ i j, i ≤ j → j < n → y (start + i) ≤ y (start + j)

end Mizar.Spec
