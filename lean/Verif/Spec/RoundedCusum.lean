import Mathlib.Algebra.BigOperators.Group.Finset.Basic
import Mathlib.Algebra.BigOperators.Intervals
import Mathlib.Algebra.Order.Field.Rat

/-!
Specification of the CUSUM filter up to rounding.
-/

namespace Mizar.Spec

/-- A bound for the rounding errors on the way from `j` to `k`, for numbers with `p` bits: the length of the price path and
the threshold once per step, divided by `2^p`. -/
def pathError (p : ℕ) (h : ℚ) (x : ℕ → ℚ) (j k : ℕ) : ℚ :=
  ((∑ i ∈ Finset.Ico j k, |x (i + 1) - x i|) + ((k : ℚ) - j) * h) / 2 ^ p

/-- `U` is the set of upward events of the price path `x` for the threshold `h` up to errors `err`: at an event the price is
above an earlier one, without events in between, by more than the threshold, up to the error; where it is by more than
the threshold plus the error, there is an event. -/
def IsUpEventsUpTo (err : ℕ → ℕ → ℚ) (h : ℚ) (x : ℕ → ℚ) (n : ℕ) (U : ℕ → Bool) : Prop :=
  ∀ k < n, (U k = true → ∃ j < k, h < x k - x j + err j k ∧ ∀ i, j < i → i < k → U i = false) ∧
    ∀ j < k, (∀ i, j < i → i < k → U i = false) → h + err j k < x k - x j → U k = true

end Mizar.Spec
