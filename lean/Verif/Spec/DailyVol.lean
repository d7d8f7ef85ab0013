import Mathlib.Algebra.Order.Ring.Int

/-! Specification for the reference bar of the daily volatility. -/

namespace Mizar.Spec

/-- `o` is the position of the last entry of `times` strictly before `cutoff`, `none` if there is none. -/
def IsLatestBefore (times : List ℤ) (cutoff : ℤ) : Option ℕ → Prop
  | none => ∀ j (h : j < times.length), ¬ times[j] < cutoff
  | some j => (∃ h : j < times.length, times[j] < cutoff) ∧ ∀ k (h : k < times.length), j < k → ¬ times[k] < cutoff

end Mizar.Spec
