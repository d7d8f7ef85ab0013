import Verif.Py.XF
import Mathlib.Data.Real.Basic

/-! Specification for C70 and C71 with any step: the chosen position among arbitrary numbers. -/

namespace Mizar.Spec

/-- Among the first `n` numbers of `c`, position `q` is the first missing one or, when none is missing, the first with the greatest
absolute value. -/
def FirstGreatest (c : ℕ → XF ℝ) (n q : ℕ) : Prop :=
  q < n ∧ ((c q = .nan ∧ ∀ r < q, c r ≠ .nan) ∨
    ((∀ r < n, c r ≠ .nan ∧ XF.lt (XF.abs (c q)) (XF.abs (c r)) = false) ∧ ∀ r < q, XF.lt (XF.abs (c r)) (XF.abs (c q)) = true))

/-- The windows that are tried are those `q` bars longer than the shortest one, for the multiples `q` of a positive step. -/
def Tried (step : ℤ) (q : ℕ) : Prop := 0 < step ∧ step ∣ (q : ℤ)

end Mizar.Spec
