import Verif.Py.XF

/-!
Specification for C151: how a position settles that carries its own levels. Written with prices only: no
volatility, no factor, no label.
-/

namespace Mizar.Spec
variable {K : Type*} [Field K] [LinearOrder K]

/-- A position of side `s` opened at price `x` is above its profit level `P` at price `y` (`none` is NaN). -/
def TakesProfit (x s P : K) (y : Option K) : Prop := ∃ z, y = some z ∧ P < s * (z / x - 1)

/-- The same position is below its loss level `S`. -/
def StopsOut (x s S : K) (y : Option K) : Prop := ∃ z, y = some z ∧ s * (z / x - 1) < -S

/-- The position opened at bar `i`, to be held for at most `n` bars, ends at bar `k`: there it leaves its levels or it is
`n` bars old, and no bar before has left the levels. -/
structure Settles (price : ℕ → Option K) (x s S P : K) (i n k : ℕ) : Prop where
  later : i < k
  held : k ≤ i + n
  left : k < i + n → TakesProfit x s P (price k) ∨ StopsOut x s S (price k)
  first : ∀ j, i ≤ j → j < k → ¬ TakesProfit x s P (price j) ∧ ¬ StopsOut x s S (price j)

end Mizar.Spec
