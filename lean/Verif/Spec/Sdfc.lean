import Verif.Spec.Ols

/-! Specification for C69: the Dickey-Fuller regression with a break. -/

namespace Mizar.Spec

/-- Rows of the regression of the changes of `n` values on the level before, which only counts from position `b` on. -/
def breakRows (y : ℕ → ℝ) (n b : ℕ) : List (RRow 1) :=
  (List.range (n - 1)).map fun i => (fun _ => if i < b then 0 else y i, y (i + 1) - y i)

end Mizar.Spec
