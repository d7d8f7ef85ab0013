import Verif.Spec.Sdfc
import Verif.Model.Csw

/-! What a regression on one column has to give at one break position of the Chow-type Dickey-Fuller test. -/

namespace Mizar.Spec
open Mizar.Brk

/-- The outcome of one position: `LinAlgError` without a level other than zero; a missing value if there is a single row; the t-value; if the
changes are exactly proportional to the levels, `ZeroDivisionError` with numba's error model and an infinite (or missing) value with NumPy's. -/
def IsStat (em : ErrModel) (w : List (RRow 1)) (o : Py (XF ℝ)) : Prop :=
  (¬ FullRank w ∧ o = .error .linAlgError) ∨
  (FullRank w ∧ w.length = 1 ∧ o = .ok .nan) ∨
  (FullRank w ∧ 1 < w.length ∧ (¬ ∃ c : Fin 1 → ℝ, ∀ r ∈ w, r.2 = predict c r.1) ∧ ∃ r, IsTValue w 0 r ∧ o = .ok (.fin r)) ∨
  (FullRank w ∧ 1 < w.length ∧ ∃ c : Fin 1 → ℝ, (∀ r ∈ w, r.2 = predict c r.1) ∧
    o = match em with
      | .python => .error .zeroDivisionError
      | .numpy => .ok (if 0 < c 0 then .pinf else if c 0 < 0 then .ninf else .nan))

end Mizar.Spec
