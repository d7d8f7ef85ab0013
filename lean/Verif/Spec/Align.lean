import Mathlib.Data.List.GetD
import Mathlib.Data.List.Sort
import Mathlib.Algebra.Order.Field.Basic
import Verif.Py.Frame

/-!
Independent specification of the alignment of features (C44): which rows belong to an alignment time and what the
aggregation of numbers is.
-/

namespace Mizar.Spec
variable {K : Type*} [Field K] [LinearOrder K]

/-- The feature rows since the earlier alignment times, up to alignment time number `i`. -/
def since {α : Type*} (rows : List (ℤ × α)) (idx : List ℤ) (i : ℕ) : List α :=
  (rows.filter fun r => decide (∀ k < i, idx.getD k 0 < r.1) && decide (r.1 ≤ idx.getD i 0)).map (·.2)

/-- `v` is the mean, the smallest or the largest of the numbers, by the name of the method. -/
def Agg (method : String) (l : List K) (v : K) : Prop :=
  (method = "mean" ∧ v * (l.length : K) = l.sum) ∨ (method = "min" ∧ v ∈ l ∧ ∀ x ∈ l, v ≤ x) ∨
    (method = "max" ∧ v ∈ l ∧ ∀ x ∈ l, x ≤ v)

/-- Two frames with the same columns and the same rows up to `t`. -/
def Agree (t : ℤ) (f f' : Frame K) : Prop :=
  f.cols = f'.cols ∧ f.rows.filter (fun r => decide (r.1 ≤ t)) = f'.rows.filter fun r => decide (r.1 ≤ t)

end Mizar.Spec
