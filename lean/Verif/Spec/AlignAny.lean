import Verif.Spec.Align

/-!
Independent specification of the alignment of features with missing values and times at any date (C44).
-/

namespace Mizar.Spec
variable {K : Type*} [Field K] [LinearOrder K]

/-- The feature rows after 1 January 1700 (in nanoseconds) and after all earlier alignment times, up to alignment time number `i`. -/
def sinceStart {α : Type*} (rows : List (ℤ × α)) (idx : List ℤ) (i : ℕ) : List α :=
  (rows.filter fun r => decide (-8520336000000000000 < r.1) && decide (∀ k < i, idx.getD k 0 < r.1) && decide (r.1 ≤ idx.getD i 0)).map (·.2)

/-- A cell of a frame that may be missing. -/
def orMissing : Option K → XF K
  | none => .nan
  | some x => .fin x

/-- `o` is the mean, the smallest or the largest of the values if there are some and none is missing, and missing otherwise. -/
def AggOrMissing (method : String) (l : List (Option K)) (o : Option K) : Prop :=
  (o = none ∧ (l = [] ∨ none ∈ l)) ∨ ∃ nums : List K, nums ≠ [] ∧ l = nums.map some ∧ ∃ v, o = some v ∧ Agg method nums v

end Mizar.Spec
