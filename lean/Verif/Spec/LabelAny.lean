import Verif.Spec.Labeling

/-!
Specification of the triple barrier labels for times that are not whole milliseconds: the search for a breach goes by milliseconds,
rounded down.
-/

namespace Mizar.Spec
variable {K : Type*} [Field K] [LinearOrder K]

/-- Bar `j` lies, in milliseconds rounded down, at or after bar `i` and before bar `hi`. -/
def InMs (times : List ℤ) (i hi j : ℕ) : Prop :=
  j < times.length ∧ times.getD i 0 / 1000000 ≤ times.getD j 0 / 1000000 ∧ times.getD j 0 / 1000000 < times.getD hi 0 / 1000000

/-- `r` is the earliest millisecond (in nanoseconds) with a bar of the window that satisfies `P`; a breach in the first millisecond of
1970 counts as none. -/
def IsHit (times : List ℤ) (P : ℕ → Prop) (i hi : ℕ) (r : Option ℤ) : Prop :=
  ((∀ j, InMs times i hi j → ¬ P j) ∧ r = none) ∨
  ∃ j, InMs times i hi j ∧ P j ∧ (∀ j', InMs times i hi j' → P j' → times.getD j 0 / 1000000 ≤ times.getD j' 0 / 1000000) ∧
    r = if times.getD j 0 / 1000000 = 0 then none else some (times.getD j 0 / 1000000 * 1000000)

/-- The earliest of three optional times. -/
def earliestTime (a b c : Option ℤ) : Option ℤ := ([a, b, c].filterMap id).min?

end Mizar.Spec
