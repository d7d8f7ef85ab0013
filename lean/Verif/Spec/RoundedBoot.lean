import Mathlib.Data.Finset.Sort
import Verif.Py.Round
import Verif.Spec.Boot

/-!
Specification of the sequential bootstrap in floating point.
-/

namespace Mizar.Spec
open Mizar

/-- A way to add up numbers: a binary tree of additions. -/
inductive SumTree where
  | leaf (x : ℚ)
  | node (a b : SumTree)

/-- The numbers that are added. -/
def SumTree.leaves : SumTree → List ℚ
  | leaf x => [x]
  | node a b => a.leaves ++ b.leaves

/-- The result with every addition rounded to `p` bits. -/
def SumTree.eval (p : ℕ) : SumTree → ℚ
  | leaf x => x
  | node a b => roundBits p (a.eval p + b.eval p)

/-- `S` adds up floats in some order and with some parenthesisation. -/
def IsSummation (p : ℕ) (S : List ℚ → ℚ) : Prop :=
  ∀ l : List ℚ, l ≠ [] → (∀ x ∈ l, IsFloat p x) → ∃ T : SumTree, T.leaves.Perm l ∧ S l = T.eval p

/-- The contribution of bar `t`: one if no drawn sample is alive, else one over the number of samples alive, in single
precision (`p₁` bits). -/
def barShare (p₁ : ℕ) (M : Boot.IndMat) (drawn : List ℕ) (t : ℕ) : ℚ :=
  if drawnAt M drawn t = 0 then 1 else roundBits p₁ (1 / roundBits p₁ (1 + drawnAt M drawn t))

/-- Average uniqueness of sample `j` given the drawn samples as a float: the shares of its bars are added in the order of
the bars in double precision (`p₂` bits) and divided by their number. -/
def floatUniq (p₁ p₂ : ℕ) (M : Boot.IndMat) (drawn : List ℕ) (j : ℕ) : ℚ :=
  if (barsOf M j).card = 0 then 1
  else roundBits p₂ ((((barsOf M j).sort (· ≤ ·)).map (barShare p₁ M drawn)).foldl (fun a b => roundBits p₂ (a + b)) 0 /
    ((barsOf M j).card : ℚ))

end Mizar.Spec
