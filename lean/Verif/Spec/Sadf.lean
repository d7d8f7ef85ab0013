import Mathlib.Analysis.SpecialFunctions.Pow.Real
import Verif.Spec.Ols

/-!
Specification for C68: the regressions of the explosiveness tests.  A series is a function of the position from 0.
-/

namespace Mizar.Spec

/-- Regressors of the Dickey-Fuller regression at position `p` with `L` lags: the level before, and the `L` changes
before. -/
def dfRegressors (y : ℕ → ℝ) (L p : ℕ) : List ℝ := y (p - 1) :: (List.range L).map fun m => y (p - 1 - m) - y (p - 2 - m)

/-- Further regressors of a Dickey-Fuller model at the `j`-th row (from 0). -/
def DfModel (model : String) (c : Bool) (f : ℕ → List ℝ) : Prop :=
  (model = "no_trend" ∧ f = fun _ => if c then [1] else []) ∨
  (model = "linear" ∧ f = fun j : ℕ => ((j : ℝ) + 1) :: if c then [1] else []) ∨
  (model = "quadratic" ∧ f = fun j : ℕ => ((j : ℝ) + 1) :: ((j : ℝ) + 1) ^ 2 :: if c then [1] else [])

/-- Sub- and super-martingale models: target and regressors of the `j`-th row, the tested one first. -/
def SmModel (model : String) (y : ℕ → ℝ) (g : ℕ → ℝ) (f : ℕ → List ℝ) : Prop :=
  (model = "sm_poly_1" ∧ g = y ∧ f = fun j : ℕ => [((j : ℝ) + 1) ^ 2, 1, (j : ℝ) + 1]) ∨
  ((∀ i, 0 < y i) ∧ (g = fun i => Real.log (y i)) ∧
    ((model = "sm_poly_2" ∧ f = fun j : ℕ => [((j : ℝ) + 1) ^ 2, 1, (j : ℝ) + 1]) ∨
     (model = "sm_exp" ∧ f = fun j : ℕ => [(j : ℝ) + 1, 1]) ∨
     (model = "sm_power" ∧ f = fun j : ℕ => [Real.log ((j : ℝ) + 1), 1])))

/-- The greatest value over all windows that end with the last row of `w` and have at least `m` rows, where `val` turns
the position of the first row and the t-value of the first coefficient into the value. -/
def IsSupremum {k : ℕ} (w : List (RRow (k + 1))) (m : ℕ) (val : ℕ → ℝ → ℝ) (v : ℝ) : Prop :=
  IsGreatest {v | ∃ p r, p + m ≤ w.length ∧ IsTValue (w.drop p) 0 r ∧ v = val p r} v

end Mizar.Spec
