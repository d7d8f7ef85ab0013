import Mathlib.Analysis.SpecialFunctions.Sqrt
import Mathlib.LinearAlgebra.Matrix.NonsingularInverse

/-! Specification for C67-C69 and C71: least squares on a list of rows of numbers. -/

namespace Mizar.Spec
open Finset

/-- One row: regressors and target. -/
abbrev RRow (k : ℕ) := (Fin k → ℝ) × ℝ

/-- The value a linear model gives for a row. -/
def predict {k : ℕ} (c : Fin k → ℝ) (x : Fin k → ℝ) : ℝ := ∑ j, x j * c j

/-- Sum of squared residuals. -/
def rss {k : ℕ} (w : List (RRow k)) (c : Fin k → ℝ) : ℝ := (w.map fun r => (r.2 - predict c r.1) ^ 2).sum

/-- The columns are linearly independent. -/
def FullRank {k : ℕ} (w : List (RRow k)) : Prop := ∀ c : Fin k → ℝ, (∀ r ∈ w, predict c r.1 = 0) → c = 0

/-- Sums of products of regressors. -/
def gram {k : ℕ} (w : List (RRow k)) : Matrix (Fin k) (Fin k) ℝ := Matrix.of fun i j => (w.map fun r => r.1 i * r.1 j).sum

/-- Coefficients of the least squares fit. -/
def IsLeastSquares {k : ℕ} (w : List (RRow k)) (c : Fin k → ℝ) : Prop := ∀ d, rss w c ≤ rss w d

/-- The textbook covariance of the coefficients: residual variance times the inverse of the gram matrix. -/
def IsCovariance {k : ℕ} (w : List (RRow k)) (c : Fin k → ℝ) (V : Matrix (Fin k) (Fin k) ℝ) : Prop :=
  V * gram w = (rss w c / ((w.length : ℝ) - k)) • (1 : Matrix (Fin k) (Fin k) ℝ)

/-- `r` is the t-value of coefficient `j` in the least squares fit. -/
def IsTValue {k : ℕ} (w : List (RRow k)) (j : Fin k) (r : ℝ) : Prop :=
  ∃ c V, IsLeastSquares w c ∧ IsCovariance w c V ∧ r = c j / Real.sqrt (V j j)

end Mizar.Spec
