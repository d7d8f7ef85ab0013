import Mathlib.Analysis.SpecialFunctions.Trigonometric.Basic
import Verif.Py.Feature

/-!
Specification of the features, in terms of the numbers at the bars (`h i`, `l i`, ... are the values of bar `i`).
-/

namespace Mizar.Spec
open Finset

/-- The columns of a frame hold these numbers, without missing values. -/
def Holds {K : Type} (f : Frame K) (name : String) (x : ℕ → K) : Prop :=
  name ∈ f.cols ∧ ∀ i < f.rows.length, (f.values name)[i]? = some (.fin (x i))

/-- Two frames with the same columns and length, where a column is multiplied by `c`. -/
def ScaledBy {K : Type} [Field K] [LinearOrder K] (c : K) (name : String) (f g : Frame K) : Prop :=
  g.values name = (f.values name).map (XF.mul (.fin c))

/-- Squared logarithm of high over low. -/
noncomputable def logSq (h l : ℕ → ℝ) (i : ℕ) : ℝ := (Real.log (h i / l i)) ^ 2

/-- Parkinson's estimator over the last `w` bars. -/
noncomputable def parkinsonAt (w : ℕ) (h l : ℕ → ℝ) (i : ℕ) : ℝ :=
  (∑ j ∈ range w, logSq h l (i - j)) / (4 * Real.log 2 * w)

/-- Corwin and Schultz: mean over the last `w` pairs of bars of the sum of the two squared logarithms. -/
noncomputable def csBeta (w : ℕ) (h l : ℕ → ℝ) (i : ℕ) : ℝ :=
  (∑ j ∈ range w, (logSq h l (i - j) + logSq h l (i - j - 1))) / w

/-- Corwin and Schultz: squared logarithm of the two-bar high over the two-bar low. -/
noncomputable def csGamma (h l : ℕ → ℝ) (i : ℕ) : ℝ :=
  (Real.log (max (h i) (h (i - 1)) / min (l i) (l (i - 1)))) ^ 2

/-- Corwin and Schultz: alpha, negative values set to zero. -/
noncomputable def csAlpha (β γ : ℝ) : ℝ :=
  max 0 ((Real.sqrt (2 * β) - Real.sqrt β) / (3 - 2 * Real.sqrt 2) - Real.sqrt (γ / (3 - 2 * Real.sqrt 2)))

/-- Corwin and Schultz: the spread. -/
noncomputable def csSpread (α : ℝ) : ℝ := 2 * (Real.exp α - 1) / (1 + Real.exp α)

/-- Beckers and Parkinson: the volatility, negative values set to zero. -/
noncomputable def bpSigma (β γ : ℝ) : ℝ :=
  max 0 ((Real.sqrt (β / 2) - Real.sqrt β) / (Real.sqrt (8 / Real.pi) * (3 - 2 * Real.sqrt 2)) +
    Real.sqrt (γ / (8 / Real.pi * (3 - 2 * Real.sqrt 2))))

/-- Mean over the last `w` bars. -/
def meanAt {K : Type} [Field K] (w : ℕ) (v : ℕ → K) (i : ℕ) : K := (∑ j ∈ range w, v (i - j)) / w

/-- Sample variance over the last `w` bars. -/
def varAt {K : Type} [Field K] (w : ℕ) (v : ℕ → K) (i : ℕ) : K :=
  (∑ j ∈ range w, (v (i - j) - meanAt w v i) ^ 2) / (w - 1)

end Mizar.Spec
