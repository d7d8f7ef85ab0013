import Mathlib.Probability.CDF
import Mathlib.Probability.Distributions.Gaussian.Real
import Verif.Py.XF

/-!
`scipy.stats.norm.cdf` on ideal floats over the reals: the distribution function of the standard normal law.

Where the code calls it: `/repo/mizarlabs/transformers/trading/bet_sizing.py` line 114.
-/

namespace Mizar
open ProbabilityTheory MeasureTheory

/-- Distribution function of the standard normal law. -/
noncomputable def phi (x : ℝ) : ℝ := cdf (gaussianReal 0 1) x

/-- `norm.cdf`. -/
noncomputable def normCdf : XF ℝ → XF ℝ
  | .nan => .nan
  | .ninf => .fin 0
  | .pinf => .fin 1
  | .fin x => .fin (phi x)

theorem phi_mono {x y : ℝ} (h : x ≤ y) : phi x ≤ phi y := monotone_cdf _ h

theorem phi_nonneg (x : ℝ) : 0 ≤ phi x := cdf_nonneg _ x

theorem phi_le_one (x : ℝ) : phi x ≤ 1 := cdf_le_one _ x

theorem phi_neg (x : ℝ) : phi (-x) = 1 - phi x := by
  unfold phi
  rw [cdf_eq_real, cdf_eq_real]
  have h1 : (gaussianReal 0 1).map (fun x => -x) = gaussianReal 0 1 := by
    rw [gaussianReal_map_neg, neg_zero]
  have h2 : (gaussianReal 0 1).real (Set.Iic (-x)) = (gaussianReal 0 1).real (Set.Ici x) := by
    conv_lhs => rw [← h1]
    rw [map_measureReal_apply measurable_neg measurableSet_Iic]
    congr 1
    ext y
    simp
  have h3 : (gaussianReal 0 1).real (Set.Ici x) = (gaussianReal 0 1).real (Set.Ioi x) := by
    haveI : NullSingletonClass (gaussianReal 0 1) := nullSingletonClass_gaussianReal one_ne_zero
    exact measureReal_congr Ioi_ae_eq_Ici.symm
  have h4 := probReal_compl_eq_one_sub (μ := gaussianReal 0 1) (measurableSet_Iic (a := x))
  rw [h2, h3, ← h4, Set.compl_Iic]

theorem phi_zero : phi 0 = 1 / 2 := by
  have := phi_neg 0
  rw [neg_zero] at this
  linarith

end Mizar
