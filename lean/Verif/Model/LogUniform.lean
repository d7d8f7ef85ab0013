import Verif.Model.Csw

/-!
Model of `LogUniformGen` and `log_uniform` (`/repo/mizarlabs/model/model_selection.py` lines 337-345).

The bounds are numbers: plain Python numbers (`.python`) or at least one of them a NumPy number (`.numpy`), which decides what dividing
one by the other does at 0.  The default upper bound `np.exp(1)` is a NumPy number.  `scipy.stats.rv_continuous.cdf` is assumed to be 0 up to the lower bound, `_cdf` strictly between
the bounds, 1 from the upper bound on and NaN at NaN; it does not look at the values of the bounds.
-/

namespace Mizar.LogU
open Mizar.Brk (ErrModel divE)

/-- `LogUniformGen._cdf` (`model_selection.py` lines 338-339). -/
noncomputable def rawCdf (em : ErrModel) (a b : ℝ) (x : XF ℝ) : Py (XF ℝ) := do
  let d ← divE em (.fin b) (.fin a)
  .ok (XF.div (XF.log (XF.div x (.fin a))) (XF.log d))

/-- `log_uniform` (`model_selection.py` lines 342-345): the bounds of the distribution. -/
noncomputable def bounds (a : Option ℝ) (b : Option ℝ) : ℝ × ℝ := (a.getD 1, b.getD (Real.exp 1))

/-- `log_uniform(a, b).cdf(x)` (`model_selection.py` lines 337-345). -/
noncomputable def cdf (em : ErrModel) (a b : Option ℝ) (x : XF ℝ) : Py (XF ℝ) :=
  let lo := (bounds a b).1
  let hi := (bounds a b).2
  if x.isNan then .ok .nan
  else if XF.le (.fin hi) x then .ok (.fin 1)
  else if XF.lt (.fin lo) x then rawCdf (if b.isNone then .numpy else em) lo hi x
  else .ok (.fin 0)

end Mizar.LogU
