import Verif.Model.LogUniform
import Verif.Model.RoundedCsw

/-!
`LogUniformGen` and `log_uniform` (`/repo/mizarlabs/model/model_selection.py` lines 337-345) with rounding.

`r` rounds the result of every division, `lg` is the rounded logarithm and `one` stands for `np.exp(1)`.  As in
`Verif/Model/LogUniform.lean`, `scipy.stats.rv_continuous.cdf` is 0 up to the lower bound, `_cdf` between the bounds, 1 from the upper
bound on and NaN at NaN.  The exponent is unbounded.
-/

namespace Mizar.Rd
open Mizar.Brk (ErrModel)
variable {K : Type} [Field K] [LinearOrder K]

/-- `LogUniformGen._cdf` (`model_selection.py` lines 338-339). -/
def rawCdfR (em : ErrModel) (r lg : K → K) (a b : K) (x : XF K) : Py (XF K) := do
  let d ← divR em r (.fin b) (.fin a)
  .ok (rnd r (XF.div (logR lg (rnd r (XF.div x (.fin a)))) (logR lg d)))

/-- `log_uniform(a, b).cdf(x)` (`model_selection.py` lines 337-345). -/
def logCdfR (em : ErrModel) (r lg : K → K) (one : K) (a b : Option K) (x : XF K) : Py (XF K) :=
  let lo := a.getD 1
  let hi := b.getD one
  if x.isNan then .ok .nan
  else if XF.le (.fin hi) x then .ok (.fin 1)
  else if XF.lt (.fin lo) x then rawCdfR (if b.isNone then .numpy else em) r lg lo hi x
  else .ok (.fin 0)

end Mizar.Rd
