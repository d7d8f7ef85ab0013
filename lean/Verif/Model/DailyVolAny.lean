import Verif.Model.DailyVol
import Verif.Model.Repeated

/-!
Model of `get_daily_vol` (`/repo/mizarlabs/transformers/targets/labeling.py` lines 438-463) for bars that share a time: selection by label gives all rows
of every label.  For distinct times this is `getDailyVol`.
-/

namespace Mizar.Lab
variable {K : Type*} [Field K] [LinearOrder K]

/-- `close.loc[shifted_close.index] / close.loc[shifted_close].values - 1` (`labeling.py` line 461): a series divided by an array, which must be of the
same length or of length 1. -/
def dailyReturnsAny (times : List ℤ) (close : List (XF K)) : Py (List (ℤ × XF K)) := do
  let num ← Pipe.locAll (times.zip close) ((shiftedClose times).map (·.1))
  let den ← Pipe.locAll (times.zip close) ((shiftedClose times).map (·.2))
  if num.length = den.length then
    .ok (List.zipWith (fun a b => (a.1, XF.sub (XF.div a.2 b.2) (.fin 1))) num den)
  else if den.length = 1 then
    .ok (num.map fun a => (a.1, XF.sub (XF.div a.2 ((den.map (·.2)).headD .nan)) (.fin 1)))
  else .error .valueError

/-- `get_daily_vol` (`labeling.py` lines 450-463), with `estd` the exponentially weighted standard deviation of line 462. -/
def getDailyVolAny (estd : List (XF K) → List (XF K)) (times : List ℤ) (close : List (XF K)) : Py (List (ℤ × XF K)) := do
  let r ← dailyReturnsAny times close
  .ok ((r.map (·.1)).zip (estd (r.map (·.2))))

end Mizar.Lab
