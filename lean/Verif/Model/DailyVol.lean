import Verif.Py.Basic
import Verif.Py.Ewm

/-!
Model of `get_daily_vol` (`/repo/mizarlabs/transformers/targets/labeling.py` lines 438-463).
Times are integers (nanoseconds).
-/

namespace Mizar.Lab
variable {K : Type*} [Field K] [LinearOrder K]

/-- `pd.Timedelta(days=1)` in nanoseconds (line 451). -/
def DAY : ℤ := 86400000000000

/-- `index.searchsorted(v)` (side left) of a sorted index. Simplification: for an index that is not sorted the
binary search of NumPy may give another position (lines 450-452). -/
def searchsortedLeft (times : List ℤ) (v : ℤ) : ℕ := times.countP fun t => decide (t < v)

/-- `close.loc[label]` on a unique index; a missing label is a `KeyError` in the source, here NaN (the labels
looked up in `getDailyVol` are taken from the same index) (line 461). -/
def lookupClose (times : List ℤ) (close : List (XF K)) (label : ℤ) : XF K :=
  ((times.zip close).find? fun p => decide (p.1 = label)).elim .nan (·.2)

/-- Lines 450-459: `shifted_close`, the series of reference times on the last bars. -/
def shiftedClose (times : List ℤ) : List (ℤ × ℤ) :=
  let idx := times.map fun t => searchsortedLeft times (t - DAY)
  let filtered := idx.filter fun k => decide (0 < k)
  (times.drop (times.length - filtered.length)).zip (filtered.map fun k => times.getD (k - 1) 0)

/-- Lines 461: the returns, as pairs of a label and a value. -/
def dailyReturns (times : List ℤ) (close : List (XF K)) : List (ℤ × XF K) :=
  (shiftedClose times).map fun p =>
    (p.1, XF.sub (XF.div (lookupClose times close p.1) (lookupClose times close p.2)) (.fin 1))

/-- `get_daily_vol`, with `estd` the exponentially weighted standard deviation of line 462. -/
def getDailyVol (estd : List (XF K) → List (XF K)) (times : List ℤ) (close : List (XF K)) : List (ℤ × XF K) :=
  let r := dailyReturns times close
  (r.map (·.1)).zip (estd (r.map (·.2)))

/-- Assignment of the series to a column of a frame with index `times`: missing labels become NaN
(`labeling.py` lines 164-168). -/
def alignTo (times : List ℤ) (s : List (ℤ × XF K)) : List (XF K) :=
  times.map fun t => (s.find? fun p => decide (p.1 = t)).elim .nan (·.2)

/-- The volatility column used by the labelling (lines 164-168). -/
def dailyVolColumn (estd : List (XF K) → List (XF K)) (times : List ℤ) (close : List (XF K)) : List (XF K) :=
  alignTo times (getDailyVol estd times close)

end Mizar.Lab
