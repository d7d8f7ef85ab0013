import Verif.Model.TrendScan

/-!
Specification: the labelled events of a trend scan (`trend_scanning.py` lines 124-147, rows whose `event_end_time` is
not missing), as users hand them to the weights and to the cross validation.
-/

namespace Mizar.Spec

/-- Start and reported end of the rows that have an end. -/
def trendEvents (out : List Trend.Label) : List (ℤ × ℤ) := out.filterMap fun l => l.eventEnd.map fun u => (l.time, u)

end Mizar.Spec
