import Verif.Model.Pipeline
import Verif.Model.BetSizing

/-!
`BetSizingFromProbabilities` as the bet sizer of a pipeline (`/repo/mizarlabs/model/pipeline.py` lines 572-588 with
`/repo/mizarlabs/transformers/trading/bet_sizing.py` lines 25-139).
-/

namespace Mizar.Pipe

/-- The frame a pipeline gives to its bet sizer (`pipeline.py` lines 572-588): the columns `prob` and `pred`, the column `side` with a
metalabeling model, and no end of the events.  The bet sizer reads these columns with its default names (`bet_sizing.py` lines 73-76). -/
def betFrame (rows : List (BetRow ℝ)) : Bet.Frame where
  index := rows.map BetRow.time
  prob := some (rows.map BetRow.prob)
  pred := some (rows.map fun r => .fin r.pred)
  side := if rows.all (fun r => r.side.isSome) then some (rows.map fun r => r.side.getD .nan) else none
  eventEnd := none

/-- `self.bet_sizer.transform(pred_and_proba)` (`pipeline.py` line 588). -/
noncomputable def probSizer (c : Bet.Cfg) (rows : List (BetRow ℝ)) : Py (Ser ℝ) := Bet.transform c (betFrame rows)

end Mizar.Pipe
