import Verif.Model.Pipeline
import Verif.Model.BetSizing

/-!
Model of a `BetSizingFromProbabilities` as the bet sizer of a pipeline (`/repo/mizarlabs/model/pipeline.py` lines 568-588,
`/repo/mizarlabs/transformers/trading/bet_sizing.py` lines 25-139).
-/

namespace Mizar.Pipe

/-- `self.bet_sizer.transform(pred_and_proba)` (`pipeline.py` lines 568-588).  The frame has the columns `prob` and `pred`, and `side` if there is a
metalabeling model (`hasSide`); the bet sizer has the default names of these columns, and its event end column is none of them. -/
noncomputable def ownSizer (bc : Bet.Cfg) (hasSide : Bool) (rows : List (BetRow ℝ)) : Py (Ser ℝ) :=
  Bet.transform bc ⟨rows.map (·.time), some (rows.map (·.prob)), some (rows.map fun r => .fin r.pred),
    if hasSide then some (rows.map fun r => r.side.getD .nan) else none, none⟩

end Mizar.Pipe
