import Verif.Model.Parallel
import Verif.Model.Labeling
import Verif.Model.BetSizing
import Verif.Model.Csw
import Verif.Model.Sadf
import Verif.Model.Sdfc
import Verif.Model.TrendScan

/-!
The bodies of the `prange` loops: the entries iteration `i` writes, in the order of the program.  An access beyond the
end of an input array (`none`) does not occur, as each loop runs over the positions of its first array.
-/

namespace Mizar.Par

/-- Loop of `get_horizontal_barriers_hit` (`/repo/mizarlabs/transformers/targets/labeling.py` lines 326-357); array 0 is
`profit_taking_barriers_timestamps`, array 1 `stop_loss_barriers_timestamps`, both zero before the loop (lines 319-324). -/
def barrierBody {K : Type} [Field K] [LinearOrder K] (bars : List (ℤ × XF K)) (evs : List (Lab.HEvent K)) (i : ℕ) : Py (List (Loc × ℤ)) :=
  match evs[i]? with
  | none => .ok []
  | some e =>
    let within := bars.filter fun p => decide (e.start ≤ p.1) && decide (p.1 < e.exp)
    let ret := fun (p : ℤ × XF K) => XF.mul (XF.sub (XF.div p.2 e.close) (.fin 1)) e.side
    let sl := within.filter fun p => XF.lt (ret p) e.stopLoss
    let pt := within.filter fun p => XF.lt e.profitTaking (ret p)
    .ok ((if sl.isEmpty then [] else [((1, i), Lab.minOrZero (sl.map (·.1)))]) ++
         (if pt.isEmpty then [] else [((0, i), Lab.minOrZero (pt.map (·.1)))]))

/-- Loop of `_get_avg_active_signals` (`/repo/mizarlabs/transformers/trading/bet_sizing.py` lines 212-224); the array is
zero before the loop (line 210). -/
def signalBody {K : Type} [Field K] [LinearOrder K] (bets : List (ℤ × ℤ × XF K)) (times : List ℤ) (i : ℕ) : Py (List (Loc × XF K)) :=
  match times[i]? with
  | none => .ok []
  | some t =>
    let active := bets.filter fun b => decide (b.1 ≤ t) && (decide (t < b.2.1) || decide (b.2.1 < 0))
    .ok (if 0 < active.length then [((0, i), Bet.mean (active.map (·.2.2)))] else [])

/-- Outer loop of `get_test_statistics_array` (`/repo/mizarlabs/structural_breaks/cusum_chu_stinchcome_white.py` lines
35-63) with `t_indices = 2, 3, …` (line 118); arrays 0 and 1 are the columns of `test_statistics_array`.  The inner
`prange` is run in order: numba parallelises the outermost loop only. -/
noncomputable def cswBody (em : Brk.ErrModel) (side : String) (y : List (XF ℝ)) (i : ℕ) : Py (List (Loc × XF ℝ)) := do
  let r ← Brk.statAt em side y (i + 2)
  .ok [((0, i), r.1), ((1, i), r.2)]

/-- Loop of `_sadf_outer_loop` (`/repo/mizarlabs/structural_breaks/sadf.py` lines 293-296); `i` is `index - min_length`. -/
noncomputable def sadfBody (em : Brk.ErrModel) (k : ℕ) (minLength : ℕ) (model : String) (phi : ℝ) (w : List (Brk.Row (k + 1))) (i : ℕ) :
    Py (List (Loc × XF ℝ)) := do
  let v ← Brk.sadfAt em k minLength model phi (w.take (minLength + i + 1))
  .ok [((0, minLength + i - minLength), v)]

/-- Loop of `get_dfc_array` (`/repo/mizarlabs/structural_breaks/sdfc.py` lines 29-37). -/
noncomputable def dfcBody (em : Brk.ErrModel) (yDiff yLag : List (XF ℝ)) (indices : List ℕ) (i : ℕ) : Py (List (Loc × XF ℝ)) :=
  match indices[i]? with
  | none => .ok []
  | some index => do
    let v ← Brk.dfcAt em yDiff yLag index
    .ok [((0, i), v)]

/-- Loop of `_trend_scan_each_index` (`/repo/mizarlabs/transformers/targets/trend_scanning.py` lines 186-208); array 0 is
`t_values_array`, array 1 `end_indices_array`, both uninitialised before the loop.  The position in `y_array` becomes a
float in the second array. -/
noncomputable def scanBody (em : Brk.ErrModel) (mem : ℕ → ℕ → XF ℝ) (p : Trend.Params) (y : List (XF ℝ)) (indices : List ℕ) (i : ℕ) :
    Py (List (Loc × XF ℝ)) :=
  match indices[i]? with
  | none => .ok []
  | some index =>
    let w := (y.drop index).take p.look
    if w.length = p.look then do
      let r ← Trend.bestAt em (mem i) p w
      .ok [((0, i), r.1), ((1, i), .fin ((index + r.2 + p.minLen - 1 : ℕ) : ℝ))]
    else .ok [((1, i), .nan), ((0, i), .nan)]

end Mizar.Par
