import Verif.Py.Feature

/-!
Model of `/repo/mizarlabs/transformers/technical/` (moving averages, mean reversion, MACD, RSI, volume).

Results are columns (`values.reshape(-1, 1)`).  The indicators of `talib` behind `TAFactory` are parameters: functions
from the frame to a column or an error.
-/

set_option linter.unusedSectionVars false

namespace Mizar.Tech
variable {K : Type} [Field K] [LinearOrder K]

/-- The constructors of `MovingAverageCrossOver`, `ExponentialWeightedMovingAverageDifference`
(`moving_average.py` lines 42-43, 124-125) and `MACDHistogramCrossOver` (`macd.py` lines 17-18). -/
def checkPeriods (fast slow : ℤ) : Py Unit := if fast > slow then .error .valueError else .ok ()

/-- Positions with a condition on the previous and on the current averages, as labels of the index (`moving_average.py` lines 86-89, 94-97). -/
def crossLabels (p q : XF K → XF K → Bool) (idx : List ℤ) (fast slow : List (XF K)) : List ℤ :=
  (idx.zip (List.zipWith (fun a b => a && b) (List.zipWith p (pdShift fast) (pdShift slow)) (List.zipWith q fast slow))).filterMap
    fun r => if r.2 then some r.1 else none

/-- `_get_up_cross_indices` (`moving_average.py` lines 81-89). -/
def upCross (idx : List ℤ) (fast slow : List (XF K)) : List ℤ := crossLabels XF.le (fun a b => XF.lt b a) idx fast slow

/-- `_get_down_cross_indices` (`moving_average.py` lines 91-97). -/
def downCross (idx : List ℤ) (fast slow : List (XF K)) : List ℤ := crossLabels (fun a b => XF.le b a) XF.lt idx fast slow

/-- `MovingAverageCrossOver.transform` (`moving_average.py` lines 52-79); the second assignment overwrites the first,
labels that occur twice are assigned twice. -/
def crossOver (fast slow : ℤ) (name : String) (fill : Bool) (f : Frame K) : Py (List (XF K)) := do
  let c ← f.col name
  let fa ← rollE fast winMean c
  let c ← f.col name
  let sl ← rollE slow winMean c
  let down := downCross f.index fa sl
  let up := upCross f.index fa sl
  let side := f.index.map fun t =>
    if t ∈ up then .fin 1 else if t ∈ down then .fin (-1) else if fill then .nan else .fin 0
  .ok ((pdFfill side).map (fillna1 (.fin 0)))

/-- `predict_proba` of the rule-based predictors (`moving_average.py` lines 107-112, `mean_reversion.py` lines 30-35,
`rsi.py` lines 77-82, 126-131). -/
def oneHot (classes : List K) (pred : List (XF K)) : List (List K) :=
  pred.map fun p => classes.map fun c => if XF.beq p (.fin c) then 1 else 0

/-- `classes_` of `MovingAverageCrossOverPredictor` and `MeanReversionStrategy` (`moving_average.py` line 101). -/
def threeClasses : List K := [-1, 0, 1]
/-- `classes_` of `BarArrivalRSIStrategy` and `RSIConfirmation` (`rsi.py` lines 15, 86). -/
def twoClasses : List K := [0, 1]

/-- `MovingAverageCrossOverPredictor.predict_proba` (`moving_average.py` lines 104-112). -/
def crossOverProba (fast slow : ℤ) (name : String) (fill : Bool) (f : Frame K) : Py (List (List K)) := do
  let p ← crossOver fast slow name fill f
  .ok (oneHot threeClasses p)

/-- `ExponentialWeightedMovingAverageDifference.transform` (`moving_average.py` lines 134-145). -/
def ewmaDifference (fast slow : ℤ) (name : String) (normalised : Bool) (f : Frame K) : Py (List (XF K)) := do
  let c ← f.col name
  let fa ← ewmE fast c
  let c ← f.col name
  let sl ← ewmE slow c
  let d := List.zipWith XF.sub fa sl
  .ok (if normalised then List.zipWith (fun x a => XF.div x (XF.add a (.fin 1))) d fa else d)

/-- The signal of one bar (`mean_reversion.py` lines 24-27). -/
def reversion (threshold : K) (close ema : XF K) : XF K :=
  let d := XF.div (XF.sub close ema) ema
  if XF.lt d (.fin (-threshold)) then .fin 1 else if XF.lt (.fin threshold) d then .fin (-1) else .fin 0

/-- `MeanReversionStrategy.predict` (`mean_reversion.py` lines 19-28); `ema` is the configured `talib` transformer. -/
def meanReversion (ema : Frame K → Py (List (XF K))) (threshold : K) (f : Frame K) : Py (List (XF K)) := do
  let v ← ema f
  let e ← likeIndex f v
  let c ← f.col "close"
  .ok (List.zipWith (reversion threshold) c e)

/-- `MeanReversionStrategy.predict_proba` (`mean_reversion.py` lines 30-35). -/
def meanReversionProba (ema : Frame K → Py (List (XF K))) (threshold : K) (f : Frame K) : Py (List (List K)) := do
  let p ← meanReversion ema threshold f
  .ok (oneHot threeClasses p)

/-- `MACDHistogramCrossOver.transform` (`macd.py` lines 36-40); `hist` is the third column of the configured `talib`
transformer. -/
def macdCross (hist : Frame K → Py (List (XF K))) (f : Frame K) : Py (List (XF K)) := do
  let h ← hist f
  .ok ((pdDiff (h.map XF.sign)).map fun x => XF.div x (.fin 2))

/-- The times between bars, from the second bar on (`rsi.py` line 45). -/
def arrivals (idx : List ℤ) : List (XF K) := List.zipWith (fun (a b : ℤ) => (.fin (((a - b : ℤ)) : K) : XF K)) idx.tail idx

/-- The parameters of `BarArrivalRSIStrategy` (`rsi.py` lines 18-42). -/
structure BarArrival (K : Type) where
  rsiHigh : K
  rsiLow : K
  arrHigh : K
  arrLow : K
  fast : ℤ
  slow : ℤ
  maxDiff : K

/-- The two conditions (`rsi.py` lines 68-73). -/
def buyArrival (p : BarArrival K) (rsi nd : XF K) : Bool :=
  XF.lt (.fin p.rsiLow) rsi && XF.lt rsi (.fin p.rsiHigh) && XF.lt nd (.fin p.arrHigh) && XF.lt (.fin p.arrLow) nd

/-- `BarArrivalRSIStrategy.predict` (`rsi.py` lines 44-75).  The arrival times start at the second bar; joining the
conditions on the index makes the first bar false.  The index values are assumed to be increasing. -/
def barArrivalRsi (rsi : Frame K → Py (List (XF K))) (p : BarArrival K) (f : Frame K) : Py (List (XF K)) := do
  let sl ← rollE p.slow winMean (arrivals f.index)
  let fa ← rollE p.fast winMean (arrivals f.index)
  let nd := List.zipWith (fun a b => XF.div (XF.sub a b) (.fin p.maxDiff)) fa sl
  let v ← rsi f
  let r ← likeIndex f v
  .ok (List.zipWith (fun x d => if buyArrival p x d then .fin 1 else .fin 0) r (.nan :: nd))

/-- `lambda x: x.all()` on a window (`rsi.py` lines 118-122). -/
def winAll (l : List K) : XF K := if l.all fun x => decide (x ≠ 0) then .fin 1 else .fin 0

/-- `RSIConfirmation.predict` (`rsi.py` lines 107-124). -/
def rsiConfirmation (rsi : Frame K → Py (List (XF K))) (threshold : K) (confirm ma : ℤ) (f : Frame K) :
    Py (List (XF K)) := do
  let v ← rsi f
  let r ← likeIndex f v
  let m ← rollE ma winMean r
  let inc := (pdDiff m).map fun x => XF.lt (.fin 0) x
  let low ← rollE confirm winAll (r.map fun x => if XF.lt x (.fin threshold) then (.fin 1 : XF K) else .fin 0)
  let b := low.map fun x => !XF.beq (fillna1 (.fin 0) x) (.fin 0)
  .ok (List.zipWith (fun x y => if x && y then .fin 1 else .fin 0) b inc)

/-- `predict_proba` of the two RSI strategies (`rsi.py` lines 77-82, 126-131). -/
def rsiProba (pred : Py (List (XF K))) : Py (List (List K)) := do
  let p ← pred
  .ok (oneHot twoClasses p)

/-- The constructor of `BuySellImbalance` (`volume.py` lines 8-15). -/
def checkVolumeType (t : String) : Py Unit := if t = "quote" ∨ t = "base" then .ok () else .error .valueError

/-- `BuySellImbalance.transform` (`volume.py` lines 20-35). -/
def buySellImbalance (fast slow : ℤ) (t : String) (f : Frame K) : Py (List (XF K)) := do
  let b ← f.col (t ++ "_asset_buy_volume")
  let fb ← ewmE fast b
  let s ← f.col (t ++ "_asset_sell_volume")
  let fs ← ewmE fast s
  let b ← f.col (t ++ "_asset_buy_volume")
  let sb ← ewmE slow b
  let s ← f.col (t ++ "_asset_sell_volume")
  let ss ← ewmE slow s
  let v ← f.col (t ++ "_asset_volume")
  .ok (List.zipWith XF.div (List.zipWith XF.sub (List.zipWith XF.sub fb fs) (List.zipWith XF.sub sb ss))
    (v.map fun x => XF.add x (.fin 1)))

end Mizar.Tech
