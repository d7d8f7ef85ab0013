import Verif.Model.RoundedRoll
import Verif.Model.RoundedMicro

/-!
The RSI strategies (`/repo/mizarlabs/transformers/technical/rsi.py`) with rounding.  `r` rounds the result of every operation; the
values of the RSI are given (`talib`).
-/

namespace Mizar.Rd
variable {K : Type} [Field K] [LinearOrder K]

/-- `RSIConfirmation.predict` (`rsi.py` lines 107-124) on the values of the RSI; only the moving average and its change round. -/
def rsiConfirmation (r : K → K) (threshold : K) (confirm ma : ℕ) (v : List (XF K)) : List (XF K) :=
  let inc := (diffR r (rollMean r ma v)).map fun x => XF.lt (.fin 0) x
  let low := rolling confirm Tech.winAll (v.map fun x => if XF.lt x (.fin threshold) then (.fin 1 : XF K) else .fin 0)
  let b := low.map fun x => !XF.beq (fillna1 (.fin 0) x) (.fin 0)
  List.zipWith (fun x y => if x && y then .fin 1 else .fin 0) b inc

/-- The normalised difference of the mean times between bars (`rsi.py` lines 45-61), from the second bar on; the whole nanoseconds are
converted to floating point before the windows are formed. -/
def arrivalDiff (r : K → K) (fast slow : ℕ) (maxDiff : K) (index : List ℤ) : List (XF K) :=
  let a := (Tech.arrivals index).map (rnd r)
  List.zipWith (fun x y => rnd r (XF.div (rnd r (XF.sub x y)) (.fin maxDiff))) (rollMean r fast a) (rollMean r slow a)

/-- `BarArrivalRSIStrategy.predict` (`rsi.py` lines 44-75) on index and values of the RSI. -/
def barArrivalRsi (r : K → K) (p : Tech.BarArrival K) (index : List ℤ) (v : List (XF K)) : List (XF K) :=
  List.zipWith (fun x d => if Tech.buyArrival p x d then .fin 1 else .fin 0) v
    (.nan :: arrivalDiff r p.fast.toNat p.slow.toNat p.maxDiff index)

end Mizar.Rd
