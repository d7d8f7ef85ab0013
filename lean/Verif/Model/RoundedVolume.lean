import Verif.Model.RoundedEwm
import Verif.Model.RoundedMicro

/-!
`BuySellImbalance`, `MeanReversionStrategy`, `LocalMaxToCloseRatio` and `MACDHistogramCrossOver` with rounding.  `r` rounds the result
of every operation; the values of `talib` are given.  The exponent is unbounded and the sign of zero is not modelled.
-/

namespace Mizar.Rd
variable {K : Type} [Field K] [LinearOrder K]

/-- `BuySellImbalance.transform` (`/repo/mizarlabs/transformers/technical/volume.py` lines 20-35) on buy volume, sell volume and
volume. -/
def imbalanceR (r : K → K) (fast slow : ℕ) (b s v : List (XF K)) : List (XF K) :=
  let sub := List.zipWith fun x y : XF K => rnd r (XF.sub x y)
  let f := sub (ewmMeanR r fast b) (ewmMeanR r fast s)
  let g := sub (ewmMeanR r slow b) (ewmMeanR r slow s)
  List.zipWith (fun x y => rnd r (XF.div x y)) (sub f g) (v.map fun x => rnd r (XF.add x (.fin 1)))

/-- The signal of one bar (`/repo/mizarlabs/transformers/technical/mean_reversion.py` lines 24-27). -/
def reversionR (r : K → K) (threshold : K) (close ema : XF K) : XF K :=
  let d := rnd r (XF.div (rnd r (XF.sub close ema)) ema)
  if XF.lt d (.fin (-threshold)) then .fin 1 else if XF.lt (.fin threshold) d then .fin (-1) else .fin 0

/-- `LocalMaxToCloseRatio.transform` (`/repo/mizarlabs/transformers/features/custom.py` lines 10-13) on highs and closes; the largest
value of a window is not rounded. -/
def localMaxRatioR (r : K → K) (window : ℕ) (h c : List (XF K)) : List (XF K) :=
  List.zipWith (fun x y => rnd r (XF.div x y)) (rolling window winMax h) c

/-- `MACDHistogramCrossOver.transform` (`/repo/mizarlabs/transformers/technical/macd.py` lines 36-40) on the histogram. -/
def macdCrossR (r : K → K) (h : List (XF K)) : List (XF K) :=
  (diffR r (h.map XF.sign)).map fun x => rnd r (XF.div x (.fin 2))

end Mizar.Rd
