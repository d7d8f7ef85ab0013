import Verif.Model.Technical

/-!
Model of `BarArrivalRSIStrategy.predict` (`/repo/mizarlabs/transformers/technical/rsi.py` lines 44-75) for bars in any order and with repeated times:
the conditions on the indicator have a value for each bar, those on the arrival times for each bar but the first, and `&` joins them by time.
`Tech.barArrivalRsi` is the special case of increasing times.
-/

namespace Mizar.Tech

/-- The values a series has at time `t`, a missing one if there is none (`rsi.py` lines 68-73). -/
def rowsAt {α : Type} (s : List (ℤ × α)) (t : ℤ) : List (Option α) :=
  if s.filter (·.1 == t) = [] then [none] else (s.filter (·.1 == t)).map fun x => some x.2

/-- How pandas brings two series together before an operation (`rsi.py` lines 68-73): series with equal indices row by row; otherwise the times in
ascending order, and for each time all pairs of its rows. -/
def alignOuter {α β : Type} [DecidableEq α] [DecidableEq β] (l : List (ℤ × α)) (r : List (ℤ × β)) : List (ℤ × Option α × Option β) :=
  if l.map (·.1) = r.map (·.1) then List.zipWith (fun a b => (a.1, some a.2, some b.2)) l r
  else (npUnion1d (l.map (·.1)) (r.map (·.1))).flatMap fun t => (rowsAt l t).flatMap fun a => (rowsAt r t).map fun b => (t, a, b)

/-- `left & right` (`rsi.py` lines 68-73); a missing value counts as false. -/
def andSeries (l r : List (ℤ × Bool)) : List (ℤ × Bool) :=
  (alignOuter l r).map fun x => (x.1, x.2.1.getD false && x.2.2.getD false)

variable {K : Type} [Field K] [LinearOrder K]

/-- `BarArrivalRSIStrategy.predict` (`rsi.py` lines 44-75): the series that is returned, with its times. -/
def barArrivalSeries (rsi : Frame K → Py (List (XF K))) (p : BarArrival K) (f : Frame K) : Py (List (ℤ × XF K)) := do
  let sl ← rollE p.slow winMean (arrivals f.index)
  let fa ← rollE p.fast winMean (arrivals f.index)
  let nd := List.zipWith (fun a b => XF.div (XF.sub a b) (.fin p.maxDiff)) fa sl
  let v ← rsi f
  let r ← likeIndex f v
  let band := List.zipWith (fun t x => (t, XF.lt (.fin p.rsiLow) x && XF.lt x (.fin p.rsiHigh))) f.index r
  let below := List.zipWith (fun t d => (t, XF.lt d (.fin p.arrHigh))) f.index.tail nd
  let above := List.zipWith (fun t d => (t, XF.lt (.fin p.arrLow) d)) f.index.tail nd
  .ok ((andSeries (andSeries band below) above).map fun x => (x.1, if x.2 then .fin 1 else .fin 0))

/-- `BarArrivalRSIStrategy.predict_proba` (`rsi.py` lines 77-82): the times are dropped. -/
def barArrivalProba (rsi : Frame K → Py (List (XF K))) (p : BarArrival K) (f : Frame K) : Py (List (List K)) := do
  let s ← barArrivalSeries rsi p f
  .ok (oneHot twoClasses (s.map (·.2)))

/-- `pd.Series(series, index=index)` (`/repo/mizarlabs/model/pipeline.py` lines 405-408 and 469-471, where a strategy returns a series): the values are
looked up by time unless the indices are equal; repeated times in the series raise `ValueError`. -/
def seriesAt (s : List (ℤ × XF K)) (idx : List ℤ) : Py (List (XF K)) :=
  if s.map (·.1) = idx then .ok (s.map (·.2))
  else if (s.map (·.1)).Nodup then .ok (idx.map fun t => (s.lookup t).getD .nan)
  else .error .valueError

/-- The sides the pipeline gets from `BarArrivalRSIStrategy` as primary model (`pipeline.py` lines 469-471). -/
def arrivalSide (rsi : Frame K → Py (List (XF K))) (p : BarArrival K) (f : Frame K) : Py (List (XF K)) := do
  let s ← barArrivalSeries rsi p f
  seriesAt s f.index

/-- `(series == y).astype(float)` (`pipeline.py` lines 637-639): series with different indices are refused with `ValueError`. -/
def equalSeries (s y : List (ℤ × XF K)) : Py (List (ℤ × XF K)) :=
  if s.map (·.1) = y.map (·.1) then .ok (List.zipWith (fun a b => (a.1, if XF.beq a.2 b.2 then .fin 1 else .fin 0)) s y)
  else .error .valueError

/-- The targets of the metalabeling model with `BarArrivalRSIStrategy` as primary model (`pipeline.py` lines 637-639); `y` is the aligned target of
the primary model. -/
def arrivalMetalabels (rsi : Frame K → Py (List (XF K))) (p : BarArrival K) (f : Frame K) (y : List (ℤ × XF K)) : Py (List (ℤ × XF K)) := do
  let s ← barArrivalSeries rsi p f
  equalSeries s y

end Mizar.Tech
