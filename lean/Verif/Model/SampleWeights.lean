import Verif.Model.Bootstrapping
import Verif.Model.Labeling
import Verif.Py.Series
import Verif.Py.XReal

/-!
Model of `/repo/mizarlabs/transformers/sample_weights/__init__.py`.

The frames have the needed columns (`check_missing_columns` raises otherwise).
-/

namespace Mizar.SW
open Mizar.Boot

/-- A row of the frame given to `SampleWeightsByReturns`: index, event end, close price (lines 35-58). -/
structure Row where
  start : ℤ
  stop : Option ℤ
  close : XF ℝ

/-- `SampleWeightsByReturns._calculate_weights` (lines 64-97); times in milliseconds. -/
def calculateWeights {K : Type*} [Field K] [LinearOrder K] (bars ends : List ℤ) (conc rets : List (XF K)) :
    List (XF K) :=
  (bars.zip ends).map fun p =>
    XF.abs (XF.nansum (((bars.zip (rets.zip conc)).filter fun b => decide (p.1 ≤ b.1) && decide (b.1 ≤ p.2)).map
      fun b => XF.div b.2.1 b.2.2))

/-- `SampleWeightsByReturns.transform` (lines 35-62).  `.loc[X.index]` looks every index value up in the sorted
bar index, where it occurs exactly once. -/
noncomputable def weightsByReturns (X : List Row) : Py (List (ℤ × XF ℝ)) :=
  match getIndMatrix (X.map fun r => (some r.start, r.stop)) (X.map (·.start)) with
  | .error e => .error e
  | .ok (M, bi) =>
    let conc := X.map fun r => XF.fin (rowSum M (bi.idxOf r.start) : ℝ)
    let rets := pdDiff (X.map fun r => XF.log r.close)
    .ok ((X.map (·.start)).zip (calculateWeights (X.map fun r => Lab.convertToTimestamp (some r.start))
      (X.map fun r => Lab.convertToTimestamp r.stop) conc rets))

/-- The decay applied to the cumulative uniqueness (lines 131-138) with last value `last`. -/
def decay (c : ℚ) (last x : XF ℚ) : XF ℚ :=
  let slope := if 0 ≤ c then XF.div (.fin (1 - c)) last else XF.div (.fin 1) (XF.mul (.fin (c + 1)) last)
  let const := XF.sub (.fin 1) (XF.mul slope last)
  let y := XF.add const (XF.mul slope x)
  if XF.lt y (.fin 0) then .fin 0 else y

/-- `SampleWeightsByTimeDecay.transform` (lines 127-140); the index is unique, so sorting is insertion sort. -/
def timeDecay (c : ℚ) (X : List (ℤ × Option ℤ)) : Py (List (ℤ × XF ℚ)) :=
  if ¬ c ≤ 1 then .error .assertionError
  else
    match averageUniqueness X with
    | .error e => .error e
    | .ok u =>
      let s := u.insertionSort (fun a b => a.1 ≤ b.1)
      let cs := pdCumsum (s.map (·.2))
      match cs.getLast? with
      | none => .error .indexError
      | some last => .ok ((s.map (·.1)).zip (cs.map (decay c last)))

end Mizar.SW
