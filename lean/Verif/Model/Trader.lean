import Verif.Model.DailyVol
import Verif.Model.Pipeline

/-!
Model of `StrategyTrader` (`/repo/mizarlabs/model/pipeline.py` lines 694-857).

The dictionary of frames is part of the state, because `create_strategy_bars` writes columns into the frame it is
given.  A call gives a result or an error together with the state afterwards.
-/

set_option linter.unusedSectionVars false

namespace Mizar.Trade
open Mizar.Pipe
variable {K : Type} [Field K] [LinearOrder K]

/-- `mizarlabs/static.py` lines 11-27. -/
def CLOSE : String := "close"
def SIDE : String := "side"
def SIZE : String := "size"
def NUM_BARS : String := "num_expiration_bars"
def STOP_LOSS : String := "stop_loss"
def PROFIT_TAKING : String := "profit_taking"

/-- A signal frame: time, side, size (`pipeline.py` lines 767-783). -/
abbrev Signal (K : Type) := List (ℤ × XF K × XF K)

/-- The configuration (`pipeline.py` lines 704-732).  `signal` is `strategy_pipeline.get_side_and_size` and `estd`
the exponentially weighted standard deviation with span `volatility_window`. -/
structure Trader (K : Type) where
  alignOn : String
  signal : Dict K → Py (Signal K)
  estd : List (XF K) → List (XF K)
  numBars : K
  stopLoss : Option K
  profitTaking : Option K
  volAdjusted : Bool

/-- What calls change: `strategy_valid` and the frames handed over (`pipeline.py` lines 727, 763-765). -/
structure State (K : Type) where
  valid : Option Bool
  data : Dict K
  deriving DecidableEq

/-- `_check_X_dict` (`pipeline.py` lines 734-743). -/
def checkDict (X : Dict K) : Bool := X.all fun p => decide p.2.index.Nodup

/-- `_check_signal_has_valid_output` (`pipeline.py` lines 745-765); comparisons with NaN are false. -/
def validSignal (s : Signal K) : Bool :=
  let sizeBad := !(s.all fun r => XF.le (.fin 0) r.2.2) || !(s.all fun r => XF.le r.2.2 (.fin 1))
  let sideBad := !(s.all fun r => XF.le (.fin (-1)) r.2.1) || !(s.all fun r => XF.le r.2.1 (.fin 1))
  if sizeBad || sideBad then false else true

/-- `create_signal` (`pipeline.py` lines 767-783). -/
def createSignal (tr : Trader K) (st : State K) : Py (Signal K) × State K :=
  if checkDict st.data = false then (.error .valueError, st)
  else
    match tr.signal st.data with
    | .error e => (.error e, st)
    | .ok s => (.ok s, { st with valid := some (validSignal s) })

/-- `df[name]` (`pipeline.py` line 809). -/
def column (f : Frame K) (name : String) : Py (List (XF K)) :=
  if name ∈ f.cols then .ok (f.rows.map fun r => r.2.getD (f.cols.idxOf name) .nan) else .error .keyError

/-- `df[name] = values`: in place for a column that exists, otherwise as the last column (`pipeline.py` lines 815-819). -/
def setColumn (f : Frame K) (name : String) (v : List (XF K)) : Frame K :=
  if name ∈ f.cols then ⟨f.cols, List.zipWith (fun r x => (r.1, r.2.set (f.cols.idxOf name) x)) f.rows v⟩
  else ⟨f.cols ++ [name], List.zipWith (fun r x => (r.1, r.2 ++ [x])) f.rows v⟩

/-- The entry of a dictionary is changed in place (`pipeline.py` lines 800, 815-819). -/
def setEntry (X : Dict K) (key : String) (f : Frame K) : Dict K := X.map fun p => if p.1 = key then (p.1, f) else p

/-- The volatility (`pipeline.py` lines 802-812), one value per bar. -/
def volatility (tr : Trader K) (f : Frame K) : Py (List (XF K)) :=
  if tr.volAdjusted then do
    let c ← column f CLOSE
    .ok (Lab.dailyVolColumn tr.estd f.index c)
  else .ok (f.rows.map fun _ => .fin 1)

/-- The daily volatility is an empty series: no bar has a bar a day before (`pipeline.py` lines 808-812, `labeling.py` lines 450-462). -/
def noReturns (tr : Trader K) (f : Frame K) : Bool := tr.volAdjusted && (Lab.shiftedClose f.index).isEmpty

/-- One value of the column `volatility * factor`; without a factor it stays empty (`pipeline.py` lines 815-816). -/
def level (factor : Option K) (x : XF K) : XF K :=
  match factor with
  | none => .nan
  | some k => XF.mul x (.fin k)

/-- `volatility * factor`; no factor raises `TypeError` unless the volatility is an empty series, which numpy multiplies by anything
(`pipeline.py` lines 815-816). -/
def scaled (empty : Bool) (vol : List (XF K)) (factor : Option K) : Py (List (XF K)) :=
  if factor.isNone && !empty then .error .typeError else .ok (vol.map (level factor))

/-- `create_strategy_bars` (`pipeline.py` lines 785-822): the three columns (rows: time, stop loss, profit taking,
number of bars) and the changed data. -/
def createBars (tr : Trader K) (st : State K) : Py (Frame K) × State K :=
  if checkDict st.data = false then (.error .valueError, st)
  else
    match st.data.lookup tr.alignOn with
    | none => (.error .keyError, st)
    | some f =>
      match volatility tr f with
      | .error e => (.error e, st)
      | .ok vol =>
        match scaled (noReturns tr f) vol tr.stopLoss with
        | .error e => (.error e, st)
        | .ok sl =>
          let f1 := setColumn f STOP_LOSS sl
          match scaled (noReturns tr f) vol tr.profitTaking with
          | .error e => (.error e, { st with data := setEntry st.data tr.alignOn f1 })
          | .ok pt =>
            let f2 := setColumn f1 PROFIT_TAKING pt
            let f3 := setColumn f2 NUM_BARS (f.rows.map fun _ => .fin tr.numBars)
            (do
              let a ← column f3 STOP_LOSS
              let b ← column f3 PROFIT_TAKING
              let n ← column f3 NUM_BARS
              .ok ⟨[STOP_LOSS, PROFIT_TAKING, NUM_BARS],
                List.zipWith (fun t (r : XF K × XF K × XF K) => (t, [r.1, r.2.1, r.2.2])) f3.index (a.zip (b.zip n))⟩,
             { st with data := setEntry st.data tr.alignOn f3 })

/-- The signal as a frame (`pipeline.py` line 840). -/
def signalFrame (s : Signal K) : Frame K := ⟨[SIDE, SIZE], s.map fun r => (r.1, [r.2.1, r.2.2])⟩

/-- `check_missing_columns` (`transformers/utils.py` lines 11-14). -/
def checkColumns (f : Frame K) (wanted : List String) : Py Unit :=
  if wanted.all fun c => decide (c ∈ f.cols) then .ok () else .error .assertionError

/-- Joining and checking in `create_position` (`pipeline.py` lines 840-852). -/
def joinPosition (s : Signal K) (b : Frame K) : Py (Frame K) := do
  let p ← concatOuter [signalFrame s, b]
  let _ ← checkColumns p [STOP_LOSS, PROFIT_TAKING, NUM_BARS, SIZE, SIDE]
  if p.index.Nodup then .ok p else .error .valueError

/-- `create_position` (`pipeline.py` lines 824-852). -/
def createPosition (tr : Trader K) (st : State K) : Py (Frame K) × State K :=
  match createSignal tr st with
  | (.error e, st1) => (.error e, st1)
  | (.ok s, st1) =>
    match createBars tr st1 with
    | (.error e, st2) => (.error e, st2)
    | (.ok b, st2) => (joinPosition s b, st2)

end Mizar.Trade
