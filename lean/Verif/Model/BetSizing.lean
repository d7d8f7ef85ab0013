import Verif.Py.Basic
import Verif.Py.Num
import Verif.Py.Norm
import Verif.Py.XReal
import Verif.Py.MapE
import Verif.Model.Labeling

/-!
Model of `/repo/mizarlabs/transformers/trading/bet_sizing.py`.

Times are integers (nanoseconds), a missing time is `none`.
-/

namespace Mizar.Bet

/-- `BET_SIZE` (`bet_sizing.py` line 14). -/
def BET_SIZE : String := "bet_size"

section
variable {K : Type*} [Field K] [LinearOrder K]

/-- One row of the frame given to `avg_active_signals`: start, end, bet (`bet_sizing.py` lines 126-134). -/
structure Bet (K : Type*) where
  start : ℤ
  stop : Option ℤ
  size : XF K

/-- `np.mean` of a non-empty array (`bet_sizing.py` line 224). -/
def mean (l : List (XF K)) : XF K := XF.div (XF.sum l) (.fin (l.length : K))

/-- Loop body of `_get_avg_active_signals` (`bet_sizing.py` lines 209-224): mask and mean, all times in
milliseconds. -/
def avgActiveAt (bets : List (ℤ × ℤ × XF K)) (t : ℤ) : XF K :=
  let active := bets.filter fun b => decide (b.1 ≤ t) && (decide (t < b.2.1) || decide (b.2.1 < 0))
  if 0 < active.length then mean (active.map (·.2.2)) else .fin 0

/-- The sorted list of the start and end times (lines 160-168). -/
def changeTimes (bets : List (Bet K)) : List ℤ :=
  npUnique (bets.filterMap (·.stop) ++ bets.map (·.start))

/-- `avg_active_signals` (lines 142-183) and `_get_avg_active_signals` (lines 186-226). -/
def avgActiveSignals (bets : List (Bet K)) : List (ℤ × XF K) :=
  (changeTimes bets).map fun t =>
    (t, avgActiveAt (bets.map fun b =>
      (Lab.convertToTimestamp (some b.start), Lab.convertToTimestamp b.stop, b.size))
      (Lab.convertToTimestamp (some t)))

/-- `Series.round()` of one value (line 242). -/
def xround [FloorRing K] : XF K → XF K
  | .fin x => .fin (roundHalfEven x : K)
  | x => x

/-- `Series.round(3)` of one value (`rint(x * 1000) / 1000`) (line 242). -/
def xround3 [FloorRing K] (x : XF K) : XF K := XF.div (xround (XF.mul x (.fin 1000))) (.fin 1000)

/-- The body of `discretise_signal` for one value (lines 242-246). -/
def discretise1 [FloorRing K] (step : K) (s : XF K) : XF K :=
  let d := xround3 (XF.mul (xround (XF.div s (.fin step))) (.fin step))
  let d := if XF.lt (.fin 1) d then .fin 1 else d
  if XF.lt d (.fin (-1)) then .fin (-1) else d

/-- `discretise_signal` (lines 229-248). -/
def discretiseSignal [FloorRing K] (signal : List (ℤ × XF K)) (step : K) : Py (List (ℤ × XF K)) :=
  if 0 < step ∧ step < 1 then .ok (signal.map fun p => (p.1, discretise1 step p.2)) else .error .assertionError

end

/-- Constructor parameters that matter (lines 66-89).  The names of the input columns are not modelled: a
frame either has the configured column or not. -/
structure Cfg where
  numClasses : ℕ
  averageActive : Bool
  metaLabeling : Bool
  discretise : Bool
  stepSize : Option ℝ
  betSizeName : String
  eventEndName : String

/-- The assertions of the constructor (lines 91-98). -/
noncomputable def construct (c : Cfg) : Py Cfg :=
  if c.discretise then
    match c.stepSize with
    | none => .error .assertionError
    | some s => if 0 < s ∧ s < 1 then .ok c else .error .assertionError
  else .ok c

/-- The input frame: the index (without duplicates) and the configured columns, if present (lines 100-103). -/
structure Frame where
  index : List ℤ
  prob : Option (List (XF ℝ))
  pred : Option (List (XF ℝ))
  side : Option (List (XF ℝ))
  eventEnd : Option (List (Option ℤ))

/-- `test_statistic_z` of one row (lines 106-110). -/
noncomputable def zStat (numClasses : ℕ) (p : XF ℝ) : XF ℝ :=
  XF.div (XF.sub p (.fin (1 / (numClasses : ℝ)))) (XF.sqrt (XF.mul p (XF.sub (.fin 1) p)))

/-- The signal of one row (lines 113-115). -/
noncomputable def signal1 (numClasses : ℕ) (pred p : XF ℝ) : XF ℝ :=
  XF.mul pred (XF.sub (XF.mul (.fin 2) (normCdf (zStat numClasses p))) (.fin 1))

/-- `set(side.unique()).issubset({1, -1, 0})` (lines 118-120). -/
noncomputable def validSide (s : XF ℝ) : Bool :=
  XF.beq s (.fin 1) || XF.beq s (.fin (-1)) || XF.beq s (.fin 0)

/-- The multiplication with the side (lines 117-123). -/
noncomputable def applySide (c : Cfg) (X : Frame) (signal : List (XF ℝ)) : Py (List (XF ℝ)) :=
  if c.metaLabeling then
    match X.side with
    | none => .error .keyError
    | some side =>
      if side.all validSide then .ok (List.zipWith XF.mul signal side) else .error .assertionError
  else .ok signal

/-- The averaging step (lines 125-134): the frame has the columns `BET_SIZE` and the event end column, but
the column `bet_size_column_name` is read. -/
noncomputable def applyAverage (c : Cfg) (X : Frame) (signal : List (XF ℝ)) : Py (List (ℤ × XF ℝ)) :=
  if c.averageActive then
    match X.eventEnd with
    | none => .error .keyError
    | some ends =>
      if c.eventEndName = BET_SIZE then .error .valueError
      else if c.betSizeName = BET_SIZE then
        .ok (avgActiveSignals (List.zipWith (fun t (r : Option ℤ × XF ℝ) => ⟨t, r.1, r.2⟩) X.index (ends.zip signal)))
      else if c.betSizeName = c.eventEndName then .error .typeError
      else .error .keyError
  else .ok (X.index.zip signal)

/-- The discretisation step (lines 136-137); the constructor guarantees a step. -/
noncomputable def applyDiscretise (c : Cfg) (signal : List (ℤ × XF ℝ)) : Py (List (ℤ × XF ℝ)) :=
  if c.discretise then
    match c.stepSize with
    | none => .error .typeError
    | some s => discretiseSignal signal s
  else .ok signal

/-- `BetSizingFromProbabilities._transform` (lines 100-139).  `1.0 / num_classes` raises for zero classes. -/
noncomputable def transform0 (c : Cfg) (X : Frame) : Py (List (ℤ × XF ℝ)) :=
  match X.prob, X.pred with
  | some prob, some pred =>
    if c.numClasses = 0 then .error .zeroDivisionError
    else
      match applySide c X (List.zipWith (signal1 c.numClasses) pred prob) with
      | .error e => .error e
      | .ok s =>
        match applyAverage c X s with
        | .error e => .error e
        | .ok s =>
          match applyDiscretise c s with
          | .error e => .error e
          | .ok s => .ok (s.map fun p => (p.1, XF.abs p.2))
  | _, _ => .error .assertionError

/-- `BetSizingBase.transform` (lines 25-32): all values must compare `>= -1` and `<= 1`. -/
noncomputable def transform (c : Cfg) (X : Frame) : Py (List (ℤ × XF ℝ)) :=
  match transform0 c X with
  | .error e => .error e
  | .ok s =>
    if s.all (fun p => XF.le (.fin (-1)) p.2) && s.all (fun p => XF.le p.2 (.fin 1)) then .ok s
    else .error .assertionError

end Mizar.Bet
