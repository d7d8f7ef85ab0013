import Verif.Model.BetSizing
import Verif.Py.Round

/-!
`BetSizingFromProbabilities` (`/repo/mizarlabs/transformers/trading/bet_sizing.py`) with a rounding function `r` applied to
the result of every arithmetic operation.  `norm.cdf` and the power `** 0.5` are parameters.
-/

namespace Mizar.Rd

/-- Rounding of a number; NaN and the infinities stay. -/
def rx (r : ℚ → ℚ) : XF ℚ → XF ℚ
  | .fin x => .fin (r x)
  | x => x

/-- The two library functions: `norm.cdf` (`bet_sizing.py` line 114) and `** 0.5` (line 110). -/
structure BetFn where
  cdf : XF ℚ → XF ℚ
  root : XF ℚ → XF ℚ

/-- `test_statistic_z` of one row (`bet_sizing.py` lines 106-110). -/
def betZ (r : ℚ → ℚ) (F : BetFn) (n : ℕ) (p : XF ℚ) : XF ℚ :=
  rx r (XF.div (rx r (XF.sub p (.fin (r (1 / (n : ℚ)))))) (F.root (rx r (XF.mul p (rx r (XF.sub (.fin 1) p))))))

/-- The signal of one row (`bet_sizing.py` lines 113-115). -/
def betSignal (r : ℚ → ℚ) (F : BetFn) (n : ℕ) (pred p : XF ℚ) : XF ℚ :=
  rx r (XF.mul pred (rx r (XF.sub (rx r (XF.mul (.fin 2) (F.cdf (betZ r F n p)))) (.fin 1))))

/-- Compiled `np.mean` of a non-empty array: the values are added one after the other (`bet_sizing.py` line 224). -/
def betMean (r : ℚ → ℚ) (l : List (XF ℚ)) : XF ℚ :=
  rx r (XF.div (l.foldl (fun s x => rx r (XF.add s x)) (.fin 0)) (.fin (l.length : ℚ)))

/-- Loop body of `_get_avg_active_signals` (`bet_sizing.py` lines 209-224), as `Bet.avgActiveAt`. -/
def betAvgAt (r : ℚ → ℚ) (bets : List (ℤ × ℤ × XF ℚ)) (t : ℤ) : XF ℚ :=
  let active := bets.filter fun b => decide (b.1 ≤ t) && (decide (t < b.2.1) || decide (b.2.1 < 0))
  if 0 < active.length then betMean r (active.map (·.2.2)) else .fin 0

/-- `avg_active_signals` (`bet_sizing.py` lines 142-183), as `Bet.avgActiveSignals`. -/
def betAvg (r : ℚ → ℚ) (bets : List (Bet.Bet ℚ)) : List (ℤ × XF ℚ) :=
  (Bet.changeTimes bets).map fun t =>
    (t, betAvgAt r (bets.map fun b =>
      (Lab.convertToTimestamp (some b.start), Lab.convertToTimestamp b.stop, b.size))
      (Lab.convertToTimestamp (some t)))

/-- The body of `discretise_signal` for one value (`bet_sizing.py` lines 242-246); rounding to the nearest integer is exact,
`round(3)` multiplies by 1000, rounds to an integer and divides by 1000. -/
def betDisc1 (r : ℚ → ℚ) (step : ℚ) (s : XF ℚ) : XF ℚ :=
  let a := rx r (XF.mul (Bet.xround (rx r (XF.div s (.fin step)))) (.fin step))
  let d := rx r (XF.div (Bet.xround (rx r (XF.mul a (.fin 1000)))) (.fin 1000))
  let d := if XF.lt (.fin 1) d then .fin 1 else d
  if XF.lt d (.fin (-1)) then .fin (-1) else d

/-- `discretise_signal` (`bet_sizing.py` lines 229-248). -/
def betDisc (r : ℚ → ℚ) (signal : List (ℤ × XF ℚ)) (step : ℚ) : Py (List (ℤ × XF ℚ)) :=
  if 0 < step ∧ step < 1 then .ok (signal.map fun p => (p.1, betDisc1 r step p.2)) else .error .assertionError

/-- Constructor parameters (`bet_sizing.py` lines 66-89); with averaging the column names are the default ones (the other
cases are in `Bet.applyAverage`). -/
structure BetCfg where
  numClasses : ℕ
  averageActive : Bool
  metaLabeling : Bool
  discretise : Bool
  stepSize : Option ℚ

/-- The assertions of the constructor (`bet_sizing.py` lines 91-98). -/
def betConstruct (c : BetCfg) : Py BetCfg :=
  if c.discretise then
    match c.stepSize with
    | none => .error .assertionError
    | some s => if 0 < s ∧ s < 1 then .ok c else .error .assertionError
  else .ok c

/-- The input frame with all columns (missing columns are treated in `Bet.transform0`), `bet_sizing.py` lines 100-103. -/
structure BetFrame where
  index : List ℤ
  prob : List (XF ℚ)
  pred : List (XF ℚ)
  side : List (XF ℚ)
  eventEnd : List (Option ℤ)

/-- The multiplication with the side (`bet_sizing.py` lines 117-123). -/
def betSide (r : ℚ → ℚ) (c : BetCfg) (X : BetFrame) (signal : List (XF ℚ)) : Py (List (XF ℚ)) :=
  if c.metaLabeling then
    if X.side.all fun v => XF.beq v (.fin 1) || XF.beq v (.fin (-1)) || XF.beq v (.fin 0) then
      .ok (List.zipWith (fun a b => rx r (XF.mul a b)) signal X.side)
    else .error .assertionError
  else .ok signal

/-- The averaging step (`bet_sizing.py` lines 125-134). -/
def betAverage (r : ℚ → ℚ) (c : BetCfg) (X : BetFrame) (signal : List (XF ℚ)) : List (ℤ × XF ℚ) :=
  if c.averageActive then
    betAvg r (List.zipWith (fun t (e : Option ℤ × XF ℚ) => ⟨t, e.1, e.2⟩) X.index (X.eventEnd.zip signal))
  else X.index.zip signal

/-- The discretisation step (`bet_sizing.py` lines 136-137); the constructor guarantees a step. -/
def betDiscretise (r : ℚ → ℚ) (c : BetCfg) (signal : List (ℤ × XF ℚ)) : Py (List (ℤ × XF ℚ)) :=
  if c.discretise then
    match c.stepSize with
    | none => .error .typeError
    | some d => betDisc r signal d
  else .ok signal

/-- `BetSizingFromProbabilities._transform` (`bet_sizing.py` lines 100-139). -/
def betTransform0 (r : ℚ → ℚ) (F : BetFn) (c : BetCfg) (X : BetFrame) : Py (List (ℤ × XF ℚ)) :=
  if c.numClasses = 0 then .error .zeroDivisionError
  else
    match betSide r c X (List.zipWith (betSignal r F c.numClasses) X.pred X.prob) with
    | .error e => .error e
    | .ok s =>
      match betDiscretise r c (betAverage r c X s) with
      | .error e => .error e
      | .ok s => .ok (s.map fun p => (p.1, XF.abs p.2))

/-- `BetSizingBase.transform` (`bet_sizing.py` lines 25-32). -/
def betTransform (r : ℚ → ℚ) (F : BetFn) (c : BetCfg) (X : BetFrame) : Py (List (ℤ × XF ℚ)) :=
  match betTransform0 r F c X with
  | .error e => .error e
  | .ok s =>
    if s.all (fun p => XF.le (.fin (-1)) p.2) && s.all (fun p => XF.le p.2 (.fin 1)) then .ok s
    else .error .assertionError

end Mizar.Rd
