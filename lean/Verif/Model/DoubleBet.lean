import Verif.Model.RoundedBet
import Verif.Model.RoundedBag
import Verif.Model.Pipeline
import Verif.Py.Double

/-!
`BetSizingFromProbabilities` (`/repo/mizarlabs/transformers/trading/bet_sizing.py`) and the mean probabilities of the bagging classifier
(`/repo/mizarlabs/model/sequentially_bootstrapped_bagging_classifier.py` lines 465-467) with every arithmetic operation followed by `g`,
which rounds a finite result and may make it infinite (`g = binary64.float` for `float64`); the functions are those of
`Verif.Model.RoundedBet` and `Verif.Model.RoundedBag`.
-/

namespace Mizar.Rd

/-- `test_statistic_z` of one row (`bet_sizing.py` lines 106-110). -/
def betZD (g : ℚ → XF ℚ) (F : BetFn) (n : ℕ) (p : XF ℚ) : XF ℚ :=
  XF.rounded g (XF.div (XF.rounded g (XF.sub p (g (1 / (n : ℚ)))))
    (F.root (XF.rounded g (XF.mul p (XF.rounded g (XF.sub (.fin 1) p))))))

/-- The signal of one row (`bet_sizing.py` lines 113-115). -/
def betSignalD (g : ℚ → XF ℚ) (F : BetFn) (n : ℕ) (pred p : XF ℚ) : XF ℚ :=
  XF.rounded g (XF.mul pred (XF.rounded g (XF.sub (XF.rounded g (XF.mul (.fin 2) (F.cdf (betZD g F n p)))) (.fin 1))))

/-- Compiled `np.mean` of a non-empty array (`bet_sizing.py` line 224). -/
def betMeanD (g : ℚ → XF ℚ) (l : List (XF ℚ)) : XF ℚ :=
  XF.rounded g (XF.div (l.foldl (fun s x => XF.rounded g (XF.add s x)) (.fin 0)) (.fin (l.length : ℚ)))

/-- Loop body of `_get_avg_active_signals` (`bet_sizing.py` lines 209-224). -/
def betAvgAtD (g : ℚ → XF ℚ) (bets : List (ℤ × ℤ × XF ℚ)) (t : ℤ) : XF ℚ :=
  let active := bets.filter fun b => decide (b.1 ≤ t) && (decide (t < b.2.1) || decide (b.2.1 < 0))
  if 0 < active.length then betMeanD g (active.map (·.2.2)) else .fin 0

/-- `avg_active_signals` (`bet_sizing.py` lines 142-183). -/
def betAvgD (g : ℚ → XF ℚ) (bets : List (Bet.Bet ℚ)) : List (ℤ × XF ℚ) :=
  (Bet.changeTimes bets).map fun t =>
    (t, betAvgAtD g (bets.map fun b =>
      (Lab.convertToTimestamp (some b.start), Lab.convertToTimestamp b.stop, b.size))
      (Lab.convertToTimestamp (some t)))

/-- The body of `discretise_signal` for one value (`bet_sizing.py` lines 242-246). -/
def betDisc1D (g : ℚ → XF ℚ) (step : ℚ) (s : XF ℚ) : XF ℚ :=
  let a := XF.rounded g (XF.mul (Bet.xround (XF.rounded g (XF.div s (.fin step)))) (.fin step))
  let d := XF.rounded g (XF.div (Bet.xround (XF.rounded g (XF.mul a (.fin 1000)))) (.fin 1000))
  let d := if XF.lt (.fin 1) d then .fin 1 else d
  if XF.lt d (.fin (-1)) then .fin (-1) else d

/-- `discretise_signal` (`bet_sizing.py` lines 229-248). -/
def betDiscD (g : ℚ → XF ℚ) (signal : List (ℤ × XF ℚ)) (step : ℚ) : Py (List (ℤ × XF ℚ)) :=
  if 0 < step ∧ step < 1 then .ok (signal.map fun p => (p.1, betDisc1D g step p.2)) else .error .assertionError

/-- The multiplication with the side (`bet_sizing.py` lines 117-123). -/
def betSideD (g : ℚ → XF ℚ) (c : BetCfg) (X : BetFrame) (signal : List (XF ℚ)) : Py (List (XF ℚ)) :=
  if c.metaLabeling then
    if X.side.all fun v => XF.beq v (.fin 1) || XF.beq v (.fin (-1)) || XF.beq v (.fin 0) then
      .ok (List.zipWith (fun a b => XF.rounded g (XF.mul a b)) signal X.side)
    else .error .assertionError
  else .ok signal

/-- The averaging step (`bet_sizing.py` lines 125-134). -/
def betAverageD (g : ℚ → XF ℚ) (c : BetCfg) (X : BetFrame) (signal : List (XF ℚ)) : List (ℤ × XF ℚ) :=
  if c.averageActive then
    betAvgD g (List.zipWith (fun t (e : Option ℤ × XF ℚ) => ⟨t, e.1, e.2⟩) X.index (X.eventEnd.zip signal))
  else X.index.zip signal

/-- The discretisation step (`bet_sizing.py` lines 136-137). -/
def betDiscretiseD (g : ℚ → XF ℚ) (c : BetCfg) (signal : List (ℤ × XF ℚ)) : Py (List (ℤ × XF ℚ)) :=
  if c.discretise then
    match c.stepSize with
    | none => .error .typeError
    | some d => betDiscD g signal d
  else .ok signal

/-- `BetSizingFromProbabilities._transform` (`bet_sizing.py` lines 100-139). -/
def betTransform0D (g : ℚ → XF ℚ) (F : BetFn) (c : BetCfg) (X : BetFrame) : Py (List (ℤ × XF ℚ)) :=
  if c.numClasses = 0 then .error .zeroDivisionError
  else
    match betSideD g c X (List.zipWith (betSignalD g F c.numClasses) X.pred X.prob) with
    | .error e => .error e
    | .ok s =>
      match betDiscretiseD g c (betAverageD g c X s) with
      | .error e => .error e
      | .ok s => .ok (s.map fun p => (p.1, XF.abs p.2))

/-- `BetSizingBase.transform` (`bet_sizing.py` lines 25-32). -/
def betTransformD (g : ℚ → XF ℚ) (F : BetFn) (c : BetCfg) (X : BetFrame) : Py (List (ℤ × XF ℚ)) :=
  match betTransform0D g F c X with
  | .error e => .error e
  | .ok s =>
    if s.all (fun p => XF.le (.fin (-1)) p.2) && s.all (fun p => XF.le p.2 (.fin 1)) then .ok s
    else .error .assertionError

/-- Adding up from zero (`proba += proba_estimator` and `sum(all_proba)`, lines 465-467 of the classifier). -/
def sumD (g : ℚ → XF ℚ) (l : List (XF ℚ)) : XF ℚ := l.foldl (fun a x => XF.rounded g (XF.add a x)) (.fin 0)

/-- One entry of the result of `predict_proba` (lines 465-467 of the classifier), as `Rd.classMean`. -/
def classMeanD (g : ℚ → XF ℚ) (nEst jobs : ℕ) (ps : List ℚ) : XF ℚ :=
  let part := Bag.partitionEstimators nEst jobs
  XF.rounded g (XF.div (sumD g ((List.range part.1).map fun t =>
    sumD g (((ps.take (part.2.2.getD (t + 1) 0)).drop (part.2.2.getD t 0)).map .fin))) (.fin (nEst : ℚ)))

/-- `predict` (lines 465-467 of the classifier): `np.argmax` of a row of probabilities; `cols` has the probabilities of each class. -/
def predictClassD (g : ℚ → XF ℚ) (nEst jobs : ℕ) (cols : List (List ℚ)) : Py ℕ := Pipe.argmax (cols.map (classMeanD g nEst jobs))

end Mizar.Rd
