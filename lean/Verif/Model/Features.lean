import Mathlib.Analysis.SpecialFunctions.Trigonometric.Basic
import Verif.Py.Feature

/-!
Model of `/repo/mizarlabs/transformers/features/` and of the microstructural features
(`/repo/mizarlabs/transformers/microstructural_features/`) over the reals.

Results are columns (`values.reshape(-1, 1)`); column names are parameters where the code has them as arguments.
-/

set_option linter.unusedSectionVars false

namespace Mizar.Feat

/-- `rolling(window).std()` (`rolling_z_score.py` line 42). -/
noncomputable def winStd (l : List ℝ) : XF ℝ := XF.sqrt (winVar l)

/-- `RollingZScoreTransformer.calc_z_score` (`rolling_z_score.py` lines 33-44). -/
noncomputable def zScore (window : ℤ) (x : List (XF ℝ)) : Py (List (XF ℝ)) := do
  let m ← rollE window winMean x
  let s ← rollE window winStd x
  .ok (List.zipWith XF.div (List.zipWith XF.sub x m) s)

/-- `RollingZScoreTransformer.transform` (`rolling_z_score.py` lines 21-31). -/
noncomputable def zScoreTransform (window : ℤ) (series : Frame ℝ → Py (List (XF ℝ))) (f : Frame ℝ) : Py (List (XF ℝ)) := do
  let x ← series f
  zScore window x

/-- `bar_arrival_time` (`rolling_z_score.py` lines 47-48). -/
noncomputable def barArrivalTime (f : Frame ℝ) : Py (List (XF ℝ)) := .ok (pdDiff (f.index.map fun t : ℤ => (.fin (t : ℝ) : XF ℝ)))

/-- `buy_sell_diff` (`rolling_z_score.py` lines 50-51). -/
noncomputable def buySellDiff (f : Frame ℝ) : Py (List (XF ℝ)) := do
  let b ← f.attr "quote_asset_buy_volume"
  let s ← f.attr "quote_asset_sell_volume"
  .ok (List.zipWith XF.sub b s)

/-- `average_buy_size` (`rolling_z_score.py` lines 53-54). -/
noncomputable def averageBuySize (f : Frame ℝ) : Py (List (XF ℝ)) := do
  let b ← f.attr "quote_asset_buy_volume"
  let n ← f.attr "num_buy_ticks"
  .ok (List.zipWith XF.div b n)

/-- `high_to_low_ratio` (`rolling_z_score.py` lines 56-57). -/
noncomputable def highToLowRatio (f : Frame ℝ) : Py (List (XF ℝ)) := do
  let h ← f.attr "high"
  let l ← f.attr "low"
  .ok (List.zipWith XF.div h l)

/-- `RollingZScoreTransformerFactory.types` (`rolling_z_score.py` lines 62-67). -/
noncomputable def zScoreTypes (key : String) : Option (Frame ℝ → Py (List (XF ℝ))) :=
  if key = "bar_arrival_time" then some barArrivalTime
  else if key = "buy_sell_diff" then some buySellDiff
  else if key = "average_buy_size" then some averageBuySize
  else if key = "high_to_low_ratio" then some highToLowRatio
  else none

/-- `RollingZScoreTransformerFactory.get_transformer(key, window)` (`rolling_z_score.py` lines 69-85) followed by
`transform`. -/
noncomputable def zScoreFactory (key : String) (window : ℤ) (f : Frame ℝ) : Py (List (XF ℝ)) :=
  match zScoreTypes key with
  | none => .error .keyError
  | some g => zScoreTransform window g f

/-- `LocalMaxToCloseRatio.transform` (`custom.py` lines 10-13). -/
noncomputable def localMaxRatio (window : ℤ) (f : Frame ℝ) : Py (List (XF ℝ)) := do
  let h ← f.attr "high"
  let m ← rollE window winMax h
  let c ← f.attr "close"
  .ok (List.zipWith XF.div m c)

/-- `RollMeasure.transform` (`first_generation.py` lines 29-36). -/
noncomputable def rollMeasure (window : ℤ) (close : String) (f : Frame ℝ) : Py (List (XF ℝ)) := do
  let _ ← checkMissing f [close]
  let c ← f.col close
  let d := pdDiff c
  let v ← rollE2 window winCov d (pdShift d)
  .ok (v.map fun x => XF.mul (.fin 2) (XF.sqrt (XF.abs x)))

/-- `RollImpact.transform` (`first_generation.py` lines 66-70). -/
noncomputable def rollImpact (window : ℤ) (close volume : String) (f : Frame ℝ) : Py (List (XF ℝ)) := do
  let r ← rollMeasure window close f
  let v ← f.col volume
  .ok (List.zipWith XF.div r v)

/-- `np.square`, `x ** 2` (`first_generation.py` lines 106, 127, 146). -/
noncomputable def square (x : XF ℝ) : XF ℝ := XF.mul x x

/-- `ParkinsonVolatility.transform` (`first_generation.py` lines 98-110). -/
noncomputable def parkinson (window : ℤ) (high low : String) (f : Frame ℝ) : Py (List (XF ℝ)) := do
  let _ ← checkMissing f [high, low]
  let h ← f.col high
  let l ← f.col low
  rollE window winMean ((List.zipWith XF.div h l).map fun x =>
    XF.mul (.fin (1 / (4 * Real.log 2))) (square (XF.log x)))

/-- `_get_beta` (`first_generation.py` lines 113-130). -/
noncomputable def getBeta (high low : List (XF ℝ)) (window : ℤ) : Py (List (XF ℝ)) := do
  let b ← rollE 2 winSum ((List.zipWith XF.div high low).map fun x => square (XF.log x))
  rollE window winMean b

/-- `_get_gamma` (`first_generation.py` lines 133-147). -/
noncomputable def getGamma (high low : List (XF ℝ)) : Py (List (XF ℝ)) := do
  let h ← rollE 2 winMax high
  let l ← rollE 2 winMin low
  .ok ((List.zipWith XF.div h l).map fun x => square (XF.log x))

/-- `3 - 2 * 2 ** 0.5` (`first_generation.py` line 161). -/
noncomputable def den : ℝ := 3 - 2 * Real.sqrt 2

/-- Negative values are replaced by 0 (`first_generation.py` lines 164, 247). -/
noncomputable def clip0 (x : XF ℝ) : XF ℝ := if XF.lt x (.fin 0) then .fin 0 else x

/-- `_get_alpha` (`first_generation.py` lines 150-165). -/
noncomputable def getAlpha (beta gamma : List (XF ℝ)) : List (XF ℝ) :=
  List.zipWith (fun b g =>
    clip0 (XF.sub (XF.div (XF.mul (.fin (Real.sqrt 2 - 1)) (XF.sqrt b)) (.fin den)) (XF.sqrt (XF.div g (.fin den))))) beta gamma

/-- `CorwinSchultzSpread.transform` (`first_generation.py` lines 196-205). -/
noncomputable def corwinSchultz (window : ℤ) (high low : String) (f : Frame ℝ) : Py (List (XF ℝ)) := do
  let _ ← checkMissing f [high, low]
  let h ← f.col high
  let l ← f.col low
  let beta ← getBeta h l window
  let gamma ← getGamma h l
  .ok ((getAlpha beta gamma).map fun a =>
    XF.div (XF.mul (.fin 2) (XF.sub (XF.exp a) (.fin 1))) (XF.add (.fin 1) (XF.exp a)))

/-- `BeckersParkinsonVolatility.transform` (`first_generation.py` lines 236-248). -/
noncomputable def beckersParkinson (window : ℤ) (high low : String) (f : Frame ℝ) : Py (List (XF ℝ)) := do
  let _ ← checkMissing f [high, low]
  let h ← f.col high
  let l ← f.col low
  let beta ← getBeta h l window
  let gamma ← getGamma h l
  let k2 : ℝ := Real.sqrt (8 / Real.pi)
  .ok (List.zipWith (fun b g =>
    clip0 (XF.add (XF.div (XF.mul (.fin (1 / Real.sqrt 2 - 1)) (XF.sqrt b)) (.fin (k2 * den)))
      (XF.sqrt (XF.div g (.fin (k2 ^ 2 * den)))))) beta gamma)

/-- `KyleLambda.transform` (`second_generation.py` lines 37-47). -/
noncomputable def kyle (window : ℤ) (close volume : String) (f : Frame ℝ) : Py (List (XF ℝ)) := do
  let _ ← checkMissing f [close, volume]
  let c ← f.col close
  let v ← f.col volume
  rollE window winMean (List.zipWith XF.div ((pdDiff c).map XF.abs) v)

/-- `AmihudLambda.transform` (`second_generation.py` lines 78-87). -/
noncomputable def amihud (window : ℤ) (close volume : String) (f : Frame ℝ) : Py (List (XF ℝ)) := do
  let _ ← checkMissing f [close, volume]
  let c ← f.col close
  let v ← f.col volume
  rollE window winMean (List.zipWith XF.div ((pdDiff (c.map XF.log)).map XF.abs) v)

/-- `HasbrouckLambda.transform` (`second_generation.py` lines 118-129). -/
noncomputable def hasbrouck (window : ℤ) (close volume : String) (f : Frame ℝ) : Py (List (XF ℝ)) := do
  let _ ← checkMissing f [close, volume]
  let c ← f.col close
  let v ← f.col volume
  rollE window winMean (List.zipWith XF.div ((pdDiff (c.map XF.log)).map XF.abs) (v.map XF.sqrt))

section
variable {K : Type} [Field K] [LinearOrder K]

/-- `vpin_feature.iloc[window:] = vpin_feature[window:].fillna(0)` (`vpin.py` line 76). -/
def fillFrom (w : ℕ) (l : List (XF K)) : List (XF K) := l.take w ++ (l.drop w).map (fillna1 (.fin 0))

/-- `VPIN.transform` (`vpin.py` lines 48-82). -/
def vpin (window : ℤ) (volume buy sell : String) (f : Frame K) : Py (List (XF K)) := do
  let _ ← checkMissing f [volume, buy, sell]
  let v ← f.col volume
  let total ← rollE window winSum v
  let b ← f.col buy
  let s ← f.col sell
  let d ← rollE window winSum ((List.zipWith XF.sub b s).map XF.abs)
  let r := fillFrom window.toNat (List.zipWith XF.div d total)
  if (r.drop window.toNat).any XF.isNan then .error .assertionError else .ok r

end

end Mizar.Feat
