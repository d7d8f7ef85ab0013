import Verif.Model.Repeated

/-!
Model of predictions, probabilities, side and size of `StrategySignalPipeline` (`/repo/mizarlabs/model/pipeline.py`) when several bars share a time.
For distinct times these are the functions of `Model/Pipeline`.  Alignment: `features` (for repeated times see `alignFrameAny`, C158).
-/

set_option linter.unusedSectionVars false

namespace Mizar.Pipe
variable {K : Type} [Field K] [LinearOrder K]

/-- What pandas does when frames with repeated times are joined depends on its version (`requirements.txt` allows every version from 1.2.2 on): the inner
join of `pipeline.py` lines 423-425 and the frame made of two series with different indices in line 597.  Both are arbitrary here. -/
structure Joins (K : Type) where
  inner : Frame K → ℕ → List (ℤ × List (XF K)) → Py (Frame K)
  outer : Ser K → Ser K → Py (List (ℤ × XF K × XF K))

/-- `df["primary_side_pred"] = series` (`pipeline.py` lines 404-408): a frame without rows takes the rows of the series; equal indices row by row;
otherwise the values are looked up by time, and repeated times in the series raise `ValueError`. -/
def assignSeries (f : Frame K) (s : Ser K) : Py (Frame K) :=
  let cols := if "primary_side_pred" ∈ f.cols then f.cols else f.cols ++ ["primary_side_pred"]
  if f.rows = [] then .ok ⟨cols, s.map fun q => (q.1, putCell f.cols "primary_side_pred" (nanRow f.cols.length) q.2)⟩
  else if s.map (·.1) = f.index then
    .ok ⟨cols, List.zipWith (fun r q => (r.1, putCell f.cols "primary_side_pred" r.2 q.2)) f.rows s⟩
  else if (s.map (·.1)).Nodup then .ok (addPrediction f s)
  else .error .valueError

/-- The prediction column (`pipeline.py` lines 403-408). -/
def withPredictionAny (c : Cfg K) (Xp f : Frame K) : Py (Frame K) :=
  if c.usePredictions then do
    let v ← c.primary.predict Xp
    let s ← mkSeries Xp.index v
    assignSeries f s
  else .ok f

/-- The probability columns (`pipeline.py` lines 409-425). -/
def withProbaAny (u : Joins K) (c : Cfg K) (Xp f : Frame K) : Py (Frame K) :=
  if c.useProba then do
    let v ← c.primary.proba Xp
    let p ← mkRows Xp.index c.primary.classes.length v
    if f.index.Nodup ∧ Xp.index.Nodup then .ok (joinProba f c.primary.classes.length p)
    else u.inner f c.primary.classes.length p
  else .ok f

/-- `_get_features_for_metalabeling` (`pipeline.py` lines 381-434). -/
def metaFeaturesAny (u : Joins K) (c : Cfg K) (Xp : Frame K) (F : Features K) : Py (Frame K) := do
  let f ← concatRows (F.metal.map (·.2))
  let f1 ← withPredictionAny c Xp f.dropna
  let f2 ← withProbaAny u c Xp f1
  if f2.rows.all fun r => complete r.2 then .ok f2 else .error .valueError

/-- The features of the primary model (`pipeline.py` lines 462-466, 507-511). -/
def primaryFrameAny (F : Features K) : Py (Frame K) := do
  let f ← concatRows (F.primary.map (·.2))
  .ok f.dropna

/-- The metalabeling part of `predict` (`pipeline.py` lines 477-485). -/
def predictMetaAny (u : Joins K) (c : Cfg K) (Xp : Frame K) (F : Features K) : Py (Option (Ser K)) :=
  match c.metaModel with
  | none => .ok none
  | some m => do
    let Xm ← metaFeaturesAny u c Xp F
    let w ← m.predict Xm
    let sm ← mkSeries Xm.index w
    .ok (some sm)

/-- `predict` (`pipeline.py` lines 436-487). -/
def predictAny (u : Joins K) (c : Cfg K) (X : Dict K) : Py (Predictions K) :=
  if metaFitted c = false then .error .valueError
  else
    match X.lookup c.alignOn with
    | none => .error .keyError
    | some target => do
      let _ ← mapE (checkOverlap target.index) X
      let F ← features c X
      let Xp ← primaryFrameAny F
      let v ← c.primary.predict Xp
      let s ← mkSeries Xp.index v
      let sm ← predictMetaAny u c Xp F
      .ok ⟨s, sm⟩

/-- The metalabeling part of `predict_proba` (`pipeline.py` lines 530-545). -/
def probaMetaAny (u : Joins K) (c : Cfg K) (Xp : Frame K) (F : Features K) : Py (Option (List (ℤ × List (XF K)))) :=
  match c.metaModel with
  | none => .ok none
  | some m =>
    if m.fitted = false then .error .valueError
    else do
      let Xm ← metaFeaturesAny u c Xp F
      let w ← m.proba Xm
      let pm ← mkRows Xm.index m.classes.length w
      .ok (some pm)

/-- `predict_proba` (`pipeline.py` lines 489-547). -/
def predictProbaAny (u : Joins K) (c : Cfg K) (X : Dict K) : Py (Probas K) := do
  let F ← features c X
  let Xp ← primaryFrameAny F
  let v ← c.primary.proba Xp
  let p ← mkRows Xp.index c.primary.classes.length v
  let pm ← probaMetaAny u c Xp F
  .ok ⟨p, pm⟩

/-- The sides put beside the probabilities, `pred_and_proba["side"] = predicted_side` (`pipeline.py` lines 584-588).
A frame without rows would take the rows of the series, with missing probabilities and classes; here it stays without rows. -/
def sidesAt (side : Ser K) (idx : List ℤ) : Py (List (XF K)) :=
  if side.map (·.1) = idx then .ok (side.map (·.2))
  else if (side.map (·.1)).Nodup then .ok (idx.map (serAt side))
  else .error .valueError

/-- The size with a metalabeling model (`pipeline.py` lines 563-593). -/
def sizeMetaAny (u : Joins K) (c : Cfg K) (m : Clf K) (X : Dict K) (rows : List (ℤ × List (XF K))) : Py (Ser K) :=
  match c.betSizer with
  | some bs => do
    let b ← mapE (betRow m.classes none) rows
    let again ← predictAny u c X
    let sides ← sidesAt again.primary (rows.map (·.1))
    bs (List.zipWith (fun r s => { r with side := some s }) b sides)
  | none => probaOfOne m.classes rows

/-- The size (`pipeline.py` lines 563-595). -/
def signalSizeAny (u : Joins K) (c : Cfg K) (X : Dict K) (proba : Probas K) : Py (Ser K) :=
  match c.metaModel with
  | some m => sizeMetaAny u c m X (proba.metal.getD [])
  | none => sizePrimary c proba.primary

/-- `pd.DataFrame({"side": side, "size": size}).dropna()` (`pipeline.py` line 597): series with equal indices are put side by side. -/
def sideSizeAny (u : Joins K) (side size : Ser K) : Py (List (ℤ × XF K × XF K)) :=
  if side.map (·.1) = size.map (·.1) then
    .ok ((List.zipWith (fun a b => (a.1, a.2, b.2)) side size).filter fun r => !r.2.1.isNan && !r.2.2.isNan)
  else if (side.map (·.1)).Nodup ∧ (size.map (·.1)).Nodup then .ok (sideSize side size)
  else u.outer side size

/-- `get_side_and_size` (`pipeline.py` lines 549-597). -/
def getSideAndSizeAny (u : Joins K) (c : Cfg K) (X : Dict K) : Py (List (ℤ × XF K × XF K)) := do
  let pred ← predictAny u c X
  let proba ← predictProbaAny u c X
  let size ← signalSizeAny u c X proba
  sideSizeAny u pred.primary size

end Mizar.Pipe
