import Verif.Model.Align

/-!
Model of `StrategySignalPipeline` (`/repo/mizarlabs/model/pipeline.py`): predictions, side and size, data sets,
closing model.

The estimators are parameters: functions from the frame they are given to their outputs (or an error).  Index values
within a frame are unique (repeated times: `Model/Repeated`); when the indices of joined frames differ the result is sorted.
-/

set_option linter.unusedSectionVars false

namespace Mizar.Pipe
variable {K : Type} [Field K] [LinearOrder K]

/-- A series with a time index (`pipeline.py` lines 405-408). -/
abbrev Ser (K : Type) := List (ℤ × XF K)

/-- A classifier: `predict`, `predict_proba`, `classes_` (`n_classes_` is their number), fitted or not (`pipeline.py` lines 157-163, 406-416). -/
structure Clf (K : Type) where
  fitted : Bool
  classes : List K
  predict : Frame K → Py (List (XF K))
  proba : Frame K → Py (List (List (XF K)))

/-- One row of the frame given to the bet sizer (`pipeline.py` lines 572-588): time, `prob`, `pred`, `side`. -/
structure BetRow (K : Type) where
  time : ℤ
  prob : XF K
  pred : K
  side : Option (XF K)

/-- The configuration of a pipeline (`pipeline.py` lines 117-163).  The primary model is set. -/
structure Cfg (K : Type) where
  alignOn : String
  alignHow : List (String × String)
  trPrimary : List (String × Tr K)
  trMeta : List (String × Tr K)
  primary : Clf K
  metaModel : Option (Clf K)
  useProba : Bool
  usePredictions : Bool
  betSizer : Option (List (BetRow K) → Py (Ser K))

/-- `pd.Series(values, index)`: other lengths raise `ValueError` (`pipeline.py` lines 405-408). -/
def mkSeries (idx : List ℤ) (v : List (XF K)) : Py (Ser K) :=
  if v.length = idx.length then .ok (idx.zip v) else .error .valueError

/-- `pd.DataFrame(values, index, columns)` with `n` columns: other shapes raise `ValueError` (`pipeline.py` lines 411-418). -/
def mkRows (idx : List ℤ) (n : ℕ) (v : List (List (XF K))) : Py (List (ℤ × List (XF K))) :=
  if v.length = idx.length ∧ ∀ r ∈ v, r.length = n then .ok (idx.zip v) else .error .valueError

/-- The value of a series at a time, NaN if there is none (alignment on assignment) (`pipeline.py` line 405). -/
def serAt (s : Ser K) (t : ℤ) : XF K := ((s.find? fun r => decide (r.1 = t)).map (·.2)).getD .nan

/-- `transform` followed by `_align_on` (`pipeline.py` lines 460-461, 501-502, 622-626, 669-673). -/
def features (c : Cfg K) (X : Dict K) : Py (Features K) := do
  let F ← transform c.trPrimary c.trMeta X
  alignOn c.alignHow c.alignOn F

/-- The concatenated features of the primary model without incomplete rows (`pipeline.py` lines 462-466, 507-511). -/
def primaryFrame (F : Features K) : Py (Frame K) := do
  let f ← concatOuter (F.primary.map (·.2))
  .ok f.dropna

/-- Name of a probability column (`pipeline.py` line 415). -/
def probaName (i : ℕ) : String := "primary_side_pred_proba_" ++ toString i

/-- One row of `df[name] = values`: the value takes the place of the column if there is one, else it is the last (`pipeline.py`
lines 404-408).  Not modelled: several columns of this name. -/
def putCell (cols : List String) (name : String) (row : List (XF K)) (v : XF K) : List (XF K) :=
  if name ∈ cols then row.take (cols.idxOf name) ++ v :: row.drop (cols.idxOf name + 1) else row ++ [v]

/-- `X_metalabel_aligned["primary_side_pred"] = pd.Series(...)` (`pipeline.py` lines 404-408): aligned on the index,
NaN where the primary model has no row. -/
def addPrediction (f : Frame K) (s : Ser K) : Frame K :=
  ⟨if "primary_side_pred" ∈ f.cols then f.cols else f.cols ++ ["primary_side_pred"],
    f.rows.map fun r => (r.1, putCell f.cols "primary_side_pred" r.2 (serAt s r.1))⟩

/-- `pd.concat([X, probabilities], axis=1, join="inner")` (`pipeline.py` lines 423-425). -/
def joinProba (f : Frame K) (n : ℕ) (p : List (ℤ × List (XF K))) : Frame K :=
  ⟨f.cols ++ (List.range n).map probaName, f.rows.filterMap fun r =>
    (p.find? fun q => decide (q.1 = r.1)).map fun q => (r.1, r.2 ++ q.2)⟩

/-- The prediction column (`pipeline.py` lines 403-408). -/
def withPrediction (c : Cfg K) (Xp f : Frame K) : Py (Frame K) :=
  if c.usePredictions then do
    let v ← c.primary.predict Xp
    let s ← mkSeries Xp.index v
    .ok (addPrediction f s)
  else .ok f

/-- The probability columns (`pipeline.py` lines 409-425). -/
def withProba (c : Cfg K) (Xp f : Frame K) : Py (Frame K) :=
  if c.useProba then do
    let v ← c.primary.proba Xp
    let p ← mkRows Xp.index c.primary.classes.length v
    .ok (joinProba f c.primary.classes.length p)
  else .ok f

/-- A prediction column is assigned to a frame without rows (`pipeline.py` lines 404-408): pandas then gives the frame the rows of the primary model,
with missing features, which are found in lines 427-433 (the features are assumed to have a column besides `primary_side_pred`; otherwise: `assignSeries`). -/
def assignedToEmpty (c : Cfg K) (Xp f : Frame K) : Bool := c.usePredictions && f.rows.isEmpty && !Xp.rows.isEmpty

/-- `_get_features_for_metalabeling` (`pipeline.py` lines 381-434). -/
def metaFeatures (c : Cfg K) (Xp : Frame K) (F : Features K) : Py (Frame K) := do
  let f ← concatOuter (F.metal.map (·.2))
  let f1 ← withPrediction c Xp f.dropna
  let f2 ← withProba c Xp f1
  if (f2.rows.all fun r => complete r.2) && !assignedToEmpty c Xp f.dropna then .ok f2 else .error .valueError

/-- `target_index[0] > df.index[-1]` for one frame (`pipeline.py` lines 454-458). -/
def checkOverlap (target : List ℤ) (p : String × Frame K) : Py Unit :=
  match target.head?, p.2.index.getLast? with
  | some a, some b => if a > b then .error .valueError else .ok ()
  | _, _ => .error .indexError

/-- The result of `predict` (`pipeline.py` lines 436-487). -/
structure Predictions (K : Type) where
  primary : Ser K
  metal : Option (Ser K)

/-- The metalabeling part of `predict` (`pipeline.py` lines 477-485). -/
def predictMeta (c : Cfg K) (Xp : Frame K) (F : Features K) : Py (Option (Ser K)) :=
  match c.metaModel with
  | none => .ok none
  | some m => do
    let Xm ← metaFeatures c Xp F
    let w ← m.predict Xm
    let sm ← mkSeries Xm.index w
    .ok (some sm)

/-- `check_is_fitted(self.metalabeling_model)` (`pipeline.py` lines 449-450). -/
def metaFitted (c : Cfg K) : Bool :=
  match c.metaModel with
  | some m => m.fitted
  | none => true

/-- `predict` (`pipeline.py` lines 436-487). -/
def predict (c : Cfg K) (X : Dict K) : Py (Predictions K) :=
  if metaFitted c = false then .error .valueError
  else
    match X.lookup c.alignOn with
    | none => .error .keyError
    | some target => do
      let _ ← mapE (checkOverlap target.index) X
      let F ← features c X
      let Xp ← primaryFrame F
      let v ← c.primary.predict Xp
      let s ← mkSeries Xp.index v
      let sm ← predictMeta c Xp F
      .ok ⟨s, sm⟩

/-- The result of `predict_proba`: rows with one value per class (`pipeline.py` lines 489-547). -/
structure Probas (K : Type) where
  primary : List (ℤ × List (XF K))
  metal : Option (List (ℤ × List (XF K)))

/-- The metalabeling part of `predict_proba` (`pipeline.py` lines 530-545). -/
def probaMeta (c : Cfg K) (Xp : Frame K) (F : Features K) : Py (Option (List (ℤ × List (XF K)))) :=
  match c.metaModel with
  | none => .ok none
  | some m =>
    if m.fitted = false then .error .valueError
    else do
      let Xm ← metaFeatures c Xp F
      let w ← m.proba Xm
      let pm ← mkRows Xm.index m.classes.length w
      .ok (some pm)

/-- `predict_proba` (`pipeline.py` lines 489-547). -/
def predictProba (c : Cfg K) (X : Dict K) : Py (Probas K) := do
  let F ← features c X
  let Xp ← primaryFrame F
  let v ← c.primary.proba Xp
  let p ← mkRows Xp.index c.primary.classes.length v
  let pm ← probaMeta c Xp F
  .ok ⟨p, pm⟩

/-- `max(axis=1)` of a row: missing values are skipped (`pipeline.py` lines 574, 595). -/
def rowMax (r : List (XF K)) : XF K := npMax (r.filter fun x => !x.isNan)

/-- `np.argmax` of a row: the first missing value, else the first largest (`pipeline.py` line 578). -/
def argmaxFrom (i best : ℕ) (m : XF K) : List (XF K) → ℕ
  | [] => best
  | x :: xs =>
    if m.isNan then best
    else if x.isNan then i
    else if XF.lt m x then argmaxFrom (i + 1) i x xs
    else argmaxFrom (i + 1) best m xs

/-- `np.argmax`; an empty row raises `ValueError` (`pipeline.py` line 578). -/
def argmax : List (XF K) → Py ℕ
  | [] => .error .valueError
  | x :: xs => .ok (argmaxFrom 1 0 x xs)

/-- The row given to the bet sizer for one row of probabilities (`pipeline.py` lines 572-588). -/
def betRow (classes : List K) (side : Option (Ser K)) (r : ℤ × List (XF K)) : Py (BetRow K) := do
  let i ← argmax r.2
  let k ← getE classes i
  .ok ⟨r.1, rowMax r.2, k, side.map fun s => serAt s r.1⟩

/-- `predicted_proba[1.0]` (`pipeline.py` line 593). -/
def probaOfOne (classes : List K) (rows : List (ℤ × List (XF K))) : Py (Ser K) :=
  if 1 ∈ classes then .ok (rows.map fun r => (r.1, r.2.getD (classes.idxOf 1) .nan)) else .error .keyError

/-- `pd.DataFrame({"side": side, "size": size}).dropna()` (`pipeline.py` line 597). -/
def sideSize (side size : Ser K) : List (ℤ × XF K × XF K) :=
  ((joinIndex [side.map (·.1), size.map (·.1)]).map fun t => (t, serAt side t, serAt size t)).filter
    fun r => !r.2.1.isNan && !r.2.2.isNan

/-- The size with a metalabeling model (`pipeline.py` lines 563-593); with a bet sizer `predict` is called again.
Without rows of probabilities the bet sizer would be given the rows of the sides, with missing probabilities and classes; here it is given no rows (a metalabeling
model of scikit-learn raises on data without rows before that). -/
def sizeMeta (c : Cfg K) (m : Clf K) (X : Dict K) (rows : List (ℤ × List (XF K))) : Py (Ser K) :=
  match c.betSizer with
  | some bs => do
    let again ← predict c X
    let b ← mapE (betRow m.classes (some again.primary)) rows
    bs b
  | none => probaOfOne m.classes rows

/-- The size without a metalabeling model (`pipeline.py` lines 563-595). -/
def sizePrimary (c : Cfg K) (rows : List (ℤ × List (XF K))) : Py (Ser K) :=
  match c.betSizer with
  | some bs => do
    let b ← mapE (betRow c.primary.classes none) rows
    bs b
  | none => .ok (rows.map fun r => (r.1, rowMax r.2))

/-- The size (`pipeline.py` lines 563-595). -/
def signalSize (c : Cfg K) (X : Dict K) (proba : Probas K) : Py (Ser K) :=
  match c.metaModel with
  | some m => sizeMeta c m X (proba.metal.getD [])
  | none => sizePrimary c proba.primary

/-- `get_side_and_size` (`pipeline.py` lines 549-597). -/
def getSideAndSize (c : Cfg K) (X : Dict K) : Py (List (ℤ × XF K × XF K)) := do
  let pred ← predict c X
  let proba ← predictProba c X
  let size ← signalSize c X proba
  .ok (sideSize pred.primary size)

/-- `df.loc[index]` (`pipeline.py` line 335): a missing label raises `KeyError`. -/
def locRows (f : Frame K) (idx : List ℤ) : Py (Frame K) := do
  let rows ← mapE (fun t => match f.row? t with
    | none => .error .keyError
    | some r => .ok (t, r)) idx
  .ok ⟨f.cols, rows⟩

/-- `y.loc[index]` (`pipeline.py` line 337). -/
def locSer (y : Ser K) (idx : List ℤ) : Py (Ser K) :=
  mapE (fun t => match y.find? fun r => decide (r.1 = t) with
    | none => .error .keyError
    | some r => .ok (t, r.2)) idx

/-- `sklearn.utils.check_X_y`: at least one row and one column, all values finite, else `ValueError` (`pipeline.py` line 338). -/
def checkXy (X : Frame K) (y : Ser K) : Py Unit :=
  if X.rows = [] ∨ X.cols = [] then .error .valueError
  else if (X.rows.all fun r => r.2.all fun x => !x.undef) ∧ (y.all fun r => !r.2.undef) then .ok ()
  else .error .valueError

/-- `_align_X_dict_and_y` (`pipeline.py` lines 316-342). -/
def alignXy (d : Dict K) (y : Ser K) (dropNa : Bool) : Py (Frame K × Ser K) :=
  if dropNa then do
    let fs ← mapE (fun p => locRows p.2 ((y.filter fun r => !r.2.isNan).map (·.1))) d
    let X ← concatOuter fs
    let ya ← locSer y X.dropna.index
    let _ ← checkXy X.dropna ya
    .ok (X.dropna, ya)
  else do
    let X ← concatOuter (d.map (·.2))
    .ok (X, y)

/-- `set(np.unique(y.dropna())).issubset({-1, 0, 1})` (`pipeline.py` lines 619, 666). -/
def labelsOk (y : Ser K) : Bool :=
  (y.filter fun r => !r.2.isNan).all fun r => XF.beq r.2 (.fin (-1)) || XF.beq r.2 (.fin 0) || XF.beq r.2 (.fin 1)

/-- `create_dataset_primary` (`pipeline.py` lines 646-680). -/
def datasetPrimary (c : Cfg K) (X : Dict K) (y : Ser K) (dropNa : Bool) : Py (Frame K × Ser K) :=
  if labelsOk y = false then .error .assertionError
  else do
    let F ← features c X
    alignXy F.primary y dropNa

/-- `create_dataset_metalabeling` (`pipeline.py` lines 599-644); comparing a prediction of another length with the
labels raises `ValueError`. -/
def datasetMeta (c : Cfg K) (X : Dict K) (y : Ser K) : Py (Frame K × Ser K) :=
  if labelsOk y = false then .error .assertionError
  else do
    let F ← features c X
    let Xy ← alignXy F.primary y true
    let Xm ← metaFeatures c Xy.1 F
    let v ← c.primary.predict Xy.1
    let s ← mkSeries (Xy.2.map (·.1)) v
    let ym : Ser K := List.zipWith (fun p l => (l.1, if XF.beq p.2 l.2 then .fin 1 else .fin 0)) s Xy.2
    let idx := Xm.index.filter fun t => decide (t ∈ ym.map (·.1))
    let Xo ← locRows Xm idx
    let yo ← locSer ym idx
    .ok (Xo, yo)

/-- `hasattr(self, name)` for the attributes set in `__init__` (`pipeline.py` lines 132-155) and the methods and
class attributes of `StrategySignalPipeline`. -/
def attributes : List String :=
  ["primary_model", "metalabeling_model", "feature_transformers_primary_model", "align_on_", "align_how_",
   "feature_transformers_metalabeling_model", "metalabeling_use_proba_primary_model",
   "metalabeling_use_predictions_primary_model", "bet_sizer", "closing_positions_model",
   "_primary_model_features", "_primary_model_predictions", "_primary_model_proba", "_metalabeling_model_features",
   "_metalabeling_model_predictions", "_metalabeling_model_proba", "_align_methods", "set_primary_model",
   "set_metalabeling_model", "_align_on", "_get_pred_proba_features", "_check_y_metalabel", "_align_X_dict_and_y",
   "transform", "_get_features_for_metalabeling", "predict", "predict_proba", "get_side_and_size",
   "create_dataset_metalabeling", "create_dataset_primary", "determine_positions_to_close"]

/-- The call of the closing model (`pipeline.py` lines 683-685); `extra` are attributes that the caller has set on
the object from outside. -/
def consultClosing (extra : List String) (closing : Option (Dict K → Py (Option String))) (X : Dict K) :
    Py (Option String) :=
  match closing with
  | some m => if "closing_position_model" ∈ extra ++ attributes then m X else .ok none
  | none => .ok none

/-- `determine_positions_to_close` (`pipeline.py` lines 682-691). -/
def determinePositionsToClose (extra : List String) (closing : Option (Dict K → Py (Option String))) (X : Dict K) :
    Py (Option String) := do
  let r ← consultClosing extra closing X
  if r = some "all" ∨ r = some "long" ∨ r = some "short" ∨ r = none then .ok r else .error .valueError

end Mizar.Pipe
