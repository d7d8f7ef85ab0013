import Verif.Model.Pipeline

/-!
Model of the helpers `_get_pred_proba_features` and `_check_y_metalabel` of `StrategySignalPipeline`
(`/repo/mizarlabs/model/pipeline.py` lines 247-314).
-/

set_option linter.unusedSectionVars false

namespace Mizar.Pipe
variable {K : Type} [Field K] [LinearOrder K]

/-- Assignment of one row of `X.loc[index, columns] = values`; column names are unique (`pipeline.py` line 293). -/
def setCells (cols names : List String) (row v : List (XF K)) : List (XF K) :=
  List.zipWith (fun c x => if c ∈ names then v.getD (names.idxOf c) .nan else x) cols row

/-- `X.loc[index, columns] = values` (`pipeline.py` line 293) for columns that exist: an unknown index value raises
`KeyError`, other shapes raise `ValueError`.  Index values are unique. -/
def locAssign (f : Frame K) (idx : List ℤ) (names : List String) (v : List (List (XF K))) : Py (Frame K) :=
  if ∀ t ∈ idx, t ∈ f.index then do
    let rows ← mkRows idx names.length v
    .ok ⟨f.cols, f.rows.map fun r => (r.1, match rows.lookup r.1 with
      | some w => setCells f.cols names r.2 w
      | none => r.2)⟩
  else .error .keyError

/-- `_get_pred_proba_features` (`pipeline.py` lines 247-295).  `proba` are the probabilities of the primary model for the
validation rows with `n` columns, `none` for a model without `predict_proba`; `idx` is the index of `y_val`. -/
def predProbaFeatures (proba : Option (List (List (XF K)))) (n : ℕ) (f : Frame K) (idx : List ℤ) : Py (Frame K) :=
  match proba with
  | none => .error .attributeError
  | some v =>
    let names := (List.range n).map probaName
    if ∀ c ∈ names, c ∈ f.cols then locAssign f idx names v
    else do
      let rows ← mkRows idx n v
      concatOuter [f, ⟨names, rows⟩]

/-- A validation fold: number of columns of the probabilities, index of `y_val`, probabilities (`pipeline.py` lines 247-253). -/
structure Fold (K : Type) where
  n : ℕ
  idx : List ℤ
  proba : List (List (XF K))

/-- The calls for the folds of a cross validation one after the other, each given the result of the one before (`pipeline.py` lines 247-295). -/
def predProbaFolds (f : Frame K) : List (Fold K) → Py (Frame K)
  | [] => .ok f
  | fo :: fs => do
    let g ← predProbaFeatures (some fo.proba) fo.n f fo.idx
    predProbaFolds g fs

/-- `_check_y_metalabel` (`pipeline.py` lines 297-314): the word in the message of the `ValueError`, `none` if nothing is
raised.  The labels are numbers. -/
def checkYMetalabel (y : List K) : Option String :=
  match y.dedup with
  | [u] => some (if u = 0 then "incorrect" else "correct")
  | _ => none

end Mizar.Pipe
