import Verif.Model.Bagging

/-!
Model of the state of a `SequentiallyBootstrappedBaggingClassifier` object over its life time
(`/repo/mizarlabs/model/sequentially_bootstrapped_bagging_classifier.py` lines 215-268, 294-462): the cached indicator
matrix, the mapping of event starts to columns made by the constructor, the fitted attributes and the out-of-bag result.
-/

namespace Mizar.Bag
open Mizar.Boot

/-- The attributes. `cache` is `_ind_mat`, `mapIndex` the index of `timestamp_int_index_mapping` (its values are
`0, 1, …`), `oob` is `oob_decision_function_` (lines 216-258). -/
structure Obj (Est : Type) where
  info : List (Option ℤ × Option ℤ)
  bars : List ℤ
  cache : Option IndMat
  mapIndex : List ℤ
  fitted : Fitted Est
  oob : Option (List (List (XF ℚ)))

/-- `__init__` (lines 216-258): reading the property `ind_mat` makes and stores the matrix. -/
def construct (Est : Type) (info : List (Option ℤ × Option ℤ)) (bars : List ℤ) : Py (Obj Est) :=
  match getIndMatrix info bars with
  | .error e => .error e
  | .ok (M, _) => .ok ⟨info, bars, some M, info.filterMap (·.1), ⟨none, [], []⟩, none⟩

/-- The property `ind_mat` (lines 260-266). -/
def indMat {Est : Type} (o : Obj Est) : Py IndMat :=
  match o.cache with
  | some M => .ok M
  | none => (getIndMatrix o.info o.bars).map (·.1)

/-- `set_params(samples_info_sets=…)` of scikit-learn: sets the attribute only (line 248). -/
def setInfo {Est : Type} (o : Obj Est) (info : List (Option ℤ × Option ℤ)) : Obj Est := { o with info := info }

/-- Arguments of a call of `fit`, and the number of classes of `y` (lines 268-301). -/
structure Args where
  xIndex : List ℤ
  nFeatures : ℕ
  weights : Option (List ℚ)
  nClasses : ℕ

/-- `_fit` (lines 294-462).  `view` tells what `_set_oob_score` sees of a base estimator trained on some columns.  A column
position beyond the matrix raises `IndexError`.  With a warm start and nothing to add the method returns early. -/
def fitObj {Est : Type} (b : Base Est) (view : Est → List ℕ → OobEst) (stream : ℕ → ℕ) (c : Cfg) (a : Args) (o : Obj Est) :
    Outcome × Obj Est :=
  if ¬ (∀ x ∈ a.xIndex, x ∈ o.mapIndex) then (.error .assertionError, o)
  else match indMat o with
  | .error e => (.error e, o)
  | .ok M =>
    let o : Obj Est := { o with cache := some M }
    if (subsampleCols o.mapIndex a.xIndex).any (fun i => decide (M.nCols ≤ i)) then (.error .indexError, o)
    else
      let early : Bool := c.warmStart && o.fitted.estimators.any fun es => decide ((es.length : ℤ) = c.nEstimators)
      let r := fit b stream c ⟨M, o.mapIndex, a.xIndex, a.nFeatures, a.weights⟩ o.fitted
      let o : Obj Est := { o with fitted := r.2 }
      match r.1 with
      | .error e => (.error e, o)
      | .ok () =>
        if early then (.ok (), o)
        else if c.oobScore then
          match oobDecision a.nClasses a.xIndex.length
              ((List.zipWith view (o.fitted.estimators.getD []) o.fitted.features).zip o.fitted.samples) with
          | .error e => (.error e, o)
          | .ok d => (.ok (), { o with oob := some d, cache := none })
        else (.ok (), { o with cache := none })

end Mizar.Bag
