import Verif.Model.Bagging

/-!
`predict_proba` and `predict` of `SequentiallyBootstrappedBaggingClassifier`
(`/repo/mizarlabs/model/sequentially_bootstrapped_bagging_classifier.py` lines 465-467: inherited from scikit-learn's
`BaggingClassifier`, version 0.24).  Rows do not interact, so one row is modelled; which of several exceptions comes
first is not modelled.
-/

namespace Mizar.Bag

/-- `proba += proba_estimator` if the estimator knows all classes, else
`proba[:, estimator.classes_] += proba_estimator[:, range(len(estimator.classes_))]` (lines 465-467). -/
def addClasses (nC : ℕ) (acc : List ℚ) (classes : List ℕ) (row : List ℚ) : Py (List ℚ) :=
  if classes.length = nC then
    if row.length = nC then .ok (List.zipWith (· + ·) acc row) else .error .valueError
  else if classes.all (fun c => decide (c < nC)) && decide (classes.length ≤ row.length) then
    .ok ((classes.zip row).foldl (fun (a : List ℚ) p => a.set p.1 (a.getD p.1 0 + p.2)) acc)
  else .error .indexError

/-- One estimator in the loop of `_parallel_predict_proba`, for row `i` (lines 465-467). -/
def addEst (nC i : ℕ) (acc : List ℚ) (e : OobEst) : Py (List ℚ) :=
  match e.proba with
  | some f => addClasses nC acc e.classes (f i)
  | none => addVote nC acc (e.predict i)

/-- `_parallel_predict_proba`, row `i` (lines 465-467). -/
def jobProba (nC i : ℕ) (es : List OobEst) : Py (List ℚ) := es.foldlM (addEst nC i) (List.replicate nC 0)

/-- `predict_proba`, row `i`: `nEst` is the *parameter* `n_estimators` at the time of the call, `jobs` the effective number
of jobs (lines 465-467). -/
def predictProba (nEst jobs nC : ℕ) (ests : List OobEst) (i : ℕ) : Py (List ℚ) :=
  if nEst = 0 then .error .zeroDivisionError
  else
    let part := partitionEstimators nEst jobs
    match mapE (fun t => jobProba nC i ((ests.take (part.2.2.getD (t + 1) 0)).drop (part.2.2.getD t 0)))
        (List.range part.1) with
    | .error e => .error e
    | .ok parts => .ok ((parts.foldl (List.zipWith (· + ·)) (List.replicate nC 0)).map (· / (nEst : ℚ)))

/-- `np.argmax` of a row without NaN: the first greatest value (lines 465-467, 626). -/
def argmaxQ : List ℚ → ℕ
  | [] => 0
  | x :: l => (l.foldl (fun (s : ℕ × ℚ × ℕ) y => if s.2.1 < y then (s.2.2, y, s.2.2 + 1) else (s.1, s.2.1, s.2.2 + 1))
      (0, x, 1)).1

/-- `predict`, row `i`: the position of the predicted class in `classes_` (lines 465-467). -/
def predictClass (nEst jobs nC : ℕ) (ests : List OobEst) (i : ℕ) : Py ℕ :=
  (predictProba nEst jobs nC ests i).map argmaxQ

end Mizar.Bag
