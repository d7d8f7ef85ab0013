import Verif.Model.BagPredict
import Verif.Py.Round

/-!
`predict_proba` and `predict` of `SequentiallyBootstrappedBaggingClassifier` with a rounding function `r` after every operation
(`/repo/mizarlabs/model/sequentially_bootstrapped_bagging_classifier.py` lines 465-467: inherited from scikit-learn's
`BaggingClassifier`, version 0.24).
-/

namespace Mizar.Rd

/-- Adding up from zero with one rounding per addition: `proba += proba_estimator` in `_parallel_predict_proba` and
`sum(all_proba)` in `predict_proba` (lines 465-467). -/
def sumR (r : ℚ → ℚ) (l : List ℚ) : ℚ := l.foldl (fun a x => r (a + x)) 0

/-- One entry of the result of `predict_proba` (lines 465-467): `ps` are the probabilities of the class by the estimators, in
order, zero for an estimator that does not know the class; every job adds up its estimators, then the jobs are added
up and the sum is divided by `n_estimators`. Adding the zero of an unknown class, which the code skips, changes nothing. -/
def classMean (r : ℚ → ℚ) (nEst jobs : ℕ) (ps : List ℚ) : ℚ :=
  let part := Bag.partitionEstimators nEst jobs
  r (sumR r ((List.range part.1).map fun t =>
    sumR r ((ps.take (part.2.2.getD (t + 1) 0)).drop (part.2.2.getD t 0))) / (nEst : ℚ))

/-- `predict` (lines 465-467): position of the first greatest entry; `cols` has the probabilities of each class. -/
def predictClass (r : ℚ → ℚ) (nEst jobs : ℕ) (cols : List (List ℚ)) : ℕ :=
  Bag.argmaxQ (cols.map (classMean r nEst jobs))

end Mizar.Rd
