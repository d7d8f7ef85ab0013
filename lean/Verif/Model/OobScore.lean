import Verif.Model.BagPredict

/-!
Labels and out-of-bag score of `SequentiallyBootstrappedBaggingClassifier`
(`/repo/mizarlabs/model/sequentially_bootstrapped_bagging_classifier.py` lines 360, 190-203, 582-629).
-/

namespace Mizar.Bag

/-- `_validate_y` of scikit-learn's `BaggingClassifier` (line 360): `classes_, y = np.unique(y, return_inverse=True)`. -/
def validateY (y : List ℤ) : List ℤ × List ℕ := (npUnique y, y.map fun v => (npUnique y).idxOf v)

/-- The labels a base estimator is trained with (lines 190-203): all of them next to weights, or those of the drawn rows. -/
def labelsSeen (codes : List ℕ) : Train → List ℕ
  | .weighted _ _ => codes
  | .rows _ r => r.map fun i => codes.getD i 0

/-- `classes_` of a base estimator: the sorted different labels it was trained with (lines 190-203). -/
def classesSeen (codes : List ℕ) (t : Train) : List ℕ := npUnique (labelsSeen codes t)

/-- `oob_score_` (line 626): `accuracy_score(y, np.argmax(predictions, axis=1))` over all rows. -/
def oobScore (nC : ℕ) (codes : List ℕ) (ests : List (OobEst × List ℕ)) : Py ℚ :=
  (oobPredictions nC codes.length ests).map fun preds =>
    ((codes.zip preds).countP fun p => decide (p.1 = argmaxQ p.2) : ℚ) / (codes.length : ℚ)

end Mizar.Bag
