import Verif.Model.Bagging
import Verif.Py.Round

/-!
Numbers of samples, features and batches that the code computes through floating point numbers, with a rounding function `r`:
`/repo/mizarlabs/model/sequentially_bootstrapped_bagging_classifier.py` lines 366-386 and
`/repo/mizarlabs/model/bootstrapping.py` line 172.
-/

namespace Mizar.Rd

/-- `int(max_samples * X.shape[0])` and its validation for a float (`sequentially_bootstrapped_bagging_classifier.py` lines
366-370), as `Bag.resolveMaxSamples`. -/
def maxSamples (r : ℚ → ℚ) (q : ℚ) (n : ℕ) : Py ℤ :=
  let m := pyIntTrunc (r (q * n))
  if 0 < m ∧ m ≤ n then .ok m else .error .valueError

/-- `max_features * n_features_`, its validation and `max(1, int(...))` for a float
(`sequentially_bootstrapped_bagging_classifier.py` lines 376-386), as `Bag.resolveMaxFeatures`. -/
def maxFeatures (r : ℚ → ℚ) (q : ℚ) (n : ℕ) : Py ℤ :=
  let v := r (q * n)
  if 0 < v ∧ v ≤ n then .ok (max 1 (pyIntTrunc v)) else .error .valueError

/-- `int(np.ceil(sample_length / update_probs_every))` (`bootstrapping.py` line 172). -/
def batches (r : ℚ → ℚ) (len every : ℤ) : ℤ := ⌈r ((len : ℚ) / (every : ℚ))⌉

end Mizar.Rd
