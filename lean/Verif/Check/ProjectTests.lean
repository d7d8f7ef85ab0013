import Verif.Model.ModelSelection
import Verif.Model.Bootstrapping
import Verif.Model.Cusum
import Verif.Model.Labeling
import Verif.Model.DailyVol
import Verif.Model.SampleWeights
import Verif.Model.Technical
import Verif.Model.Features
import Verif.Model.TaFactory
import Verif.Model.Bagging

/-!
The tests of the project replayed on the model: the literal inputs and expected values of `/repo/mizarlabs/tests`.

These are checks of the model against the code, not proofs of properties: they would fail if a model definition
disagreed with what the authors of the code observed.  Tests that need the recorded market data, a trained
scikit-learn model or `talib` have no counterpart here.
-/

namespace Mizar.Check
open Mizar

/-! ### `tests/model/test_model_selection.py` -/

/-- The prediction times of the fixture `time_inhomogeneous_data` in minutes (`tests/conftest.py`). -/
def predTimes : List ℤ :=
  [0, 0, 59, 118, 120, 177, 236, 240, 295, 354, 360, 413, 472, 480, 531, 600, 720, 840, 960, 1080, 1200]

/-- `test_split_purged_kfold_cv`: the third and the fourth round. -/
example : (CV.split 21 4 2 (fun i => predTimes.getD i 0) (fun i => predTimes.getD i 0 + 60) 0).toOption.map
      (fun r => (r[2]?, r[3]?)) =
    some (some ([0, 1, 2, 3, 4, 16, 17, 18, 19, 20], [6, 7, 8, 9, 10, 11, 12, 13, 14, 15]),
      some ([7, 8, 9, 10, 11, 12, 13, 14, 15], [0, 1, 2, 3, 4, 5, 16, 17, 18, 19, 20])) := by decide +kernel

/-- The folds named in the documentation of `test_split_purged_kfold_cv`. -/
example : CV.foldBounds 21 4 = .ok [(0, 6), (6, 11), (11, 16), (16, 21)] := by decide +kernel

/-- `test_compute_test_set`. -/
example : CV.computeTestSet 10 [(2, 4), (4, 6), (8, 10)] = ([(2, 6), (8, 10)], [2, 3, 4, 5, 8, 9]) := by decide +kernel

/-- `test_zero_embargo`: hourly samples, windows of 119 and 120 minutes. -/
example : CV.embargo 12 (fun i => 60 * i) (fun i => 60 * i + 119) 0 [6, 7, 8, 9, 10, 11] [0, 1, 2, 3, 4, 5] 6 =
    [7, 8, 9, 10, 11] := by decide +kernel
example : CV.embargo 12 (fun i => 60 * i) (fun i => 60 * i + 120) 0 [6, 7, 8, 9, 10, 11] [0, 1, 2, 3, 4, 5] 6 =
    [8, 9, 10, 11] := by decide +kernel

/-- `test_nonzero_embargo`: an embargo of two hours. -/
example : CV.embargo 12 (fun i => 60 * i) (fun i => 60 * i + 119) 120 [6, 7, 8, 9, 10, 11] [0, 1, 2, 3, 4, 5] 6 =
    [9, 10, 11] := by decide +kernel
example : CV.embargo 12 (fun i => 60 * i) (fun i => 60 * i + 120) 120 [6, 7, 8, 9, 10, 11] [0, 1, 2, 3, 4, 5] 6 =
    [10, 11] := by decide +kernel

/-! ### `tests/model/test_bootstrapping.py` -/

/-- The fixture `ind_matrix` (`tests/conftest.py`). -/
def indMatrix : Boot.IndMat := Boot.IndMat.ofLists 4
  ([[1, 0, 0, 0], [1, 0, 0, 0], [0, 1, 0, 0], [0, 1, 0, 0], [0, 1, 0, 0], [0, 1, 1, 0], [0, 0, 1, 0], [0, 0, 1, 1],
    [0, 0, 0, 1]].map fun r => r.map fun x : ℕ => x == 1)

/-- `test_calc_average_uniqueness`: samples 0 and 2 after the draws `[0]` and `[0, 0]`. -/
example : Boot.updateAvgUnique indMatrix [0] 2 = .fin 1 ∧ Boot.updateAvgUnique indMatrix [0] 0 = .fin (1 / 2) ∧
    Boot.updateAvgUnique indMatrix [0, 0] 0 = .fin (1 / 3) ∧ Boot.updateAvgUnique indMatrix [0, 0] 2 = .fin 1 := by
  decide +kernel

/-- `test_seq_boostrap`: as many samples as columns (with a generator that always returns 0, as an example). -/
example : (Boot.seqBootstrap indMatrix (fun _ _ n => List.replicate n 0) none 1).toOption.map List.length = some 4 := by
  decide +kernel

/-! ### `tests/transformers/test_cusum_filter.py` -/

/-- `test_CUSUM_filter`: 121 days, the price changes at position 60. -/
example : Cusum.transform (.fin (1 : ℚ)) ((List.range 121).map fun i => ((i : ℤ), .fin (if i < 60 then 1 else 3))) =
    .ok [60] := by decide +kernel
example : Cusum.transform (.fin (1 : ℚ)) ((List.range 121).map fun i => ((i : ℤ), .fin (if i < 60 then 3 else 1))) =
    .ok [60] := by decide +kernel

/-! ### `tests/transformers/test_moving_average.py` -/

/-- Integers as floats. -/
def floats (l : List ℤ) : List (XF ℚ) := l.map fun x => .fin (x : ℚ)

/-- `test_moving_average_crossover_only_one_up`: index values are days of January. -/
example : Tech.upCross [1, 2, 3, 4, 5, 6, 7, 8] (floats [1, 1, 1, 1, 2, 3, 3, 4]) (floats [2, 2, 2, 2, 1, 1, 2, 2]) = [5] ∧
    Tech.downCross [1, 2, 3, 4, 5, 6, 7, 8] (floats [1, 1, 1, 1, 2, 3, 3, 4]) (floats [2, 2, 2, 2, 1, 1, 2, 2]) = [] := by
  decide +kernel

/-- `test_moving_average_crossover_only_one_down`. -/
example : Tech.downCross [1, 2, 3, 4, 5, 6, 7, 8] (floats [2, 2, 2, 2, 1, 1, 2, 2]) (floats [1, 1, 1, 1, 2, 3, 3, 4]) = [5] ∧
    Tech.upCross [1, 2, 3, 4, 5, 6, 7, 8] (floats [2, 2, 2, 2, 1, 1, 2, 2]) (floats [1, 1, 1, 1, 2, 3, 3, 4]) = [] := by
  decide +kernel

/-- `test_moving_average_crossover_multiple_crossovers`. -/
example : Tech.upCross ((List.range 18).map fun i => (i : ℤ) + 1)
      (floats [1, 1, 1, 1, 2, 3, 3, 4, 2, 1, 2, 2, 3, 2, 1, 2, 3, 4])
      (floats [2, 2, 2, 2, 1, 1, 2, 2, 3, 3, 2, 1, 2, 3, 4, 3, 2, 1]) = [5, 12, 17] ∧
    Tech.downCross ((List.range 18).map fun i => (i : ℤ) + 1)
      (floats [1, 1, 1, 1, 2, 3, 3, 4, 2, 1, 2, 2, 3, 2, 1, 2, 3, 4])
      (floats [2, 2, 2, 2, 1, 1, 2, 2, 3, 3, 2, 1, 2, 3, 4, 3, 2, 1]) = [9, 14] := by decide +kernel

/-! ### `tests/transformers/test_vpin_feature_transformer.py` -/

/-- `test_vpin_with_zero_volume`: no volume in the middle third, window 10 (with volumes chosen here). -/
example : (Feat.vpin (K := ℚ) 10 "v" "b" "s" ⟨["v", "b", "s"], (List.range 60).map fun i => ((i : ℤ),
      floats (if 20 ≤ i ∧ i < 40 then [0, 0, 0] else [i + 7, i, 7]))⟩).toOption.map
        (fun r => (r.drop 29).take 11) = some (List.replicate 11 (.fin 0)) := by decide +kernel

/-! ### `tests/transformers/test_ta_factory.py` -/

/-- `test_check_and_set_args`. -/
example : TA.checkArgs ["real"] .none .none = .error .valueError ∧
    TA.checkArgs ["real"] (.str "col") .none = .ok ["col"] ∧
    TA.checkArgs ["real0", "real1"] .none .none = .error .valueError ∧
    TA.checkArgs ["real0", "real1"] (.list [some "col0", some "col1"]) .none = .ok ["col0", "col1"] ∧
    TA.checkArgs ["real", "volume"] (.str "col") .other = .error .typeError ∧
    TA.checkArgs ["real", "volume"] (.str "col") (.dict [("vol", "col0")]) = .error .valueError ∧
    TA.checkArgs ["real", "volume"] (.str "col") (.dict [("volume", "col0")]) = .ok ["col", "col0"] := by decide +kernel

/-- `test_check_and_set_kwargs`. -/
example : TA.checkKwargs (V := ℤ) (some []) none = .error .valueError ∧
    TA.checkKwargs (V := ℤ) (some [("blah", 1)]) (some ["blahh"]) = .error .valueError ∧
    TA.checkKwargs (V := ℤ) (some [("blah", 1)]) (some ["blah"]) = .ok [("blah", 1)] ∧
    TA.checkKwargs (V := ℤ) none (some ["blah"]) = .ok [] := by decide +kernel

/-! ### `tests/model/test_sequentially_bootstrapped_bagging_classifier.py` -/

/-- An estimator that records what it was trained with; `w` tells whether `fit` takes weights. -/
def base (w : Bool) : Bag.Base (ℕ × Bag.Train) := ⟨w, fun _ n k => (List.range n).take k, fun _ _ _ n => List.replicate n 0, fun s t => (s, t)⟩

/-- Default parameters (lines 216-232 of the classifier). -/
def cfg : Bag.Cfg := ⟨10, .float (.fin 1), .float (.fin 1), false, false, 1, 1⟩

/-- Three training rows with one feature. -/
def data : Bag.Data := ⟨⟨3, 3, fun t j => t == j⟩, [1, 2, 3], [1, 2, 3], 1, none⟩

/-- Nothing fitted. -/
def fresh : Bag.Fitted (ℕ × Bag.Train) := ⟨none, [], []⟩

/-- `test_value_error_raise`: weights for an estimator that takes none; too many samples; too many features; warm start
with an out-of-bag score.  (The `max_features` of type string is excluded by typing.) -/
example : (Bag.fit (base false) id cfg { data with weights := some [1, 1, 1] } fresh).1 = .error .valueError ∧
    (Bag.fit (base false) id { cfg with maxSamples := .int 2000000 } data fresh).1 = .error .valueError ∧
    (Bag.fit (base false) id { cfg with maxFeatures := .int 2000000 } data fresh).1 = .error .valueError ∧
    (Bag.fit (base false) id { cfg with oobScore := true, warmStart := true } data fresh).1 = .error .valueError := by
  decide +kernel

/-- `test_value_error_raise`: a warm start with fewer or with a negative number of estimators. -/
example : (let s := Bag.fit (base false) id { cfg with warmStart := true } data fresh
    s.1 = .ok () ∧
    (Bag.fit (base false) id { cfg with warmStart := true, nEstimators := 8 } data s.2).1 = .error .valueError ∧
    (Bag.fit (base false) id { cfg with warmStart := true, nEstimators := -990 } data s.2).1 = .error .valueError) := by
  decide +kernel

end Mizar.Check
