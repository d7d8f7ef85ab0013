import Verif.Model.Union

/-!
The methods `fit` of the transformers of `/repo/mizarlabs/transformers` and `fit_transform` of scikit-learn's
`TransformerMixin` (version 0.24): `self.fit(X).transform(X)` without target, `self.fit(X, y).transform(X)` with one.
None of the methods `fit` looks at its arguments; all return `self`.
-/

namespace Mizar.Union
variable {K : Type}

/-- The signature of `fit`: not defined, `fit(self, y)`, or `fit(self, X, y=None, **fit_params)` (lines cited with `fitSig`). -/
inductive FitSig
  | absent
  | single
  | full
  deriving DecidableEq

/-- `obj.fit(X)` or `obj.fit(X, y)` (lines cited with `fitSig`). -/
def callFit (s : FitSig) (withTarget : Bool) : Py Unit :=
  match s with
  | .absent => .error .attributeError
  | .single => if withTarget then .error .typeError else .ok ()
  | .full => .ok ()

/-- `TransformerMixin.fit_transform` (inherited by the classes of `fitSig`). -/
def mixinFitTransform {α β γ : Type} (s : FitSig) (t : α → Py β) (X : α) (y : Option γ) : Py β :=
  match callFit s y.isSome with
  | .error e => .error e
  | .ok _ => t X

/-- A transformer with such a `fit` as part of a union (`/repo/mizarlabs/model/pipeline.py` lines 28-37). -/
def stateless (s : FitSig) (t : Frame K → Py (List (List (XF K)))) : Trans K := fun _ y =>
  match callFit s y.isSome with
  | .error e => .error e
  | .ok _ => .ok t

/-- The signature of `fit` of each class derived from `TransformerMixin`. -/
def fitSig : List (String × FitSig) :=
  [ -- `features/rolling_z_score.py` lines 8-57
    ("RollingZScoreTransformer", .absent),
    -- `features/custom.py` lines 6-13
    ("LocalMaxToCloseRatio", .absent),
    -- `microstructural_features/first_generation.py` lines 26, 63, 95, 193, 233
    ("RollMeasure", .full), ("RollImpact", .full), ("ParkinsonVolatility", .full), ("CorwinSchultzSpread", .full),
    ("BeckersParkinsonVolatility", .full),
    -- `microstructural_features/second_generation.py` lines 34, 75, 115
    ("KyleLambda", .full), ("AmihudLambda", .full), ("HasbrouckLambda", .full),
    -- `microstructural_features/vpin.py` line 45
    ("VPIN", .full),
    -- `technical/volume.py` line 17, `technical/moving_average.py` line 49, `technical/macd.py` line 33
    ("BuySellImbalance", .full), ("MovingAverageCrossOver", .full), ("MovingAverageCrossOverPredictor", .full),
    ("MACDHistogramCrossOver", .full),
    -- `utils.py` line 34
    ("IdentityTransformer", .full),
    -- `targets/labeling.py` line 130, `targets/trend_scanning.py` line 60
    ("TripleBarrierMethodLabeling", .full), ("TrendScannerLabeling", .single),
    -- `trading/bet_sizing.py` lines 20-100
    ("BetSizingFromProbabilities", .absent),
    -- `sample_weights/__init__.py` lines 13-140, `sampling/down_sampling.py`, `sampling/average_uniqueness.py`
    ("SampleWeightsByReturns", .absent), ("SampleWeightsByTimeDecay", .absent), ("CUSUMFilter", .absent),
    ("AverageUniqueness", .absent) ]

end Mizar.Union
