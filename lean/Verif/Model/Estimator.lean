import Verif.Py.MapE

/-!
The constructors of the estimators (classes derived from scikit-learn's `BaseEstimator`) and the scikit-learn protocol
built on them: `get_params` reads, for each parameter of `__init__`, the attribute of the same name
(`getattr(self, name)`, scikit-learn 0.24), `clone` makes a new object from the values read, `set_params` and `repr`
start with `get_params`.

Parameter values are opaque.  A description lists the parameters in order and which attribute gets which parameter, calls
of `super().__init__` included; attributes that do not hold a parameter are left out (none has the name of a parameter).
-/

namespace Mizar.Est

/-- A constructor: parameters, and the assignments `self.attribute = parameter` in order (constructors at the lines cited with the classes below). -/
structure ClassDef where
  params : List String
  assign : List (String × String)

/-- A class that stores each parameter under its own name (constructors at the lines cited with the classes below). -/
def plain (ps : List String) : ClassDef := ⟨ps, ps.map fun p => (p, p)⟩

/-- The attributes of an object (constructors at the lines cited with the classes below). -/
abbrev Obj (V : Type) := String → Option V

/-- The attributes after the assignments: the last assignment wins (constructors at the lines cited with the classes below). -/
def attrs {V : Type} (c : ClassDef) (vs : List V) : Obj V := fun a =>
  (c.assign.reverse.lookup a).bind fun p => (c.params.zip vs).lookup p

/-- `Class(v1, v2, …)`; `check` is the validation done by the constructor (constructors at the lines cited with the classes below). -/
def construct {V : Type} (c : ClassDef) (check : List V → Py Unit) (vs : List V) : Py (Obj V) := do
  let _ ← check vs
  .ok (attrs c vs)

/-- `get_params(deep=False)`: the values in the order of the parameters (inherited by the classes below). -/
def getParams {V : Type} (c : ClassDef) (o : Obj V) : Py (List V) :=
  mapE (fun p => match o p with
    | some v => .ok v
    | none => .error .attributeError) c.params

/-- `clone` (the copies of the values are equal to the values) (inherited by the classes below). -/
def clone {V : Type} (c : ClassDef) (check : List V → Py Unit) (o : Obj V) : Py (Obj V) := do
  let vs ← getParams c o
  construct c check vs

/-- `set_params(name=v)`: an unknown name raises `ValueError` (inherited by the classes below). -/
def setParam {V : Type} (c : ClassDef) (o : Obj V) (name : String) (v : V) : Py (Obj V) := do
  let _ ← getParams c o
  if name ∈ c.params then .ok (Function.update o name (some v)) else .error .valueError

/-- `LocalMaxToCloseRatio` (`/repo/mizarlabs/transformers/features/custom.py` lines 7-8). -/
def localMaxToCloseRatio : ClassDef := plain ["window"]

/-- `RollingZScoreTransformer` (`/repo/mizarlabs/transformers/features/rolling_z_score.py` lines 17-19). -/
def rollingZScore : ClassDef := plain ["window", "to_series_func"]

/-- `RollMeasure` (`/repo/mizarlabs/transformers/microstructural_features/first_generation.py` lines 22-24). -/
def rollMeasure : ClassDef := plain ["window", "close_column_name"]

/-- `RollImpact` (`first_generation.py` lines 54-61): the first two by `RollMeasure`. -/
def rollImpact : ClassDef :=
  ⟨["window", "close_column_name", "quote_asset_volume_column_name"],
   rollMeasure.assign ++ [("quote_asset_volume_column_name", "quote_asset_volume_column_name")]⟩

/-- `ParkinsonVolatility`, `CorwinSchultzSpread`, `BeckersParkinsonVolatility` (`first_generation.py` lines 85-93,
183-191, 223-231). -/
def highLow : ClassDef := plain ["window", "high_column_name", "low_column_name"]

/-- `KyleLambda` (`/repo/mizarlabs/transformers/microstructural_features/second_generation.py` lines 24-32). -/
def kyleLambda : ClassDef := plain ["window", "close_column_name", "base_asset_volume_column_name"]

/-- `AmihudLambda` and `HasbrouckLambda` (`second_generation.py` lines 65-74, 105-113). -/
def quoteLambda : ClassDef := plain ["window", "close_column_name", "quote_asset_volume_column_name"]

/-- `VPIN` (`/repo/mizarlabs/transformers/microstructural_features/vpin.py` lines 33-46). -/
def vpin : ClassDef := plain ["window", "base_asset_volume_column_name", "base_asset_buy_volume_column_name",
  "base_asset_sell_volume_column_name"]

/-- `BaseLabeling` (`/repo/mizarlabs/transformers/targets/labeling.py` lines 35-36). -/
def baseLabeling : ClassDef := plain ["n_expiration_bars"]

/-- `TripleBarrierMethodLabeling` (`labeling.py` lines 102-128): the first parameter goes to `BaseLabeling`. -/
def tripleBarrier : ClassDef :=
  ⟨["num_expiration_bars", "profit_taking_factor", "stop_loss_factor", "metalabeling", "close_column_name", "side_column_name",
    "volatility_window", "volatility_adjusted_horizontal_barriers", "expiration_label"],
   [("n_expiration_bars", "num_expiration_bars"), ("profit_taking_factor", "profit_taking_factor"),
    ("stop_loss_factor", "stop_loss_factor"), ("metalabeling", "metalabeling"), ("close_column_name", "close_column_name"),
    ("side_column_name", "side_column_name"),
    ("volatility_adjusted_horizontal_barriers", "volatility_adjusted_horizontal_barriers"),
    ("volatility_window", "volatility_window"), ("expiration_label", "expiration_label")]⟩

/-- `TrendScannerLabeling` (`/repo/mizarlabs/transformers/targets/trend_scanning.py` lines 44-58). -/
def trendScanner : ClassDef := plain ["t_events", "look_forward_window", "min_sample_length", "step"]

/-- `BuySellImbalance` (`/repo/mizarlabs/transformers/technical/volume.py` lines 10-15). -/
def buySellImbalance : ClassDef := plain ["fast", "slow", "volume_type"]

/-- `IdentityTransformer` (`/repo/mizarlabs/transformers/utils.py` lines 31-38): no parameter. -/
def identityTransformer : ClassDef := plain []

/-- `SequentiallyBootstrappedBaggingClassifier`
(`/repo/mizarlabs/model/sequentially_bootstrapped_bagging_classifier.py` lines 216-258, 540-572): the parameters
`base_estimator` to `verbose` are stored by scikit-learn's `BaseBagging` under their own names. -/
def baggingClassifier : ClassDef :=
  ⟨["samples_info_sets", "price_bars", "base_estimator", "n_estimators", "max_samples", "max_features", "bootstrap_features",
    "oob_score", "warm_start", "n_jobs", "random_state", "verbose", "event_end_time_column_name", "update_probs_every"],
   (["base_estimator", "n_estimators", "max_samples", "max_features", "bootstrap_features", "oob_score", "warm_start", "n_jobs",
     "random_state", "verbose"] ++ ["event_end_time_column_name", "samples_info_sets", "price_bars", "update_probs_every"]).map
     fun p => (p, p)⟩

/-- `SampleWeightsByReturns` (`/repo/mizarlabs/transformers/sample_weights/__init__.py` lines 26-32). -/
def weightsByReturns : ClassDef :=
  ⟨["event_end_time_column_name", "close_column_name"],
   [("_event_end_time_column_name", "event_end_time_column_name"), ("_close_column_name", "close_column_name")]⟩

/-- `AverageUniqueness` (`/repo/mizarlabs/transformers/sampling/average_uniqueness.py` lines 15-16). -/
def averageUniqueness : ClassDef :=
  ⟨["event_end_time_column_name"], [("_event_end_time_column_name", "event_end_time_column_name")]⟩

/-- `SampleWeightsByTimeDecay` (`sample_weights/__init__.py` lines 119-125). -/
def weightsByTimeDecay : ClassDef :=
  ⟨["minimum_decay_weight", "event_end_time_column_name"],
   averageUniqueness.assign ++ [("_decay_factor", "minimum_decay_weight")]⟩

/-- `CUSUMFilter` (`/repo/mizarlabs/transformers/sampling/down_sampling.py` lines 16-17). -/
def cusumFilter : ClassDef := ⟨["threshold"], [("_threshold", "threshold")]⟩

/-- `MACDHistogramCrossOver` (`/repo/mizarlabs/transformers/technical/macd.py` lines 9-31). -/
def macd : ClassDef :=
  ⟨["fast_period", "slow_period", "signal_period", "column_name"],
   [("fast_period_", "fast_period"), ("slow_period_", "slow_period"), ("signal_period_", "signal_period"),
    ("column_name", "column_name")]⟩

/-- `MovingAverageCrossOver` and `MovingAverageCrossOverPredictor`
(`/repo/mizarlabs/transformers/technical/moving_average.py` lines 34-47, 100-112). -/
def movingAverageCrossOver : ClassDef :=
  ⟨["fast", "slow", "column_name", "fill_between_crossovers"],
   [("fast_", "fast"), ("slow_", "slow"), ("column_name", "column_name"), ("fill_between_crossovers", "fill_between_crossovers")]⟩

/-- `BetSizingFromProbabilities` (`/repo/mizarlabs/transformers/trading/bet_sizing.py` lines 66-98). -/
def betSizing : ClassDef :=
  ⟨["num_classes", "average_active", "meta_labeling", "discretise", "step_size", "probability_column_name",
    "prediction_column_name", "side_column_name", "event_end_time_column_name", "bet_size_column_name"],
   [("_side_column_name", "side_column_name"), ("_metalabeling", "meta_labeling"), ("_average_active", "average_active"),
    ("_step_size", "step_size"), ("_num_classes", "num_classes"), ("_probability_column_name", "probability_column_name"),
    ("_prediction_column_name", "prediction_column_name"), ("_event_end_time_column_name", "event_end_time_column_name"),
    ("_discretise", "discretise"), ("_bet_size_column_name", "bet_size_column_name")]⟩

end Mizar.Est
