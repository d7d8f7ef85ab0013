import Verif.Py.Num
import Verif.Py.MapE
import Verif.Model.Bootstrapping

/-!
Model of `/repo/mizarlabs/model/sequentially_bootstrapped_bagging_classifier.py`.

Not modelled: type assertions on pandas objects, `check_X_y`, label encoding, printing, joblib.  The random
generator and the base estimator are parameters.
-/

namespace Mizar.Bag
open Mizar.Boot

/-- A parameter that may be an integer or a float (lines 222-223). -/
inductive NumParam
  | int (n : ℤ)
  | float (x : XF ℚ)

/-- What a base estimator is trained with: all rows with weights, or the drawn rows (lines 190-203). -/
inductive Train
  | weighted (features : List ℕ) (weights : List ℚ)
  | rows (features : List ℕ) (rows : List ℕ)
  deriving DecidableEq

/-- The external parts: does `base_estimator_.fit` accept `sample_weight`; the feature draw and the
generator used by the sequential bootstrap of the `RandomState` with a given seed; the fitted base
estimator for a seed and a training input (lines 157, 174-203). -/
structure Base (Est : Type) where
  supportsWeight : Bool
  featDraw : ℕ → ℕ → ℕ → List ℕ
  rng : ℕ → ℕ → List (XF ℚ) → ℕ → List ℕ
  fitEst : ℕ → Train → Est

/-- Constructor parameters used by `fit`. `nJobs` is the effective number of jobs (at least one) (lines 216-232). -/
structure Cfg where
  nEstimators : ℤ
  maxSamples : NumParam
  maxFeatures : NumParam
  oobScore : Bool
  warmStart : Bool
  nJobs : ℕ
  updateEvery : ℤ

/-- The data of a call of `fit`: indicator matrix and index of `samples_info_sets`, index of `X`, number
of columns of `X`, user weights (lines 294-301, 343-347). -/
structure Data where
  mat : IndMat
  infoIndex : List ℤ
  xIndex : List ℤ
  nFeatures : ℕ
  weights : Option (List ℚ)

/-- Fitted attributes; `none` before the first fit (no attribute `estimators_`) (lines 394-398). -/
structure Fitted (Est : Type) where
  estimators : Option (List Est)
  features : List (List ℕ)
  samples : List (List ℕ)

/-- Validation of `max_samples` (lines 366-370).  `int(float)` truncates; NaN raises `ValueError`, an
infinity raises `OverflowError`. -/
def resolveMaxSamples (p : NumParam) (nSamples : ℕ) : Py ℤ :=
  let check (m : ℤ) : Py ℤ := if 0 < m ∧ m ≤ nSamples then .ok m else .error .valueError
  match p with
  | .int m => check m
  | .float x =>
    match XF.mul x (.fin (nSamples : ℚ)) with
    | .nan => .error .valueError
    | .pinf => .error .overflowError
    | .ninf => .error .overflowError
    | .fin q => check (pyIntTrunc q)

/-- Validation of `max_features` (lines 376-386). -/
def resolveMaxFeatures (p : NumParam) (nFeatures : ℕ) : Py ℤ :=
  let v : XF ℚ := match p with
    | .int m => .fin (m : ℚ)
    | .float x => XF.mul x (.fin (nFeatures : ℚ))
  if XF.lt (.fin 0) v && XF.le v (.fin (nFeatures : ℚ)) then
    .ok (max 1 (pyIntTrunc v.toK))
  else .error .valueError

/-- `_partition_estimators` of scikit-learn: number of estimators per job and start offsets (lines 417-419). -/
def partitionEstimators (n jobs : ℕ) : ℕ × List ℕ × List ℕ :=
  let jobs := min jobs n
  let sizes := (List.range jobs).map fun i => n / jobs + if i < n % jobs then 1 else 0
  (jobs, sizes, sizes.scanl (· + ·) 0)

/-- `ind_mat[:, timestamp_int_index_mapping.loc[X_time_index]]` (lines 338-347): for every time of `X`
the columns of all events with that start. -/
def subsampleCols (infoIndex xIndex : List ℤ) : List ℕ :=
  xIndex.flatMap fun x => (List.range infoIndex.length).filter fun i => infoIndex[i]? = some x

/-- Column selection of the indicator matrix (lines 345-347). -/
def selectCols (M : IndMat) (cols : List ℕ) : IndMat :=
  ⟨M.nRows, cols.length, fun t j => M.ent t (cols.getD j 0)⟩

/-- `np.bincount(indices, minlength=n)` (line 197). -/
def bincount (indices : List ℕ) (n : ℕ) : List ℕ :=
  (List.range (max n (indices.foldr (fun i m => max (i + 1) m) 0))).map fun i => indices.count i

/-- One iteration of the loop in `_parallel_build_estimators` (lines 167-205).  `curr *= counts` raises
`ValueError` when the lengths differ. -/
def buildOne {Est : Type} (b : Base Est) (d : Data) (sub : IndMat) (maxF maxS : ℕ) (upd : ℤ) (seed : ℕ) :
    Py (Est × List ℕ × List ℕ) :=
  let feats := b.featDraw seed d.nFeatures maxF
  match seqBootstrap sub (b.rng seed) (some maxS) upd with
  | .error e => .error e
  | .ok idx =>
    if b.supportsWeight then
      let cur := d.weights.getD (List.replicate d.xIndex.length 1)
      let counts := bincount idx d.xIndex.length
      if cur.length = counts.length then
        .ok (b.fitEst seed (.weighted feats (List.zipWith (fun (w : ℚ) (c : ℕ) => w * (c : ℚ)) cur counts)),
          feats, idx)
      else .error .valueError
    else .ok (b.fitEst seed (.rows feats idx), feats, idx)

/-- `_parallel_build_estimators` (lines 113-207): the loop `for i in range(n_estimators)` reads
`seeds[i]`. -/
def parallelBuild {Est : Type} (b : Base Est) (d : Data) (sub : IndMat) (maxF maxS : ℕ) (upd : ℤ)
    (n : ℕ) (seeds : List ℕ) : Py (List (Est × List ℕ × List ℕ)) :=
  if !b.supportsWeight && d.weights.isSome then .error .valueError
  else mapE (fun i => (getE seeds i).bind (buildOne b d sub maxF maxS upd)) (List.range n)

/-- All jobs, with results chained in job order (lines 427-455). -/
def runJobs {Est : Type} (b : Base Est) (d : Data) (sub : IndMat) (maxF maxS : ℕ) (upd : ℤ)
    (sizes starts : List ℕ) (seeds : List ℕ) (jobs : ℕ) : Py (List (Est × List ℕ × List ℕ)) :=
  (mapE (fun i => parallelBuild b d sub maxF maxS upd (sizes.getD i 0)
      ((seeds.take (starts.getD (i + 1) 0)).drop (starts.getD i 0))) (List.range jobs)).map List.flatten

/-- Outcome of a call: an exception or normal return; the state after the call is returned as well
because an exception leaves attributes changed (lines 294-462). -/
abbrev Outcome := Py Unit

/-- `_fit` (lines 294-462) without the out-of-bag score.  `stream` is the sequence of numbers drawn with
`randint(MAX_INT)` from the generator created for the integer `random_state`. -/
def fit {Est : Type} (b : Base Est) (stream : ℕ → ℕ) (c : Cfg) (d : Data) (s : Fitted Est) :
    Outcome × Fitted Est :=
  if ¬ (∀ x ∈ d.xIndex, x ∈ d.infoIndex) then (.error .assertionError, s)
  else if d.weights.any (fun w => decide (w.length ≠ d.xIndex.length)) then
    (.error .valueError, s)
  else if c.nEstimators ≤ 0 then (.error .valueError, s)
  else
    match resolveMaxSamples c.maxSamples d.xIndex.length with
    | .error e => (.error e, s)
    | .ok maxS =>
      match resolveMaxFeatures c.maxFeatures d.nFeatures with
      | .error e => (.error e, s)
      | .ok maxF =>
        if c.warmStart && c.oobScore then (.error .valueError, s)
        else
          let s : Fitted Est :=
            if !c.warmStart || s.estimators.isNone then ⟨some [], [], []⟩ else s
          let ests := s.estimators.getD []
          let more : ℤ := c.nEstimators - ests.length
          if more < 0 then (.error .valueError, s)
          else if more = 0 then (.ok (), s)
          else
            let n := more.toNat
            let skip := if c.warmStart && decide (0 < ests.length) then ests.length else 0
            let seeds := (List.range n).map fun i => stream (skip + i)
            let (jobs, sizes, starts) := partitionEstimators n c.nJobs
            let sub := selectCols d.mat (subsampleCols d.infoIndex d.xIndex)
            match runJobs b d sub maxF.toNat maxS.toNat c.updateEvery sizes starts seeds jobs with
            | .error e => (.error e, s)
            | .ok r =>
              (.ok (), ⟨some (ests ++ r.map (·.1)), s.features ++ r.map (·.2.1), s.samples ++ r.map (·.2.2)⟩)

/-! ### Out-of-bag score -/

/-- What `_set_oob_score` sees of a base estimator: the encoded classes it was trained on, its
probabilities (`none` if it has no `predict_proba`) and its predicted class for each training row, and
whether it refuses an empty input (as scikit-learn estimators do) (lines 596-617). -/
structure OobEst where
  classes : List ℕ
  proba : Option (ℕ → List ℚ)
  predict : ℕ → ℕ
  rejectsEmpty : Bool

/-- `predictions[i, :] += row` with NumPy broadcasting of a one-column result (lines 605-607). -/
def addRow (nC : ℕ) (acc row : List ℚ) : Py (List ℚ) :=
  if row.length = nC then .ok (List.zipWith (· + ·) acc row)
  else if row.length = 1 then .ok (acc.map (· + row.getD 0 0))
  else .error .valueError

/-- `predictions[i, p] += 1`; an index outside the classes raises `IndexError` (line 615). -/
def addVote (nC : ℕ) (acc : List ℚ) (p : ℕ) : Py (List ℚ) :=
  if p < nC then .ok (acc.set p (acc.getD p 0 + 1)) else .error .indexError

/-- The contribution of one estimator to all rows (lines 601-617). -/
def oobStep (nC : ℕ) (preds : List (List ℚ)) (e : OobEst) (samples : List ℕ) : Py (List (List ℚ)) :=
  let n := preds.length
  if e.rejectsEmpty && (List.range n).all (fun i => decide (i ∈ samples)) then .error .valueError
  else
    (List.range n).zip preds |> mapE fun (p : ℕ × List ℚ) =>
      let (i, acc) := p
      if i ∈ samples then .ok acc
      else match e.proba with
        | some f => addRow nC acc (f i)
        | none => addVote nC acc (e.predict i)

/-- The loop over the estimators (lines 594-617). -/
def oobPredictions (nC n : ℕ) (ests : List (OobEst × List ℕ)) : Py (List (List ℚ)) :=
  ests.foldlM (fun preds (e : OobEst × List ℕ) => oobStep nC preds e.1 e.2)
    (List.replicate n (List.replicate nC 0))

/-- `oob_decision_function_` (line 625): rows divided by their sum, `0/0` is NaN. -/
def oobDecision (nC n : ℕ) (ests : List (OobEst × List ℕ)) : Py (List (List (XF ℚ))) :=
  (oobPredictions nC n ests).map fun preds =>
    preds.map fun row => row.map fun x => XF.div (.fin x) (.fin row.sum)

end Mizar.Bag
