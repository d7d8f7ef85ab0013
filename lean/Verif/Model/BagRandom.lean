import Verif.Model.Bagging

/-!
Model of the random draws of one base estimator with a generator that carries a state:
`_generate_random_features`, `_generate_bagging_indices`, the loop body of `_parallel_build_estimators`
(`/repo/mizarlabs/model/sequentially_bootstrapped_bagging_classifier.py` lines 36-108, 164-205) and `seq_bootstrap`
(`/repo/mizarlabs/model/bootstrapping.py` lines 139-195).

`RandomState.choice` with probabilities is written out as NumPy does it (inverse distribution function on uniform numbers); the
uniform numbers themselves, `randint` and scikit-learn's `sample_without_replacement` are parameters.
-/

namespace Mizar.Bag
open Mizar.Boot

/-- `p.cumsum()` from the value `a` on (`bootstrapping.py` lines 185-189). -/
def npCumsumFrom {K : Type} [Field K] [LinearOrder K] (a : XF K) : List (XF K) → List (XF K)
  | [] => []
  | x :: l => XF.add a x :: npCumsumFrom (XF.add a x) l

/-- `RandomState.choice(n, p=p)` for one uniform number `u` in `[0, 1)` (called in `bootstrapping.py` lines 185-190):
`cdf = p.cumsum(); cdf /= cdf[-1]; cdf.searchsorted(u, side="right")`.  On a sorted array `searchsorted` with
`side="right"` is the number of entries that are at most `u`. -/
def choiceDraw {K : Type} [Field K] [LinearOrder K] (p : List (XF K)) (u : K) : ℕ :=
  let c := npCumsumFrom (.fin 0) p
  (c.map fun x => XF.div x (c.getLastD .nan)).countP fun x => XF.le x (.fin u)

/-- A `RandomState` with states `S`: `RandomState(seed)`; the state after `_make_estimator` has drawn the seeds of the base
estimator (line 172); `randint(0, n, m)`; `sample_without_replacement(n, m)`; one number of `random_sample`. -/
structure Gen (S : Type) where
  seed : ℕ → S
  afterMake : S → S
  randint : ℕ → ℕ → S → List ℕ × S
  sampleWithout : ℕ → ℕ → S → List ℕ × S
  double : S → ℚ × S

/-- `random_sample(m)`: `m` numbers one after the other (`bootstrapping.py` lines 185-189). -/
def Gen.doubles {S : Type} (G : Gen S) : ℕ → S → List ℚ × S
  | 0, s => ([], s)
  | m + 1, s => ((G.double s).1 :: (G.doubles m (G.double s).2).1, (G.doubles m (G.double s).2).2)

/-- `_generate_random_features` (lines 36-64): `randint` raises `ValueError` for an empty range,
`sample_without_replacement` for more samples than there are. -/
def generateRandomFeatures {S : Type} (G : Gen S) (bootstrap : Bool) (n m : ℕ) (s : S) : Py (List ℕ × S) :=
  if bootstrap then
    if n = 0 then .error .valueError else .ok (G.randint n m s)
  else if n < m then .error .valueError else .ok (G.sampleWithout n m s)

/-- The loop of `seq_bootstrap` (`bootstrapping.py` lines 172-193) on a generator with a state. -/
def bootLoopS {S : Type} (M : IndMat) (G : Gen S) (len k : ℤ) :
    ℕ → ℕ → BState → S → Py (List (List (XF ℚ) × List ℕ))
  | 0, _, _, _ => .ok []
  | fuel + 1, i, b, s =>
    let b := refresh M b
    if choiceValid b.prob then
      let (us, s') := G.doubles (min (len - i * k) k).toNat s
      let choices := us.map (choiceDraw b.prob)
      let b' := { b with
        boot := b.boot ++ choices
        rows := b.rows ++ choices.flatMap (fun j => colRows M j) }
      match bootLoopS M G len k fuel (i + 1) b' s' with
      | .ok rest => .ok ((b.prob, choices) :: rest)
      | .error e => .error e
    else .error .valueError

/-- `seq_bootstrap` (`bootstrapping.py` lines 139-195) from the state `s` of the generator, as batches with their
probabilities.  A negative length with a negative batch size makes `choice` raise `ValueError`. -/
def seqBootstrapTraceS {S : Type} (M : IndMat) (G : Gen S) (len : Option ℤ) (k : ℤ) (s : S) :
    Py (List (List (XF ℚ) × List ℕ)) :=
  let len := len.getD M.nCols
  if k = 0 then .error .zeroDivisionError
  else if len < 0 ∧ k < 0 then .error .valueError
  else bootLoopS M G len k (⌈(len : ℚ) / (k : ℚ)⌉).toNat 0 (initState M) s

/-- `_generate_bagging_indices` (lines 67-110): first the features, then the samples, from the same generator. -/
def generateBaggingIndices {S : Type} (G : Gen S) (bootstrapFeatures : Bool) (nFeatures maxF maxS : ℕ) (M : IndMat) (upd : ℤ) (s : S) :
    Py (List ℕ × List ℕ) :=
  match generateRandomFeatures G bootstrapFeatures nFeatures maxF s with
  | .error e => .error e
  | .ok (feats, s') =>
    match seqBootstrapTraceS M G (some maxS) upd s' with
    | .error e => .error e
    | .ok tr => .ok (feats, (tr.map (·.2)).flatten)

/-- The external parts with a stateful generator; `fitEst` gets the state from which `_make_estimator` draws (lines 157, 174-203). -/
structure BaseS (S Est : Type) where
  gen : Gen S
  supportsWeight : Bool
  bootstrapFeatures : Bool
  fitEst : S → Train → Est

/-- One iteration of the loop in `_parallel_build_estimators` (lines 167-205). -/
def buildOneS {S Est : Type} (b : BaseS S Est) (d : Data) (sub : IndMat) (maxF maxS : ℕ) (upd : ℤ) (seed : ℕ) :
    Py (Est × List ℕ × List ℕ) :=
  let s := b.gen.seed seed
  match generateBaggingIndices b.gen b.bootstrapFeatures d.nFeatures maxF maxS sub upd (b.gen.afterMake s) with
  | .error e => .error e
  | .ok (feats, idx) =>
    if b.supportsWeight then
      let cur := d.weights.getD (List.replicate d.xIndex.length 1)
      let counts := bincount idx d.xIndex.length
      if cur.length = counts.length then
        .ok (b.fitEst s (.weighted feats (List.zipWith (fun (w : ℚ) (c : ℕ) => w * (c : ℚ)) cur counts)), feats, idx)
      else .error .valueError
    else .ok (b.fitEst s (.rows feats idx), feats, idx)

end Mizar.Bag
