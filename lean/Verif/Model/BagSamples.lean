import Verif.Model.Bagging

/-!
The attribute `estimators_samples_` of `SequentiallyBootstrappedBaggingClassifier`
(`/repo/mizarlabs/model/sequentially_bootstrapped_bagging_classifier.py`, documented in lines 522-524).  The class does not
define it: it is the property of scikit-learn's `BaseBagging`, which draws again from `_seeds`.
-/

namespace Mizar.Bag

/-- The attributes the inherited property reads; `seeds` is `none` before `_seeds` is set (lines 358-359, 373, 389, 428). -/
structure Attrs where
  seeds : Option (List ℕ)
  nSamples : ℕ
  maxSamples : ℕ
  nFeatures : ℕ
  maxFeatures : ℕ
  deriving DecidableEq

/-- A new object (lines 216-258). -/
def noAttrs : Attrs := ⟨none, 0, 0, 0, 0⟩

/-- What `_fit` (lines 294-462) assigns to `n_features_` and `_n_samples` (lines 358-359), `_max_samples` (line 373),
`_max_features` (line 389) and `_seeds` (lines 427-428).  `s` is the fitted state before the call. -/
def fitAttrs {Est : Type} (stream : ℕ → ℕ) (c : Cfg) (d : Data) (s : Fitted Est) (a : Attrs) : Attrs :=
  if ¬ (∀ x ∈ d.xIndex, x ∈ d.infoIndex) then a
  else if d.weights.any (fun w => decide (w.length ≠ d.xIndex.length)) then a
  else
    let a := { a with nSamples := d.xIndex.length, nFeatures := d.nFeatures }
    if c.nEstimators ≤ 0 then a
    else
      match resolveMaxSamples c.maxSamples d.xIndex.length with
      | .error _ => a
      | .ok maxS =>
        let a := { a with maxSamples := maxS.toNat }
        match resolveMaxFeatures c.maxFeatures d.nFeatures with
        | .error _ => a
        | .ok maxF =>
          let a := { a with maxFeatures := maxF.toNat }
          if c.warmStart && c.oobScore then a
          else
            let len := if !c.warmStart || s.estimators.isNone then 0 else (s.estimators.getD []).length
            let more : ℤ := c.nEstimators - len
            if more ≤ 0 then a
            else
              let skip := if c.warmStart && decide (0 < len) then len else 0
              { a with seeds := some ((List.range more.toNat).map fun i => stream (skip + i)) }

/-- The inherited property `estimators_samples_`.  `draw seed n_features max_features n_samples max_samples` is scikit-learn's
`_generate_bagging_indices` with replacement: after the features, `randint(0, n_samples, max_samples)` (lines 465-467). -/
def estimatorsSamples (draw : ℕ → ℕ → ℕ → ℕ → ℕ → List ℕ) (a : Attrs) : Py (List (List ℕ)) :=
  match a.seeds with
  | none => .error .attributeError
  | some seeds => .ok (seeds.map fun s => draw s a.nFeatures a.maxFeatures a.nSamples a.maxSamples)

end Mizar.Bag
