import Verif.Model.Bagging

/-!
`_fit` of `/repo/mizarlabs/model/sequentially_bootstrapped_bagging_classifier.py` for every kind of `random_state`.  A
generator is an infinite stream of numbers (those `randint(MAX_INT)` gives) and the position of the next one; drawing an
array takes the next numbers one by one.
-/

namespace Mizar.Bag
open Mizar.Boot

/-- The parameter `random_state` (line 335): `check_random_state` makes a new generator from an integer on every call, and
returns the object itself if it is a `RandomState`, or the generator of `numpy.random` for `None`. -/
inductive RandArg
  | int (seed : ℕ)
  | shared

/-- `random_state.randint(MAX_INT, size=n)` (lines 421-423): the next numbers, and the position after them. -/
def randints (stream : ℕ → ℕ) (n pos : ℕ) : List ℕ × ℕ := ((List.range n).map fun i => stream (pos + i), pos + n)

/-- `_fit` (lines 294-462) without the out-of-bag score, on a generator at position `pos`; the position after the call is
returned as well. -/
def fitFrom {Est : Type} (b : Base Est) (stream : ℕ → ℕ) (c : Cfg) (d : Data) (s : Fitted Est) (pos : ℕ) :
    Outcome × Fitted Est × ℕ :=
  if ¬ (∀ x ∈ d.xIndex, x ∈ d.infoIndex) then (.error .assertionError, s, pos)
  else if d.weights.any (fun w => decide (w.length ≠ d.xIndex.length)) then
    (.error .valueError, s, pos)
  else if c.nEstimators ≤ 0 then (.error .valueError, s, pos)
  else
    match resolveMaxSamples c.maxSamples d.xIndex.length with
    | .error e => (.error e, s, pos)
    | .ok maxS =>
      match resolveMaxFeatures c.maxFeatures d.nFeatures with
      | .error e => (.error e, s, pos)
      | .ok maxF =>
        if c.warmStart && c.oobScore then (.error .valueError, s, pos)
        else
          let s : Fitted Est :=
            if !c.warmStart || s.estimators.isNone then ⟨some [], [], []⟩ else s
          let ests := s.estimators.getD []
          let more : ℤ := c.nEstimators - ests.length
          if more < 0 then (.error .valueError, s, pos)
          else if more = 0 then (.ok (), s, pos)
          else
            let n := more.toNat
            let pos := if c.warmStart && decide (0 < ests.length) then (randints stream ests.length pos).2 else pos
            let (seeds, pos) := randints stream n pos
            let (jobs, sizes, starts) := partitionEstimators n c.nJobs
            let sub := selectCols d.mat (subsampleCols d.infoIndex d.xIndex)
            match runJobs b d sub maxF.toNat maxS.toNat c.updateEvery sizes starts seeds jobs with
            | .error e => (.error e, s, pos)
            | .ok r =>
              (.ok (), ⟨some (ests ++ r.map (·.1)), s.features ++ r.map (·.2.1), s.samples ++ r.map (·.2.2)⟩, pos)

/-- `_fit` (lines 294-462) for both kinds of `random_state`: `fresh k` are the numbers of `RandomState(k)`, `own` those of
the object given (or of `numpy.random`), which has given `pos` numbers so far. -/
def fitArg {Est : Type} (b : Base Est) (fresh : ℕ → ℕ → ℕ) (own : ℕ → ℕ) (r : RandArg) (c : Cfg) (d : Data) (s : Fitted Est)
    (pos : ℕ) : Outcome × Fitted Est × ℕ :=
  match r with
  | .int k =>
    let o := fitFrom b (fresh k) c d s 0
    (o.1, o.2.1, pos)
  | .shared => fitFrom b own c d s pos

end Mizar.Bag
