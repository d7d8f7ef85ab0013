import Verif.Model.ModelSelection

/-!
Model of `CombPurgedKFoldCV.split` (`/repo/mizarlabs/model/model_selection.py`, lines 172-334) on evaluation times that may
be missing (NaT), as the triple barrier labels leave them for events without volatility.  Prediction times are not missing.
-/

namespace Mizar.CV

/-- `purge`, lines 301-334: a comparison with NaT is false. -/
def purgeM (n : ℕ) (pred : ℕ → ℤ) (eval : ℕ → Option ℤ) (train : List ℕ) (fs fe : ℕ) : List ℕ :=
  let timeTestFoldStart := pred fs
  let train1 := npIntersect1d train ((List.range n).filter fun i =>
    match eval i with
    | none => false
    | some e => decide (e < timeTestFoldStart))
  let train2 := npIntersect1d train ((List.range n).drop fe)
  train1 ++ train2

/-- `embargo`, lines 254-298: the maximum skips NaT; the maximum of nothing but NaT is NaT and no time is `<= NaT`. -/
def embargoM (n : ℕ) (pred : ℕ → ℤ) (eval : ℕ → Option ℤ) (emb : ℤ) (train test : List ℕ) (fe : ℕ) : List ℕ :=
  let minTrainIndex : ℕ :=
    match ((test.take fe).filterMap eval).max? with
    | none => 0
    | some lastTestEvalTime => ((List.range n).filter fun i => decide (pred i ≤ lastTestEvalTime + emb)).length
  if minTrainIndex < n then
    npIntersect1d train ((List.range n).take fe ++ (List.range n).drop minTrainIndex)
  else train

/-- `_compute_train_set`, lines 197-220. -/
def computeTrainSetM (n : ℕ) (pred : ℕ → ℤ) (eval : ℕ → Option ℤ) (emb : ℤ) (bounds : List (ℕ × ℕ)) (test : List ℕ) : List ℕ :=
  bounds.foldl (fun train b => embargoM n pred eval emb (purgeM n pred eval train b.1 b.2) test b.2) (npSetdiff1d (List.range n) test)

/-- `split`, lines 172-195. -/
def splitM (n g k : ℕ) (pred : ℕ → ℤ) (eval : ℕ → Option ℤ) (emb : ℤ) : Py (List (List ℕ × List ℕ)) := do
  let sel ← testFoldBounds n g k
  return sel.map fun fbl =>
    let t := computeTestSet n fbl
    (computeTrainSetM n pred eval emb t.1 t.2, t.2)

end Mizar.CV
