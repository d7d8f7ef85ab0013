import Verif.Model.ModelSelection
import Verif.Py.MapE
import Verif.Py.Frame

/-!
Model of the frames built by `combinatorial_cross_validation_paths`
(`/repo/mizarlabs/model/model_selection.py`, lines 372-451), with the model that is fitted and asked for predictions as a
parameter.
-/

namespace Mizar.CV
variable {S R L P T α K : Type}

/-- `signal_pipeline`: an object with state `S`; fitting changes the state (and may use what was there before), predicting
does not.  `R` are rows of features, `L` labels, `P` predictions; probabilities are floats, which may be missing.  Any of them may raise
(lines 405-409, 421, 423). -/
structure Learner (S R L P K : Type) where
  fit : S → List R → List L → Py S
  predict : S → List R → Py (List P)
  proba : S → List R → Py (List (List (XF K)))

/-- A row of a path: its index label, the columns `predictions` and `max_proba`, and the row of `y` with the same label
(missing if there is none) (lines 420-428). -/
structure PathRow (P K T : Type) where
  label : ℤ
  pred : P
  maxProba : XF K
  y : Option T
  deriving DecidableEq, Repr

/-- One row of `np.max(proba, axis=1)` (line 425): NaN as soon as one value is; `ValueError` without columns. -/
def rowMax [Field K] [LinearOrder K] (r : List (XF K)) : Py (XF K) :=
  match r with
  | [] => .error .valueError
  | _ => .ok (npMax r)

/-- The rows of `pd.merge(..., left_index=True, right_index=True, how="left")` for one row on the left (line 428): one for every row of
`y` with the same label, or one without a target.  (Repeated labels are taken to be neighbours; `pandas` may sort otherwise.) -/
def joinLeft (Y : List (ℤ × T)) (label : ℤ) (pred : P) (q : XF K) : List (PathRow P K T) :=
  match Y.filter fun e => e.1 == label with
  | [] => [⟨label, pred, q, none⟩]
  | es => es.map fun e => ⟨label, pred, q, some e.2⟩

/-- Lines 414-428: the frame of one block.  Assigning a column of another length than the index raises `ValueError`. -/
def blockFrame [Field K] [LinearOrder K] (M : Learner S R L P K) (st : S) (idx : List ℤ) (X : List R) (Y : List (ℤ × T)) (test : List ℕ) (b : ℕ × ℕ) : Py (List (PathRow P K T)) := do
  let part := test.filter fun i => decide (b.1 ≤ i ∧ i < b.2)
  let labels ← mapE (getE idx) part
  let rows ← mapE (getE X) part
  let preds ← M.predict st rows
  if preds.length ≠ labels.length then throw .valueError
  let proba ← M.proba st rows
  let mx ← mapE rowMax proba
  if mx.length ≠ labels.length then throw .valueError
  return (labels.zip (preds.zip mx)).flatMap fun r => joinLeft Y r.1 r.2.1 r.2.2

/-- `if k not in d: d[k] = []; d[k].append(b)`, lines 432-435. -/
def frameAppend (d : List (ℕ × List α)) (key : ℕ) (b : α) : List (ℕ × List α) :=
  match d with
  | [] => [(key, [b])]
  | (k', l) :: rest => if k' = key then (k', l ++ [b]) :: rest else (k', l) :: frameAppend rest key b

/-- The inner loop over the blocks of one round, lines 411-435. -/
def blocksLoop [Field K] [LinearOrder K] (M : Learner S R L P K) (st : S) (idx : List ℤ) (X : List R) (Y : List (ℤ × T)) (test : List ℕ) :
    List (ℕ × ℕ) → List (ℕ × List (List (PathRow P K T))) → Py (List (ℕ × List (List (PathRow P K T))))
  | [], d => .ok d
  | b :: bs, d => do
    let f ← blockFrame M st idx X Y test b
    blocksLoop M st idx X Y test bs (frameAppend d b.1 f)

/-- The loop over the rounds, lines 400-435: fold bounds and `(train, test)` of every round.  `lab` is the label column. -/
def roundsLoop [Field K] [LinearOrder K] (M : Learner S R L P K) (idx : List ℤ) (X : List R) (Y : List (ℤ × T)) (lab : T → L) :
    S → List (List (ℕ × ℕ) × List ℕ × List ℕ) → List (ℕ × List (List (PathRow P K T))) → Py (List (ℕ × List (List (PathRow P K T))))
  | _, [], d => .ok d
  | st, r :: rs, d => do
    let xs ← mapE (getE X) r.2.1
    let ys ← mapE (getE (Y.map fun e => lab e.2)) r.2.1
    let st' ← M.fit st xs ys
    let d' ← blocksLoop M st' idx X Y r.2.2 r.1 d
    roundsLoop M idx X Y lab st' rs d'

/-- `random.shuffle(l)`: the order of positions drawn, applied to the list (line 445). -/
def shuffleBy (perm : ℕ → List ℕ) (l : List α) : List α := (perm l.length).filterMap (l[·]?)

/-- Lines 444-447: shuffle, pop the last frame, append it to the path. -/
def popFrames (perm : ℕ → ℕ → List ℕ) : List (ℕ × List (List α)) → Py (List α × List (ℕ × List (List α)))
  | [] => .ok ([], [])
  | (k, l) :: rest =>
    match (shuffleBy (perm k) l).reverse with
    | [] => .error .indexError
    | b :: l' => do
      let r ← popFrames perm rest
      return (b ++ r.1, (k, l'.reverse) :: r.2)

/-- Lines 442-449: the loop over the paths; `perm i` are the orders drawn in iteration `i`. -/
def buildFrames (perm : ℕ → ℕ → ℕ → List ℕ) : ℕ → ℕ → List (ℕ × List (List α)) → Py (List (List α))
  | 0, _, _ => .ok []
  | m + 1, i, d => do
    let r ← popFrames (perm i) d
    let ps ← buildFrames perm m (i + 1) r.2
    return r.1 :: ps

/-- `combinatorial_cross_validation_paths`, lines 372-451: the yielded list of paths, each as its list of rows.  `idx` and
`X` are the index and the rows of the features, `Y` the labelled rows of the targets. -/
def pathFrames [Field K] [LinearOrder K] (M : Learner S R L P K) (st : S) (idx : List ℤ) (X : List R) (Y : List (ℤ × T)) (lab : T → L)
    (p : Params) (pred eval : ℕ → ℤ) (perm : ℕ → ℕ → ℕ → List ℕ) : Py (List (List (PathRow P K T))) := do
  let bounds ← testFoldBounds X.length p.nGroups.toNat p.nTest.toNat
  let rounds ← split X.length p.nGroups.toNat p.nTest.toNat pred eval p.embargo
  let d ← roundsLoop M idx X Y lab st (bounds.zip rounds) []
  let nPaths ← computeBackTestPaths p.nSplits p.nTest
  buildFrames perm nPaths.toNat 0 d

end Mizar.CV
