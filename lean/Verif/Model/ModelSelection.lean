import Mathlib.Data.Nat.Factorial.Basic
import Verif.Py.Num

/-!
Model of `/repo/mizarlabs/model/model_selection.py`.

Simplifications common to the whole file: samples are identified with their positions
`0 .. n-1`; `pred_times.iloc[i]` and `eval_times.iloc[i]` are integer time stamps given by
functions `pred eval : ℕ → ℤ` used only at positions `< n` (the class documentation requires
both series to share the index of `X`); missing times (NaT) are not modelled here.
-/

namespace Mizar.CV

/-- `math.factorial(z)`: `ValueError` on negative arguments (line 368). -/
def pyFactorial (z : ℤ) : Py ℤ :=
  if z < 0 then .error .valueError else .ok (Nat.factorial z.toNat : ℤ)

/-- The parameters stored by a successful construction (lines 105-147). -/
structure Params where
  nGroups : ℤ
  nTest : ℤ
  nSplits : ℤ
  embargo : ℤ
  deriving DecidableEq, Repr

/-- `CombPurgedKFoldCV.__init__`, model_selection.py lines 105-147, together with the check
`n_splits <= 1 → ValueError` of scikit-learn's `_BaseKFold.__init__` reached through
lines 38-42 and 121.  The `isinstance` checks (lines 44-47, 122-127, 137-142) are settled by
typing: both counts are integers, the embargo is an integer number of nanoseconds and both time
series are series. -/
def init (nGroups nTest embargo : ℤ) : Py Params := do
  let a ← pyFactorial nGroups
  let b ← pyFactorial nTest
  let c ← pyFactorial (nGroups - nTest)
  let nSplits ← pyIntTrueDiv a (b * c)
  if nSplits ≤ 1 then throw .valueError
  if nTest ≤ 0 ∨ nTest > nGroups - 1 then throw .valueError
  if embargo < 0 then throw .valueError
  return ⟨nGroups, nTest, nSplits, embargo⟩

/-- Cut a list into consecutive pieces of the given sizes (lines 160-163). -/
def splitSizes {α : Type*} : List ℕ → List α → List (List α)
  | [], _ => []
  | s :: ss, l => l.take s :: splitSizes ss (l.drop s)

/-- `np.array_split(l, g)` for `g ≥ 1`: `len(l) % g` pieces of size `len(l) // g + 1` followed by
pieces of size `len(l) // g` (lines 160-163). -/
def arraySplit {α : Type*} (l : List α) (g : ℕ) : List (List α) :=
  splitSizes (List.replicate (l.length % g) (l.length / g + 1) ++
    List.replicate (g - l.length % g) (l.length / g)) l

/-- `(fold[0], fold[-1] + 1)` of line 161; `IndexError` on an empty fold. -/
def boundsOf (fold : List ℕ) : Py (ℕ × ℕ) :=
  match fold.head?, fold.getLast? with
  | some a, some b => .ok (a, b + 1)
  | _, _ => .error .indexError

/-- `fold_bounds` of `_test_fold_bounds`, lines 157-163. -/
def foldBounds (n g : ℕ) : Py (List (ℕ × ℕ)) :=
  (arraySplit (List.range n) g).mapM boundsOf

/-- `itertools.combinations(l, k)` in its (lexicographic) order (line 166). -/
def combinations {α : Type*} : ℕ → List α → List (List α)
  | 0, _ => [[]]
  | _ + 1, [] => []
  | k + 1, x :: xs => (combinations k xs).map (x :: ·) ++ combinations (k + 1) xs

/-- `_test_fold_bounds`, lines 149-170. -/
def testFoldBounds (n g k : ℕ) : Py (List (List (ℕ × ℕ))) := do
  let fb ← foldBounds n g
  return (combinations k fb).reverse

/-- `_compute_test_set`, lines 222-251: one step of the loop over `fold_bound_list`.  The list of
merged bounds is kept in reverse order, so that `test_fold_bounds[-1]` is its head. -/
def testSetStep (n : ℕ) (acc : List (ℕ × ℕ) × List ℕ) (b : ℕ × ℕ) : List (ℕ × ℕ) × List ℕ :=
  let bounds :=
    match acc.1 with
    | [] => [b]
    | last :: rest => if b.1 ≠ last.2 then b :: last :: rest else (last.1, b.2) :: rest
  (bounds, npUnion1d acc.2 (((List.range n).take b.2).drop b.1))

/-- `_compute_test_set`, lines 222-251: merged bounds (in order) and the test positions. -/
def computeTestSet (n : ℕ) (foldBoundList : List (ℕ × ℕ)) : List (ℕ × ℕ) × List ℕ :=
  let r := foldBoundList.foldl (testSetStep n) ([], [])
  (r.1.reverse, r.2)

/-- `purge`, lines 301-334. -/
def purge (n : ℕ) (pred eval : ℕ → ℤ) (train : List ℕ) (fs fe : ℕ) : List ℕ :=
  let timeTestFoldStart := pred fs
  let train1 := npIntersect1d train ((List.range n).filter (fun i => decide (eval i < timeTestFoldStart)))
  let train2 := npIntersect1d train ((List.range n).drop fe)
  train1 ++ train2

/-- `embargo`, lines 254-298.  `test_indices[:test_fold_end]` is a positional slice of the array of
test positions.  The maximum of an empty selection is NaT, no prediction time is `<= NaT`, hence
`min_train_index = 0`. -/
def embargo (n : ℕ) (pred eval : ℕ → ℤ) (emb : ℤ) (train test : List ℕ) (fe : ℕ) : List ℕ :=
  let minTrainIndex : ℕ :=
    match ((test.take fe).map eval).max? with
    | none => 0
    | some lastTestEvalTime =>
        ((List.range n).filter (fun i => decide (pred i ≤ lastTestEvalTime + emb))).length
  if minTrainIndex < n then
    npIntersect1d train ((List.range n).take fe ++ (List.range n).drop minTrainIndex)
  else train

/-- `_compute_train_set`, lines 197-220. -/
def computeTrainSet (n : ℕ) (pred eval : ℕ → ℤ) (emb : ℤ) (bounds : List (ℕ × ℕ))
    (test : List ℕ) : List ℕ :=
  bounds.foldl
    (fun train b => embargo n pred eval emb (purge n pred eval train b.1 b.2) test b.2)
    (npSetdiff1d (List.range n) test)

/-- One round of `split`, lines 189-195: `(train_indices, test_indices)`. -/
def splitRound (n : ℕ) (pred eval : ℕ → ℤ) (emb : ℤ) (fbl : List (ℕ × ℕ)) : List ℕ × List ℕ :=
  let t := computeTestSet n fbl
  (computeTrainSet n pred eval emb t.1 t.2, t.2)

/-- `split`, lines 172-195, as the list of all yielded rounds. -/
def split (n g k : ℕ) (pred eval : ℕ → ℤ) (emb : ℤ) : Py (List (List ℕ × List ℕ)) := do
  let sel ← testFoldBounds n g k
  return sel.map (splitRound n pred eval emb)

/-- `compute_back_test_paths`, lines 348-368.  `range(1, k)` is empty for `k <= 1`. -/
def computeBackTestPaths (nSplits nTest : ℤ) : Py ℤ := do
  let den : ℤ := (List.range (nTest - 1).toNat).foldl
    (fun (d : ℤ) (i : ℕ) => d * (nSplits - ((i : ℤ) + 1))) 1
  let f ← pyFactorial (nTest - 1)
  pyIntTrueDiv den f

/-- A prediction block: the round it was predicted in and its fold bounds (`tmp_df`, lines 420-428).
The data of the block (index `X.index[part_test]`, predictions) is determined by these. -/
structure Block where
  roundIdx : ℕ
  bound : ℕ × ℕ
  deriving DecidableEq, Repr

/-- Insertion-ordered dictionary `bound_pred_dict` from fold start to the list of blocks (lines 398, 432-435). -/
abbrev BlockDict := List (ℕ × List Block)

/-- `if k not in d: d[k] = []; d[k].append(b)`, lines 432-435. -/
def dictAppend (d : BlockDict) (key : ℕ) (b : Block) : BlockDict :=
  match d with
  | [] => [(key, [b])]
  | (k', l) :: rest => if k' = key then (k', l ++ [b]) :: rest else (k', l) :: dictAppend rest key b

/-- Lines 397-435: all blocks, grouped by fold start, from the selected fold bounds of all rounds
(the fitted models themselves are not modelled). -/
def collectBlocks (sel : List (List (ℕ × ℕ))) : BlockDict :=
  (sel.zipIdx).foldl
    (fun d (r : List (ℕ × ℕ) × ℕ) =>
      r.1.foldl (fun d b => dictAppend d b.1 ⟨r.2, b⟩) d) []

/-- Body of the loop over the keys, lines 444-447: shuffle, pop the last element
(`IndexError` on an empty list), append it to the path.  `shuf key l` is the outcome of
`random.shuffle` at this point. -/
def popPath (shuf : ℕ → List Block → List Block) : BlockDict → Py (List Block × BlockDict)
  | [] => .ok ([], [])
  | (k, l) :: rest =>
    match (shuf k l).reverse with
    | [] => .error .indexError
    | b :: l' => do
      let r ← popPath shuf rest
      return (b :: r.1, (k, l'.reverse) :: r.2)

/-- Lines 442-449: the loop over the paths; `shuf i` are the shuffle outcomes in iteration `i`. -/
def buildPaths (shuf : ℕ → ℕ → List Block → List Block) : ℕ → ℕ → BlockDict → Py (List (List Block))
  | 0, _, _ => .ok []
  | m + 1, i, d => do
    let r ← popPath (shuf i) d
    let ps ← buildPaths shuf m (i + 1) r.2
    return r.1 :: ps

/-- `combinatorial_cross_validation_paths`, lines 372-451, for a constructed cross-validator.  The
result is the single yielded list of paths, a path being its list of blocks.  Fitting and
predicting are not modelled.  `range(n_paths)` of a negative count is empty. -/
def combinatorialPaths (n : ℕ) (p : Params) (shuf : ℕ → ℕ → List Block → List Block) :
    Py (List (List Block)) := do
  let sel ← testFoldBounds n p.nGroups.toNat p.nTest.toNat
  let nPaths ← computeBackTestPaths p.nSplits p.nTest
  buildPaths shuf nPaths.toNat 0 (collectBlocks sel)

end Mizar.CV
