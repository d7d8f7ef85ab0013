import Verif.Model.ModelSelection

/-!
`CombPurgedKFoldCV.split` of `/repo/mizarlabs/model/model_selection.py` (lines 172-195) as what it is: a generator function.
Nothing happens before the first `next`; every later `next` runs to the following `yield`.  All generators of one
cross-validator read the attribute `self.indices`, which the first `next` of each of them overwrites (line 157).
-/

namespace Mizar.CV

/-- A generator made by `split(X)`: not started (with the number of rows of its `X`), suspended at a `yield` with the fold
bounds still to come (line 186), or finished. -/
inductive Gen
  | notStarted (rows : ℕ)
  | running (rest : List (List (ℕ × ℕ)))
  | finished
  deriving DecidableEq, Repr

/-- What a call of `next` gives: a round, `StopIteration`, or another exception. -/
inductive Out
  | yield (r : List ℕ × List ℕ)
  | stop
  | raise (e : PyErr)
  deriving DecidableEq, Repr

/-- The cross-validator and the generators made from it: the length of `self.indices` (`np.arange` of it, line 157; the
attribute does not exist before the first use, but no round is computed then) and the generators, by number. -/
structure GenState where
  cur : ℕ
  gens : ℕ → Gen

/-- The step of `_compute_train_set` for one block (lines 213-220) when `self.indices` has length `cur` and both time series
have `m` rows.  `pred_times.iloc[fold_start]` (line 325) raises `IndexError` outside the series, and so does the boolean mask
of line 328 if its length `m` is not that of `self.indices`; after that `cur = m`. -/
def blockNow (m cur : ℕ) (pred eval : ℕ → ℤ) (emb : ℤ) (test train : List ℕ) (b : ℕ × ℕ) : Py (List ℕ) :=
  if m ≤ b.1 then .error .indexError
  else if cur ≠ m then .error .indexError
  else .ok (embargo cur pred eval emb (purge cur pred eval train b.1 b.2) test b.2)

/-- One round of `split` (lines 187-195) with the present value of `self.indices`. -/
def roundNow (m cur : ℕ) (pred eval : ℕ → ℤ) (emb : ℤ) (fbl : List (ℕ × ℕ)) : Py (List ℕ × List ℕ) := do
  let t := computeTestSet cur fbl
  let train ← t.1.foldlM (blockNow m cur pred eval emb t.2) (npSetdiff1d (List.range cur) t.2)
  return (train, t.2)

/-- The loop of `split` (lines 186-195) up to the next `yield`: an exception ends the generator. -/
def resume (m cur : ℕ) (pred eval : ℕ → ℤ) (emb : ℤ) : List (List (ℕ × ℕ)) → Gen × Out
  | [] => (.finished, .stop)
  | fbl :: rest =>
    match roundNow m cur pred eval emb fbl with
    | .ok r => (.running rest, .yield r)
    | .error e => (.finished, .raise e)

/-- `next` on generator `i` (lines 184-195): the first one sets `self.indices` (line 157), even if the fold bounds cannot be
computed. -/
def nextGen (m g k : ℕ) (pred eval : ℕ → ℤ) (emb : ℤ) (s : GenState) (i : ℕ) : GenState × Out :=
  match s.gens i with
  | .finished => (s, .stop)
  | .running rest =>
    let r := resume m s.cur pred eval emb rest
    (⟨s.cur, Function.update s.gens i r.1⟩, r.2)
  | .notStarted n =>
    match testFoldBounds n g k with
    | .error e => (⟨n, Function.update s.gens i .finished⟩, .raise e)
    | .ok sel =>
      let r := resume m n pred eval emb sel
      (⟨n, Function.update s.gens i r.1⟩, r.2)

/-- A sequence of `next` calls on the generators of one cross-validator, with what each of them gives. -/
def runGens (m g k : ℕ) (pred eval : ℕ → ℤ) (emb : ℤ) : GenState → List ℕ → List (ℕ × Out)
  | _, [] => []
  | s, i :: sched =>
    let r := nextGen m g k pred eval emb s i
    (i, r.2) :: runGens m g k pred eval emb r.1 sched

/-- `gens = [cv.split(X) for X in …]` with `rows i` rows in the `i`-th, none of them started. -/
def startGens (rows : ℕ → ℕ) : GenState := ⟨0, fun i => .notStarted (rows i)⟩

/-- What the calls of `next` on generator `i` gave, in order. -/
def outsOf (i : ℕ) (tr : List (ℕ × Out)) : List Out := (tr.filter fun p => p.1 = i).map Prod.snd

end Mizar.CV
