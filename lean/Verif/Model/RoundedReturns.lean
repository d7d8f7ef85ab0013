import Verif.Model.SampleWeights
import Verif.Model.RoundedHighLow

/-!
`SampleWeightsByReturns` (`/repo/mizarlabs/transformers/sample_weights/__init__.py` lines 35-97) with rounding.  `r` rounds the
result of every operation, `lg` is the rounded logarithm and `sm` is `np.sum` of an array without missing values: numpy adds up short
arrays from left to right and longer ones in blocks and pairs, so the order of the additions is left open (`AddTree`).
-/

namespace Mizar.Rd
variable {K : Type} [Field K] [LinearOrder K]

/-- An order in which the numbers of an array are added up. -/
inductive AddTree (K : Type) where
  | leaf (x : K)
  | node (a b : AddTree K)

/-- The numbers that are added up. -/
def AddTree.leaves : AddTree K → List K
  | .leaf x => [x]
  | .node a b => a.leaves ++ b.leaves

/-- The sum with one rounding for each addition. -/
def AddTree.eval (r : K → K) : AddTree K → K
  | .leaf x => x
  | .node a b => r (a.eval r + b.eval r)

/-- The greatest number of additions a number goes through. -/
def AddTree.depth : AddTree K → ℕ
  | .leaf _ => 0
  | .node a b => max a.depth b.depth + 1

/-- `np.nansum` (`__init__.py` line 95): missing values count 0, which changes nothing in a sum. -/
def nansumR (sm : List K → K) (l : List (XF K)) : XF K :=
  if XF.pinf ∈ l then (if XF.ninf ∈ l then .nan else .pinf)
  else if XF.ninf ∈ l then .ninf
  else .fin (sm (l.filterMap fun x => match x with | .fin y => some y | _ => none))

/-- `SampleWeightsByReturns._calculate_weights` (`__init__.py` lines 64-97); times in milliseconds. -/
def calculateWeightsR (r : K → K) (sm : List K → K) (bars ends : List ℤ) (conc rets : List (XF K)) : List (XF K) :=
  (bars.zip ends).map fun p =>
    XF.abs (nansumR sm (((bars.zip (rets.zip conc)).filter fun b => decide (p.1 ≤ b.1) && decide (b.1 ≤ p.2)).map
      fun b => rnd r (XF.div b.2.1 b.2.2)))

/-- `SampleWeightsByReturns.transform` (`__init__.py` lines 35-62) on rows of index, event end and close price.  The numbers of
concurrent events are whole numbers. -/
def weightsByReturnsR (r lg : K → K) (sm : List K → K) (X : List (ℤ × Option ℤ × XF K)) : Py (List (ℤ × XF K)) :=
  match Boot.getIndMatrix (X.map fun x => (some x.1, x.2.1)) (X.map (·.1)) with
  | .error e => .error e
  | .ok (M, bi) =>
    let conc := X.map fun x => XF.fin (Boot.rowSum M (bi.idxOf x.1) : K)
    let rets := diffR r (X.map fun x => logR lg x.2.2)
    .ok ((X.map (·.1)).zip (calculateWeightsR r sm (X.map fun x => Lab.convertToTimestamp (some x.1))
      (X.map fun x => Lab.convertToTimestamp x.2.1) conc rets))

end Mizar.Rd
