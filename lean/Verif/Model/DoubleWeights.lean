import Verif.Model.DoubleBet
import Verif.Model.RoundedReturns

/-!
Average uniqueness and sample weights with every arithmetic operation followed by `g`, which rounds a finite result and may make it
infinite (`g = binary64.float` for `float64`); the functions are those of `Verif.Model.Rounded` and `Verif.Model.RoundedReturns`.
-/

namespace Mizar.Rd

/-- `calc_average_uniqueness` of sample `j` (`/repo/mizarlabs/model/bootstrapping.py` lines 81-95). -/
def averageUniquenessD (g : ℚ → XF ℚ) (M : Boot.IndMat) (j : ℕ) : XF ℚ :=
  XF.rounded g (XF.div (sumD g ((Boot.colRows M j).map fun t =>
      XF.rounded g (XF.mul (.fin 1) (XF.rounded g (XF.div (.fin 1) (.fin (Boot.rowSum M t : ℚ)))))))
    (.fin ((Boot.colRows M j).length : ℚ)))

/-- Cumulative sums (`/repo/mizarlabs/transformers/sample_weights/__init__.py` line 131) of values that are not missing. -/
def cumsumD (g : ℚ → XF ℚ) : XF ℚ → List (XF ℚ) → List (XF ℚ)
  | _, [] => []
  | a, x :: l => XF.rounded g (XF.add a x) :: cumsumD g (XF.rounded g (XF.add a x)) l

/-- The decay of the cumulative uniqueness `x` with last value `last` (`sample_weights/__init__.py` lines 132-138). -/
def decayD (g : ℚ → XF ℚ) (c : ℚ) (last x : XF ℚ) : XF ℚ :=
  let slope :=
    if 0 ≤ c then XF.rounded g (XF.div (g (1 - c)) last)
    else XF.rounded g (XF.div (.fin 1) (XF.rounded g (XF.mul (g (c + 1)) last)))
  let const := XF.rounded g (XF.sub (.fin 1) (XF.rounded g (XF.mul slope last)))
  let y := XF.rounded g (XF.add const (XF.rounded g (XF.mul slope x)))
  if XF.lt y (.fin 0) then .fin 0 else y

/-- The weights from the average uniqueness in the order of the index (`sample_weights/__init__.py` lines 131-140);
`none` for the `IndexError` of an empty series. -/
def timeDecayD (g : ℚ → XF ℚ) (c : ℚ) (u : List (XF ℚ)) : Option (List (XF ℚ)) :=
  (cumsumD g (.fin 0) u).getLast?.map fun last => (cumsumD g (.fin 0) u).map (decayD g c last)

/-- The numbers of an array in the places of the positions of an order of addition. -/
def AddTree.place {K : Type} (f : ℕ → K) : AddTree ℕ → AddTree K
  | .leaf i => .leaf (f i)
  | .node a b => .node (a.place f) (b.place f)

/-- The sum with one operation for each addition. -/
def AddTree.evalD (g : ℚ → XF ℚ) : AddTree (XF ℚ) → XF ℚ
  | .leaf x => x
  | .node a b => XF.rounded g (XF.add (a.evalD g) (b.evalD g))

/-- `np.sum`: the order in which the positions of an array are added up, `ord`, depends on its length. -/
def orderSum (r : ℚ → ℚ) (ord : ℕ → AddTree ℕ) (l : List ℚ) : ℚ :=
  if l = [] then 0 else ((ord l.length).place fun i => l.getD i 0).eval r

/-- `np.sum` in the same order. -/
def orderSumD (g : ℚ → XF ℚ) (ord : ℕ → AddTree ℕ) (l : List (XF ℚ)) : XF ℚ :=
  if l = [] then .fin 0 else ((ord l.length).place fun i => l.getD i (.fin 0)).evalD g

/-- `np.nansum` (`sample_weights/__init__.py` line 95): missing values count 0, which changes nothing in a sum. -/
def nansumD (g : ℚ → XF ℚ) (ord : ℕ → AddTree ℕ) (l : List (XF ℚ)) : XF ℚ := orderSumD g ord (l.filter fun x => !x.isNan)

/-- `SampleWeightsByReturns._calculate_weights` (`sample_weights/__init__.py` lines 64-97); times in milliseconds. -/
def calculateWeightsD (g : ℚ → XF ℚ) (ord : ℕ → AddTree ℕ) (bars ends : List ℤ) (conc rets : List (XF ℚ)) : List (XF ℚ) :=
  (bars.zip ends).map fun p =>
    XF.abs (nansumD g ord (((bars.zip (rets.zip conc)).filter fun b => decide (p.1 ≤ b.1) && decide (b.1 ≤ p.2)).map
      fun b => XF.rounded g (XF.div b.2.1 b.2.2)))

/-- `SampleWeightsByReturns.transform` (`sample_weights/__init__.py` lines 35-62) on rows of index, event end and close price. -/
def weightsByReturnsD (g : ℚ → XF ℚ) (lg : ℚ → ℚ) (ord : ℕ → AddTree ℕ) (X : List (ℤ × Option ℤ × XF ℚ)) : Py (List (ℤ × XF ℚ)) :=
  match Boot.getIndMatrix (X.map fun x => (some x.1, x.2.1)) (X.map (·.1)) with
  | .error e => .error e
  | .ok (M, bi) =>
    let conc := X.map fun x => XF.fin (Boot.rowSum M (bi.idxOf x.1) : ℚ)
    let rets := (pdDiff (X.map fun x => logR lg x.2.2)).map (XF.rounded g)
    .ok ((X.map (·.1)).zip (calculateWeightsD g ord (X.map fun x => Lab.convertToTimestamp (some x.1))
      (X.map fun x => Lab.convertToTimestamp x.2.1) conc rets))

end Mizar.Rd
