import Verif.Model.Labeling
import Verif.Model.Bootstrapping
import Verif.Model.SampleWeights
import Verif.Py.Round

/-!
Parts of the numeric code with a rounding function `r` applied to the result of every arithmetic operation (`r` is
`roundBits 53` for `float64`; with `r = id` these are the exact models, see `Verif.Props.Rounded`).  Inputs are numbers:
missing prices and volatilities are treated in the exact models only.
-/

namespace Mizar.Rd

/-- `close_j / close_i - 1` (`/repo/mizarlabs/transformers/targets/labeling.py` lines 339, 399-403, 461). -/
def ret (r : ℚ → ℚ) (x y : ℚ) : ℚ := r (r (y / x) - 1)

/-- The first time in `[start, exp)` at which `breach` holds for the return times the side (`labeling.py` lines 327-357);
`none` if there is none. -/
def firstHit (r : ℚ → ℚ) (bars : List (ℤ × ℚ)) (start exp : ℤ) (x side : ℚ) (breach : ℚ → Bool) : Option ℤ :=
  ((bars.filter fun b => decide (start ≤ b.1) && decide (b.1 < exp)).filter fun b => breach (r (ret r x b.2 * side))).map (·.1)
    |>.min?

/-- `profit_taking_factor * vol`, if there is such a barrier (`labeling.py` lines 242-245). -/
def profitBarrier (r : ℚ → ℚ) (ptf vol : ℚ) : Option ℚ := if 0 < ptf then some (r (ptf * vol)) else none

/-- `-stop_loss_factor * vol`, if there is such a barrier (`labeling.py` lines 249-252). -/
def lossBarrier (r : ℚ → ℚ) (slf vol : ℚ) : Option ℚ := if 0 < slf then some (r (-slf * vol)) else none

/-- The times of the hits of the two barriers of one event (`labeling.py` lines 233-266, 327-357). -/
def hits (r : ℚ → ℚ) (bars : List (ℤ × ℚ)) (start exp : ℤ) (x side ptf slf vol : ℚ) : Option ℤ × Option ℤ :=
  (firstHit r bars start exp x side fun q => (profitBarrier r ptf vol).any fun b => decide (b < q),
   firstHit r bars start exp x side fun q => (lossBarrier r slf vol).any fun b => decide (q < b))

/-- Return and label of an event that ends at a bar with price `y` (`labeling.py` lines 399-431); `hit` says whether a
horizontal barrier was hit. -/
def labelOf (r : ℚ → ℚ) (metalabeling expirationLabel hit : Bool) (x y side : ℚ) : ℚ × Option ℚ :=
  let q := if metalabeling then r (ret r x y * side) else ret r x y
  (q,
   if expirationLabel && !hit then some 0
   else if metalabeling then (if 0 < q then some 1 else if q < 0 then some 0 else none)
   else some (if 0 < q then 1 else if q < 0 then -1 else 0))

/-- The earlier of the expiration and the hits (`labeling.py` lines 182-184). -/
def eventEnd (exp : ℤ) (h : Option ℤ × Option ℤ) : ℤ := min exp (min (h.1.getD exp) (h.2.getD exp))

/-- One event with a known expiration (`labeling.py` lines 158-200): end, return and label; times in milliseconds;
`none` for a `KeyError` of `close.loc`. -/
def event (r : ℚ → ℚ) (bars : List (ℤ × ℚ)) (metalabeling expirationLabel : Bool) (start exp : ℤ)
    (x side ptf slf vol : ℚ) : Option (ℤ × ℚ × Option ℚ) :=
  let h := hits r bars start exp x side ptf slf vol
  let t := eventEnd exp h
  (bars.find? fun b => b.1 == t).map fun b =>
    (t, labelOf r metalabeling expirationLabel (h.1.isSome || h.2.isSome) x b.2 side)

/-- Sum of an array from left to right with rounding. -/
def sum (r : ℚ → ℚ) (l : List ℚ) : ℚ := l.foldl (fun a b => r (a + b)) 0

/-- `calc_average_uniqueness` of sample `j` (`/repo/mizarlabs/model/bootstrapping.py` lines 81-95). -/
def averageUniqueness (r : ℚ → ℚ) (M : Boot.IndMat) (j : ℕ) : ℚ :=
  r (sum r ((Boot.colRows M j).map fun t => r (1 * r (1 / (Boot.rowSum M t : ℚ)))) / ((Boot.colRows M j).length : ℚ))

/-- Cumulative sums with rounding (`/repo/mizarlabs/transformers/sample_weights/__init__.py` line 131). -/
def cumsum (r : ℚ → ℚ) : ℚ → List ℚ → List ℚ
  | _, [] => []
  | a, x :: l => r (a + x) :: cumsum r (r (a + x)) l

/-- The decay of the cumulative uniqueness `x` with last value `last` (`sample_weights/__init__.py` lines 132-138). -/
def decay (r : ℚ → ℚ) (c last x : ℚ) : ℚ :=
  let slope := if 0 ≤ c then r (r (1 - c) / last) else r (1 / r (r (c + 1) * last))
  let const := r (1 - r (slope * last))
  let y := r (const + r (slope * x))
  if y < 0 then 0 else y

/-- The weights from the average uniqueness in the order of the index (`sample_weights/__init__.py` lines 131-140);
`none` for the `IndexError` of an empty series. -/
def timeDecay (r : ℚ → ℚ) (c : ℚ) (u : List ℚ) : Option (List ℚ) :=
  (cumsum r 0 u).getLast?.map fun last => (cumsum r 0 u).map (decay r c last)

end Mizar.Rd
