import Verif.Model.Features
import Verif.Model.Technical
import Verif.Py.Round

/-!
`rolling(w).sum()` and `rolling(w).mean()` with rounding: pandas does not add up every window, it carries one sum along,
takes the value that leaves the window out and puts the new one in, each with a compensation of its own (Kahan), see
`roll_sum` and `roll_mean` of `pandas/_libs/window/aggregations.pyx` (1.2 to 1.4; later versions treat a window of equal
values separately).  `r` rounds the result of every operation (`roundBits 53`; with `r = id` these are the windows of
`Verif/Py/Series.lean`, see `C131_exact`).  Infinities count as missing values (`_prep_values`); the sign of zero is not
modelled.  Then `VPIN` and `MovingAverageCrossOver` on top of them.
-/

namespace Mizar.Rd
variable {K : Type} [Field K] [LinearOrder K]

/-- Sum, the two compensations, number of values and of negative values in the window (`roll_mean`). -/
structure RollSt (K : Type) where
  s : K
  ca : K
  cr : K
  nobs : ℤ
  neg : ℤ

/-- Start of the loop. -/
def rollInit : RollSt K := ⟨0, 0, 0, 0, 0⟩

/-- `y = val - compensation; t = sum_x + y; compensation = t - sum_x - y; sum_x = t`. -/
def kahanAdd (r : K → K) (s c v : K) : K × K :=
  let y := r (v - c)
  let t := r (s + y)
  (t, r (r (t - s) - y))

/-- `add_mean` (and `add_sum`): missing values are passed over. -/
def rollAdd (r : K → K) (st : RollSt K) : XF K → RollSt K
  | .fin v =>
    let k := kahanAdd r st.s st.ca v
    { st with s := k.1, ca := k.2, nobs := st.nobs + 1, neg := st.neg + if v < 0 then 1 else 0 }
  | _ => st

/-- `remove_mean` (and `remove_sum`). -/
def rollRemove (r : K → K) (st : RollSt K) : XF K → RollSt K
  | .fin v =>
    let k := kahanAdd r st.s st.cr (-v)
    { st with s := k.1, cr := k.2, nobs := st.nobs - 1, neg := st.neg - if v < 0 then 1 else 0 }
  | _ => st

/-- The loop body for position `i`: first the value that leaves the window, then the new one. -/
def rollStep (r : K → K) (w : ℕ) (l : List (XF K)) (st : RollSt K) (i : ℕ) : RollSt K :=
  rollAdd r (if w ≤ i then rollRemove r st (l.getD (i - w) .nan) else st) (l.getD i .nan)

/-- State before position `i`. -/
def rollState (r : K → K) (w : ℕ) (l : List (XF K)) : ℕ → RollSt K
  | 0 => rollInit
  | i + 1 => rollStep r w l (rollState r w l i) i

/-- `calc_sum` with `minp = w`. -/
def calcSum (w : ℕ) (st : RollSt K) : XF K := if (w : ℤ) ≤ st.nobs then .fin st.s else .nan

/-- `calc_mean` with `minp = w`: the sign of the result is put right if all values have the same sign. -/
def calcMean (r : K → K) (w : ℕ) (st : RollSt K) : XF K :=
  if (w : ℤ) ≤ st.nobs ∧ 0 < st.nobs then
    let q := r (st.s / (st.nobs : K))
    if st.neg = 0 ∧ q < 0 then .fin 0 else if st.neg = st.nobs ∧ 0 < q then .fin 0 else .fin q
  else .nan

/-- `series.rolling(w).sum()` for `w ≥ 1`. -/
def rollSum (r : K → K) (w : ℕ) (l : List (XF K)) : List (XF K) :=
  (List.range l.length).map fun i => calcSum w (rollState r w l (i + 1))

/-- `series.rolling(w).mean()` for `w ≥ 1`. -/
def rollMean (r : K → K) (w : ℕ) (l : List (XF K)) : List (XF K) :=
  (List.range l.length).map fun i => calcMean r w (rollState r w l (i + 1))

/-- Rounding of a result. -/
def rnd (r : K → K) : XF K → XF K
  | .fin x => .fin (r x)
  | x => x

/-- `VPIN.transform` (`/repo/mizarlabs/transformers/microstructural_features/vpin.py` lines 58-76) on the three columns. -/
def vpin (r : K → K) (w : ℕ) (volume buy sell : List (XF K)) : List (XF K) :=
  let total := rollSum r w volume
  let d := rollSum r w ((List.zipWith (fun b s => rnd r (XF.sub b s)) buy sell).map XF.abs)
  Feat.fillFrom w (List.zipWith (fun d t => rnd r (XF.div d t)) d total)

/-- `MovingAverageCrossOver.transform` (`/repo/mizarlabs/transformers/technical/moving_average.py` lines 52-79) on the index
and the column. -/
def crossOver (r : K → K) (fast slow : ℕ) (fill : Bool) (index : List ℤ) (c : List (XF K)) : List (XF K) :=
  let fa := rollMean r fast c
  let sl := rollMean r slow c
  let down := Tech.downCross index fa sl
  let up := Tech.upCross index fa sl
  let side := index.map fun t =>
    if t ∈ up then .fin 1 else if t ∈ down then .fin (-1) else if fill then .nan else .fin 0
  (pdFfill side).map (fillna1 (.fin 0))

end Mizar.Rd
