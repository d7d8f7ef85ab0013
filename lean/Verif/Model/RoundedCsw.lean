import Verif.Model.Csw
import Verif.Model.RoundedReturns

/-!
The Chu-Stinchcombe-White test (`/repo/mizarlabs/structural_breaks/cusum_chu_stinchcome_white.py` lines 15-126) with rounding.  `r` rounds
the result of every operation, also the conversion of a whole number, `lg` and `sq` are the rounded logarithm and square root, `sm` is
`np.sum` of an array without missing values, whose order of additions is left open.  The exponent is unbounded and the sign of zero is
not modelled.
-/

namespace Mizar.Rd
open Mizar.Brk (ErrModel)
variable {K : Type} [Field K] [LinearOrder K]

/-- `np.sum` of any array; with a missing value or an infinity the order of the additions does not matter. -/
def npSumR (sm : List K → K) (l : List (XF K)) : XF K := if l.any XF.undef then XF.sum l else .fin (sm (l.map XF.toK))

/-- Division of floats (`cusum_chu_stinchcome_white.py` line 53). -/
def divR (em : ErrModel) (r : K → K) (a b : XF K) : Py (XF K) :=
  if em = .python ∧ XF.beq b (.fin 0) = true then .error .zeroDivisionError else .ok (rnd r (XF.div a b))

/-- `get_y_t_y_n_diff` (`cusum_chu_stinchcome_white.py` lines 67-87). -/
def yDiffR (r : K → K) (side : String) (yt yn : XF K) : XF K :=
  if side = "one_sided_positive" then rnd r (XF.sub yt yn)
  else if side = "one_sided_negative" then rnd r (XF.sub yn yt)
  else XF.abs (rnd r (XF.sub yt yn))

/-- `np.sum(np.square(np.diff(array_t))) / (t - 1)` (`cusum_chu_stinchcome_white.py` line 40), with `t` at least 2. -/
def sigmaSqR (r : K → K) (sm : List K → K) (l : List (XF K)) (t : ℕ) : XF K :=
  rnd r (XF.div (npSumR sm ((List.zipWith (fun a b => rnd r (XF.sub a b)) l.tail l).map (squareR r))) (.fin (r ((t : K) - 1))))

/-- The inner loop (`cusum_chu_stinchcome_white.py` lines 48-59) from position `j` on, with the current maximum and critical value; `b`
is the float 4.6 of line 30. -/
def innerR (em : ErrModel) (r sq lg : K → K) (b : K) (side : String) (sigma : XF K) (t : ℕ) (yt : XF K) :
    ℕ → List (XF K) → XF K × XF K → Py (XF K × XF K)
  | _, [], st => .ok st
  | j, y :: l, st => do
    let n := j + 1
    let s ← divR em r (yDiffR r side yt y) (sqrtR sq (rnd r (XF.mul sigma (.fin (r ((t : K) - n))))))
    innerR em r sq lg b side sigma t yt (j + 1) l
      (if XF.lt st.1 s then (s, sqrtR sq (rnd r (XF.add (.fin b) (logR lg (.fin (r ((t : K) - n))))))) else st)

/-- One iteration of the outer loop (`cusum_chu_stinchcome_white.py` lines 37-63). -/
def statAtR (em : ErrModel) (r sq lg : K → K) (sm : List K → K) (b : K) (side : String) (y : List (XF K)) (t : ℕ) : Py (XF K × XF K) :=
  innerR em r sq lg b side (sigmaSqR r sm (y.take t) t) t ((y.take t).getD (t - 1) .nan) 0 (y.take (t - 1)) (.ninf, .nan)

/-- `ChuStinchcombeWhiteStatTest.run` (`cusum_chu_stinchcome_white.py` lines 109-126): rows of index, statistic and critical value. -/
def cswRunR (em : ErrModel) (r sq lg : K → K) (sm : List K → K) (b : K) (side : String) (s : List (ℤ × XF K)) :
    Py (List (ℤ × XF K × XF K)) := do
  let v ← mapE (statAtR em r sq lg sm b side (s.map (·.2))) ((List.range (s.length - 1)).map fun i => i + 2)
  .ok (List.zip (s.map (·.1)).tail v)

end Mizar.Rd
