import Verif.Py.Feature
import Verif.Py.XReal

/-!
Model of `/repo/mizarlabs/structural_breaks/cusum_chu_stinchcome_white.py`.

The functions are compiled by numba.  The outer `prange` loop writes one row per iteration and reads nothing another
iteration writes; the inner `prange` runs one iteration after the other, since numba only runs the outermost loop of a
nest in parallel.  Division of a float by zero raises in numba's default error model and follows NumPy in the other,
so the error model is a parameter.
-/

set_option linter.unusedSectionVars false

namespace Mizar.Brk

/-- The two error models of numba (`cusum_chu_stinchcome_white.py` lines 15, 67). -/
inductive ErrModel
  | python | numpy
  deriving DecidableEq

/-- Division of floats (`cusum_chu_stinchcome_white.py` line 40). -/
noncomputable def divE (em : ErrModel) (a b : XF ℝ) : Py (XF ℝ) :=
  if em = .python ∧ XF.beq b (.fin 0) = true then .error .zeroDivisionError else .ok (XF.div a b)

/-- `get_y_t_y_n_diff` (`cusum_chu_stinchcome_white.py` lines 67-87). -/
noncomputable def yDiff (side : String) (yt yn : XF ℝ) : XF ℝ :=
  if side = "one_sided_positive" then XF.sub yt yn
  else if side = "one_sided_negative" then XF.sub yn yt
  else XF.abs (XF.sub yt yn)

/-- `np.sum(np.square(np.diff(array_t))) / (t - 1)` (`cusum_chu_stinchcome_white.py` line 40), with `t` at least 2. -/
noncomputable def sigmaSq (l : List (XF ℝ)) (t : ℕ) : XF ℝ :=
  XF.div (XF.sum ((List.zipWith XF.sub l.tail l).map fun x => XF.mul x x)) (.fin ((t : ℝ) - 1))

/-- The inner loop (`cusum_chu_stinchcome_white.py` lines 48-59) from position `j` on, with the current maximum and
critical value. -/
noncomputable def inner (em : ErrModel) (side : String) (sigma : XF ℝ) (t : ℕ) (yt : XF ℝ) :
    ℕ → List (XF ℝ) → XF ℝ × XF ℝ → Py (XF ℝ × XF ℝ)
  | _, [], st => .ok st
  | j, y :: l, st => do
    let n := j + 1
    let s ← divE em (yDiff side yt y) (XF.sqrt (XF.mul sigma (.fin ((t : ℝ) - n))))
    inner em side sigma t yt (j + 1) l
      (if XF.lt st.1 s then (s, XF.sqrt (XF.add (.fin 4.6) (XF.log (.fin ((t : ℝ) - n))))) else st)

/-- One iteration of the outer loop (`cusum_chu_stinchcome_white.py` lines 37-63). -/
noncomputable def statAt (em : ErrModel) (side : String) (y : List (XF ℝ)) (t : ℕ) : Py (XF ℝ × XF ℝ) :=
  inner em side (sigmaSq (y.take t) t) t ((y.take t).getD (t - 1) .nan) 0 (y.take (t - 1)) (.ninf, .nan)

/-- `ChuStinchcombeWhiteStatTest.__init__` (`cusum_chu_stinchcome_white.py` lines 103-107). -/
def checkSide (side : String) : Py Unit :=
  if side ∈ ["one_sided_negative", "one_sided_positive", "two_sided"] then .ok () else .error .assertionError

/-- `ChuStinchcombeWhiteStatTest.run` (`cusum_chu_stinchcome_white.py` lines 109-126): rows of index, statistic and
critical value. -/
noncomputable def cswRun (em : ErrModel) (side : String) (s : List (ℤ × XF ℝ)) : Py (List (ℤ × XF ℝ × XF ℝ)) := do
  let v ← mapE (statAt em side (s.map (·.2))) ((List.range (s.length - 1)).map fun i => i + 2)
  .ok (List.zip (s.map (·.1)).tail v)

end Mizar.Brk
