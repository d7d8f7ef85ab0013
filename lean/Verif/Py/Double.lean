import Verif.Py.Round
import Verif.Py.XF

/-!
Binary floating point with a bounded exponent (IEEE 754, round to nearest, ties to even): results below the smallest normal number lose
bits (gradual underflow), results from `2^emax` on are infinite.  This is the arithmetic of every float operation of the code in
`/repo/mizarlabs`; `Verif.Py.Round` is the same without bounds on the exponent.
-/

namespace Mizar

/-- A format: `p` bits, smallest positive number `2^emin`, first power of two `2^emax` that is too large. -/
structure Fmt where
  p : ℕ
  emin : ℤ
  emax : ℤ

/-- `float64`. -/
def binary64 : Fmt := ⟨53, -1074, 1024⟩

/-- `float32`. -/
def binary32 : Fmt := ⟨24, -149, 128⟩

/-- Rounding with gradual underflow. -/
def Fmt.round (f : Fmt) (q : ℚ) : ℚ :=
  if q = 0 then 0
  else
    let e : ℤ := max f.emin (Int.log 2 |q| - ((f.p : ℤ) - 1))
    (roundHalfEven (q / 2 ^ e) : ℚ) * 2 ^ e

/-- The float nearest to a number, infinite if it is too large. -/
def Fmt.float (f : Fmt) (q : ℚ) : XF ℚ :=
  if 2 ^ f.emax ≤ f.round q then .pinf else if f.round q ≤ -2 ^ f.emax then .ninf else .fin (f.round q)

/-- The finite numbers of a format. -/
def Fmt.Has (f : Fmt) (x : ℚ) : Prop := (∃ m e : ℤ, |m| < 2 ^ f.p ∧ f.emin ≤ e ∧ x = m * 2 ^ e) ∧ |x| < 2 ^ f.emax

/-- The result of an operation on floats: `g` rounds finite results. -/
def XF.rounded {K : Type*} (g : K → XF K) : XF K → XF K
  | .fin x => g x
  | y => y

end Mizar
