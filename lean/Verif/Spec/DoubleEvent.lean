import Verif.Py.Double

/-! A number as a format with a bounded exponent shows it: infinite from `2^emax` on. -/

namespace Mizar.Spec

/-- `q` if it is below `2^emax` in size, otherwise the infinity of its sign. -/
def bounded (f : Fmt) (q : ℚ) : XF ℚ := if 2 ^ f.emax ≤ q then .pinf else if q ≤ -2 ^ f.emax then .ninf else .fin q

end Mizar.Spec
