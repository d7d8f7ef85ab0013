import Mathlib.Analysis.SpecialFunctions.Sqrt
import Mathlib.Analysis.SpecialFunctions.Log.Basic
import Verif.Py.XF

/-!
`np.sqrt`, `np.log` and `np.exp` on ideal floats over the reals.

Where the code calls them (under `/repo/mizarlabs/`): `transformers/microstructural_features/first_generation.py` lines 35, 101-106,
126, 146, 162-163, 203, `second_generation.py` lines 83, 124-126, `transformers/sample_weights/__init__.py` line 51,
`structural_breaks/sadf.py` lines 120, 213-229, `sdfc.py` line 37, `cusum_chu_stinchcome_white.py` lines 53-59,
`model/model_selection.py` lines 339-344.
-/

namespace Mizar.XF

/-- `np.sqrt`, also `x ** 0.5`. -/
noncomputable def sqrt : XF ℝ → XF ℝ
  | .nan => .nan
  | .ninf => .nan
  | .pinf => .pinf
  | .fin x => if x < 0 then .nan else .fin (Real.sqrt x)

/-- `np.log`. -/
noncomputable def log : XF ℝ → XF ℝ
  | .nan => .nan
  | .ninf => .nan
  | .pinf => .pinf
  | .fin x => if x < 0 then .nan else if x = 0 then .ninf else .fin (Real.log x)

/-- `np.exp`. -/
noncomputable def exp : XF ℝ → XF ℝ
  | .nan => .nan
  | .ninf => .fin 0
  | .pinf => .pinf
  | .fin x => .fin (Real.exp x)

theorem sqrt_fin {x : ℝ} (h : 0 ≤ x) : sqrt (.fin x) = .fin (Real.sqrt x) := by
  simp [sqrt, not_lt.2 h]

theorem log_fin {x : ℝ} (h : 0 < x) : log (.fin x) = .fin (Real.log x) := by
  simp [log, not_lt.2 h.le, h.ne']

end Mizar.XF
