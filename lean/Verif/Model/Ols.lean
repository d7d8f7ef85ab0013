import Mathlib.LinearAlgebra.Matrix.NonsingularInverse
import Verif.Model.Csw

/-!
Model of `get_beta_and_beta_var` (`/repo/mizarlabs/structural_breaks/sdfc.py` lines 41-60).

The matrix `X` and the column `y` are given as a list of rows: the regressors as a function of the column and the
target.  Entries are ideal floats; `np.linalg.inv` as compiled by numba raises `LinAlgError` for a matrix with an entry
that is not finite and for a singular one, and is exact otherwise (rounding is not modelled, so "singular" means exactly
singular).
-/

namespace Mizar.Brk

/-- One row of the regression: regressors and target (`sdfc.py` lines 41-44). -/
abbrev Row (k : ℕ) := (Fin k → XF ℝ) × XF ℝ

/-- `np.isfinite` (`sdfc.py` line 56). -/
def isFinite : XF ℝ → Bool
  | .fin _ => true
  | _ => false

/-- `np.dot(X.T, X)` (`sdfc.py` line 55). -/
noncomputable def gramX {k : ℕ} (w : List (Row k)) : Matrix (Fin k) (Fin k) (XF ℝ) :=
  Matrix.of fun i j => XF.sum (w.map fun r => XF.mul (r.1 i) (r.1 j))

/-- `np.linalg.inv(XX)` (`sdfc.py` line 56). -/
noncomputable def invX {k : ℕ} (M : Matrix (Fin k) (Fin k) (XF ℝ)) : Py (Matrix (Fin k) (Fin k) ℝ) :=
  let R : Matrix (Fin k) (Fin k) ℝ := Matrix.of fun i j => (M i j).toK
  if ¬ (∀ i j, isFinite (M i j) = true) then .error .linAlgError
  else if R.det = 0 then .error .linAlgError
  else .ok R⁻¹

/-- `np.dot` of a row with a column (`sdfc.py` lines 54-58). -/
noncomputable def dotX {k : ℕ} (a b : Fin k → XF ℝ) : XF ℝ := XF.sum (List.ofFn fun j => XF.mul (a j) (b j))

/-- `get_beta_and_beta_var` (`sdfc.py` lines 41-60): the coefficients and their covariance matrix. -/
noncomputable def ols {k : ℕ} (w : List (Row k)) : Py ((Fin k → XF ℝ) × (Fin k → Fin k → XF ℝ)) := do
  let xy : Fin k → XF ℝ := fun i => XF.sum (w.map fun r => XF.mul (r.1 i) r.2)
  let inv ← invX (gramX w)
  let beta : Fin k → XF ℝ := fun i => dotX (fun j => .fin (inv i j)) xy
  let err : List (XF ℝ) := w.map fun r => XF.sub r.2 (dotX r.1 beta)
  let s2 : XF ℝ := XF.div (XF.sum (err.map fun e => XF.mul e e)) (.fin ((w.length : ℝ) - (k : ℝ)))
  .ok (beta, fun i j => XF.mul s2 (.fin (inv i j)))

/-- The t-value of one coefficient: `beta[j, 0] / np.sqrt(var[j, j])` (`sdfc.py` line 37, `sadf.py` line 120,
`trend_scanning.py` lines 260-262). -/
noncomputable def tValue {k : ℕ} (em : ErrModel) (j : Fin k) (w : List (Row k)) : Py (XF ℝ) := do
  let r ← ols w
  divE em (r.1 j) (XF.sqrt (r.2 j j))

end Mizar.Brk
