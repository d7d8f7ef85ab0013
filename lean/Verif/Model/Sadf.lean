import Mathlib.Analysis.SpecialFunctions.Pow.Real
import Verif.Model.Ols
import Verif.Py.Frame

/-!
Model of `/repo/mizarlabs/structural_breaks/sadf.py`.

Index labels are unique and sorted.  `min_length` is a natural number.  `np.max` as compiled by numba gives NaN if
there is one.  The warning of lines 174-177 is not modelled.
-/

namespace Mizar.Brk

/-- The argument `lags` (`sadf.py` lines 44-50). -/
inductive LagArg
  | int (n : ℤ)
  | list (l : List ℤ)

/-- `SupremumAugmentedDickeyFullerStatTest.__init__` (`sadf.py` lines 44-60): an integer is not comparable to a list. -/
noncomputable def sadfInit (lags : LagArg) (minLength : ℕ) (phi : ℝ) : Py ℤ :=
  if ¬ (0 ≤ phi ∧ phi ≤ 1) then .error .assertionError
  else match lags with
    | .list _ => .error .typeError
    | .int n => if (minLength : ℤ) > n then .ok n else .error .assertionError

/-- A row of the regression before it is turned into an array: time, columns, target (`sadf.py` lines 149-153). -/
abbrev LRow := ℤ × List (XF ℝ) × XF ℝ

/-- `series.diff().dropna()` (`sadf.py` line 149), each change with its time and the value of `series.shift(1)`. -/
noncomputable def diffs (s : List (ℤ × XF ℝ)) : List (ℤ × XF ℝ × XF ℝ) :=
  (List.zipWith (fun a b => (a.1, XF.sub a.2 b.2, b.2)) s.tail s).filter fun r => !r.2.1.isNan

/-- `_get_X_y_standard_specification` with `_lag_df` (`sadf.py` lines 134-153, 245-266) for a number of lags: the lagged
changes are those of the rows before.  Without lags the frame stays empty.  The column `y_lagged` is listed first, as
line 236 does. -/
noncomputable def standardRows (lags : ℤ) (s : List (ℤ × XF ℝ)) : List LRow :=
  if lags ≤ 0 then [] else
    let d := diffs s
    (List.range (d.length - lags.toNat)).map fun j =>
      let r := d.getD (j + lags.toNat) (0, .nan, .nan)
      (r.1, r.2.2 :: (List.range lags.toNat).map (fun m => (d.getD (j + lags.toNat - 1 - m) (0, .nan, .nan)).2.1), r.2.1)

/-- Further columns as a function of the position (`sadf.py` lines 182-204). -/
def addCols (f : ℕ → List (XF ℝ)) (rows : List LRow) : List LRow :=
  rows.zipIdx.map fun r => (r.1.1, r.1.2.1 ++ f r.2, r.1.2.2)

/-- Rows of the sub- and super-martingale tests (`sadf.py` lines 205-230). -/
def smRows (g : XF ℝ → XF ℝ) (f : ℕ → List (XF ℝ)) (s : List (ℤ × XF ℝ)) : List LRow :=
  s.zipIdx.map fun r => (r.1.1, f r.2, g r.1.2)

/-- `np.arange(1, n + 1)` at a position (`sadf.py` lines 186-188). -/
def trend (j : ℕ) : XF ℝ := .fin ((j : ℝ) + 1)

/-- `X["trend"] ** 2` at a position (`sadf.py` line 199). -/
def quadTrend (j : ℕ) : XF ℝ := .fin (((j : ℝ) + 1) ^ 2)

/-- `X["const"] = 1` if wanted (`sadf.py` lines 182-183). -/
def constCol (c : Bool) : List (XF ℝ) := if c then [.fin 1] else []

/-- The branches of `_get_X_y` (`sadf.py` lines 179-237): number of columns after the first, and rows. -/
noncomputable def designRows (model : String) (lags : ℤ) (c : Bool) (s : List (ℤ × XF ℝ)) : Py (ℕ × List LRow) :=
  if model = "no_trend" then .ok (lags.toNat + (constCol c).length, addCols (fun _ => constCol c) (standardRows lags s))
  else if model = "linear" then
    .ok (lags.toNat + 1 + (constCol c).length, addCols (fun j => trend j :: constCol c) (standardRows lags s))
  else if model = "quadratic" then
    .ok (lags.toNat + 2 + (constCol c).length, addCols (fun j => trend j :: quadTrend j :: constCol c) (standardRows lags s))
  else if model = "sm_poly_1" then .ok (2, smRows id (fun j => [quadTrend j, .fin 1, trend j]) s)
  else if model = "sm_poly_2" then .ok (2, smRows XF.log (fun j => [quadTrend j, .fin 1, trend j]) s)
  else if model = "sm_exp" then .ok (1, smRows XF.log (fun j => [trend j, .fin 1]) s)
  else if model = "sm_power" then .ok (1, smRows XF.log (fun j => [XF.log (trend j), .fin 1]) s)
  else .error .valueError

/-- `_get_X_y` (`sadf.py` lines 156-242), with the check for missing values. -/
noncomputable def getXy (model : String) (lags : ℤ) (c : Bool) (s : List (ℤ × XF ℝ)) : Py (ℕ × List LRow) := do
  let r ← designRows model lags c s
  if r.2.all (fun x => x.2.1.all (fun v => !v.isNan) && !x.2.2.isNan) then .ok r else .error .assertionError

/-- A row as part of an array with `k + 1` columns (`sadf.py` lines 235-237). -/
def toRow (k : ℕ) (r : LRow) : Row (k + 1) := (fun j => r.2.1.getD j .nan, r.2.2)

/-- `model[:2] == "sm"` (`sadf.py` line 124). -/
def isSm (model : String) : Bool := decide (model.toList.take 2 = ['s', 'm'])

/-- One window of `_get_sadf_at_t` (`sadf.py` lines 114-129); `n` is `y.shape[0]`. -/
noncomputable def adfAt (em : ErrModel) (k : ℕ) (model : String) (phi : ℝ) (w : List (Row (k + 1))) (start : ℕ) : Py (XF ℝ) := do
  let n := w.length
  let adf ← tValue em 0 (w.drop start)
  if isSm model then
    let t0 := start + 1
    divE em (XF.abs adf) (.fin (((n : ℝ) - ((n : ℝ) - (t0 : ℝ))) ^ phi))
  else .ok adf

/-- `_get_sadf_at_t` (`sadf.py` lines 90-131). -/
noncomputable def sadfAt (em : ErrModel) (k : ℕ) (minLength : ℕ) (model : String) (phi : ℝ) (w : List (Row (k + 1))) : Py (XF ℝ) := do
  let a ← mapE (adfAt em k model phi w) (List.range (w.length - minLength + 1))
  .ok (npMax a)

/-- `_sadf_outer_loop` (`sadf.py` lines 269-297): a negative number of results raises. -/
noncomputable def sadfLoop (em : ErrModel) (k : ℕ) (minLength : ℕ) (model : String) (phi : ℝ) (w : List (Row (k + 1))) :
    Py (List (XF ℝ)) :=
  if w.length < minLength then .error .valueError
  else mapE (fun i => sadfAt em k minLength model phi (w.take (minLength + i + 1))) (List.range (w.length - minLength))

/-- `SupremumAugmentedDickeyFullerStatTest.run` (`sadf.py` lines 62-87). -/
noncomputable def sadfRun (em : ErrModel) (model : String) (lags : ℤ) (minLength : ℕ) (c : Bool) (phi : ℝ) (s : List (ℤ × XF ℝ)) :
    Py (List (ℤ × XF ℝ)) := do
  let d ← getXy model lags c s
  let v ← sadfLoop em d.1 minLength model phi (d.2.map (toRow d.1))
  .ok (List.zip ((d.2.map (·.1)).drop minLength) v)

end Mizar.Brk
