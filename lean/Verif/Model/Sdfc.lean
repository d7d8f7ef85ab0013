import Verif.Model.Ols

/-!
Model of `SupremumDickeyFullerChowStatTest` (`/repo/mizarlabs/structural_breaks/sdfc.py` lines 13-38 and 63-93).
`min_num_samples` is a natural number.
-/

namespace Mizar.Brk

/-- `series.diff().dropna()` and `series.shift(1).dropna()` (`sdfc.py` lines 81-82), each without its missing values. -/
noncomputable def dfColumns (s : List (ℤ × XF ℝ)) : List (XF ℝ) × List (XF ℝ) :=
  ((List.zipWith (fun a b => XF.sub a.2 b.2) s.tail s).filter (fun x => !x.isNan),
   (s.dropLast.map (·.2)).filter (fun x => !x.isNan))

/-- One iteration of `get_dfc_array` (`sdfc.py` lines 29-37).  Columns of different lengths raise in `np.dot`. -/
noncomputable def dfcAt (em : ErrModel) (yDiff yLag : List (XF ℝ)) (index : ℕ) : Py (XF ℝ) :=
  let x : List (XF ℝ) := yLag.zipIdx.map fun r => XF.mul r.1 (.fin (if r.2 < index then 0 else 1))
  if x.length ≠ yDiff.length then .error .valueError
  else tValue em (0 : Fin 1) ((List.zip x yDiff).map fun r => (fun _ => r.1, r.2))

/-- `SupremumDickeyFullerChowStatTest.run` (`sdfc.py` lines 77-93): the positions `min_num_samples` to
`n - min_num_samples - 1`. -/
noncomputable def sdfcRun (em : ErrModel) (m : ℕ) (s : List (ℤ × XF ℝ)) : Py (List (ℤ × XF ℝ)) := do
  let indices := (List.range (s.length - m - m)).map fun i => m + i
  let d := dfColumns s
  let v ← mapE (dfcAt em d.1 d.2) indices
  .ok (List.zip (indices.map fun i => (s.map (·.1)).getD i 0) v)

end Mizar.Brk
