import Verif.Model.Cusum
import Verif.Py.Round

/-!
`CUSUMFilter.transform` (`/repo/mizarlabs/transformers/sampling/down_sampling.py` lines 19-47) with a rounding function `r`
applied to the result of every subtraction and addition; prices and threshold are numbers (missing prices are treated in the
exact model only).
-/

namespace Mizar.Rd

/-- One iteration of the loop (`down_sampling.py` lines 33-45), as `Cusum.step`; the state is `pos_threshold`, `neg_threshold`. -/
def cusumStep (r : ℚ → ℚ) (h : ℚ) (s : ℚ × ℚ) (d : ℚ) : (ℚ × ℚ) × Bool :=
  let pos := max 0 (r (s.1 + d))
  let neg := min 0 (r (s.2 + d))
  if neg < -h then ((pos, 0), true)
  else if h < pos then ((0, neg), true)
  else ((pos, neg), false)

/-- The loop over the differences (`down_sampling.py` lines 33-45). -/
def cusumLoop (r : ℚ → ℚ) (h : ℚ) : ℚ × ℚ → List (ℤ × ℚ) → List ℤ
  | _, [] => []
  | s, (i, d) :: l =>
    let t := cusumStep r h s d
    if t.2 then i :: cusumLoop r h t.1 l else cusumLoop r h t.1 l

/-- `X.diff()` without its first element (`down_sampling.py` lines 32-33). -/
def cusumDiffs (r : ℚ → ℚ) : List (ℤ × ℚ) → List (ℤ × ℚ)
  | [] => []
  | [_] => []
  | a :: b :: l => (b.1, r (b.2 - a.2)) :: cusumDiffs r (b :: l)

/-- `CUSUMFilter.transform` (`down_sampling.py` lines 19-47). -/
def cusum (r : ℚ → ℚ) (h : ℚ) (X : List (ℤ × ℚ)) : Py (List ℤ) :=
  if (X.map (·.1)).Nodup then .ok (cusumLoop r h (0, 0) (cusumDiffs r X)) else .error .valueError

end Mizar.Rd
