import Verif.Py.Basic
import Verif.Py.XF

/-!
Model of `/repo/mizarlabs/transformers/sampling/down_sampling.py` (`CUSUMFilter`).

The series is a list of (time, price) pairs.
-/

namespace Mizar.Cusum
variable {K : Type*} [Field K] [LinearOrder K]

/-- Python's `max(0, x)`: the first argument stays unless `x > 0` (a NaN gives `0`) (lines 34-36). -/
def pyMax0 (x : XF K) : XF K := if XF.lt (.fin 0) x then x else .fin 0

/-- Python's `min(0, x)` (lines 34-36). -/
def pyMin0 (x : XF K) : XF K := if XF.lt x (.fin 0) then x else .fin 0

/-- `pos_threshold`, `neg_threshold` (lines 28-31). -/
structure St (K : Type*) where
  pos : XF K
  neg : XF K

/-- One iteration of the loop (`down_sampling.py` lines 33-45): new state and whether the index is
selected. -/
def step (h : XF K) (s : St K) (d : XF K) : St K × Bool :=
  let pos := pyMax0 (XF.add s.pos d)
  let neg := pyMin0 (XF.add s.neg d)
  if XF.lt neg (XF.neg h) then (⟨pos, .fin 0⟩, true)
  else if XF.lt h pos then (⟨.fin 0, neg⟩, true)
  else (⟨pos, neg⟩, false)

/-- The loop over the differences (lines 33-45). -/
def loop (h : XF K) : St K → List (ℤ × XF K) → List ℤ
  | _, [] => []
  | s, (i, d) :: r =>
    let t := step h s d
    if t.2 then i :: loop h t.1 r else loop h t.1 r

/-- `X.diff()` without its first element, with the time of the later price (lines 32-33). -/
def diffs : List (ℤ × XF K) → List (ℤ × XF K)
  | [] => []
  | [_] => []
  | a :: b :: r => (b.1, XF.sub b.2 a.2) :: diffs (b :: r)

/-- `CUSUMFilter.transform` (lines 19-47).  With a repeated time `diff.loc[index]` is a series and the
comparison in `max` raises `ValueError`. -/
def transform (h : XF K) (X : List (ℤ × XF K)) : Py (List ℤ) :=
  if (X.map (·.1)).Nodup then .ok (loop h ⟨.fin 0, .fin 0⟩ (diffs X)) else .error .valueError

end Mizar.Cusum
