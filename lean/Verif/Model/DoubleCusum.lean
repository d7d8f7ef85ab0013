import Verif.Model.Cusum
import Verif.Py.Double

/-!
`CUSUMFilter.transform` (`/repo/mizarlabs/transformers/sampling/down_sampling.py` lines 19-47) with every subtraction and addition
followed by `g`, which rounds a finite result and may make it infinite.  `g = binary64.float` is the arithmetic of `float64`; missing and
infinite prices are included.  (The sign of zero does not matter: nothing divides.)
-/

namespace Mizar.Rd
open Mizar.Cusum
variable {K : Type*} [Field K] [LinearOrder K]

/-- One iteration of the loop (`down_sampling.py` lines 33-45). -/
def cusumStepD (g : K → XF K) (h : XF K) (s : St K) (d : XF K) : St K × Bool :=
  let pos := pyMax0 (XF.rounded g (XF.add s.pos d))
  let neg := pyMin0 (XF.rounded g (XF.add s.neg d))
  if XF.lt neg (XF.neg h) then (⟨pos, .fin 0⟩, true)
  else if XF.lt h pos then (⟨.fin 0, neg⟩, true)
  else (⟨pos, neg⟩, false)

/-- The loop over the differences (`down_sampling.py` lines 33-45). -/
def cusumLoopD (g : K → XF K) (h : XF K) : St K → List (ℤ × XF K) → List ℤ
  | _, [] => []
  | s, (i, d) :: r =>
    let t := cusumStepD g h s d
    if t.2 then i :: cusumLoopD g h t.1 r else cusumLoopD g h t.1 r

/-- `X.diff()` without its first element (`down_sampling.py` lines 32-33). -/
def cusumDiffsD (g : K → XF K) : List (ℤ × XF K) → List (ℤ × XF K)
  | [] => []
  | [_] => []
  | a :: b :: r => (b.1, XF.rounded g (XF.sub b.2 a.2)) :: cusumDiffsD g (b :: r)

/-- `CUSUMFilter.transform` (`down_sampling.py` lines 19-47). -/
def cusumD (g : K → XF K) (h : XF K) (X : List (ℤ × XF K)) : Py (List ℤ) :=
  if (X.map (·.1)).Nodup then .ok (cusumLoopD g h ⟨.fin 0, .fin 0⟩ (cusumDiffsD g X)) else .error .valueError

end Mizar.Rd
