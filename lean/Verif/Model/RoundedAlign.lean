import Verif.Model.Align
import Verif.Model.RoundedCsw

/-!
The alignment of `StrategySignalPipeline` (`/repo/mizarlabs/model/pipeline.py` lines 165-245) with rounding: `r` rounds the result of every
operation, `sm` is the sum of a column without missing values in `np.mean`, whose order of additions is left open.  `np.min` and `np.max`
do not round.  The exponent is unbounded and the sign of zero is not modelled.
-/

namespace Mizar.Rd
open Mizar.Pipe
variable {K : Type} [Field K] [LinearOrder K]

/-- `np.mean` of one column (`pipeline.py` line 112). -/
def npMeanR (r : K → K) (sm : List K → K) (l : List (XF K)) : XF K := rnd r (XF.div (npSumR sm l) (.fin (r (l.length : K))))

/-- `_align_methods` (`pipeline.py` lines 111-115). -/
def alignMethodsR (r : K → K) (sm : List K → K) (name : String) : Option (List (XF K) → XF K) :=
  if name = "mean" then some (npMeanR r sm)
  else if name = "min" then some npMin
  else if name = "max" then some npMax
  else none

/-- `self._align_methods[self.align_how_[feature_key]](values, axis=0)` (`pipeline.py` lines 236-238). -/
def aggregateR (r : K → K) (sm : List K → K) (how : List (String × String)) (key : String) (n : ℕ) (rows : List (List (XF K))) :
    Py (List (XF K)) :=
  match how.lookup key with
  | none => .error .keyError
  | some name =>
    match alignMethodsR r sm name with
    | none => .error .keyError
    | some f => .ok (colAgg f n rows)

/-- The alignment of one feature frame (`pipeline.py` lines 199-243), as in `Verif/Model/Align.lean`. -/
def alignFrameR (r : K → K) (sm : List K → K) (how : List (String × String)) (key : String) (idx : List ℤ) (f : Frame K) : Py (Frame K) :=
  if f.rows = [] ∨ idx = [] then .error .indexError
  else do
    let cells ← alignLoop (aggregateR r sm how key f.cols.length) f.rows Y1700 idx
    .ok ⟨f.cols, idx.zip (ffillRowsFrom (nanRow f.cols.length) (cells.map fun c => c.getD (nanRow f.cols.length)))⟩

/-- One step of the loop over the feature frames of one model (`pipeline.py` lines 196-243). -/
def alignEntryR (r : K → K) (sm : List K → K) (how : List (String × String)) (alignOn : String) (idx : List ℤ) (p : String × Frame K) :
    Py (String × Frame K) :=
  if p.1 ≠ alignOn then do
    let g ← alignFrameR r sm how p.1 idx p.2
    .ok (p.1, g)
  else .ok p

/-- `_align_on` (`pipeline.py` lines 165-245). -/
def alignOnR (r : K → K) (sm : List K → K) (how : List (String × String)) (name : String) (X : Features K) : Py (Features K) :=
  if name = "" then .ok X
  else
    match X.primary.lookup name with
    | none => .error .keyError
    | some lead => do
      let p ← mapE (alignEntryR r sm how name lead.index) X.primary
      let m ← mapE (alignEntryR r sm how name lead.index) X.metal
      .ok ⟨p, m⟩

end Mizar.Rd
