import Verif.Py.Frame

/-!
Model of the feature transformation and alignment of `StrategySignalPipeline`
(`/repo/mizarlabs/model/pipeline.py`).  Dictionaries are association lists in insertion order with unique keys.
-/

set_option linter.unusedSectionVars false

namespace Mizar.Pipe
variable {K : Type*} [Field K] [LinearOrder K]

/-- A dictionary of frames (`pipeline.py` lines 366-379). -/
abbrev Dict (K : Type*) := List (String × Frame K)

/-- `pd.to_datetime("1-1-1700")` (`pipeline.py` line 202) in nanoseconds. -/
def Y1700 : ℤ := -98615 * 86400 * 1000000000

/-- `_align_methods` (`pipeline.py` lines 111-115). -/
def alignMethods (name : String) : Option (List (XF K) → XF K) :=
  if name = "mean" then some npMean
  else if name = "min" then some npMin
  else if name = "max" then some npMax
  else none

/-- `self._align_methods[self.align_how_[feature_key]](values, axis=0)` (`pipeline.py` lines 236-238). -/
def aggregate (how : List (String × String)) (key : String) (n : ℕ) (rows : List (List (XF K))) : Py (List (XF K)) :=
  match how.lookup key with
  | none => .error .keyError
  | some name =>
    match alignMethods name with
    | none => .error .keyError
    | some f => .ok (colAgg f n rows)

/-- The rows selected at one alignment time (`pipeline.py` lines 225-228). -/
def subset (rows : List (ℤ × List (XF K))) (prev t : ℤ) : List (ℤ × List (XF K)) :=
  rows.filter fun r => decide (prev < r.1) && decide (r.1 ≤ t)

/-- The loop over the alignment index (`pipeline.py` lines 224-239); `none` is a row that is not assigned.  The
values of the alignment index are assumed to be different (repeated ones: `alignFrameAny`) and every frame to have a column. -/
def alignLoop (agg : List (List (XF K)) → Py (List (XF K))) (rows : List (ℤ × List (XF K))) :
    ℤ → List ℤ → Py (List (Option (List (XF K))))
  | _, [] => .ok []
  | prev, t :: ts =>
    match subset rows prev t with
    | [] => do
      let rest ← alignLoop agg rows prev ts
      .ok (none :: rest)
    | [r] => do
      let rest ← alignLoop agg rows t ts
      .ok (some r.2 :: rest)
    | r₁ :: r₂ :: rs => do
      let v ← agg ((r₁ :: r₂ :: rs).map (·.2))
      let rest ← alignLoop agg rows t ts
      .ok (some v :: rest)

/-- The alignment of one feature frame (`pipeline.py` lines 199-243).  The first index values are read for a
warning, so an empty frame or an empty alignment index raises. -/
def alignFrame (how : List (String × String)) (key : String) (idx : List ℤ) (f : Frame K) : Py (Frame K) :=
  if f.rows = [] ∨ idx = [] then .error .indexError
  else do
    let cells ← alignLoop (aggregate how key f.cols.length) f.rows Y1700 idx
    .ok ⟨f.cols, idx.zip (ffillRowsFrom (nanRow f.cols.length) (cells.map fun c => c.getD (nanRow f.cols.length)))⟩

/-- One step of the loop over the feature frames of one model (`pipeline.py` lines 196-243). -/
def alignEntry (how : List (String × String)) (alignOn : String) (idx : List ℤ) (p : String × Frame K) :
    Py (String × Frame K) :=
  if p.1 ≠ alignOn then do
    let g ← alignFrame how p.1 idx p.2
    .ok (p.1, g)
  else .ok p

/-- The loop over the feature frames of one model (`pipeline.py` lines 196-243). -/
def alignDict (how : List (String × String)) (alignOn : String) (idx : List ℤ) (d : Dict K) : Py (Dict K) :=
  mapE (alignEntry how alignOn idx) d

/-- The two feature dictionaries of `X_features_dict` (`pipeline.py` lines 366-379). -/
structure Features (K : Type*) where
  primary : Dict K
  metal : Dict K
  deriving DecidableEq

/-- `_align_on` (`pipeline.py` lines 165-245); an empty name (or none) switches the alignment off. -/
def alignOn (how : List (String × String)) (name : String) (X : Features K) : Py (Features K) :=
  if name = "" then .ok X
  else
    match X.primary.lookup name with
    | none => .error .keyError
    | some lead => do
      let p ← alignDict how name lead.index X.primary
      let m ← alignDict how name lead.index X.metal
      .ok ⟨p, m⟩

/-- A configured transformer: none stands for the data itself (`pipeline.py` lines 119-126). -/
abbrev Tr (K : Type*) := Option (Frame K → Py (Frame K))

/-- One entry of a feature dictionary (`pipeline.py` lines 368-371). -/
def transformOne (X : Dict K) (p : String × Tr K) : Py (String × Frame K) :=
  match X.lookup p.1 with
  | none => .error .keyError
  | some f =>
    match p.2 with
    | none => .ok (p.1, f)
    | some tr => do
      let g ← tr f
      .ok (p.1, g)

/-- `StrategySignalPipeline.transform` (`pipeline.py` lines 344-379); transformers are functions of the frame they
are given (they do not change it). -/
def transform (tp tm : List (String × Tr K)) (X : Dict K) : Py (Features K) :=
  if (∀ k ∈ tp.map (·.1) ++ tm.map (·.1), k ∈ X.map (·.1)) ∧ (∀ k ∈ X.map (·.1), k ∈ tp.map (·.1) ++ tm.map (·.1)) then do
    let p ← mapE (transformOne X) tp
    let m ← mapE (transformOne X) tm
    .ok ⟨p, m⟩
  else .error .assertionError

end Mizar.Pipe
