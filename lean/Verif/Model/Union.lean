import Verif.Py.Frame
import Verif.Py.MapE

/-!
Model of `MizarFeatureUnion` and `MizarPipeline` (`/repo/mizarlabs/model/pipeline.py` lines 28-48) on top of
scikit-learn's `FeatureUnion` and `Pipeline` (version 0.24, `n_jobs` and `transformer_weights` unset, no cache).

A transformer is a function: fitted on a frame and a target (or none) it gives the function that transforms a frame into a
matrix (list of rows).  Its `fit_transform` is that of `TransformerMixin`: `fit`, then `transform`.  Step and parameter
names are lists of characters.
-/

namespace Mizar.Union
variable {K : Type}

/-- A transformer of a union: `fit(X, y)`, giving `transform` (`pipeline.py` lines 28-37). -/
abbrev Trans (K : Type) := Frame K → Option (List (XF K)) → Py (Frame K → Py (List (List (XF K))))

/-- `np.hstack` of matrices with `n` rows each (scikit-learn gives a matrix without columns when there is no transformer);
other numbers of rows raise `ValueError` (`pipeline.py` lines 30, 35). -/
def hstack (n : ℕ) : List (List (List (XF K))) → Py (List (List (XF K)))
  | [] => .ok (List.replicate n [])
  | [m] => .ok m
  | m :: l => do
    let r ← hstack n l
    if m.length = r.length then .ok (List.zipWith (· ++ ·) m r) else .error .valueError

/-- `pd.DataFrame(values, index=X.index)`: another number of rows raises `ValueError` (`pipeline.py` lines 32, 37). -/
def withIndex (X : Frame K) (m : List (List (XF K))) : Py (List (ℤ × List (XF K))) :=
  if m.length = X.rows.length then .ok (X.index.zip m) else .error .valueError

/-- `FeatureUnion.fit`: fit all transformers (`pipeline.py` line 28). -/
def fit (ts : List (Trans K)) (X : Frame K) (y : Option (List (XF K))) : Py (List (Frame K → Py (List (List (XF K))))) :=
  mapE (fun t => t X y) ts

/-- `MizarFeatureUnion.transform` (`pipeline.py` lines 34-37) with the fitted transformers. -/
def transform (fs : List (Frame K → Py (List (List (XF K))))) (X : Frame K) : Py (List (ℤ × List (XF K))) := do
  let ms ← mapE (fun f => f X) fs
  let m ← hstack X.rows.length ms
  withIndex X m

/-- `MizarFeatureUnion.fit_transform` (`pipeline.py` lines 29-32): the target is not passed on. -/
def fitTransform (ts : List (Trans K)) (X : Frame K) (_y : Option (List (XF K))) : Py (List (ℤ × List (XF K))) := do
  let ms ← mapE (fun t => do
    let f ← t X none
    f X) ts
  let m ← hstack X.rows.length ms
  withIndex X m

/-- Names of steps and parameters (`pipeline.py` lines 45-47). -/
abbrev Name := List Char

/-- `name.split("__", 1)`; `none` if there is no `__` (`pipeline.py` lines 47-48). -/
def splitDunder : Name → Option (Name × Name)
  | [] => none
  | '_' :: '_' :: r => some ([], r)
  | c :: r => (splitDunder r).map fun p => (c :: p.1, p.2)

/-- `Pipeline._check_fit_params`: the keyword arguments of each step.  A key without `__` raises `ValueError`, an unknown
step `KeyError` (`pipeline.py` line 48). -/
def route {V : Type} (names : List Name) : List (Name × V) → (Name → List (Name × V)) → Py (Name → List (Name × V))
  | [], d => .ok d
  | (k, v) :: l, d =>
    match splitDunder k with
    | none => .error .valueError
    | some (s, p) => if s ∈ names then route names l (Function.update d s (d s ++ [(p, v)])) else .error .keyError

/-- `fit_params[key] = value`: replaced in place, or added at the end (`pipeline.py` line 47). -/
def dictSet {V : Type} (key : Name) (v : V) : List (Name × V) → List (Name × V)
  | [] => [(key, v)]
  | (k, w) :: l => if k = key then (k, v) :: l else (k, w) :: dictSet key v l

/-- `MizarPipeline.fit` (`pipeline.py` lines 45-48): the keyword arguments each step is fitted with; `names` are the names
of the steps. -/
def pipelineFit {V : Type} (names : List Name) (weight : Option V) (params : List (Name × V)) : Py (Name → List (Name × V)) :=
  match weight with
  | none => route names params fun _ => []
  | some w =>
    match names.getLast? with
    | none => .error .indexError
    | some last => route names (dictSet (last ++ "__sample_weight".toList) w params) fun _ => []

end Mizar.Union
