import Mathlib.Data.List.GetD
import Verif.Py.Basic
import Verif.Py.MapE
import Verif.Py.Series

/-!
pandas frames with an index of times (integers) and float columns: `pd.concat(axis=1)`, `dropna`, `ffill`,
column-wise NumPy aggregations.  Index values are unique in everything modelled with this file.

Where the code calls them: `/repo/mizarlabs/model/pipeline.py` lines 111-115, 236-243, 335-341, 398-425, 462-466, 840.
-/

set_option linter.unusedSectionVars false

namespace Mizar

universe u

theorem Py.bind_eq_ok {α β : Type u} {x : Py α} {f : α → Py β} {b : β} :
    (x >>= f) = .ok b ↔ ∃ a, x = .ok a ∧ f a = .ok b := by
  cases x with
  | error e => simp [bind, Except.bind]
  | ok a => simp [bind, Except.bind]

@[simp] theorem Py.bind_ok {α β : Type u} (a : α) (f : α → Py β) : ((Except.ok a : Py α) >>= f) = f a := rfl

@[simp] theorem Py.bind_error {α β : Type u} (e : PyErr) (f : α → Py β) :
    ((Except.error e : Py α) >>= f) = .error e := rfl

variable {K : Type*} [Field K] [LinearOrder K]

/-- A data frame: column names and rows (index, values). -/
structure Frame (K : Type*) where
  cols : List String
  rows : List (ℤ × List (XF K))
  deriving DecidableEq

/-- The index of a frame. -/
def Frame.index (f : Frame K) : List ℤ := f.rows.map (·.1)

/-- The row with the given index value. -/
def Frame.row? (f : Frame K) (t : ℤ) : Option (List (XF K)) :=
  (f.rows.find? fun r => decide (r.1 = t)).map (·.2)

/-- Every row has one value per column. -/
def Frame.WF (f : Frame K) : Prop := ∀ r ∈ f.rows, r.2.length = f.cols.length

/-- A row of missing values. -/
def nanRow (n : ℕ) : List (XF K) := List.replicate n .nan

/-- `np.mean`. -/
def npMean (l : List (XF K)) : XF K := XF.div (XF.sum l) (.fin (l.length : K))

/-- `np.minimum`: NaN wins. -/
def xmin (a b : XF K) : XF K := if a.isNan then a else if b.isNan then b else if XF.lt b a then b else a

/-- `np.maximum`: NaN wins. -/
def xmax (a b : XF K) : XF K := if a.isNan then a else if b.isNan then b else if XF.lt a b then b else a

/-- `np.min` of a non-empty array. -/
def npMin : List (XF K) → XF K
  | [] => .nan
  | a :: l => l.foldl xmin a

/-- `np.max` of a non-empty array. -/
def npMax : List (XF K) → XF K
  | [] => .nan
  | a :: l => l.foldl xmax a

/-- `f(values, axis=0)` of a two-dimensional array with `n` columns. -/
def colAgg (f : List (XF K) → XF K) (n : ℕ) (rows : List (List (XF K))) : List (XF K) :=
  (List.range n).map fun j => f (rows.map fun r => r.getD j .nan)

/-- `DataFrame.ffill()` on the rows, with the row carried from before. -/
def ffillRowsFrom : List (XF K) → List (List (XF K)) → List (List (XF K))
  | _, [] => []
  | last, r :: rs =>
    let r' := List.zipWith (fun x l => if x.isNan then l else x) r last
    r' :: ffillRowsFrom r' rs

/-- Index of an outer join along the columns: unchanged if all are equal, otherwise the sorted union. -/
def joinIndex (is : List (List ℤ)) : List ℤ :=
  if is.all (fun i => decide (i = is.headD [])) then is.headD [] else npUnique is.flatten

/-- `pd.concat(frames, axis=1)`: outer join; no frames raise `ValueError`. -/
def concatOuter (fs : List (Frame K)) : Py (Frame K) :=
  if fs = [] then .error .valueError
  else .ok ⟨fs.flatMap (·.cols), (joinIndex (fs.map (·.index))).map fun t =>
    (t, fs.flatMap fun f => (f.row? t).getD (nanRow f.cols.length))⟩

/-- A row without missing values. -/
def complete (r : List (XF K)) : Bool := r.all fun x => !x.isNan

/-- `DataFrame.dropna()`. -/
def Frame.dropna (f : Frame K) : Frame K := ⟨f.cols, f.rows.filter fun r => complete r.2⟩

@[simp] theorem length_ffillRowsFrom (a : List (XF K)) (l : List (List (XF K))) : (ffillRowsFrom a l).length = l.length := by
  induction l generalizing a with
  | nil => rfl
  | cons r l ih => simp [ffillRowsFrom, ih]

theorem ffillRowsFrom_take (a : List (XF K)) (l : List (List (XF K))) (k : ℕ) :
    ffillRowsFrom a (l.take k) = (ffillRowsFrom a l).take k := by
  induction l generalizing a k with
  | nil => simp [ffillRowsFrom]
  | cons x l ih =>
    cases k with
    | zero => simp [ffillRowsFrom]
    | succ k => simp [ffillRowsFrom, ih]

end Mizar
