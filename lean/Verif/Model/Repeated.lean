import Verif.Model.Pipeline

/-!
Model of the alignment and of the training sets of `StrategySignalPipeline` (`/repo/mizarlabs/model/pipeline.py`) for frames and targets in which
several rows share a time, as dynamic bars do.  For distinct times these are `alignFrame` and `alignXy`.
-/

set_option linter.unusedSectionVars false

namespace Mizar.Pipe

/-- `aligned_feature_df.loc[index] = values` (`pipeline.py` lines 231-238) for the values of the loop: every row with the time gets the value that was
assigned to the time last. -/
def byLabel {α : Type*} (idx : List ℤ) (cells : List (Option α)) : List (Option α) :=
  idx.map fun t => ((idx.zip cells).filterMap fun p => p.2.map fun v => (p.1, v)).reverse.lookup t

section
variable {K : Type*} [Field K] [LinearOrder K]

/-- The alignment of one feature frame (`pipeline.py` lines 199-243) when alignment times may be repeated. -/
def alignFrameAny (how : List (String × String)) (key : String) (idx : List ℤ) (f : Frame K) : Py (Frame K) :=
  if f.rows = [] ∨ idx = [] then .error .indexError
  else do
    let cells ← alignLoop (aggregate how key f.cols.length) f.rows Y1700 idx
    .ok ⟨f.cols, idx.zip (ffillRowsFrom (nanRow f.cols.length) ((byLabel idx cells).map fun c => c.getD (nanRow f.cols.length)))⟩

end

/-- `.loc[labels]` (`pipeline.py` lines 335-337): all rows of every label, a missing label raises `KeyError`. -/
def locAll {α : Type*} (rows : List (ℤ × α)) (labels : List ℤ) : Py (List (ℤ × α)) := do
  let parts ← mapE (fun t => if (rows.filter fun r => decide (r.1 = t)).isEmpty then .error .keyError
    else .ok (rows.filter fun r => decide (r.1 = t))) labels
  .ok parts.flatten

variable {K : Type} [Field K] [LinearOrder K]

/-- `pd.concat(frames, axis=1)` (`pipeline.py` line 335): frames with the same index are put side by side row by row; frames with different indices are
joined by time, which raises when a time is repeated (whichever exception, here `ValueError`). -/
def concatRows (fs : List (Frame K)) : Py (Frame K) :=
  if fs = [] then .error .valueError
  else if fs.all fun f => decide (f.index = (fs.headD ⟨[], []⟩).index) then
    .ok ⟨fs.flatMap (·.cols), (List.range (fs.headD ⟨[], []⟩).index.length).map fun i =>
      ((fs.headD ⟨[], []⟩).index.getD i 0, fs.flatMap fun f => (f.rows.map (·.2)).getD i [])⟩
  else if fs.all fun f => decide f.index.Nodup then concatOuter fs
  else .error .valueError

/-- `_align_X_dict_and_y` (`pipeline.py` lines 333-339) when times may be repeated; `check_X_y` raises `ValueError` when features and target differ in
length. -/
def alignXyAny (d : Dict K) (y : Ser K) : Py (Frame K × Ser K) := do
  let fs ← mapE (fun p => do
    let rows ← locAll p.2.rows ((y.filter fun r => !r.2.isNan).map (·.1))
    .ok (⟨p.2.cols, rows⟩ : Frame K)) d
  let X ← concatRows fs
  let ya ← locAll y X.dropna.index
  if X.dropna.rows.length ≠ ya.length then .error .valueError
  else do
    let _ ← checkXy X.dropna ya
    .ok (X.dropna, ya)

end Mizar.Pipe
