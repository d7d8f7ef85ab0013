import Mathlib.Data.Rat.Floor
import Verif.Py.Basic
import Verif.Py.XF

/-!
Model of `/repo/mizarlabs/model/bootstrapping.py` and of
`/repo/mizarlabs/transformers/sampling/average_uniqueness.py`.

Timestamps are integers, a missing timestamp (`NaT`) is `none`.
-/

namespace Mizar.Boot

/-- A binary `scipy.sparse` matrix: shape and the set of stored (non-zero) entries.  Rows are
timestamps, columns are samples.  Entries outside the shape are never read (`bootstrapping.py` lines 65-71). -/
structure IndMat where
  nRows : ℕ
  nCols : ℕ
  ent : ℕ → ℕ → Bool

/-- The matrix as list of rows (for examples) (`bootstrapping.py` line 71). -/
def IndMat.toLists (M : IndMat) : List (List Bool) :=
  (List.range M.nRows).map fun t => (List.range M.nCols).map fun j => M.ent t j

/-- Matrix with the given rows (for examples) (`bootstrapping.py` line 71). -/
def IndMat.ofLists (nCols : ℕ) (rows : List (List Bool)) : IndMat :=
  ⟨rows.length, nCols, fun t j => (rows.getD t []).getD j false⟩

/-- `label_index : label_endtime_index + 1` slice assignment of one column
(`/repo/mizarlabs/model/bootstrapping.py` line 69): stop before start gives the empty slice. -/
def setColumn (M : IndMat) (a b j : ℕ) : IndMat :=
  { M with ent := fun t i => if i = j ∧ a ≤ t ∧ t < b + 1 ∧ t < M.nRows then true else M.ent t i }

/-- Minimum / maximum of a non-empty index (`pd.Index.min`, `pd.Series.max`); `none` for empty (`bootstrapping.py` lines 41-42). -/
def listMin : List ℤ → Option ℤ
  | [] => none
  | a :: l => some (l.foldl min a)

/-- Maximum of a non-empty list (`bootstrapping.py` line 42). -/
def listMax : List ℤ → Option ℤ
  | [] => none
  | a :: l => some (l.foldl max a)

/-- The bars between the first start and the last end (`bootstrapping.py` lines 40-43); a comparison
with the `NaT` minimum of no events selects nothing. -/
def trimBars (starts ends bars : List ℤ) : List ℤ :=
  match listMin starts, listMax ends with
  | some lo, some hi => bars.filter fun b => decide (lo ≤ b) && decide (b ≤ hi)
  | _, _ => []

/-- `bar_index` (`bootstrapping.py` lines 45-54): sorted set of starts, ends and trimmed bars. -/
def barIndex (events : List (ℤ × ℤ)) (bars : List ℤ) : List ℤ :=
  npUnique (events.map (·.1) ++ events.map (·.2) ++ trimBars (events.map (·.1)) (events.map (·.2)) bars)

/-- The loop filling the matrix (`bootstrapping.py` lines 57-69); `idxOf` is the dictionary
`sorted_timestamps`. -/
def fillMatrix (bi : List ℤ) : ℕ → List (ℤ × ℤ) → IndMat → IndMat
  | _, [], M => M
  | j, e :: es, M => fillMatrix bi (j + 1) es (setColumn M (bi.idxOf e.1) (bi.idxOf e.2) j)

/-- A start and an end that are both present (nothing is dropped after the NaN check) (`bootstrapping.py` lines 59-64). -/
def bothPresent : Option ℤ × Option ℤ → Option (ℤ × ℤ)
  | (some a, some b) => some (a, b)
  | _ => none

/-- `get_ind_matrix` (`bootstrapping.py` lines 7-78) with `return_indices=True`.  The events are the
(index, value) pairs of `samples_info_sets`.  `np.max`/`np.min` of a matrix with an empty dimension
raise `ValueError`; the two asserts require a one and a zero in the matrix. -/
def getIndMatrix (events : List (Option ℤ × Option ℤ)) (bars : List ℤ) : Py (IndMat × List ℤ) :=
  if events.any (fun e => e.2.isNone) || events.any (fun e => e.1.isNone) then .error .valueError
  else
    let ev := events.filterMap bothPresent
    let bi := barIndex ev bars
    let M := fillMatrix bi 0 ev ⟨bi.length, ev.length, fun _ _ => false⟩
    if bi.length = 0 ∨ ev.length = 0 then .error .valueError
    else if M.toLists.all (fun r => r.all (fun b => !b)) then .error .assertionError
    else if M.toLists.all (fun r => r.all (fun b => b)) then .error .assertionError
    else .ok (M, bi)

/-- Rows stored in column `j` (`bootstrapping.py` lines 91-93). -/
def colRows (M : IndMat) (j : ℕ) : List ℕ := (List.range M.nRows).filter fun t => M.ent t j

/-- `ind_mat_csc.sum(axis=1)` at row `t` (`bootstrapping.py` line 90). -/
def rowSum (M : IndMat) (t : ℕ) : ℕ := (List.range M.nCols).countP fun j => M.ent t j

/-- `calc_average_uniqueness` (`bootstrapping.py` lines 81-95): the stored ones of each column are
multiplied by `1 / concurrent_events`, summed and divided by the number of stored entries. -/
def calcAverageUniqueness (M : IndMat) : List (XF ℚ) :=
  (List.range M.nCols).map fun j =>
    XF.div
      (XF.sum ((colRows M j).map fun t => XF.mul (.fin 1) (XF.div (.fin 1) (.fin (rowSum M t : ℚ)))))
      (.fin ((colRows M j).length : ℚ))

/-- One entry of the matrix `conc_events_per_sample` after the update and the in-place inversion
(`bootstrapping.py` lines 117-129). -/
def concPerSample (M : IndMat) (boot : List ℕ) (t j : ℕ) : XF ℚ :=
  let own : ℚ := if M.ent t j then 1 else 0
  let part : ℕ := boot.countP fun i => M.ent t i
  if part ≠ 0 then XF.div (.fin 1) (.fin (own + part)) else .fin own

/-- `_calc_update_avg_unique` for one sample (`bootstrapping.py` lines 98-136). -/
def updateAvgUnique (M : IndMat) (boot : List ℕ) (j : ℕ) : XF ℚ :=
  XF.div
    (XF.sum ((colRows M j).map fun t => XF.mul (.fin 1) (concPerSample M boot t j)))
    (.fin ((colRows M j).length : ℚ))

/-- State of the loop of `seq_bootstrap`: drawn samples, average uniqueness per column, draw
probabilities, impacted rows (`bootstrapping.py` lines 164-170). -/
structure BState where
  boot : List ℕ
  avg : ℕ → XF ℚ
  prob : List (XF ℚ)
  rows : List ℕ

/-- `avg_unique / np.sum(avg_unique)` (`bootstrapping.py` lines 167, 182). -/
def probOf (n : ℕ) (avg : ℕ → XF ℚ) : List (XF ℚ) :=
  let s := XF.sum ((List.range n).map avg)
  (List.range n).map fun j => XF.div (avg j) s

/-- The initial state (`bootstrapping.py` lines 164-170). -/
def initState (M : IndMat) : BState := ⟨[], fun _ => .fin 1, probOf M.nCols (fun _ => .fin 1), []⟩

/-- The update of the probabilities (`bootstrapping.py` lines 173-183): only the samples with a
non-zero entry in an impacted row are recomputed. -/
def refresh (M : IndMat) (s : BState) : BState :=
  if s.rows.length > 0 then
    let rows := npUnique s.rows
    let toUpdate := npUnique (rows.flatMap fun t => (List.range M.nCols).filter fun j => M.ent t j)
    let avg := fun j => if j ∈ toUpdate then updateAvgUnique M s.boot j else s.avg j
    { s with avg := avg, prob := probOf M.nCols avg, rows := [] }
  else s

/-- Argument checks of `RandomState.choice(sample_indices, p=prob, size=size)`: an empty population, a
NaN, negative probabilities and a sum different from one raise `ValueError` (`bootstrapping.py` lines 185-189). -/
def choiceValid (p : List (XF ℚ)) : Bool :=
  decide (p ≠ []) && p.all (fun x => XF.le (.fin 0) x) && XF.beq (XF.sum p) (.fin 1)

/-- The loop of `seq_bootstrap` (`bootstrapping.py` lines 172-193).  `rng i p m` are the samples drawn
by the `i`-th call of the generator.  Returns the drawn batches with the probabilities they were drawn
from. -/
def bootLoop (M : IndMat) (rng : ℕ → List (XF ℚ) → ℕ → List ℕ) (len k : ℤ) :
    ℕ → ℕ → BState → Py (List (List (XF ℚ) × List ℕ))
  | 0, _, _ => .ok []
  | fuel + 1, i, s =>
    let s := refresh M s
    if choiceValid s.prob then
      let choices := rng i s.prob (min (len - i * k) k).toNat
      let s' := { s with
        boot := s.boot ++ choices
        rows := s.rows ++ choices.flatMap (fun j => colRows M j) }
      match bootLoop M rng len k fuel (i + 1) s' with
      | .ok rest => .ok ((s.prob, choices) :: rest)
      | .error e => .error e
    else .error .valueError

/-- `seq_bootstrap` (`bootstrapping.py` lines 139-195), returning the batches with their
probabilities.  `int(np.ceil(sample_length / update_probs_every))` is computed exactly.  If both the length and the batch
size are negative the loop is entered and its first call of `choice` is given a negative size: `ValueError`; in all other
cases the sizes are not negative. -/
def seqBootstrapTrace (M : IndMat) (rng : ℕ → List (XF ℚ) → ℕ → List ℕ) (len : Option ℤ) (k : ℤ) :
    Py (List (List (XF ℚ) × List ℕ)) :=
  let len := len.getD M.nCols
  if k = 0 then .error .zeroDivisionError
  else if len < 0 ∧ k < 0 then .error .valueError
  else bootLoop M rng len k (⌈(len : ℚ) / (k : ℚ)⌉).toNat 0 (initState M)

/-- The value returned by `seq_bootstrap` (`bootstrapping.py` lines 139-195). -/
def seqBootstrap (M : IndMat) (rng : ℕ → List (XF ℚ) → ℕ → List ℕ) (len : Option ℤ) (k : ℤ) :
    Py (List ℕ) :=
  (seqBootstrapTrace M rng len k).map fun tr => (tr.map (·.2)).flatten

/-- `AverageUniqueness.transform` (`/repo/mizarlabs/transformers/sampling/average_uniqueness.py` lines
18-38) on a frame given by its index and event-end column; both asserts come first.  The value is the
series indexed like the input. -/
def averageUniqueness (X : List (ℤ × Option ℤ)) : Py (List (ℤ × XF ℚ)) :=
  if X.any (fun e => e.2.isNone) then .error .assertionError
  else if ¬ (X.map (·.1)).Nodup then .error .assertionError
  else
    match getIndMatrix (X.map fun e => (some e.1, e.2)) (X.map (·.1)) with
    | .ok (M, _) => .ok ((X.map (·.1)).zip (calcAverageUniqueness M))
    | .error e => .error e

end Mizar.Boot
