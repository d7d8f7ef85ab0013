import Verif.Py.Basic
import Verif.Py.XF
import Verif.Py.MapE

/-!
Model of `/repo/mizarlabs/transformers/targets/labeling.py` and of
`/repo/mizarlabs/transformers/utils.py`.

Times are integers (nanoseconds), a missing time (`NaT`) is `none`.
-/

namespace Mizar.Lab
variable {K : Type*} [Field K] [LinearOrder K]

/-- `SIDE` of `/repo/mizarlabs/static.py` line 22. -/
def SIDE : String := "side"

/-- The 64-bit integer that represents `NaT` (`/repo/mizarlabs/transformers/utils.py` lines 17-28). -/
def natInt : ℤ := -(2 ^ 63)

/-- `convert_to_timestamp` (`/repo/mizarlabs/transformers/utils.py` lines 17-28) on one entry:
`astype(int) // 10 ** 6` (floor division). -/
def convertToTimestamp (t : Option ℤ) : ℤ := (t.getD natInt) / 1000000

/-- Smallest element (`np.min`), `0` (the initial value of the output array) when there is none (`labeling.py` lines 319-324, 344-357). -/
def minOrZero : List ℤ → ℤ
  | [] => 0
  | a :: l => l.foldl min a

/-- The part of the body of the loop of `get_horizontal_barriers_hit` that finds the first breach of one
barrier (`labeling.py` lines 327-357): `bars` are the (timestamp, close) pairs, `breach` compares the
side-adjusted return with the barrier. -/
def firstHit (bars : List (ℤ × XF K)) (start exp : ℤ) (close side : XF K) (breach : XF K → Bool) : ℤ :=
  let within := bars.filter fun p => decide (start ≤ p.1) && decide (p.1 < exp)
  let hit := within.filter fun p => breach (XF.mul (XF.sub (XF.div p.2 close) (.fin 1)) side)
  minOrZero (hit.map (·.1))

/-- One event as seen by `get_horizontal_barriers_hit`: timestamps in ms, close at the event, side,
barrier values (`labeling.py` lines 292-297). -/
structure HEvent (K : Type*) where
  exp : ℤ
  start : ℤ
  close : XF K
  side : XF K
  stopLoss : XF K
  profitTaking : XF K

/-- `get_horizontal_barriers_hit` (`labeling.py` lines 290-359): per event (profit-taking hit,
stop-loss hit), `0` for none.  The loop is a `prange`; iterations are independent. -/
def getHorizontalBarriersHit (bars : List (ℤ × XF K)) (evs : List (HEvent K)) : List (ℤ × ℤ) :=
  evs.map fun e =>
    (firstHit bars e.start e.exp e.close e.side (fun r => XF.lt e.profitTaking r),
     firstHit bars e.start e.exp e.close e.side (fun r => XF.lt r e.stopLoss))

/-- One row of `barrier_info_df` with the close of the same row (`labeling.py` lines 158-173). -/
structure Event (K : Type*) where
  start : ℤ
  exp : Option ℤ
  close : XF K
  vol : XF K
  side : XF K

/-- One row of `barriers_df` (`labeling.py` lines 238, 278-283). -/
structure Barriers where
  exp : Option ℤ
  stopLoss : Option ℤ
  profitTaking : Option ℤ
  deriving DecidableEq, Repr

/-- `.replace(0, np.nan)` followed by `pd.to_datetime(..., unit="ms")` (`labeling.py` lines 268-283). -/
def fromMs (t : ℤ) : Option ℤ := if t = 0 then none else some (t * 1000000)

/-- The event as prepared by `triple_barrier_labeling` (`labeling.py` lines 233-266); a factor that is not
positive gives NaN barriers; a missing expiration is replaced by the last time. -/
def prepare (last : ℤ) (ptf slf : K) (e : Event K) : HEvent K :=
  { exp := convertToTimestamp (some (e.exp.getD last))
    start := convertToTimestamp (some e.start)
    close := e.close
    side := e.side
    stopLoss := if 0 < slf then XF.mul (.fin (-slf)) e.vol else .nan
    profitTaking := if 0 < ptf then XF.mul (.fin ptf) e.vol else .nan }

/-- `triple_barrier_labeling` (`labeling.py` lines 208-287), given that the columns exist.  `bars` is the
close series; `evs` has one row per bar (as in `_transform`). -/
def tripleBarrierLabeling (bars : List (ℤ × XF K)) (evs : List (Event K)) (ptf slf : K) :
    Py (List Barriers) :=
  if ptf < 0 ∧ slf < 0 then .error .valueError
  else
    match bars.getLast? with
    | none => .error .indexError
    | some last =>
      let hits := getHorizontalBarriersHit (bars.map fun b => (convertToTimestamp (some b.1), b.2))
        (evs.map (prepare last.1 ptf slf))
      .ok (List.zipWith (fun (e : Event K) (h : ℤ × ℤ) => ⟨e.exp, fromMs h.2, fromMs h.1⟩) evs hits)

/-- Minimum of two times skipping missing ones (`labeling.py` line 182). -/
def minOpt : Option ℤ → Option ℤ → Option ℤ
  | none, b => b
  | a, none => a
  | some a, some b => some (min a b)

/-- `barriers_df.dropna(how="all").min(axis=1)` for one row (`labeling.py` line 182). -/
def eventEnd (b : Barriers) : Option ℤ := minOpt b.exp (minOpt b.stopLoss b.profitTaking)

/-- `close.loc[t]` for a unique index (`labeling.py` lines 399-407). -/
def closeAt (bars : List (ℤ × XF K)) (t : ℤ) : Py (XF K) :=
  match bars.find? fun b => b.1 == t with
  | some b => .ok b.2
  | none => .error .keyError

/-- The label of one event from its return, line numbers 412-425: metalabels are 1 / 0 / missing. -/
def labelOf (metalabeling : Bool) (ret : XF K) : XF K :=
  if metalabeling then
    if XF.lt (.fin 0) ret then .fin 1 else if XF.lt ret (.fin 0) then .fin 0 else .nan
  else XF.sign ret

/-- Return and label of one event (`labeling.py` lines 387-431); `none` for an event without end, which is
not in the output of `get_labels`. -/
def labelRow (bars : List (ℤ × XF K)) (metalabeling expirationLabel : Bool) (e : Event K) (b : Barriers) :
    Py (Option (XF K × XF K)) :=
  match eventEnd b with
  | none => .ok none
  | some t => (closeAt bars t).map fun c =>
      let ret := XF.sub (XF.div c e.close) (.fin 1)
      let ret := if metalabeling then XF.mul ret e.side else ret
      let label :=
        if expirationLabel && b.stopLoss.isNone && b.profitTaking.isNone then .fin 0
        else labelOf metalabeling ret
      some (ret, label)

/-- `get_labels` (`labeling.py` lines 362-435), given that the columns exist.  `reindex(method="bfill")`
refuses an index that is neither increasing nor decreasing or has duplicates; all times looked up are in the index.  If no event has an end,
`output_df` has no rows, and line 419 adds the column of metalabels to it with a scalar: pandas raises `ValueError`. -/
def getLabels (bars : List (ℤ × XF K)) (metalabeling expirationLabel : Bool)
    (rows : List (Event K × Barriers)) : Py (List (Option (XF K × XF K))) :=
  if (bars.map (·.1)).Pairwise (· < ·) ∨ (bars.map (·.1)).Pairwise (· > ·) then
    if metalabeling && rows.all (fun r => (eventEnd r.2).isNone) then .error .valueError
    else mapE (fun r : Event K × Barriers => labelRow bars metalabeling expirationLabel r.1 r.2) rows
  else .error .valueError

/-- Constructor parameters of `TripleBarrierMethodLabeling` (`labeling.py` lines 102-128). -/
structure Cfg (K : Type*) where
  nExp : ℤ
  ptf : K
  slf : K
  metalabeling : Bool
  closeName : String
  sideName : String
  volAdjusted : Bool
  expirationLabel : Bool

/-- The assertion of the constructor (lines 125-128). -/
def construct (c : Cfg K) : Py (Cfg K) :=
  if c.metalabeling && c.sideName == "" then .error .assertionError else .ok c

/-- The input frame: index and named columns (`labeling.py` line 149). -/
structure Frame (K : Type*) where
  times : List ℤ
  cols : List (String × List (XF K))

/-- `name in df.columns` (`labeling.py` lines 137-142, 170). -/
def Frame.has (f : Frame K) (name : String) : Bool := f.cols.any fun c => c.1 == name

/-- `df[name]` (`labeling.py` lines 165, 173, 176). -/
def Frame.col (f : Frame K) (name : String) : Py (List (XF K)) :=
  match f.cols.find? fun c => c.1 == name with
  | some c => .ok c.2
  | none => .error .keyError

/-- One row of the output frame (`labeling.py` lines 194-200). -/
structure Row (K : Type*) where
  endTime : Option ℤ
  vol : XF K
  ret : XF K
  label : XF K
  deriving DecidableEq

/-- `_check_input` (lines 136-147). -/
def checkInput (c : Cfg K) (f : Frame K) : Py Unit :=
  if c.metalabeling then
    if f.has c.closeName && f.has c.sideName then .ok () else .error .assertionError
  else if f.has c.closeName then .ok () else .error .assertionError

/-- `pd.Series(index).shift(-n)` (line 160-162): the time `n` positions later. -/
def shiftIndex (times : List ℤ) (n : ℤ) (i : ℕ) : Option ℤ :=
  if 0 ≤ (i : ℤ) + n then times[((i : ℤ) + n).toNat]? else none

/-- The events of `_transform` (lines 160-173). -/
def events (times : List ℤ) (close vol side : List (XF K)) (n : ℤ) : List (Event K) :=
  (List.range times.length).map fun i =>
    ⟨times.getD i 0, shiftIndex times n i, close.getD i .nan, vol.getD i .nan, side.getD i .nan⟩

/-- The side column used (lines 170-173). -/
def sideColumn (c : Cfg K) (f : Frame K) : Py (List (XF K)) :=
  if f.has SIDE then f.col c.sideName else .ok (List.replicate f.times.length (.fin 1))

/-- Assembling the output (lines 192-205): rows without volatility are blanked. -/
def outputRow (e : Event K) (b : Barriers) (l : Option (XF K × XF K)) : Row K :=
  if e.vol.isNan then ⟨none, e.vol, .nan, .nan⟩
  else ⟨eventEnd b, e.vol, (l.map (·.1)).getD .nan, (l.map (·.2)).getD .nan⟩

/-- The computation of `_transform` once the columns are known (lines 175-205). -/
def label (bars : List (ℤ × XF K)) (evs : List (Event K)) (c : Cfg K) : Py (List (Row K)) :=
  match tripleBarrierLabeling bars evs c.ptf c.slf with
  | .error e => .error e
  | .ok bs =>
    match getLabels bars c.metalabeling c.expirationLabel (evs.zip bs) with
    | .error e => .error e
    | .ok ls => .ok (List.zipWith (fun (eb : Event K × Barriers) l => outputRow eb.1 eb.2 l) (evs.zip bs) ls)

/-- `BaseLabeling.transform` with `TripleBarrierMethodLabeling._transform` (`labeling.py` lines 46-57 and
149-205).  `dailyVol times close` is the value of `get_daily_vol` aligned with the index.  The side column
is stored under `side_column_name`, but `triple_barrier_labeling` requires the column `SIDE` (line 234). -/
def transform (dailyVol : List ℤ → List (XF K) → List (XF K)) (c : Cfg K) (f : Frame K) : Py (List (Row K)) :=
  match checkInput c f with
  | .error e => .error e
  | .ok () =>
    match f.col c.closeName with
    | .error e => .error e
    | .ok close =>
      let vol := if c.volAdjusted then dailyVol f.times close else List.replicate f.times.length (.fin 1)
      match sideColumn c f with
      | .error e => .error e
      | .ok side =>
        if c.sideName = SIDE then label (f.times.zip close) (events f.times close vol side c.nExp) c
        else .error .assertionError

end Mizar.Lab
