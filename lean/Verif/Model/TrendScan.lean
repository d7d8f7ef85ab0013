import Verif.Model.Ols

/-!
Model of `/repo/mizarlabs/transformers/targets/trend_scanning.py`.

Times are unique, in the series and among the events.  `look_forward_window` and `min_sample_length` are natural
numbers, `step` is an integer (not modelled: `min_sample_length = 0` together with a negative step, where the end position
can be -1).  `np.empty` gives arbitrary values: `mem i p` is what the array made for the `i`-th event
holds at position `p`.  `np.argmax` takes the first NaN if there is one, else the first greatest value.
-/

namespace Mizar.Trend
open Mizar.Brk

/-- Parameters of `TrendScannerLabeling` other than the events (`trend_scanning.py` lines 44-58). -/
structure Params where
  look : ℕ
  minLen : ℕ
  step : ℤ

/-- `TrendScannerLabeling.__init__` (`trend_scanning.py` lines 44-58). -/
def init (p : Params) : Py Unit := if p.minLen < p.look then .ok () else .error .assertionError

/-- The t-value of the trend over one window (`trend_scanning.py` lines 239-263): regression on `[1, 0], [1, 1], …`. -/
noncomputable def trendT (em : ErrModel) (w : List (XF ℝ)) : Py (XF ℝ) :=
  tValue em (1 : Fin 2) (w.zipIdx.map fun r => (![.fin 1, .fin (r.2 : ℝ)], r.1))

/-- `np.arange(min_sample_length, y_subset.shape[0], step)` (`trend_scanning.py` line 238). -/
def windows (minLen look : ℕ) (step : ℤ) : Py (List ℕ) :=
  if step = 0 then .error .valueError
  else if step < 0 then .ok []
  else .ok ((List.range look).filter fun f => decide (minLen ≤ f) && (f - minLen) % step.toNat == 0)

/-- The loop of `_get_t_val_and_event_end_time_index_at_index` (`trend_scanning.py` lines 238-263). -/
noncomputable def fill (em : ErrModel) (w : List (XF ℝ)) (minLen : ℕ) : List ℕ → List (XF ℝ) → Py (List (XF ℝ))
  | [], a => .ok a
  | f :: fs, a => do
    let t ← trendT em (w.take f)
    fill em w minLen fs (a.set (f - minLen) t)

/-- `np.argmax` (`trend_scanning.py` line 266). -/
noncomputable def argmaxGo : ℕ → ℕ → XF ℝ → List (XF ℝ) → ℕ
  | _, b, _, [] => b
  | i, b, v, x :: l => if !v.isNan && (x.isNan || XF.lt v x) then argmaxGo (i + 1) i x l else argmaxGo (i + 1) b v l

/-- `np.argmax` of a non-empty array (`trend_scanning.py` line 266). -/
noncomputable def argmax : List (XF ℝ) → ℕ
  | [] => 0
  | x :: l => argmaxGo 1 0 x l

/-- `_get_t_val_and_event_end_time_index_at_index` (`trend_scanning.py` lines 212-268). -/
noncomputable def bestAt (em : ErrModel) (mem : ℕ → XF ℝ) (p : Params) (w : List (XF ℝ)) : Py (XF ℝ × ℕ) := do
  let fs ← windows p.minLen w.length p.step
  let a ← fill em w p.minLen fs ((List.range (w.length - p.minLen)).map mem)
  let i := argmax (a.map XF.abs)
  .ok (a.getD i .nan, i)

/-- One event of `_trend_scan_each_index` (`trend_scanning.py` lines 180-209): t-value and position of the end. -/
noncomputable def scanAt (em : ErrModel) (mem : ℕ → XF ℝ) (p : Params) (y : List (XF ℝ)) (index : ℕ) : Py (XF ℝ × Option ℕ) :=
  let w := (y.drop index).take p.look
  if w.length = p.look then do
    let r ← bestAt em mem p w
    .ok (r.1, some (index + r.2 + p.minLen - 1))
  else .ok (.nan, none)

/-- One row of the result (`trend_scanning.py` lines 124-147). -/
structure Label where
  time : ℤ
  eventEnd : Option ℤ
  tValue : XF ℝ
  ret : XF ℝ
  label : XF ℝ

/-- Row for one event (`trend_scanning.py` lines 124-147). -/
noncomputable def labelAt (em : ErrModel) (mem : ℕ → ℕ → XF ℝ) (p : Params) (s : List (ℤ × XF ℝ)) (e : ℤ × ℕ) : Py Label := do
  let index := (s.map (·.1)).idxOf e.1
  let y := s.map (·.2)
  let r ← scanAt em (mem e.2) p y index
  .ok { time := e.1
        eventEnd := r.2.map fun i => (s.map (·.1)).getD i 0
        tValue := r.1
        ret := match r.2 with
          | some i => XF.sub (XF.div (y.getD i .nan) (y.getD index .nan)) (.fin 1)
          | none => .nan
        label := XF.sign r.1 }

/-- `TrendScannerLabeling.transform` (`trend_scanning.py` lines 63-147): the attribute `t_events` before and after, and
the result.  The check of the output (lines 74-82) always holds. -/
noncomputable def transform (em : ErrModel) (mem : ℕ → ℕ → XF ℝ) (p : Params) (events : Option (List ℤ)) (s : List (ℤ × XF ℝ)) :
    Option (List ℤ) × Py (List Label) :=
  match events with
  | some ev =>
    if ∀ e ∈ ev, e ∈ s.map (·.1) then (some ev, mapE (labelAt em mem p s) ev.zipIdx) else (some ev, .error .assertionError)
  | none => (some (s.map (·.1)), mapE (labelAt em mem p s) (s.map (·.1)).zipIdx)

end Mizar.Trend
