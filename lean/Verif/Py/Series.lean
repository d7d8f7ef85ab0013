import Mathlib.Data.List.GetD
import Verif.Py.XF

/-!
pandas `Series` operations on lists of ideal floats: `diff`, `shift`, `cumsum`, `ffill`, `rolling(w)`.
This is assumed behaviour of a library the code calls (default arguments, `min_periods = window`).

Where the code calls them (under `/repo/mizarlabs/`): `transformers/features/rolling_z_score.py` lines 41-48,
`transformers/features/custom.py` line 11, `transformers/microstructural_features/first_generation.py` lines 32-35, 108-145,
`second_generation.py` lines 43-46, 83-87, 124-127, `vpin.py` lines 58-76, `transformers/technical/moving_average.py` lines 53-97,
`rsi.py` lines 45-55, 115-120, `macd.py` line 40, `transformers/sample_weights/__init__.py` lines 51, 131,
`transformers/sampling/down_sampling.py` line 32, `structural_breaks/sadf.py` lines 149-151, 263, `sdfc.py` lines 81-82.
-/

set_option linter.unusedSectionVars false

namespace Mizar
variable {K : Type*} [Field K] [LinearOrder K]

/-- `Series.shift(1)`. -/
def pdShift (l : List (XF K)) : List (XF K) := (.nan :: l).take l.length

/-- `Series.diff()`. -/
def pdDiff (l : List (XF K)) : List (XF K) := List.zipWith XF.sub l (pdShift l)

/-- `Series.ffill()` with the value carried from before. -/
def pdFfillFrom : XF K → List (XF K) → List (XF K)
  | _, [] => []
  | last, x :: l => if x.isNan then last :: pdFfillFrom last l else x :: pdFfillFrom x l

/-- `Series.ffill()`. -/
def pdFfill (l : List (XF K)) : List (XF K) := pdFfillFrom .nan l

/-- `Series.fillna(v)` of one value. -/
def fillna1 (v x : XF K) : XF K := if x.isNan then v else x

/-- `Series.cumsum()` (`skipna=True`): missing values stay missing and are skipped in the sum. -/
def pdCumsumFrom : XF K → List (XF K) → List (XF K)
  | _, [] => []
  | acc, x :: l => if x.isNan then .nan :: pdCumsumFrom acc l else XF.add acc x :: pdCumsumFrom (XF.add acc x) l

/-- `Series.cumsum()`. -/
def pdCumsum (l : List (XF K)) : List (XF K) := pdCumsumFrom (.fin 0) l

/-- Value counted as missing by the window functions: they replace infinities by NaN first
(`pandas/core/window/rolling.py`, `_prep_values`). -/
def XF.undef (x : XF K) : Bool := x.isNan || x.isInf

/-- `_prep_values`: infinities are replaced by NaN. -/
def XF.prep (x : XF K) : XF K := if x.isInf then .nan else x

/-- The window of `rolling(w)` that ends at position `i`. -/
def winAt {α : Type*} (w i : ℕ) (l : List α) : List α := (l.take (i + 1)).drop (i + 1 - w)

/-- `rolling(w).agg` at position `i`: NaN without `w` observations. -/
def rollAt (w : ℕ) (f : List K → XF K) (l : List (XF K)) (i : ℕ) : XF K :=
  if i + 1 < w then .nan
  else if (winAt w i l).any XF.undef then .nan
  else f ((winAt w i l).map XF.toK)

/-- `series.rolling(w).agg(f)` for `w ≥ 1`. -/
def rolling (w : ℕ) (f : List K → XF K) (l : List (XF K)) : List (XF K) := (List.range l.length).map (rollAt w f l)

/-- `x.rolling(w).agg(f, y)` of two series at position `i`: NaN without `w` observations of both. -/
def rollAt2 (w : ℕ) (f : List K → List K → XF K) (l m : List (XF K)) (i : ℕ) : XF K :=
  if i + 1 < w then .nan
  else if (winAt w i l).any XF.undef || (winAt w i m).any XF.undef then .nan
  else f ((winAt w i l).map XF.toK) ((winAt w i m).map XF.toK)

/-- `x.rolling(w).cov(y)` and the like for `w ≥ 1`; the series have the same index. -/
def rolling2 (w : ℕ) (f : List K → List K → XF K) (l m : List (XF K)) : List (XF K) :=
  (List.range l.length).map (rollAt2 w f l m)

/-- Sum of a window. -/
def winSum (l : List K) : XF K := .fin l.sum
/-- Mean of a window (NaN for an empty one). -/
def winMean (l : List K) : XF K := if l.length = 0 then .nan else .fin (l.sum / (l.length : K))
/-- Maximum of a window. -/
def winMax : List K → XF K
  | [] => .nan
  | a :: l => .fin (l.foldl max a)
/-- Minimum of a window. -/
def winMin : List K → XF K
  | [] => .nan
  | a :: l => .fin (l.foldl min a)
/-- Sample covariance of two windows (`ddof=1`; undefined for one observation). -/
def winCov (l m : List K) : XF K :=
  let n : K := (l.length : K)
  if l.length ≤ 1 then .nan
  else .fin (((List.zipWith (· * ·) l m).sum - l.sum * m.sum / n) / (n - 1))
/-- Sample variance of a window (`ddof=1`). -/
def winVar (l : List K) : XF K := winCov l l

@[simp] theorem length_pdShift (l : List (XF K)) : (pdShift l).length = l.length := by simp [pdShift]
@[simp] theorem length_pdDiff (l : List (XF K)) : (pdDiff l).length = l.length := by simp [pdDiff]
@[simp] theorem length_pdFfillFrom (a : XF K) (l : List (XF K)) : (pdFfillFrom a l).length = l.length := by
  induction l generalizing a with
  | nil => rfl
  | cons x l ih => unfold pdFfillFrom; split <;> simp [ih]
@[simp] theorem length_pdFfill (l : List (XF K)) : (pdFfill l).length = l.length := length_pdFfillFrom _ _
@[simp] theorem length_pdCumsumFrom (a : XF K) (l : List (XF K)) : (pdCumsumFrom a l).length = l.length := by
  induction l generalizing a with
  | nil => rfl
  | cons x l ih => unfold pdCumsumFrom; split <;> simp [ih]
@[simp] theorem length_pdCumsum (l : List (XF K)) : (pdCumsum l).length = l.length := length_pdCumsumFrom _ _
@[simp] theorem length_rolling (w : ℕ) (f : List K → XF K) (l : List (XF K)) : (rolling w f l).length = l.length := by
  simp [rolling]

theorem pdShift_take (l : List (XF K)) (k : ℕ) : pdShift (l.take k) = (pdShift l).take k := by
  unfold pdShift
  rw [List.length_take, List.take_take]
  apply List.ext_getElem?
  intro i
  simp only [List.getElem?_take]
  split
  · rename_i h
    cases i with
    | zero => rfl
    | succ i =>
      simp only [List.getElem?_cons_succ, List.getElem?_take]
      rw [if_pos (by omega)]
  · rfl

theorem zipWith_take {α β γ : Type*} (f : α → β → γ) (l : List α) (m : List β) (k : ℕ) :
    List.zipWith f (l.take k) (m.take k) = (List.zipWith f l m).take k := by
  rw [List.take_zipWith]

theorem pdDiff_take (l : List (XF K)) (k : ℕ) : pdDiff (l.take k) = (pdDiff l).take k := by
  unfold pdDiff; rw [pdShift_take, zipWith_take]

theorem pdFfillFrom_take (a : XF K) (l : List (XF K)) (k : ℕ) :
    pdFfillFrom a (l.take k) = (pdFfillFrom a l).take k := by
  induction l generalizing a k with
  | nil => simp [pdFfillFrom]
  | cons x l ih =>
    cases k with
    | zero => simp [pdFfillFrom]
    | succ k => simp only [List.take_succ_cons, pdFfillFrom]; split <;> simp [ih]

theorem pdFfill_take (l : List (XF K)) (k : ℕ) : pdFfill (l.take k) = (pdFfill l).take k := pdFfillFrom_take _ _ _

theorem rolling_take (w : ℕ) (f : List K → XF K) (l : List (XF K)) (k : ℕ) :
    rolling w f (l.take k) = (rolling w f l).take k := by
  unfold rolling
  rw [← List.map_take, List.length_take, List.take_range]
  apply List.map_congr_left
  intro i hi
  rw [List.mem_range] at hi
  have : winAt w i (l.take k) = winAt w i l := by
    unfold winAt
    rw [List.take_take, Nat.min_eq_left (by omega)]
  unfold rollAt
  rw [this]

theorem rolling2_take (w : ℕ) (f : List K → List K → XF K) (l m : List (XF K)) (k : ℕ) :
    rolling2 w f (l.take k) (m.take k) = (rolling2 w f l m).take k := by
  unfold rolling2
  rw [← List.map_take, List.length_take, List.take_range]
  apply List.map_congr_left
  intro i hi
  rw [List.mem_range] at hi
  have h : ∀ l : List (XF K), winAt w i (l.take k) = winAt w i l := by
    intro l
    unfold winAt
    rw [List.take_take, Nat.min_eq_left (by omega)]
  unfold rollAt2
  rw [h, h]

@[simp] theorem length_rolling2 (w : ℕ) (f : List K → List K → XF K) (l m : List (XF K)) :
    (rolling2 w f l m).length = l.length := by
  simp [rolling2]

theorem rolling2_getElem? (w : ℕ) (f : List K → List K → XF K) (l m : List (XF K)) (i : ℕ) (hi : i < l.length) :
    (rolling2 w f l m)[i]? = some (rollAt2 w f l m i) := by
  unfold rolling2
  rw [List.getElem?_map, List.getElem?_range hi]; rfl

theorem pdDiff_getElem? (l : List (XF K)) (i : ℕ) (hi : i < l.length) :
    (pdDiff l)[i]? = some (if h : i = 0 then .nan else XF.sub l[i] (l[i - 1])) := by
  unfold pdDiff pdShift
  rw [List.getElem?_zipWith, List.getElem?_take, if_pos hi, List.getElem?_eq_getElem hi]
  cases i with
  | zero => simp
  | succ i =>
    simp only [List.getElem?_cons_succ, List.getElem?_eq_getElem (show i < l.length by omega)]
    simp

theorem rolling_getElem? (w : ℕ) (f : List K → XF K) (l : List (XF K)) (i : ℕ) (hi : i < l.length) :
    (rolling w f l)[i]? = some (rollAt w f l i) := by
  unfold rolling
  rw [List.getElem?_map, List.getElem?_range hi]; rfl

end Mizar
