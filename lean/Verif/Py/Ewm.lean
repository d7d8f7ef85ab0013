import Verif.Py.XReal
import Verif.Py.Series

/-!
The recursions of pandas (`pandas/_libs/window/aggregations.pyx`, functions `ewma` and `ewmcov`) for
`Series.ewm(span=s).mean()` and `Series.ewm(span=s).std()` with the default options `adjust=True`,
`ignore_na=False`, `min_periods=0`, on ideal floats; infinities are replaced by NaN first.  This is assumed behaviour of a library the code calls.

Where the code calls them (under `/repo/mizarlabs/transformers/`): `targets/labeling.py` line 462, `technical/volume.py`
lines 23-28, `technical/moving_average.py` lines 135-136.
-/

set_option linter.unusedSectionVars false

namespace Mizar
variable {K : Type*} [Field K] [LinearOrder K]

/-- `alpha` of a span: `1 / (1 + com)` with `com = (span - 1) / 2`. -/
def ewmAlpha (span : ℕ) : K := 2 / ((span : K) + 1)

/-- Running values of `ewma`: `weighted` and `old_wt`. -/
structure EwmSt (K : Type*) where
  mean : XF K
  oldWt : K
  deriving DecidableEq

/-- One iteration of `ewma`; the first iteration of the source is the case of an undefined mean. -/
def ewmStep (a : K) (s : EwmSt K) (x : XF K) : EwmSt K :=
  if s.mean.isNan then
    if x.isNan then s else ⟨x, s.oldWt⟩
  else
    let o := s.oldWt * (1 - a)
    if x.isNan then ⟨s.mean, o⟩
    else if XF.beq s.mean x then ⟨s.mean, o + 1⟩
    else ⟨XF.div (XF.add (XF.mul (.fin o) s.mean) x) (.fin (o + 1)), o + 1⟩

/-- Running output of a recursion. -/
def scanMap {σ α β : Type*} (f : σ → α → σ) (g : σ → β) : σ → List α → List β
  | _, [] => []
  | s, x :: xs => g (f s x) :: scanMap f g (f s x) xs

/-- `series.ewm(span=s).mean()` with `a = ewmAlpha s`. -/
def ewmMean (a : K) (xs : List (XF K)) : List (XF K) := scanMap (ewmStep a) EwmSt.mean ⟨.nan, 1⟩ (xs.map XF.prep)

/-- Running values of `ewmcov` of a series with itself. -/
structure EwmVarSt (K : Type*) where
  mean : XF K
  cov : XF K
  sumWt : K
  sumWt2 : K
  oldWt : K

/-- One iteration of `ewmcov`. -/
def ewmVarStep (a : K) (s : EwmVarSt K) (x : XF K) : EwmVarSt K :=
  if s.mean.isNan then
    if x.isNan then s else { s with mean := x }
  else
    let sw := s.sumWt * (1 - a)
    let sw2 := s.sumWt2 * ((1 - a) * (1 - a))
    let o := s.oldWt * (1 - a)
    if x.isNan then { s with sumWt := sw, sumWt2 := sw2, oldWt := o }
    else
      let m := if XF.beq s.mean x then s.mean else XF.div (XF.add (XF.mul (.fin o) s.mean) x) (.fin (o + 1))
      let dm := XF.sub s.mean m
      let dx := XF.sub x m
      let c := XF.div (XF.add (XF.mul (.fin o) (XF.add s.cov (XF.mul dm dm))) (XF.mul dx dx)) (.fin (o + 1))
      ⟨m, c, sw + 1, sw2 + 1, o + 1⟩

/-- Output of `ewmcov` with `bias=False` (undefined for a single observation). -/
def ewmVarOut (s : EwmVarSt K) : XF K :=
  if s.mean.isNan then .nan
  else if 0 < s.sumWt * s.sumWt - s.sumWt2 then
    XF.mul (.fin (s.sumWt * s.sumWt / (s.sumWt * s.sumWt - s.sumWt2))) s.cov
  else .nan

/-- `series.ewm(span=s).var()`. -/
def ewmVar (a : K) (xs : List (XF K)) : List (XF K) := scanMap (ewmVarStep a) ewmVarOut ⟨.nan, .fin 0, 1, 1, 1⟩ (xs.map XF.prep)

/-- `series.ewm(span=s).std()`. -/
noncomputable def ewmStd (a : ℝ) (xs : List (XF ℝ)) : List (XF ℝ) := (ewmVar a xs).map XF.sqrt

section
variable {σ α β : Type*} (f : σ → α → σ) (g : σ → β)

theorem scanMap_length (s : σ) (xs : List α) : (scanMap f g s xs).length = xs.length := by
  induction xs generalizing s with
  | nil => rfl
  | cons x xs ih => simp [scanMap, ih]

theorem scanMap_getElem? (s : σ) (xs : List α) (i : ℕ) (hi : i < xs.length) :
    (scanMap f g s xs)[i]? = some (g ((xs.take (i + 1)).foldl f s)) := by
  induction xs generalizing s i with
  | nil => simp at hi
  | cons x xs ih =>
    cases i with
    | zero => simp [scanMap]
    | succ i =>
      simp only [scanMap, List.getElem?_cons_succ, List.take_succ_cons, List.foldl_cons]
      exact ih (f s x) i (by simpa using hi)

theorem scanMap_take (s : σ) (xs : List α) (k : ℕ) : scanMap f g s (xs.take k) = (scanMap f g s xs).take k := by
  induction xs generalizing s k with
  | nil => simp [scanMap]
  | cons x xs ih =>
    cases k with
    | zero => simp [scanMap]
    | succ k => simp [scanMap, ih]
end

theorem ewmMean_take (a : K) (xs : List (XF K)) (k : ℕ) : ewmMean a (xs.take k) = (ewmMean a xs).take k := by
  unfold ewmMean; rw [List.map_take, scanMap_take]

theorem ewmVar_take (a : K) (xs : List (XF K)) (k : ℕ) : ewmVar a (xs.take k) = (ewmVar a xs).take k := by
  unfold ewmVar; rw [List.map_take, scanMap_take]

theorem ewmVar_length (a : K) (xs : List (XF K)) : (ewmVar a xs).length = xs.length := by
  unfold ewmVar; rw [scanMap_length, List.length_map]

theorem ewmMean_length (a : K) (xs : List (XF K)) : (ewmMean a xs).length = xs.length := by
  unfold ewmMean; rw [scanMap_length, List.length_map]

theorem ewmStd_take (a : ℝ) (xs : List (XF ℝ)) (k : ℕ) : ewmStd a (xs.take k) = (ewmStd a xs).take k := by
  unfold ewmStd; rw [ewmVar_take, List.map_take]

theorem ewmStd_length (a : ℝ) (xs : List (XF ℝ)) : (ewmStd a xs).length = xs.length := by
  unfold ewmStd; rw [List.length_map, ewmVar_length]

end Mizar
