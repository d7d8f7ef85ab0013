import Verif.Py.Frame
import Verif.Py.Ewm
import Verif.Py.MapE

/-!
Primitives of the feature transformers: reading columns, windows given by Python integers, prefixes of frames.

Where the code uses them (under `/repo/mizarlabs/transformers/`): `utils.py` lines 11-14 (`check_missing_columns`),
`features/rolling_z_score.py` lines 41-57, `features/custom.py` lines 10-13, the methods `transform` of
`microstructural_features/*.py` and of `technical/*.py`.
-/

set_option linter.unusedSectionVars false

namespace Mizar
variable {K : Type} [Field K] [LinearOrder K]

/-- The values of a column. -/
def Frame.values (f : Frame K) (name : String) : List (XF K) := f.rows.map fun r => r.2.getD (f.cols.idxOf name) .nan

/-- `X[name]`: a missing column raises `KeyError`. -/
def Frame.col (f : Frame K) (name : String) : Py (List (XF K)) :=
  if name ∈ f.cols then .ok (f.values name) else .error .keyError

/-- `X.name`: a missing column raises `AttributeError`. -/
def Frame.attr (f : Frame K) (name : String) : Py (List (XF K)) :=
  if name ∈ f.cols then .ok (f.values name) else .error .attributeError

/-- `check_missing_columns` (`transformers/utils.py` lines 11-14). -/
def checkMissing (f : Frame K) (wanted : List String) : Py Unit :=
  if ∀ c ∈ wanted, c ∈ f.cols then .ok () else .error .assertionError

/-- The first `k` rows, `X.iloc[:k]`. -/
def Frame.take (f : Frame K) (k : ℕ) : Frame K := ⟨f.cols, f.rows.take k⟩

/-- `series.rolling(window).agg(f)`: a negative window raises `ValueError`. -/
def rollE (w : ℤ) (f : List K → XF K) (l : List (XF K)) : Py (List (XF K)) :=
  if w < 0 then .error .valueError else .ok (rolling w.toNat f l)

/-- `x.rolling(window).agg(f, y)`. -/
def rollE2 (w : ℤ) (f : List K → List K → XF K) (l m : List (XF K)) : Py (List (XF K)) :=
  if w < 0 then .error .valueError else .ok (rolling2 w.toNat f l m)

/-- `series.ewm(span).mean()`: a span below 1 raises `ValueError`. -/
def ewmE (span : ℤ) (l : List (XF K)) : Py (List (XF K)) :=
  if span < 1 then .error .valueError else .ok (ewmMean (ewmAlpha span.toNat) l)

/-- `pd.Series(values, index=X.index)`: another length raises `ValueError`. -/
def likeIndex (f : Frame K) (v : List (XF K)) : Py (List (XF K)) :=
  if v.length = f.rows.length then .ok v else .error .valueError

theorem Frame.values_length (f : Frame K) (name : String) : (f.values name).length = f.rows.length := by
  simp [Frame.values]

theorem Frame.values_take (f : Frame K) (name : String) (k : ℕ) : (f.take k).values name = (f.values name).take k := by
  simp [Frame.values, Frame.take, List.map_take]

theorem Frame.index_take (f : Frame K) (k : ℕ) : (f.take k).index = f.index.take k := by
  simp [Frame.index, Frame.take, List.map_take]

/-- Prefix of a result. -/
abbrev takeE {α : Type} (k : ℕ) (r : Py (List α)) : Py (List α) := r.map (List.take k)

theorem takeE_ok {α : Type} (k : ℕ) (l : List α) : takeE k (.ok l : Py (List α)) = .ok (l.take k) := rfl
theorem takeE_error {α : Type} (k : ℕ) (e : PyErr) : takeE k (.error e : Py (List α)) = .error e := rfl

theorem Frame.col_take (f : Frame K) (name : String) (k : ℕ) : (f.take k).col name = takeE k (f.col name) := by
  unfold Frame.col
  rw [Frame.values_take]
  by_cases h : name ∈ f.cols
  · rw [if_pos h, if_pos (show name ∈ (f.take k).cols from h)]; rfl
  · rw [if_neg h, if_neg (show name ∉ (f.take k).cols from h)]; rfl

theorem Frame.attr_take (f : Frame K) (name : String) (k : ℕ) : (f.take k).attr name = takeE k (f.attr name) := by
  unfold Frame.attr
  rw [Frame.values_take]
  by_cases h : name ∈ f.cols
  · rw [if_pos h, if_pos (show name ∈ (f.take k).cols from h)]; rfl
  · rw [if_neg h, if_neg (show name ∉ (f.take k).cols from h)]; rfl

theorem checkMissing_take (f : Frame K) (w : List String) (k : ℕ) : checkMissing (f.take k) w = checkMissing f w := rfl

theorem rollE_take (w : ℤ) (g : List K → XF K) (l : List (XF K)) (k : ℕ) :
    rollE w g (l.take k) = takeE k (rollE w g l) := by
  unfold rollE
  split
  · rfl
  · rw [rolling_take]; rfl

theorem rollE2_take (w : ℤ) (g : List K → List K → XF K) (l m : List (XF K)) (k : ℕ) :
    rollE2 w g (l.take k) (m.take k) = takeE k (rollE2 w g l m) := by
  unfold rollE2
  split
  · rfl
  · rw [rolling2_take]; rfl

theorem ewmE_take (span : ℤ) (l : List (XF K)) (k : ℕ) : ewmE span (l.take k) = takeE k (ewmE span l) := by
  unfold ewmE
  split
  · rfl
  · rw [ewmMean_take]; rfl

theorem rollE_length {w : ℤ} {g : List K → XF K} {l m : List (XF K)} (h : rollE w g l = .ok m) : m.length = l.length := by
  unfold rollE at h
  split at h
  · simp at h
  · simp only [Except.ok.injEq] at h; rw [← h, length_rolling]

/-- A step that is causal followed by a step that is causal in it. -/
theorem takeE_bind {α β : Type} (k : ℕ) (a a' : Py (List α)) (g g' : List α → Py (List β)) (ha : a' = takeE k a)
    (hg : ∀ l, a = .ok l → g' (l.take k) = takeE k (g l)) : (a' >>= g') = takeE k (a >>= g) := by
  subst ha
  cases a with
  | error e => rfl
  | ok l => exact hg l rfl

theorem takeE_bind_unit {β : Type} (k : ℕ) (a : Py Unit) (g g' : Unit → Py (List β))
    (hg : a = .ok () → g' () = takeE k (g ())) : (a >>= g') = takeE k (a >>= g) := by
  cases a with
  | error e => rfl
  | ok l => exact hg rfl

end Mizar
