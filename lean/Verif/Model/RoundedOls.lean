import Verif.Model.TrendScan
import Verif.Model.Sadf
import Verif.Model.Sdfc
import Verif.Model.RoundedCsw

/-!
`get_beta_and_beta_var` (`/repo/mizarlabs/structural_breaks/sdfc.py` lines 41-60) and its users, the trend scanner
(`/repo/mizarlabs/transformers/targets/trend_scanning.py`), the Chow-type test (`sdfc.py`) and the explosiveness tests
(`/repo/mizarlabs/structural_breaks/sadf.py`), with rounding.

`r` rounds the result of every operation, also the conversion of a whole number.  `np.dot` is left open: each entry of a product is a
function of the exact products of the entries, so that the additions may come in any order, with or without fused multiply-add, and
differ from entry to entry.  `np.linalg.inv` is a parameter, `none` standing for `LinAlgError`.  `sq` and `lg` are the rounded square
root and logarithm; `pw n` is `n ** phi`.  The exponent is unbounded and the sign of zero is not modelled.
-/

namespace Mizar.Rd
open Mizar.Brk (ErrModel)
variable {K : Type} [Field K] [LinearOrder K]

/-- The linear algebra used by `get_beta_and_beta_var` (`sdfc.py` lines 54-59): entry `(i, j)` of the products in lines 54 (0), 55 (1),
57 (2), 58 (3) and 59 (4), and the inverse of line 56. -/
structure LinAlg (K : Type) where
  dot : ℕ → ℕ → ℕ → List K → K
  inv : (k : ℕ) → (Fin k → Fin k → K) → Option (Fin k → Fin k → K)

/-- `np.linalg.inv` as compiled by numba (`sdfc.py` line 56): `LinAlgError` for an entry that is not finite. -/
def invR (L : LinAlg K) {k : ℕ} (M : Fin k → Fin k → XF K) : Py (Fin k → Fin k → K) :=
  if ∃ i j, XF.undef (M i j) = true then .error .linAlgError
  else match L.inv k fun i j => (M i j).toK with
    | none => .error .linAlgError
    | some N => .ok N

/-- `get_beta_and_beta_var` (`sdfc.py` lines 41-60) on the rows of regressors and target. -/
def olsR (r : K → K) (L : LinAlg K) {k : ℕ} (w : List ((Fin k → XF K) × XF K)) : Py ((Fin k → XF K) × (Fin k → Fin k → XF K)) := do
  let xy : Fin k → XF K := fun i => npSumR (L.dot 0 i 0) (w.map fun x => XF.mul (x.1 i) x.2)
  let inv ← invR L fun i j => npSumR (L.dot 1 i j) (w.map fun x => XF.mul (x.1 i) (x.1 j))
  let beta : Fin k → XF K := fun i => npSumR (L.dot 2 i 0) (List.ofFn fun j => XF.mul (.fin (inv i j)) (xy j))
  let err : List (XF K) := w.zipIdx.map fun x =>
    rnd r (XF.sub x.1.2 (npSumR (L.dot 3 x.2 0) (List.ofFn fun j => XF.mul (x.1.1 j) (beta j))))
  let s2 : XF K := rnd r (XF.div (npSumR (L.dot 4 0 0) (err.map fun e => XF.mul e e)) (.fin (r ((w.length : K) - (k : K)))))
  .ok (beta, fun i j => rnd r (XF.mul s2 (.fin (inv i j))))

/-- The t-value of one coefficient (`sdfc.py` line 37, `sadf.py` line 120, `trend_scanning.py` lines 260-262). -/
def tValueR (em : ErrModel) (r sq : K → K) (L : LinAlg K) {k : ℕ} (j : Fin k) (w : List ((Fin k → XF K) × XF K)) : Py (XF K) := do
  let b ← olsR r L w
  divR em r (b.1 j) (sqrtR sq (b.2 j j))

/-! ### The trend scanner -/

/-- The t-value of the trend over one window (`trend_scanning.py` lines 239-263). -/
def trendTR (em : ErrModel) (r sq : K → K) (L : LinAlg K) (w : List (XF K)) : Py (XF K) :=
  tValueR em r sq L (1 : Fin 2) (w.zipIdx.map fun x => (![.fin 1, .fin (r (x.2 : K))], x.1))

/-- The loop of `_get_t_val_and_event_end_time_index_at_index` (`trend_scanning.py` lines 238-263). -/
def fillR (em : ErrModel) (r sq : K → K) (L : LinAlg K) (w : List (XF K)) (minLen : ℕ) : List ℕ → List (XF K) → Py (List (XF K))
  | [], a => .ok a
  | f :: fs, a => do
    let t ← trendTR em r sq L (w.take f)
    fillR em r sq L w minLen fs (a.set (f - minLen) t)

/-- `np.argmax` (`trend_scanning.py` line 266). -/
def argmaxGoR : ℕ → ℕ → XF K → List (XF K) → ℕ
  | _, b, _, [] => b
  | i, b, v, x :: l => if !v.isNan && (x.isNan || XF.lt v x) then argmaxGoR (i + 1) i x l else argmaxGoR (i + 1) b v l

/-- `np.argmax` of a non-empty array (`trend_scanning.py` line 266). -/
def argmaxR : List (XF K) → ℕ
  | [] => 0
  | x :: l => argmaxGoR 1 0 x l

/-- `_get_t_val_and_event_end_time_index_at_index` (`trend_scanning.py` lines 212-268); `mem` as in `Verif/Model/TrendScan.lean`. -/
def bestAtR (em : ErrModel) (r sq : K → K) (L : LinAlg K) (mem : ℕ → XF K) (p : Trend.Params) (w : List (XF K)) : Py (XF K × ℕ) := do
  let fs ← Trend.windows p.minLen w.length p.step
  let a ← fillR em r sq L w p.minLen fs ((List.range (w.length - p.minLen)).map mem)
  let i := argmaxR (a.map XF.abs)
  .ok (a.getD i .nan, i)

/-- One event of `_trend_scan_each_index` (`trend_scanning.py` lines 180-209). -/
def scanAtR (em : ErrModel) (r sq : K → K) (L : LinAlg K) (mem : ℕ → XF K) (p : Trend.Params) (y : List (XF K)) (index : ℕ) :
    Py (XF K × Option ℕ) :=
  let w := (y.drop index).take p.look
  if w.length = p.look then do
    let b ← bestAtR em r sq L mem p w
    .ok (b.1, some (index + b.2 + p.minLen - 1))
  else .ok (.nan, none)

/-- One row of the result (`trend_scanning.py` lines 124-147). -/
structure LabelR (K : Type) where
  time : ℤ
  eventEnd : Option ℤ
  tValue : XF K
  ret : XF K
  label : XF K

/-- Row for one event (`trend_scanning.py` lines 124-147). -/
def labelAtR (em : ErrModel) (r sq : K → K) (L : LinAlg K) (mem : ℕ → ℕ → XF K) (p : Trend.Params) (s : List (ℤ × XF K)) (e : ℤ × ℕ) :
    Py (LabelR K) := do
  let index := (s.map (·.1)).idxOf e.1
  let y := s.map (·.2)
  let b ← scanAtR em r sq L (mem e.2) p y index
  .ok { time := e.1
        eventEnd := b.2.map fun i => (s.map (·.1)).getD i 0
        tValue := b.1
        ret := match b.2 with
          | some i => rnd r (XF.sub (rnd r (XF.div (y.getD i .nan) (y.getD index .nan))) (.fin 1))
          | none => .nan
        label := XF.sign b.1 }

/-- The result of `TrendScannerLabeling.transform` (`trend_scanning.py` lines 63-147). -/
def trendScanR (em : ErrModel) (r sq : K → K) (L : LinAlg K) (mem : ℕ → ℕ → XF K) (p : Trend.Params) (events : Option (List ℤ))
    (s : List (ℤ × XF K)) : Py (List (LabelR K)) :=
  match events with
  | some ev =>
    if ∀ e ∈ ev, e ∈ s.map (·.1) then mapE (labelAtR em r sq L mem p s) ev.zipIdx else .error .assertionError
  | none => mapE (labelAtR em r sq L mem p s) (s.map (·.1)).zipIdx

/-! ### The Chow-type test -/

/-- `series.diff().dropna()` and `series.shift(1).dropna()` (`sdfc.py` lines 81-82). -/
def dfColumnsR (r : K → K) (s : List (ℤ × XF K)) : List (XF K) × List (XF K) :=
  ((List.zipWith (fun a b => rnd r (XF.sub a.2 b.2)) s.tail s).filter (fun x => !x.isNan),
   (s.dropLast.map (·.2)).filter (fun x => !x.isNan))

/-- One iteration of `get_dfc_array` (`sdfc.py` lines 29-37); the product with the dummy is exact. -/
def dfcAtR (em : ErrModel) (r sq : K → K) (L : LinAlg K) (yDiff yLag : List (XF K)) (index : ℕ) : Py (XF K) :=
  let x : List (XF K) := yLag.zipIdx.map fun v => XF.mul v.1 (.fin (if v.2 < index then 0 else 1))
  if x.length ≠ yDiff.length then .error .valueError
  else tValueR em r sq L (0 : Fin 1) ((List.zip x yDiff).map fun v => (fun _ => v.1, v.2))

/-- `SupremumDickeyFullerChowStatTest.run` (`sdfc.py` lines 77-93). -/
def sdfcRunR (em : ErrModel) (r sq : K → K) (L : LinAlg K) (m : ℕ) (s : List (ℤ × XF K)) : Py (List (ℤ × XF K)) := do
  let indices := (List.range (s.length - m - m)).map fun i => m + i
  let d := dfColumnsR r s
  let v ← mapE (dfcAtR em r sq L d.1 d.2) indices
  .ok (List.zip (indices.map fun i => (s.map (·.1)).getD i 0) v)

/-! ### The explosiveness tests -/

/-- `series.diff().dropna()` (`sadf.py` line 149), with the value of `series.shift(1)`. -/
def diffsR (r : K → K) (s : List (ℤ × XF K)) : List (ℤ × XF K × XF K) :=
  (List.zipWith (fun a b => (a.1, rnd r (XF.sub a.2 b.2), b.2)) s.tail s).filter fun x => !x.2.1.isNan

/-- `_get_X_y_standard_specification` with `_lag_df` (`sadf.py` lines 134-153, 245-266). -/
def standardRowsR (r : K → K) (lags : ℤ) (s : List (ℤ × XF K)) : List (ℤ × List (XF K) × XF K) :=
  if lags ≤ 0 then [] else
    let d := diffsR r s
    (List.range (d.length - lags.toNat)).map fun j =>
      let x := d.getD (j + lags.toNat) (0, .nan, .nan)
      (x.1, x.2.2 :: (List.range lags.toNat).map (fun m => (d.getD (j + lags.toNat - 1 - m) (0, .nan, .nan)).2.1), x.2.1)

/-- Further columns as a function of the position (`sadf.py` lines 182-204). -/
def addColsR (f : ℕ → List (XF K)) (rows : List (ℤ × List (XF K) × XF K)) : List (ℤ × List (XF K) × XF K) :=
  rows.zipIdx.map fun x => (x.1.1, x.1.2.1 ++ f x.2, x.1.2.2)

/-- Rows of the sub- and super-martingale tests (`sadf.py` lines 205-230). -/
def smRowsR (g : XF K → XF K) (f : ℕ → List (XF K)) (s : List (ℤ × XF K)) : List (ℤ × List (XF K) × XF K) :=
  s.zipIdx.map fun x => (x.1.1, f x.2, g x.1.2)

/-- `np.arange(1, n + 1)` at a position (`sadf.py` lines 186-188). -/
def trendColR (r : K → K) (j : ℕ) : XF K := .fin (r ((j : K) + 1))

/-- `X["trend"] ** 2` at a position (`sadf.py` line 199): squared as a whole number. -/
def quadTrendR (r : K → K) (j : ℕ) : XF K := .fin (r (((j : K) + 1) ^ 2))

/-- `X["const"] = 1` if wanted (`sadf.py` lines 182-183). -/
def constColR (c : Bool) : List (XF K) := if c then [.fin 1] else []

/-- The branches of `_get_X_y` (`sadf.py` lines 179-237). -/
def designRowsR (r lg : K → K) (model : String) (lags : ℤ) (c : Bool) (s : List (ℤ × XF K)) : Py (ℕ × List (ℤ × List (XF K) × XF K)) :=
  if model = "no_trend" then
    .ok (lags.toNat + (constColR (K := K) c).length, addColsR (fun _ => constColR c) (standardRowsR r lags s))
  else if model = "linear" then
    .ok (lags.toNat + 1 + (constColR (K := K) c).length, addColsR (fun j => trendColR r j :: constColR c) (standardRowsR r lags s))
  else if model = "quadratic" then
    .ok (lags.toNat + 2 + (constColR (K := K) c).length,
      addColsR (fun j => trendColR r j :: quadTrendR r j :: constColR c) (standardRowsR r lags s))
  else if model = "sm_poly_1" then .ok (2, smRowsR id (fun j => [quadTrendR r j, .fin 1, trendColR r j]) s)
  else if model = "sm_poly_2" then .ok (2, smRowsR (logR lg) (fun j => [quadTrendR r j, .fin 1, trendColR r j]) s)
  else if model = "sm_exp" then .ok (1, smRowsR (logR lg) (fun j => [trendColR r j, .fin 1]) s)
  else if model = "sm_power" then .ok (1, smRowsR (logR lg) (fun j => [logR lg (trendColR r j), .fin 1]) s)
  else .error .valueError

/-- `_get_X_y` (`sadf.py` lines 156-242), with the check for missing values. -/
def getXyR (r lg : K → K) (model : String) (lags : ℤ) (c : Bool) (s : List (ℤ × XF K)) : Py (ℕ × List (ℤ × List (XF K) × XF K)) := do
  let d ← designRowsR r lg model lags c s
  if d.2.all (fun x => x.2.1.all (fun v => !v.isNan) && !x.2.2.isNan) then .ok d else .error .assertionError

/-- A row as part of an array with `k + 1` columns (`sadf.py` lines 235-237). -/
def toRowR (k : ℕ) (x : ℤ × List (XF K) × XF K) : (Fin (k + 1) → XF K) × XF K := (fun j => x.2.1.getD j .nan, x.2.2)

/-- One window of `_get_sadf_at_t` (`sadf.py` lines 114-129). -/
def adfAtR (em : ErrModel) (r sq : K → K) (L : LinAlg K) (pw : ℤ → K) (k : ℕ) (model : String) (w : List ((Fin (k + 1) → XF K) × XF K))
    (start : ℕ) : Py (XF K) := do
  let adf ← tValueR em r sq L 0 (w.drop start)
  if Brk.isSm model then divR em r (XF.abs adf) (.fin (pw ((w.length : ℤ) - ((w.length : ℤ) - ((start : ℤ) + 1)))))
  else .ok adf

/-- `_get_sadf_at_t` (`sadf.py` lines 90-131). -/
def sadfAtR (em : ErrModel) (r sq : K → K) (L : LinAlg K) (pw : ℤ → K) (k minLength : ℕ) (model : String)
    (w : List ((Fin (k + 1) → XF K) × XF K)) : Py (XF K) := do
  let a ← mapE (adfAtR em r sq L pw k model w) (List.range (w.length - minLength + 1))
  .ok (npMax a)

/-- `_sadf_outer_loop` (`sadf.py` lines 269-297). -/
def sadfLoopR (em : ErrModel) (r sq : K → K) (L : LinAlg K) (pw : ℤ → K) (k minLength : ℕ) (model : String)
    (w : List ((Fin (k + 1) → XF K) × XF K)) : Py (List (XF K)) :=
  if w.length < minLength then .error .valueError
  else mapE (fun i => sadfAtR em r sq L pw k minLength model (w.take (minLength + i + 1))) (List.range (w.length - minLength))

/-- `SupremumAugmentedDickeyFullerStatTest.run` (`sadf.py` lines 62-87). -/
def sadfRunR (em : ErrModel) (r sq lg : K → K) (L : LinAlg K) (pw : ℤ → K) (model : String) (lags : ℤ) (minLength : ℕ) (c : Bool)
    (s : List (ℤ × XF K)) : Py (List (ℤ × XF K)) := do
  let d ← getXyR r lg model lags c s
  let v ← sadfLoopR em r sq L pw d.1 minLength model (d.2.map (toRowR d.1))
  .ok (List.zip ((d.2.map (·.1)).drop minLength) v)

end Mizar.Rd
