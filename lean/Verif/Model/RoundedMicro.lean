import Verif.Model.RoundedRoll

/-!
`RollMeasure`, `RollImpact` and `KyleLambda` (`/repo/mizarlabs/transformers/microstructural_features/first_generation.py` lines
29-36, 66-70 and `second_generation.py` lines 37-47) with rounding: `rolling(w).cov(other)` of pandas (1.2 to 1.4) is made of
the rolling means of both series and of their product, see `Verif/Model/RoundedRoll.lean` for the means.  `r` rounds the result
of every operation, `sq` is the rounded square root; doubling is exact.  The exponent is unbounded and the sign of zero is not
modelled.
-/

namespace Mizar.Rd
variable {K : Type} [Field K] [LinearOrder K]

/-- `series.diff()`. -/
def diffR (r : K → K) (c : List (XF K)) : List (XF K) := (pdDiff c).map (rnd r)

/-- `prep_binary`: `arg1 + 0 * arg2`, missing where one of them is. -/
def prepBinary (x y : List (XF K)) : List (XF K) := List.zipWith (fun a b => XF.add a (XF.mul (.fin 0) b)) x y

/-- `count / (count - ddof)` for the number of values in the window that ends at `i` (`(X + Y).rolling(w, min_periods=0).count()`;
the number of values of a window is a floating-point number). -/
def biasAdj (r : K → K) (w : ℕ) (s : List (XF K)) (i : ℕ) : XF K :=
  let n : K := ((winAt w i s).countP fun x => !x.isNan : ℕ)
  rnd r (XF.div (.fin n) (.fin (n - 1)))

/-- `x.rolling(w).cov(y)` for `w ≥ 1` and series with the same index. -/
def rollCovR (r : K → K) (w : ℕ) (x y : List (XF K)) : List (XF K) :=
  let X := prepBinary x y
  let Y := prepBinary y x
  let mxy := rollMean r w (List.zipWith (fun a b => rnd r (XF.mul a b)) X Y)
  let mx := rollMean r w X
  let my := rollMean r w Y
  let s := List.zipWith (fun a b => rnd r (XF.add a b)) X Y
  (List.range x.length).map fun i =>
    rnd r (XF.mul (rnd r (XF.sub (mxy.getD i .nan) (rnd r (XF.mul (mx.getD i .nan) (my.getD i .nan))))) (biasAdj r w s i))

/-- The covariances of `RollMeasure.transform` (`first_generation.py` lines 32-35). -/
def priceCovR (r : K → K) (w : ℕ) (close : List (XF K)) : List (XF K) :=
  let d := diffR r close
  rollCovR r w d (pdShift d)

/-- `RollMeasure.transform` on the column (`first_generation.py` lines 29-36). -/
def rollMeasureR (r sq : K → K) (w : ℕ) (close : List (XF K)) : List (XF K) :=
  (priceCovR r w close).map fun x => XF.mul (.fin 2) (rnd sq (XF.abs x))

/-- `RollImpact.transform` on the columns (`first_generation.py` lines 66-70). -/
def rollImpactR (r sq : K → K) (w : ℕ) (close volume : List (XF K)) : List (XF K) :=
  List.zipWith (fun a b => rnd r (XF.div a b)) (rollMeasureR r sq w close) volume

/-- `KyleLambda.transform` on the columns (`second_generation.py` lines 42-46). -/
def kyleR (r : K → K) (w : ℕ) (close volume : List (XF K)) : List (XF K) :=
  rollMean r w (List.zipWith (fun a b => rnd r (XF.div a b)) ((diffR r close).map XF.abs) volume)

end Mizar.Rd
