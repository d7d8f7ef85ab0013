import Verif.Model.RoundedRoll

/-!
`ewm(span).mean()` with rounding: the recursion `ewma` of `pandas/_libs/window/aggregations.pyx` (1.2 to 1.4) with
`adjust=True`, `ignore_na=False`, see `Verif/Py/Ewm.lean` for the exact one.  `r` rounds the result of every operation.
Then `ExponentialWeightedMovingAverageDifference` on top of it.  Infinities count as missing values, the exponent is
unbounded, and the sign of zero is not modelled.
-/

namespace Mizar.Rd
variable {K : Type} [Field K] [LinearOrder K]

/-- `old_wt_factor = 1. - alpha` with `alpha = 1. / (1. + com)` and `com = (span - 1) / 2.0`. -/
def ewmFactor (r : K → K) (span : ℕ) : K := r (1 - r (1 / r (1 + r (((span : K) - 1) / 2))))

/-- One iteration of `ewma`: `q` is the factor of the old weight; equal values are not averaged ("avoid numerical errors on
constant series"). -/
def ewmStepR (r : K → K) (q : K) (s : EwmSt K) (x : XF K) : EwmSt K :=
  if s.mean.isNan then
    if x.isNan then s else ⟨x, s.oldWt⟩
  else
    let o := r (s.oldWt * q)
    if x.isNan then ⟨s.mean, o⟩
    else if XF.beq s.mean x then ⟨s.mean, r (o + 1)⟩
    else ⟨rnd r (XF.div (rnd r (XF.add (rnd r (XF.mul (.fin o) s.mean)) x)) (.fin (r (o + 1)))), r (o + 1)⟩

/-- `series.ewm(span=span).mean()` for `span ≥ 1`. -/
def ewmMeanR (r : K → K) (span : ℕ) (xs : List (XF K)) : List (XF K) :=
  scanMap (ewmStepR r (ewmFactor r span)) EwmSt.mean ⟨.nan, 1⟩ (xs.map XF.prep)

/-- `ExponentialWeightedMovingAverageDifference.transform`
(`/repo/mizarlabs/transformers/technical/moving_average.py` lines 134-145) on the column. -/
def ewmaDifferenceR (r : K → K) (fast slow : ℕ) (normalised : Bool) (c : List (XF K)) : List (XF K) :=
  let fa := ewmMeanR r fast c
  let sl := ewmMeanR r slow c
  let d := List.zipWith (fun a b => rnd r (XF.sub a b)) fa sl
  if normalised then List.zipWith (fun x a => rnd r (XF.div x (rnd r (XF.add a (.fin 1))))) d fa else d

end Mizar.Rd
