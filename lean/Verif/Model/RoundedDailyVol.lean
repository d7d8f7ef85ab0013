import Verif.Model.DailyVol
import Verif.Model.RoundedEwm

/-!
`get_daily_vol` (`/repo/mizarlabs/transformers/targets/labeling.py` lines 438-463) with rounding: the returns, and
`ewm(span).std()` as the recursion `ewmcov` of `pandas/_libs/window/aggregations.pyx` (1.2 to 1.4) with `adjust=True`,
`ignore_na=False`, `bias=False`, see `Verif/Py/Ewm.lean` for the exact one.  `r` rounds the result of every operation, `sq` is
the rounded square root.  The exponent is unbounded and the sign of zero is not modelled.
-/

namespace Mizar.Rd
variable {K : Type} [Field K] [LinearOrder K]

/-- One iteration of `ewmcov` of a series with itself: `q` is the factor of the old weights. -/
def ewmVarStepR (r : K → K) (q : K) (s : EwmVarSt K) (x : XF K) : EwmVarSt K :=
  if s.mean.isNan then
    if x.isNan then s else { s with mean := x }
  else
    let sw := r (s.sumWt * q)
    let sw2 := r (s.sumWt2 * r (q * q))
    let o := r (s.oldWt * q)
    if x.isNan then { s with sumWt := sw, sumWt2 := sw2, oldWt := o }
    else
      let d := XF.fin (r (o + 1))
      let m := if XF.beq s.mean x then s.mean else rnd r (XF.div (rnd r (XF.add (rnd r (XF.mul (.fin o) s.mean)) x)) d)
      let dm := rnd r (XF.sub s.mean m)
      let dx := rnd r (XF.sub x m)
      let c := rnd r (XF.div (rnd r (XF.add (rnd r (XF.mul (.fin o) (rnd r (XF.add s.cov (rnd r (XF.mul dm dm))))))
        (rnd r (XF.mul dx dx)))) d)
      ⟨m, c, r (sw + 1), r (sw2 + 1), r (o + 1)⟩

/-- Output of `ewmcov` with `bias=False`. -/
def ewmVarOutR (r : K → K) (s : EwmVarSt K) : XF K :=
  if s.mean.isNan then .nan
  else
    let n := r (s.sumWt * s.sumWt)
    let d := r (n - s.sumWt2)
    if 0 < d then rnd r (XF.mul (.fin (r (n / d))) s.cov) else .nan

/-- `series.ewm(span=span).var()` for `span ≥ 1`. -/
def ewmVarR (r : K → K) (span : ℕ) (xs : List (XF K)) : List (XF K) :=
  scanMap (ewmVarStepR r (ewmFactor r span)) (ewmVarOutR r) ⟨.nan, .fin 0, 1, 1, 1⟩ (xs.map XF.prep)

/-- `series.ewm(span=span).std()` (`zsqrt` of the variance). -/
def ewmStdR (r sq : K → K) (span : ℕ) (xs : List (XF K)) : List (XF K) := (ewmVarR r span xs).map (rnd sq)

/-- `close.loc[shifted_close.index] / close.loc[shifted_close].values - 1` (`labeling.py` line 461). -/
def dailyReturnsR (r : K → K) (times : List ℤ) (close : List (XF K)) : List (ℤ × XF K) :=
  (Lab.shiftedClose times).map fun p =>
    (p.1, rnd r (XF.sub (rnd r (XF.div (Lab.lookupClose times close p.1) (Lab.lookupClose times close p.2))) (.fin 1)))

/-- The column of the variances whose square roots are the volatilities: `get_daily_vol` before `zsqrt`, aligned with the
bars (`labeling.py` lines 164-168, 438-463). -/
def dailyVarColumnR (r : K → K) (span : ℕ) (times : List ℤ) (close : List (XF K)) : List (XF K) :=
  let R := dailyReturnsR r times close
  Lab.alignTo times ((R.map (·.1)).zip (ewmVarR r span (R.map (·.2))))

/-- The volatility column (`labeling.py` lines 164-168, 438-463). -/
def dailyVolColumnR (r sq : K → K) (span : ℕ) (times : List ℤ) (close : List (XF K)) : List (XF K) :=
  let R := dailyReturnsR r times close
  Lab.alignTo times ((R.map (·.1)).zip (ewmStdR r sq span (R.map (·.2))))

end Mizar.Rd
