import Verif.Model.Rounded
import Verif.Py.Double

/-!
One triple barrier event (`/repo/mizarlabs/transformers/targets/labeling.py` lines 158-200, 233-266, 327-431) with every arithmetic
operation followed by `g`, which rounds a finite result and may make it infinite (`g = binary64.float` for `float64`); the functions are
those of `Verif.Model.Rounded`.  Prices, side, factors and volatility are numbers.
-/

namespace Mizar.Rd

/-- `close_j / close_i - 1` (`labeling.py` lines 339, 399-403). -/
def retD (g : ℚ → XF ℚ) (x y : ℚ) : XF ℚ := XF.rounded g (XF.sub (XF.rounded g (XF.div (.fin y) (.fin x))) (.fin 1))

/-- The return times the side (`labeling.py` lines 340, 407-409). -/
def sidedD (g : ℚ → XF ℚ) (x y side : ℚ) : XF ℚ := XF.rounded g (XF.mul (retD g x y) (.fin side))

/-- The first time in `[start, exp)` at which `breach` holds for the return times the side (`labeling.py` lines 327-357). -/
def firstHitD (g : ℚ → XF ℚ) (bars : List (ℤ × ℚ)) (start exp : ℤ) (x side : ℚ) (breach : XF ℚ → Bool) : Option ℤ :=
  ((bars.filter fun b => decide (start ≤ b.1) && decide (b.1 < exp)).filter fun b => breach (sidedD g x b.2 side)).map (·.1)
    |>.min?

/-- `profit_taking_factor * vol` (`labeling.py` lines 242-245). -/
def profitBarrierD (g : ℚ → XF ℚ) (ptf vol : ℚ) : Option (XF ℚ) := if 0 < ptf then some (g (ptf * vol)) else none

/-- `-stop_loss_factor * vol` (`labeling.py` lines 249-252). -/
def lossBarrierD (g : ℚ → XF ℚ) (slf vol : ℚ) : Option (XF ℚ) := if 0 < slf then some (g (-slf * vol)) else none

/-- The times of the hits of the two barriers (`labeling.py` lines 233-266, 327-357). -/
def hitsD (g : ℚ → XF ℚ) (bars : List (ℤ × ℚ)) (start exp : ℤ) (x side ptf slf vol : ℚ) : Option ℤ × Option ℤ :=
  (firstHitD g bars start exp x side fun q => (profitBarrierD g ptf vol).any fun b => XF.lt b q,
   firstHitD g bars start exp x side fun q => (lossBarrierD g slf vol).any fun b => XF.lt q b)

/-- Return and label of an event that ends at a bar with price `y` (`labeling.py` lines 399-431). -/
def labelOfD (g : ℚ → XF ℚ) (metalabeling expirationLabel hit : Bool) (x y side : ℚ) : XF ℚ × Option ℚ :=
  let q := if metalabeling then sidedD g x y side else retD g x y
  (q,
   if expirationLabel && !hit then some 0
   else if metalabeling then (if XF.lt (.fin 0) q then some 1 else if XF.lt q (.fin 0) then some 0 else none)
   else some (if XF.lt (.fin 0) q then 1 else if XF.lt q (.fin 0) then -1 else 0))

/-- One event with a known expiration (`labeling.py` lines 158-200). -/
def eventD (g : ℚ → XF ℚ) (bars : List (ℤ × ℚ)) (metalabeling expirationLabel : Bool) (start exp : ℤ)
    (x side ptf slf vol : ℚ) : Option (ℤ × XF ℚ × Option ℚ) :=
  let h := hitsD g bars start exp x side ptf slf vol
  let t := eventEnd exp h
  (bars.find? fun b => b.1 == t).map fun b =>
    (t, labelOfD g metalabeling expirationLabel (h.1.isSome || h.2.isSome) x b.2 side)

/-- A level of a position, `volatility * factor` (`/repo/mizarlabs/model/pipeline.py` lines 815-816), for a number as volatility. -/
def levelD (g : ℚ → XF ℚ) (vol factor : ℚ) : XF ℚ := XF.rounded g (XF.mul (.fin vol) (.fin factor))

end Mizar.Rd
