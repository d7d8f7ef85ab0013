import Mathlib.Analysis.SpecialFunctions.Log.Basic
import Verif.Spec.Boot

/-! Specification of the sample weights. -/

namespace Mizar.Spec

/-- Log-return of bar `k`; 0 for the first bar and when this or the previous price is missing. -/
noncomputable def logRet (close : List (Option ℝ)) (k : ℕ) : ℝ :=
  if k = 0 then 0 else
    match close.getD k none, close.getD (k - 1) none with
    | some b, some a => Real.log b - Real.log a
    | _, _ => 0

/-- The bars in the closed life span of `e`; bar `k` starts at the start of event `k`. -/
def barsIn (ev : List (ℤ × ℤ)) (e : ℤ × ℤ) : Finset ℕ :=
  (Finset.range ev.length).filter fun k => Covers e (ev.getD k (0, 0)).1

/-- Share of the total uniqueness that belongs to the events starting up to time `t`. -/
def uniqShare (X : List (ℤ × ℤ)) (t : ℤ) : ℚ :=
  let u := fun e => eventUniq (X.map (·.1) ++ X.map (·.2)).toFinset X e
  ((X.filter fun e => decide (e.1 ≤ t)).map u).sum / (X.map u).sum

end Mizar.Spec
