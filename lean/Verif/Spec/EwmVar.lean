import Verif.Spec.Technical

/-!
Specification of the exponentially weighted variance with bias correction.
-/

namespace Mizar.Spec
open Finset
variable {K : Type} [Field K]

/-- Weighted sum of a function of the observations up to position `i`; the one `d` bars ago has weight `q ^ d`. -/
def ewSum (q : K) (l : List (XF K)) (i : ℕ) (g : K → K) : K :=
  ∑ j ∈ range (i + 1), (finAt l j).elim 0 fun x => q ^ (i - j) * g x

/-- Weighted mean of the observations up to position `i`. -/
def ewMean (q : K) (l : List (XF K)) (i : ℕ) : K := ewSum q l i id / ewSum q l i fun _ => 1

/-- Unbiased weighted variance: with weights `w_j`, `W = ∑ w_j` and mean `m` it is
`W² / (W² - ∑ w_j²)` times `∑ w_j (x_j - m)² / W`. -/
def ewVariance (q : K) (l : List (XF K)) (i : ℕ) : K :=
  let W := ewSum q l i fun _ => 1
  W ^ 2 / (W ^ 2 - ewSum (q ^ 2) l i fun _ => 1) * ((ewSum q l i fun x => (x - ewMean q l i) ^ 2) / W)

end Mizar.Spec
