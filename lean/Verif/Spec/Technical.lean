import Mathlib.Algebra.Order.BigOperators.Group.Finset
import Mathlib.Algebra.BigOperators.Group.Finset.Basic
import Verif.Py.Feature

/-!
Independent specifications for the technical transformers (C54–C58, C63).
-/

set_option linter.unusedSectionVars false

namespace Mizar.Spec
open Finset
variable {K : Type} [Field K] [LinearOrder K]

/-- `m` is the average of the last `w` observations up to position `i`, all of which are numbers. -/
def IsAvg (w : ℕ) (l : List (XF K)) (i : ℕ) (m : K) : Prop :=
  w ≤ i + 1 ∧ ∃ v : ℕ → K, (∀ j < w, l[i - j]? = some (.fin (v j))) ∧ m = (∑ j ∈ range w, v j) / (w : K)

/-- The fast average is not above the slow one at the bar before and above it now. -/
def UpCross (fast slow : ℕ) (l : List (XF K)) (i : ℕ) : Prop :=
  ∃ a b a' b', 1 ≤ i ∧ IsAvg fast l (i - 1) a ∧ IsAvg slow l (i - 1) b ∧ IsAvg fast l i a' ∧ IsAvg slow l i b' ∧ a ≤ b ∧ b' < a'

/-- The fast average is not below the slow one at the bar before and below it now. -/
def DownCross (fast slow : ℕ) (l : List (XF K)) (i : ℕ) : Prop :=
  ∃ a b a' b', 1 ≤ i ∧ IsAvg fast l (i - 1) a ∧ IsAvg slow l (i - 1) b ∧ IsAvg fast l i a' ∧ IsAvg slow l i b' ∧ b ≤ a ∧ a' < b'

/-- The number at position `j`, if there is one. -/
def finAt (l : List (XF K)) (j : ℕ) : Option K :=
  match l[j]? with
  | some (.fin x) => some x
  | _ => none

/-- Weight sum of an exponentially weighted mean at position `i`: the observation `d` bars ago has weight `q ^ d`. -/
def ewmDen (q : K) (l : List (XF K)) (i : ℕ) : K :=
  ∑ j ∈ range (i + 1), (finAt l j).elim 0 fun _ => q ^ (i - j)

/-- Weighted sum of the observations. -/
def ewmNum (q : K) (l : List (XF K)) (i : ℕ) : K :=
  ∑ j ∈ range (i + 1), (finAt l j).elim 0 fun x => q ^ (i - j) * x

/-- A transformer is causal on a frame: on the first `k` bars it gives the first `k` values of its result on all
bars. -/
def CausalAt (T : Frame K → Py (List (XF K))) (f : Frame K) : Prop :=
  ∀ k : ℕ, T (f.take k) = (T f).map (List.take k)

/-- A transformer is causal: on the first `k` bars it gives the first `k` values of its result on all bars. -/
def Causal (T : Frame K → Py (List (XF K))) : Prop := ∀ f : Frame K, CausalAt T f

/-- `p` is a probability row with the single 1 at the class of `y`. -/
def OneHotRow (classes : List K) (y : XF K) (p : List K) : Prop :=
  ∃ i, ∃ c, classes[i]? = some c ∧ y = .fin c ∧ p.length = classes.length ∧
    ∀ j < classes.length, p[j]? = some (if j = i then 1 else 0)

end Mizar.Spec
