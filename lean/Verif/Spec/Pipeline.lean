import Verif.Model.Pipeline

/-!
Independent specification of sizes (C48): largest value of a row, first class with the largest value, and which
size belongs to which row of probabilities.
-/

set_option linter.unusedSectionVars false

namespace Mizar.Spec
open Mizar.Pipe
variable {K : Type} [Field K] [LinearOrder K]

/-- `z` is the largest value that is not missing (missing if all are). -/
def Largest (r : List (XF K)) (z : XF K) : Prop :=
  ((∃ x ∈ r, x.isNan = false) → z ∈ r ∧ z.isNan = false ∧ ∀ x ∈ r, x.isNan = false → XF.le x z = true) ∧
  ((∀ x ∈ r, x.isNan = true) → z = .nan)

/-- Position `i` is the first with the value `z`, and no earlier value reaches it. -/
def FirstAt (r : List (XF K)) (i : ℕ) (z : XF K) : Prop :=
  r[i]? = some z ∧ ∀ j < i, ∀ x, r[j]? = some x → XF.lt x z = true

/-- The value of a series at a time, missing if the series has no such time. -/
def ValueAt (s : List (ℤ × XF K)) (t : ℤ) (v : XF K) : Prop :=
  (t, v) ∈ s ∨ ((∀ w, (t, w) ∉ s) ∧ v = .nan)

/-- Sizes of rows of probabilities without a bet sizer and without a metalabeling model: the largest. -/
def SizeLargest (rows : List (ℤ × List (XF K))) (size : List (ℤ × XF K)) : Prop :=
  List.Forall₂ (fun r q => q.1 = r.1 ∧ Largest r.2 q.2) rows size

/-- Sizes with a metalabeling model and without a bet sizer: the probability of the class 1. -/
def SizeSuccess (classes : List K) (rows : List (ℤ × List (XF K))) (size : List (ℤ × XF K)) : Prop :=
  List.Forall₂ (fun r q => q.1 = r.1 ∧ ∃ j : ℕ, classes[j]? = some 1 ∧ r.2[j]? = some q.2) rows size

/-- What a bet sizer must be given: time, largest probability, its class (the first, when none is missing) and,
with a metalabeling model, the side predicted by the primary model. -/
def BetInput (classes : List K) (sides : Option (List (ℤ × XF K))) (rows : List (ℤ × List (XF K)))
    (b : List (BetRow K)) : Prop :=
  List.Forall₂ (fun r q => q.time = r.1 ∧ Largest r.2 q.prob ∧
    ((∀ x ∈ r.2, x.isNan = false) → ∃ i, classes[i]? = some q.pred ∧ FirstAt r.2 i q.prob) ∧
    (∀ s, sides = some s → ∃ v, q.side = some v ∧ ValueAt s r.1 v) ∧ (sides = none → q.side = none)) rows b

end Mizar.Spec
