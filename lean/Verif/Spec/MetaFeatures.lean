import Verif.Py.Frame

/-!
Specification of the frame that a metalabeling model is given (C105).
-/

namespace Mizar.Spec
open Mizar
variable {K : Type}

/-- The columns: the own features, the predicted side (in the place of an own feature of this name), one probability for each class
of the primary model. -/
def metaColumns (useSide useProba : Bool) (nClasses : ℕ) (own : List String) : List String :=
  own ++ (if useSide ∧ "primary_side_pred" ∉ own then ["primary_side_pred"] else []) ++
    (if useProba then (List.range nClasses).map fun i => "primary_side_pred_proba_" ++ toString i else [])

/-- `b` is the row `a` of the own features together with the side `s`: behind them, or in the place of an own feature of this name. -/
def IsSided (cols : List String) (a : List (XF K)) (s : XF K) (b : List (XF K)) : Prop :=
  ("primary_side_pred" ∉ cols → b = a ++ [s]) ∧
  ("primary_side_pred" ∈ cols →
    b = a.take (cols.idxOf "primary_side_pred") ++ [s] ++ a.drop (cols.idxOf "primary_side_pred" + 1))

/-- `r` is the row of time `t`: the own features at this time, none missing, together with the side and followed by the class
probabilities that the primary model gives for the same time. -/
def IsMetaRow (useSide useProba : Bool) (cols : List String) (own : List (ℤ × List (XF K))) (sides : List (ℤ × XF K))
    (probs : List (ℤ × List (XF K))) (t : ℤ) (r : List (XF K)) : Prop :=
  ∃ a b prob, (t, a) ∈ own ∧ (∀ x ∈ a, x.isNan = false) ∧
    (if useSide then ∃ s, (t, s) ∈ sides ∧ s.isNan = false ∧ IsSided cols a s b else b = a) ∧
    (if useProba then (t, prob) ∈ probs ∧ ∀ x ∈ prob, x.isNan = false else prob = []) ∧
    r = b ++ prob

end Mizar.Spec
