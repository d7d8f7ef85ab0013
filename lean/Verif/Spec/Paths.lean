import Mathlib.Data.List.Basic
import Mathlib.Order.Basic
import Mathlib.Data.Int.Notation
import Verif.Py.XF

/-! Specification of out-of-sample predictions, independent of the model. -/

namespace Mizar.Spec
variable {S R L P K : Type*}

/-- `xs` are the elements of `l` at the positions `pos`. -/
def At {α : Type*} (l : List α) (pos : List ℕ) (xs : List α) : Prop := List.Forall₂ (fun i x => l[i]? = some x) pos xs

/-- `q` is the largest of the numbers `row`, missing as soon as one of them is missing. -/
def LargestOf [Field K] [LinearOrder K] (row : List (XF K)) (q : XF K) : Prop :=
  q ∈ row ∧ (q = .nan ∨ (∀ x ∈ row, x ≠ .nan ∧ XF.le x q = true))

/-- The prediction `pred`, with largest probability `q`, for sample `i` was made in round `(train, test)` by a model fitted on
the training samples of that round: `i` is a test sample and not a training sample, `fitted prev xs ys s` says that fitting on
`xs`, `ys` gave `s`, and `s` was asked for the predictions of a block of test samples among which `i` stands at place `j`. -/
def OutOfSample [Field K] [LinearOrder K] (fitted : S → List R → List L → S → Prop) (predicts : S → List R → List P → Prop)
    (proba : S → List R → List (List (XF K)) → Prop) (X : List R) (labels : List L) (train test : List ℕ) (i : ℕ) (pred : P) (q : XF K) : Prop :=
  i ∈ test ∧ i ∉ train ∧
  ∃ prev s xs ys, At X train xs ∧ At labels train ys ∧ fitted prev xs ys s ∧
  ∃ (block : List ℕ) (rows : List R) (preds : List P) (pr : List (List (XF K))) (j : ℕ), (∀ t ∈ block, t ∈ test) ∧ At X block rows ∧
    predicts s rows preds ∧ proba s rows pr ∧ block[j]? = some i ∧ preds[j]? = some pred ∧
    ∃ row, pr[j]? = some row ∧ LargestOf row q

end Mizar.Spec
