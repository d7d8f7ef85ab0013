import Verif.Spec.Bagging

/-! What the out-of-bag score takes from an estimator, whatever classes it was trained on. -/

namespace Mizar.Spec
open Mizar.Bag

/-- What estimator `e` adds for row `i` and class `k`: its probability in column `k`, its only column if there is just one, or its vote. -/
def given (nC : ℕ) (e : OobEst) (i k : ℕ) : ℚ :=
  match e.proba with
  | some f => if (f i).length = nC then (f i).getD k 0 else (f i).getD 0 0
  | none => if e.predict i = k then 1 else 0

/-- The predictions of an estimator with its sample fit the table of rows and classes. -/
def FitsTable (nC n : ℕ) (p : OobEst × List ℕ) : Prop :=
  (p.1.rejectsEmpty = false ∨ ∃ i < n, i ∉ p.2) ∧
  ∀ i < n, i ∉ p.2 → match p.1.proba with
    | some f => (f i).length = nC ∨ (f i).length = 1
    | none => p.1.predict i < nC

end Mizar.Spec
