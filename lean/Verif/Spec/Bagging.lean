import Verif.Model.Bagging

/-! Specification vocabulary for the bagging classifier. -/

namespace Mizar.Spec
open Mizar.Bag

/-- An object that has never been fitted. -/
def unfitted (Est : Type) : Fitted Est := ⟨none, [], []⟩

/-- Number of fitted estimators. -/
def nFitted {Est : Type} (s : Fitted Est) : ℕ := (s.estimators.getD []).length

/-- One call of `fit` in a history. -/
structure Call (Est : Type) where
  base : Base Est
  stream : ℕ → ℕ
  cfg : Cfg
  data : Data

/-- The state after a history of calls, exceptions being caught by the caller. -/
def runHistory {Est : Type} (s : Fitted Est) : List (Call Est) → Fitted Est
  | [] => s
  | k :: ks => runHistory (fit k.base k.stream k.cfg k.data s).2 ks

/-- Outcomes and final state of a sequence of warm fits with growing `n_estimators` (each with its own
number of jobs) on the same data. -/
def runWarm {Est : Type} (b : Base Est) (stream : ℕ → ℕ) (c : Cfg) (d : Data) (s : Fitted Est) :
    List (ℕ × ℕ) → List Outcome × Fitted Est
  | [] => ([], s)
  | n :: ns =>
    let r := fit b stream { c with warmStart := true, nEstimators := (n.1 : ℤ), nJobs := n.2 } d s
    let rest := runWarm b stream c d r.2 ns
    (r.1 :: rest.1, rest.2)

/-- Mean over the estimators that did not see row `i` of the probability they give to class `k`; a class
the estimator was not trained on has probability zero; without `predict_proba` the predicted class has
probability one. -/
def classProb (e : OobEst) (i k : ℕ) : ℚ :=
  match e.proba with
  | some f => if k ∈ e.classes then (f i).getD (e.classes.idxOf k) 0 else 0
  | none => if e.predict i = k then 1 else 0

/-- The estimators whose bootstrap sample does not contain row `i`. -/
def oobOf (ests : List (OobEst × List ℕ)) (i : ℕ) : List OobEst :=
  (ests.filter fun e => decide (i ∉ e.2)).map (·.1)

/-- A base estimator trained on all classes: probabilities of the right length adding up to one, predicted
classes within range. -/
def FullOob (nC : ℕ) (e : OobEst) : Prop :=
  e.classes = List.range nC ∧
  (∀ f, e.proba = some f → ∀ i, (f i).length = nC ∧ (f i).sum = 1) ∧
  (e.proba = none → ∀ i, e.predict i < nC)

end Mizar.Spec
