import Mathlib.Algebra.BigOperators.Group.Finset.Basic
import Mathlib.Data.Rat.Defs
import Verif.Model.Bootstrapping

/-! Specification vocabulary for the sequential bootstrap and average uniqueness. -/

namespace Mizar.Spec

/-- Time `t` lies in the closed life span of event `e = (start, end)`. -/
def Covers (e : ℤ × ℤ) (t : ℤ) : Prop := e.1 ≤ t ∧ t ≤ e.2

instance (e : ℤ × ℤ) (t : ℤ) : Decidable (Covers e t) := by unfold Covers; infer_instance

/-- The bars of sample `j` of a binary matrix. -/
def barsOf (M : Boot.IndMat) (j : ℕ) : Finset ℕ := (Finset.range M.nRows).filter fun t => M.ent t j = true

/-- The samples covering bar `t`. -/
def samplesAt (M : Boot.IndMat) (t : ℕ) : Finset ℕ :=
  (Finset.range M.nCols).filter fun j => M.ent t j = true

/-- Textbook average uniqueness of sample `j`: mean over its bars of one over the number of samples
covering the bar. -/
def avgUniq (M : Boot.IndMat) (j : ℕ) : ℚ :=
  (∑ t ∈ barsOf M j, (1 : ℚ) / ((samplesAt M t).card : ℚ)) / ((barsOf M j).card : ℚ)

/-- How many of the drawn samples (with repetition) cover bar `t`. -/
def drawnAt (M : Boot.IndMat) (drawn : List ℕ) (t : ℕ) : ℕ := (drawn.filter fun i => M.ent t i).length

/-- Textbook average uniqueness of sample `j` when it would be added to the drawn samples; a sample
without bars keeps uniqueness one. -/
def seqUniq (M : Boot.IndMat) (drawn : List ℕ) (j : ℕ) : ℚ :=
  if (barsOf M j).card = 0 then 1
  else (∑ t ∈ barsOf M j, (1 : ℚ) / (1 + (drawnAt M drawn t : ℚ))) / ((barsOf M j).card : ℚ)

end Mizar.Spec

namespace Mizar.Spec

/-- Number of events of the list that are alive at time `t`. -/
def aliveAt (ev : List (ℤ × ℤ)) (t : ℤ) : ℕ := (ev.filter fun e => decide (Covers e t)).length

/-- Textbook average uniqueness of event `e` among the events `ev` on the given set of bar times:
mean over the bars in the life span of `e` of one over the number of live events. -/
def eventUniq (times : Finset ℤ) (ev : List (ℤ × ℤ)) (e : ℤ × ℤ) : ℚ :=
  (∑ t ∈ times.filter (Covers e ·), (1 : ℚ) / (aliveAt ev t : ℚ)) /
    ((times.filter (Covers e ·)).card : ℚ)

end Mizar.Spec
