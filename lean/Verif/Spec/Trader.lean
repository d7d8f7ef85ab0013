import Verif.Model.Trader

/-!
Independent specification for the trader (C51): signals in range and histories of calls.
-/

set_option linter.unusedSectionVars false

namespace Mizar.Spec
open Mizar.Pipe Mizar.Trade
variable {K : Type} [Field K] [LinearOrder K]

/-- All sides are numbers in [-1, 1], all sizes numbers in [0, 1]. -/
def SignalInRange (s : List (ℤ × XF K × XF K)) : Prop :=
  ∀ r ∈ s, ∃ side size : K, r.2.1 = .fin side ∧ r.2.2 = .fin size ∧ -1 ≤ side ∧ side ≤ 1 ∧ 0 ≤ size ∧ size ≤ 1

/-- A call on a trader, with the data it is given. -/
inductive TCall (K : Type) where
  | signal (X : Dict K)
  | bars (X : Dict K)
  | position (X : Dict K)

/-- The value of `strategy_valid` after a call. -/
def stepValid (tr : Trader K) (valid : Option Bool) : TCall K → Option Bool
  | .signal X => (createSignal tr ⟨valid, X⟩).2.valid
  | .bars X => (createBars tr ⟨valid, X⟩).2.valid
  | .position X => (createPosition tr ⟨valid, X⟩).2.valid

open Classical in
/-- The signal frame a call obtains from the pipeline: none if an index has duplicates or the pipeline raises. -/
noncomputable def obtained (tr : Trader K) : TCall K → Option (List (ℤ × XF K × XF K))
  | .bars _ => none
  | .signal X => if ∀ p ∈ X, p.2.index.Nodup then (match tr.signal X with | .ok s => some s | .error _ => none) else none
  | .position X => if ∀ p ∈ X, p.2.index.Nodup then (match tr.signal X with | .ok s => some s | .error _ => none) else none

/-- Some bar lies more than a day (in nanoseconds) before another. -/
def SpansDay (idx : List ℤ) : Prop := ∃ t ∈ idx, ∃ u ∈ idx, u < t - 86400000000000

/-- How a barrier follows from the volatility: its multiple, or nothing without a factor — only where there is no daily volatility at all. -/
def LevelOf (volAdjusted : Bool) (idx : List ℤ) (k : Option K) (A : XF K → XF K) : Prop :=
  (∀ a, k = some a → ∀ v, A v = XF.mul v (.fin a)) ∧ (k = none → (∀ v, A v = .nan) ∧ volAdjusted = true ∧ ¬ SpansDay idx)

end Mizar.Spec
