import Verif.Py.Norm

/-! Specification of the bet size: the signal of one row and the mean of the active bets. -/

namespace Mizar.Spec
open Mizar

/-- `2 Φ(z) - 1` with `z = (p - 1/k) / sqrt(p (1 - p))`, extended to `p = 0` and `p = 1` by its limits. -/
noncomputable def confidence (k : ℕ) (p : ℝ) : ℝ :=
  if p = 0 then -1 else if p = 1 then 1
  else 2 * phi ((p - 1 / (k : ℝ)) / Real.sqrt (p * (1 - p))) - 1

/-- A bet: start, end (or none), size. -/
structure ABet (K : Type*) where
  start : ℤ
  stop : Option ℤ
  size : K

/-- The bet is active at `t`: started, and not ended at or before `t`. -/
def ABet.Active {K : Type*} (b : ABet K) (t : ℤ) : Prop := b.start ≤ t ∧ ∀ e, b.stop = some e → t < e

instance {K : Type*} (b : ABet K) (t : ℤ) : Decidable (b.Active t) := by
  unfold ABet.Active
  cases b.stop with
  | none => exact decidable_of_iff (b.start ≤ t) (by simp)
  | some e => exact decidable_of_iff (b.start ≤ t ∧ t < e) (by simp)

/-- Mean size of the active bets, 0 if there is none. -/
def activeMean {K : Type*} [Field K] (bets : List (ABet K)) (t : ℤ) : K :=
  let a := bets.filter fun b => decide (b.Active t)
  if a = [] then 0 else (a.map (·.size)).sum / (a.length : K)

end Mizar.Spec
