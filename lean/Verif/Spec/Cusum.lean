import Mathlib.Algebra.Order.Ring.Defs

/-!
Specification of the CUSUM filter for finite prices, without accumulators.
-/

namespace Mizar.Spec

/-- `U` is the set of upward events of the price path `p` for the threshold `h`: position `k` is one exactly
if the price rose by more than `h` from some earlier position `j` and there was no upward event strictly
between `j` and `k`. -/
def IsUpEvents {K : Type*} [Ring K] [LinearOrder K] (h : K) (p : ℕ → K) (n : ℕ) (U : ℕ → Bool) : Prop :=
  ∀ k < n, U k = true ↔ ∃ j < k, h < p k - p j ∧ ∀ i, j < i → i < k → U i = false

/-- The set of upward events is determined by the price path. -/
theorem IsUpEvents.unique {K : Type*} [Ring K] [LinearOrder K] {h : K} {p : ℕ → K} {n : ℕ} {U V : ℕ → Bool}
    (hU : IsUpEvents h p n U) (hV : IsUpEvents h p n V) : ∀ k < n, U k = V k := by
  intro k
  induction k using Nat.strong_induction_on with
  | _ k ih =>
    intro hk
    rw [Bool.eq_iff_iff, hU k hk, hV k hk]
    constructor
    · rintro ⟨j, h1, h2, h3⟩
      exact ⟨j, h1, h2, fun i a b => by rw [← ih i b (by omega)]; exact h3 i a b⟩
    · rintro ⟨j, h1, h2, h3⟩
      exact ⟨j, h1, h2, fun i a b => by rw [ih i b (by omega)]; exact h3 i a b⟩

end Mizar.Spec
