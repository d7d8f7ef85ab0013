import Verif.Spec.RoundedHighLow

/-! What is said about the log-uniform distribution in floating point. -/

namespace Mizar.Spec

/-- A logarithm with `p` binary digits that is off by at most one unit in the last place and does not decrease. -/
structure MonoLog (p : ℕ) (lg : ℚ → ℚ) : Prop where
  good : GoodLog p lg
  mono : ∀ x y, 0 < x → x ≤ y → lg x ≤ lg y

/-- The exact distribution function: 0 up to `a`, 1 from `b` on, the share of the logarithm between. -/
noncomputable def logShare (a b x : ℝ) : ℝ := if x ≤ a then 0 else if b ≤ x then 1 else Real.log (x / a) / Real.log (b / a)

end Mizar.Spec
