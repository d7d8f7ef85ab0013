import Mathlib.Analysis.SpecialFunctions.Pow.Real
import Mathlib.Analysis.SpecialFunctions.Log.Deriv
import Verif.Model.LogUniform

/-!
Property theorem C74: the log-uniform distribution (`/repo/mizarlabs/model/model_selection.py` lines 337-345).
-/

namespace Mizar.Props
open Mizar.LogU Mizar.Brk
variable {em : ErrModel}

theorem rawCdf_fin {a b x : ℝ} (ha : 0 < a) (hab : a < b) (hx : 0 < x) :
    rawCdf em a b (.fin x) = .ok (.fin (Real.log (x / a) / Real.log (b / a))) := by
  have h1 : 1 < b / a := (one_lt_div ha).2 hab
  have h0 : divE em (.fin b) (.fin a) = .ok (XF.div (.fin b) (.fin a)) := by
    unfold divE
    rw [if_neg (by simp [XF.beq, ha.ne'])]
  unfold rawCdf
  rw [h0, Py.bind_ok, XF.div_fin _ _ ha.ne', XF.div_fin _ _ ha.ne', XF.log_fin (by positivity), XF.log_fin (by positivity),
    XF.div_fin _ _ (Real.log_pos h1).ne']

/-- The value on the line: 0 up to `a`, 1 from `b` on, between them the share of the logarithm. -/
theorem cdf_fin {a b : ℝ} (ha : 0 < a) (hab : a < b) (x : ℝ) :
    cdf em (some a) (some b) (.fin x) = .ok (.fin (if x ≤ a then 0 else if b ≤ x then 1 else Real.log (x / a) / Real.log (b / a))) := by
  unfold cdf bounds
  simp only [Option.getD_some, XF.isNan_fin, Bool.false_eq_true, if_false, XF.le_fin, XF.lt_fin, decide_eq_true_eq]
  by_cases h1 : x ≤ a
  · rw [if_pos h1, if_neg (by linarith), if_neg (by linarith)]
  · rw [if_neg h1]
    by_cases h2 : b ≤ x
    · rw [if_pos h2, if_pos h2]
    · rw [if_neg h2, if_neg h2, if_pos (by linarith), rawCdf_fin ha hab (by linarith)]

/-- C74 (distribution function): for `0 < a < b` every number has a probability in `[0, 1]`, which is 0 exactly up to
`a`, 1 exactly from `b` on, and strictly increasing between. -/
theorem C74_distribution (a b : ℝ) (ha : 0 < a) (hab : a < b) :
    ∃ F : ℝ → ℝ, (∀ x, cdf em (some a) (some b) (.fin x) = .ok (.fin (F x))) ∧ Monotone F ∧ StrictMonoOn F (Set.Icc a b) ∧
      (∀ x, F x = 0 ↔ x ≤ a) ∧ (∀ x, F x = 1 ↔ b ≤ x) ∧ Continuous F := by
  have h1 : 1 < b / a := (one_lt_div ha).2 hab
  have hl : 0 < Real.log (b / a) := Real.log_pos h1
  let G : ℝ → ℝ := fun x => Real.log (x / a) / Real.log (b / a)
  have hG : ∀ x y, 0 < x → x < y → G x < G y := by
    intro x y hx hxy
    exact div_lt_div_of_pos_right (Real.log_lt_log (by positivity) (div_lt_div_of_pos_right hxy ha)) hl
  have hGa : G a = 0 := by simp [G, div_self ha.ne']
  have hGb : G b = 1 := div_self hl.ne'
  let F : ℝ → ℝ := fun x => G (max a (min x b))
  have hF : ∀ x, F x = if x ≤ a then 0 else if b ≤ x then 1 else G x := by
    intro x
    show G (max a (min x b)) = _
    split
    · rename_i h
      rw [max_eq_left (le_trans (min_le_left _ _) h), hGa]
    · rename_i h
      split
      · rename_i h2
        rw [min_eq_right h2, max_eq_right hab.le, hGb]
      · rename_i h2
        rw [min_eq_left (le_of_not_ge h2), max_eq_right (le_of_not_ge h)]
  have hcl : ∀ x, a ≤ max a (min x b) := fun x => le_max_left _ _
  have hmono : ∀ x y, 0 < x → x ≤ y → G x ≤ G y := by
    intro x y hx hxy
    rcases hxy.lt_or_eq with h | h
    · exact (hG x y hx h).le
    · rw [h]
  have hFm : Monotone F := fun x y hxy => hmono _ _ (lt_of_lt_of_le ha (hcl x)) (max_le_max le_rfl (min_le_min hxy le_rfl))
  have hstrict : StrictMonoOn F (Set.Icc a b) := by
    intro x hx y hy hxy
    show G (max a (min x b)) < G (max a (min y b))
    rw [min_eq_left hx.2, min_eq_left hy.2, max_eq_right hx.1, max_eq_right hy.1]
    exact hG x y (lt_of_lt_of_le ha hx.1) hxy
  have hFa : F a = 0 := by rw [hF, if_pos le_rfl]
  have hFb : F b = 1 := by rw [hF, if_neg (not_le.2 hab), if_pos le_rfl]
  refine ⟨F, fun x => ?_, hFm, hstrict, ?_, ?_, ?_⟩
  · rw [cdf_fin ha hab, hF]
  · intro x
    constructor
    · intro h
      by_contra hx
      push Not at hx
      by_cases hb : x ≤ b
      · have := hstrict ⟨le_rfl, hab.le⟩ ⟨hx.le, hb⟩ hx
        linarith
      · have := hFm (le_of_not_ge hb)
        linarith
    · intro h
      rw [hF, if_pos h]
  · intro x
    constructor
    · intro h
      by_contra hx
      push Not at hx
      by_cases hb : a ≤ x
      · have := hstrict ⟨hb, hx.le⟩ ⟨hab.le, le_rfl⟩ hx
        linarith
      · have := hFm (le_of_not_ge hb)
        linarith
    · intro h
      rw [hF, if_neg (by linarith), if_pos h]
  · have hc : Continuous fun x => max a (min x b) := continuous_const.max (continuous_id.min continuous_const)
    show Continuous fun x => Real.log (max a (min x b) / a) / Real.log (b / a)
    apply Continuous.div_const
    apply Continuous.log
    · exact hc.div_const a
    · intro x
      have := lt_of_lt_of_le ha (hcl x)
      positivity

/-- C74 (equal ratios): for `0 < a < b`, an interval from `x` to `c * x` inside the bounds has a probability that depends
on `c` alone: the share of `log c` in `log (b / a)`. -/
theorem C74_equal_ratios (a b : ℝ) (ha : 0 < a) (hab : a < b) (c : ℝ) (hc : 1 ≤ c) (x : ℝ) (hx : a ≤ x) (hcx : c * x ≤ b) :
    ∃ p q, cdf em (some a) (some b) (.fin x) = .ok (.fin p) ∧ cdf em (some a) (some b) (.fin (c * x)) = .ok (.fin q) ∧
      q - p = Real.log c / (Real.log b - Real.log a) := by
  have hb : 0 < b := ha.trans hab
  have h1 : 1 < b / a := (one_lt_div ha).2 hab
  have hl : 0 < Real.log (b / a) := Real.log_pos h1
  have hv : ∀ z, a ≤ z → z ≤ b → cdf em (some a) (some b) (.fin z) = .ok (.fin (Real.log (z / a) / Real.log (b / a))) := by
    intro z h2 h3
    rw [cdf_fin ha hab]
    congr 1
    rcases h2.lt_or_eq with h4 | h4
    · rw [if_neg (not_le.2 h4)]
      rcases h3.lt_or_eq with h5 | h5
      · rw [if_neg (not_le.2 h5)]
      · rw [if_pos h5.ge, h5, div_self hl.ne']
    · rw [if_pos h4.ge, ← h4, div_self ha.ne', Real.log_one, zero_div]
  have hx0 : 0 < x := lt_of_lt_of_le ha hx
  have hxc : x ≤ c * x := by nlinarith
  refine ⟨_, _, hv x hx (hxc.trans hcx), hv (c * x) (hx.trans hxc) hcx, ?_⟩
  rw [← Real.log_div hb.ne' ha.ne', ← sub_div, mul_div_assoc, Real.log_mul (by positivity) (by positivity)]
  ring_nf

/-- C74 (quantiles): for `0 < a < b` and `0 < q < 1` exactly one number has probability `q`: `a * (b / a) ^ q`. -/
theorem C74_quantile (a b : ℝ) (ha : 0 < a) (hab : a < b) (q : ℝ) (hq : 0 < q) (hq1 : q < 1) (x : ℝ) :
    cdf em (some a) (some b) (.fin x) = .ok (.fin q) ↔ x = a * (b / a) ^ q := by
  have h1 : 1 < b / a := (one_lt_div ha).2 hab
  have hl : 0 < Real.log (b / a) := Real.log_pos h1
  have hpos : 0 < b / a := by positivity
  rw [cdf_fin ha hab, Except.ok.injEq, XF.fin.injEq]
  constructor
  · intro h
    split at h
    · linarith
    · split at h
      · linarith
      · rename_i h2 h3
        have hx : 0 < x := by linarith
        rw [div_eq_iff hl.ne'] at h
        have h4 := congrArg Real.exp h
        rw [Real.exp_log (by positivity)] at h4
        rw [Real.rpow_def_of_pos hpos, mul_comm (Real.log _), ← h4]
        field_simp
  · intro h
    have h2 : 1 < (b / a) ^ q := Real.one_lt_rpow h1 hq
    have h3 : (b / a) ^ q < b / a := by
      conv_rhs => rw [← Real.rpow_one (b / a)]
      exact Real.rpow_lt_rpow_of_exponent_lt h1 hq1
    have h4 : a < x := by rw [h]; nlinarith
    have h5 : x < b := by
      rw [h]
      calc a * (b / a) ^ q < a * (b / a) := by nlinarith
        _ = b := by field_simp
    rw [if_neg (not_le.2 h4), if_neg (not_le.2 h5), h, mul_div_cancel_left₀ _ ha.ne', Real.log_rpow hpos, mul_div_cancel_right₀ _ hl.ne']

/-- C74 (density): for `0 < a < b` the distribution function has at every `a < x < b` the derivative
`1 / (x * log (b / a))`. -/
theorem C74_density (a b : ℝ) (ha : 0 < a) (hab : a < b) (F : ℝ → ℝ) (hF : ∀ x, cdf em (some a) (some b) (.fin x) = .ok (.fin (F x))) (x : ℝ)
    (h1 : a < x) (h2 : x < b) : HasDerivAt F (1 / (x * Real.log (b / a))) x := by
  have hx : 0 < x := ha.trans h1
  have hd : HasDerivAt (fun z => Real.log (z / a) / Real.log (b / a)) (1 / (x * Real.log (b / a))) x := by
    have h3 : HasDerivAt (fun z : ℝ => z / a) (1 / a) x := (hasDerivAt_id x).div_const a
    have h4 := (h3.log (by positivity)).div_const (Real.log (b / a))
    have e : 1 / (x * Real.log (b / a)) = 1 / a / (x / a) / Real.log (b / a) := by
      rw [div_div_div_cancel_right₀ ha.ne', div_div]
    rw [e]
    exact h4
  apply hd.congr_of_eventuallyEq
  filter_upwards [Ioo_mem_nhds h1 h2] with z hz
  have := hF z
  rw [cdf_fin ha hab, if_neg (not_le.2 hz.1), if_neg (not_le.2 hz.2), Except.ok.injEq, XF.fin.injEq] at this
  exact this.symm

/-- C74 (defaults): without arguments the bounds are 1 and e and the probability of `1 ≤ x ≤ e` is its logarithm. -/
theorem C74_default (x : ℝ) (h1 : 1 ≤ x) (h2 : x ≤ Real.exp 1) : cdf em none none (.fin x) = .ok (.fin (Real.log x)) := by
  have he : (1 : ℝ) < Real.exp 1 := Real.one_lt_exp_iff.2 one_pos
  have : cdf em none none (.fin x) = cdf .numpy (some 1) (some (Real.exp 1)) (.fin x) := rfl
  rw [this, cdf_fin one_pos he]
  congr 1
  rcases h1.lt_or_eq with h3 | h3
  · rw [if_neg (not_le.2 h3)]
    rcases h2.lt_or_eq with h4 | h4
    · rw [if_neg (not_le.2 h4)]; simp
    · rw [if_pos h4.ge, h4, Real.log_exp]
  · rw [if_pos h3.ge, ← h3, Real.log_one]

/-- C74 (bounds are not checked): with lower bound 0 the value at a number between the bounds is `ZeroDivisionError` if both bounds
are plain Python numbers, NaN if the upper bound is left out or one of them is a NumPy number. -/
theorem C74_zero_bound (b : Option ℝ) (x : ℝ) (hx : 0 < x) (hxb : x < b.getD (Real.exp 1)) :
    cdf em (some 0) b (.fin x) = if em = .python ∧ b ≠ none then .error .zeroDivisionError else .ok .nan := by
  have hb := hx.trans hxb
  have h0 : rawCdf .python 0 (b.getD (Real.exp 1)) (.fin x) = .error .zeroDivisionError := by
    unfold rawCdf divE
    rw [if_pos ⟨rfl, by simp [XF.beq]⟩]
    rfl
  have h1 : rawCdf .numpy 0 (b.getD (Real.exp 1)) (.fin x) = .ok .nan := by
    unfold rawCdf divE
    rw [if_neg (by simp), Py.bind_ok]
    simp [XF.div, XF.infSign, hx, hb, XF.log]
  have h2 : cdf em (some 0) b (.fin x) = rawCdf (if b.isNone then .numpy else em) 0 (b.getD (Real.exp 1)) (.fin x) := by
    unfold cdf bounds
    simp only [Option.getD_some, XF.isNan_fin, Bool.false_eq_true, if_false, XF.le_fin, XF.lt_fin, decide_eq_true_eq]
    rw [if_neg (not_le.2 hxb), if_pos hx]
  rw [h2]
  cases b with
  | none => simpa using h1
  | some b =>
    cases em with
    | python => simpa using h0
    | numpy => simpa using h1

section Examples

example : cdf em (some 1) (some 100) (.fin 10) = .ok (.fin (1 / 2)) := by
  rw [C74_quantile 1 100 (by norm_num) (by norm_num) (1 / 2) (by norm_num) (by norm_num)]
  have : (100 : ℝ) = 10 ^ (2 : ℝ) := by norm_num
  rw [div_one, this, ← Real.rpow_mul (by norm_num)]
  norm_num

/-- From 1 to 10 and from 10 to 100. -/
example : ∃ p q, cdf em (some 1) (some 1000) (.fin 10) = .ok (.fin p) ∧ cdf em (some 1) (some 1000) (.fin (10 * 10)) = .ok (.fin q) ∧
    q - p = Real.log 10 / (Real.log 1000 - Real.log 1) :=
  C74_equal_ratios 1 1000 (by norm_num) (by norm_num) 10 (by norm_num) 10 (by norm_num) (by norm_num)

/-- `log_uniform(0, 1)` raises, `log_uniform(0)` gives NaN. -/
example : cdf .python (some 0) (some 1) (.fin (1 / 2)) = .error .zeroDivisionError ∧ cdf .python (some 0) none (.fin (1 / 2)) = .ok .nan := by
  constructor
  · rw [C74_zero_bound _ _ (by norm_num) (by norm_num), if_pos ⟨rfl, by simp⟩]
  · have : (1 : ℝ) < Real.exp 1 := Real.one_lt_exp_iff.2 one_pos
    rw [C74_zero_bound _ _ (by norm_num) (by show (1 / 2 : ℝ) < Real.exp 1; linarith), if_neg (by simp)]

end Examples

/-- C74: a missing value stays missing, infinite values are outside the range. -/
theorem C74_special (a b : ℝ) : cdf em (some a) (some b) .nan = .ok .nan ∧ cdf em (some a) (some b) .pinf = .ok (.fin 1) ∧
    cdf em (some a) (some b) .ninf = .ok (.fin 0) := by
  refine ⟨?_, ?_, ?_⟩ <;> simp [cdf, bounds, XF.isNan, XF.le, XF.lt, XF.beq]

end Mizar.Props
