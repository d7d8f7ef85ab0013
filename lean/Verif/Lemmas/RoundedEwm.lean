import Verif.Model.RoundedEwm
import Verif.Lemmas.VarDrift

/-!
Lemmas on exponentially weighted means with rounding.
-/

namespace Mizar.Rd
open Mizar.Spec

section factor
variable {r : ℚ → ℚ} {ε : ℚ} (he0 : 0 ≤ ε) (he : ε ≤ 1 / 64) (hr : ∀ x, |r x - x| ≤ ε * |x|)
include he0 he hr

/-- The factor of the old weights is off by four roundings. -/
theorem factor_near {S : ℚ} (hS : 1 ≤ S) (span : ℕ) (hspan : ((span : ℚ) + 1) / 2 = S) :
    |ewmFactor r span - (1 - 1 / S)| ≤ 4 * ε := by
  have hS0 : 0 < S := by linarith
  have h1 : |r (((span : ℚ) - 1) / 2) - (S - 1)| ≤ ε * S := by
    have e : ((span : ℚ) - 1) / 2 = S - 1 := by rw [← hspan]; ring
    rw [e]
    refine (hr _).trans (mul_le_mul_of_nonneg_left ?_ he0)
    rw [abs_of_nonneg (by linarith)]
    linarith
  have h2 : |1 + r (((span : ℚ) - 1) / 2) - S| ≤ ε * S := by
    rw [show 1 + r (((span : ℚ) - 1) / 2) - S = r (((span : ℚ) - 1) / 2) - (S - 1) by ring]
    exact h1
  have h3 := near_round he0 hr h2 (le_of_eq (abs_of_pos hS0))
  unfold ewmFactor
  set T := r (1 + r (((span : ℚ) - 1) / 2))
  have hεS : 0 ≤ ε * S := mul_nonneg he0 hS0.le
  have h3' : |T - S| ≤ 65 / 32 * (ε * S) := by nlinarith
  have hTS : 15 / 16 * S ≤ T := by
    have := (abs_le.1 h3').1
    nlinarith
  have hT0 : 0 < T := by nlinarith
  have h4 : |1 / T - 1 / S| ≤ 5 / 2 * (ε * (1 / S)) := by
    have e : 1 / T - 1 / S = (S - T) / (T * S) := by field_simp
    rw [e, abs_div, abs_of_pos (mul_pos hT0 hS0), abs_sub_comm, div_le_iff₀ (mul_pos hT0 hS0)]
    have e2 : 5 / 2 * (ε * (1 / S)) * (T * S) = 5 / 2 * ε * T := by field_simp
    rw [e2]
    nlinarith
  have ha : |1 / S| ≤ 1 / S := le_of_eq (abs_of_pos (by positivity))
  have ha1 : 1 / S ≤ 1 := by rw [div_le_one hS0]; exact hS
  have ha0 : 0 < 1 / S := by positivity
  set α := 1 / S
  have h5 := near_round he0 hr h4 ha
  have h6 : |1 - r (1 / T) - (1 - α)| ≤ 5 / 2 * (ε * α) + ε * (α + 5 / 2 * (ε * α)) := by
    rw [show 1 - r (1 / T) - (1 - α) = -(r (1 / T) - α) by ring, abs_neg]
    exact h5
  have h7 := near_round he0 hr h6 (le_of_eq (abs_of_nonneg (show 0 ≤ 1 - α by linarith)))
  refine h7.trans ?_
  have k1 : ε * α ≤ ε := by nlinarith
  have k2 : ε * (ε * α) ≤ 1 / 64 * (ε * α) := mul_le_mul_of_nonneg_right he (by positivity)
  have k3 : ε * (ε * (ε * α)) ≤ 1 / 64 * (1 / 64 * (ε * α)) := by
    have := mul_le_mul_of_nonneg_left k2 he0
    nlinarith
  nlinarith

end factor

theorem r_nonneg {r : ℚ → ℚ} {ε : ℚ} {x : ℚ} (he : ε ≤ 1 / 64) (hr : ∀ x, |r x - x| ≤ ε * |x|) (hx : 0 ≤ x) : 0 ≤ r x := by
  have h := (abs_le.1 (hr x)).1
  rw [abs_of_nonneg hx] at h
  nlinarith

/-- The rounded state `s` beside the exact state `E`. -/
def EwmClose (ε M S : ℚ) (s E : EwmSt ℚ) : Prop :=
  (s.mean = .nan ∧ E.mean = .nan ∧ s.oldWt = 1 ∧ E.oldWt = 1) ∨
    ∃ a b, s.mean = .fin a ∧ E.mean = .fin b ∧ |b| ≤ M ∧ |a - b| ≤ 56 * (S * S) * (ε * M) ∧ 0 ≤ s.oldWt ∧ 0 ≤ E.oldWt ∧
      E.oldWt ≤ S ∧ |s.oldWt - E.oldWt| ≤ 15 * (S * S) * ε

section step
variable {r : ℚ → ℚ} {ε M S q : ℚ} (he0 : 0 ≤ ε) (hM : 0 ≤ M) (hS : 1 ≤ S) (hSε : 64 * (S * S) * ε ≤ 1)
  (hr : ∀ x, |r x - x| ≤ ε * |x|) (hq0 : 0 ≤ q) (hq : |q - (1 - 1 / S)| ≤ 4 * ε)
include he0 hS hSε hr hq0 hq

omit hr hq0 hq in
theorem eps_small : ε ≤ 1 / 64 := by
  have : 1 * ε ≤ S * S * ε := mul_le_mul_of_nonneg_right (by nlinarith) he0
  linarith

/-- Old weights: their product with the factor and the new weight. -/
theorem weight_step {w E : ℚ} (hw : 0 ≤ w) (hE : 0 ≤ E) (hES : E ≤ S) (h : |w - E| ≤ 15 * (S * S) * ε) :
    0 ≤ r (w * q) ∧ 0 ≤ E * (1 - 1 / S) ∧ E * (1 - 1 / S) + 1 ≤ S ∧
      |r (w * q) - E * (1 - 1 / S)| ≤ 15 * (S * S) * ε ∧ |r (r (w * q) + 1) - (E * (1 - 1 / S) + 1)| ≤ 15 * (S * S) * ε := by
  have he := eps_small he0 hS hSε
  have hS0 : 0 < S := by linarith
  have hQ0 : 0 ≤ 1 - 1 / S := by
    rw [sub_nonneg, div_le_one hS0]; exact hS
  have hSQ : S * (1 - 1 / S) = S - 1 := by field_simp
  have hO : E * (1 - 1 / S) + 1 ≤ S := by
    have := mul_le_mul_of_nonneg_right hES hQ0
    linarith
  have hO0 : 0 ≤ E * (1 - 1 / S) := mul_nonneg hE hQ0
  have hSε0 : 0 ≤ S * ε := mul_nonneg hS0.le he0
  have hSSε : S * ε ≤ S * S * ε := by nlinarith
  have hD1 : 15 * (S * S) * ε ≤ 1 := by nlinarith
  have hw2 : w ≤ 2 * S := by
    have := (abs_le.1 h).2
    linarith
  have h1 : |w * q - E * (1 - 1 / S)| ≤ (1 - 1 / S) * (15 * (S * S) * ε) + 8 * (S * ε) := by
    rw [show w * q - E * (1 - 1 / S) = (1 - 1 / S) * (w - E) + w * (q - (1 - 1 / S)) by ring]
    refine (abs_add_le _ _).trans ?_
    rw [abs_mul, abs_mul, abs_of_nonneg hQ0, abs_of_nonneg hw]
    have a1 := mul_le_mul_of_nonneg_left h hQ0
    have a2 : w * |q - (1 - 1 / S)| ≤ 2 * S * (4 * ε) := mul_le_mul hw2 hq (abs_nonneg _) (by linarith)
    linarith
  have hQD : (1 - 1 / S) * (15 * (S * S) * ε) = 15 * (S * S) * ε - 15 * (S * ε) := by field_simp
  rw [hQD] at h1
  have hOS : |E * (1 - 1 / S)| ≤ S := by rw [abs_of_nonneg hO0]; linarith
  have h2 := near_round he0 hr h1 hOS
  have hεS1 : ε * (15 * (S * S) * ε - 15 * (S * ε) + 8 * (S * ε)) ≤ S * ε := by
    have : 15 * (S * S) * ε - 15 * (S * ε) + 8 * (S * ε) ≤ S := by linarith
    have := mul_le_mul_of_nonneg_left this he0
    linarith
  have h3 : |r (w * q) - E * (1 - 1 / S)| ≤ 15 * (S * S) * ε - 5 * (S * ε) := by
    rw [mul_add] at h2
    linarith
  have h4 : |r (w * q) + 1 - (E * (1 - 1 / S) + 1)| ≤ 15 * (S * S) * ε - 5 * (S * ε) := by
    rw [add_sub_add_right_eq_sub]; exact h3
  have h5 := near_round he0 hr h4 (show |E * (1 - 1 / S) + 1| ≤ S by rw [abs_of_nonneg (by linarith)]; exact hO)
  have h6 : ε * (15 * (S * S) * ε - 5 * (S * ε)) ≤ S * ε := by
    have : 15 * (S * S) * ε - 5 * (S * ε) ≤ S := by linarith
    have := mul_le_mul_of_nonneg_left this he0
    linarith
  refine ⟨r_nonneg he hr (mul_nonneg hw hq0), hO0, hO, by linarith, ?_⟩
  rw [mul_add] at h5
  linarith

omit hq0 hq in
include hM in
/-- The rounded average of `a` with weight `o` and `x` with weight 1. -/
theorem average_round {o a x : ℚ} (ho : 0 ≤ o) (ha : |a| ≤ 2 * M) (hx : |x| ≤ M) :
    0 < r (o + 1) ∧ |r (r (r (o * a) + x) / r (o + 1)) - (o * a + x) / (o + 1)| ≤ 11 * (ε * M) := by
  have he := eps_small he0 hS hSε
  have hd : 0 < o + 1 := by linarith
  have hεM : 0 ≤ ε * M := mul_nonneg he0 hM
  have hoa : |o * a| ≤ 2 * M * o := by
    rw [abs_mul, abs_of_nonneg ho, mul_comm]
    exact mul_le_mul_of_nonneg_right ha ho
  have h1 : |r (o * a) + x - (o * a + x)| ≤ 2 * (ε * M) * (o + 1) := by
    rw [add_sub_add_right_eq_sub]
    refine (hr _).trans ?_
    have := mul_le_mul_of_nonneg_left hoa he0
    nlinarith
  have hn : |o * a + x| ≤ 2 * M * (o + 1) := by
    have := abs_add_le (o * a) x
    nlinarith
  have h2 := near_round he0 hr h1 hn
  have hεε : ε * (ε * M) ≤ 1 / 64 * (ε * M) := mul_le_mul_of_nonneg_right he hεM
  have h3 : |r (r (o * a) + x) - (o * a + x)| ≤ 5 * (ε * M) * (o + 1) := by
    have : ε * (2 * (ε * M) * (o + 1)) ≤ 1 / 32 * (ε * M) * (o + 1) := by
      have := mul_le_mul_of_nonneg_right hεε hd.le
      linarith
    have e0 : 0 ≤ ε * M * (o + 1) := mul_nonneg hεM hd.le
    linarith
  have h4 : |r (o + 1) - (o + 1)| ≤ ε * (o + 1) := by
    have := hr (o + 1)
    rwa [abs_of_pos hd] at this
  have hT : 63 / 64 * (o + 1) ≤ r (o + 1) := by
    have := (abs_le.1 h4).1
    nlinarith
  have hT0 : 0 < r (o + 1) := by linarith
  refine ⟨hT0, ?_⟩
  generalize r (r (o * a) + x) = N at h3 ⊢
  generalize o * a + x = n at h3 hn ⊢
  generalize r (o + 1) = T at h4 hT hT0 ⊢
  generalize o + 1 = d at h3 hn h4 hT hd ⊢
  have h5 : |N / T - n / d| ≤ 8 * (ε * M) := by
    have e : N / T - n / d = ((N - n) * d + n * (d - T)) / (T * d) := by field_simp; ring
    rw [e, abs_div, abs_of_pos (mul_pos hT0 hd), div_le_iff₀ (mul_pos hT0 hd)]
    refine (abs_add_le _ _).trans ?_
    rw [abs_mul, abs_mul, abs_of_pos hd, abs_sub_comm d T]
    have a1 := mul_le_mul_of_nonneg_right h3 hd.le
    have a2 : |n| * |T - d| ≤ 2 * M * d * (ε * d) := mul_le_mul hn h4 (abs_nonneg _) (by positivity)
    have a3 : 8 * (ε * M) * d * (63 / 64 * d) ≤ 8 * (ε * M) * d * T := mul_le_mul_of_nonneg_left hT (by positivity)
    have a4 : 0 ≤ ε * M * (d * d) := by positivity
    nlinarith
  have hnd : |n / d| ≤ 2 * M := by
    rw [abs_div, abs_of_pos hd, div_le_iff₀ hd]; exact hn
  have h6 := near_round he0 hr h5 hnd
  have : ε * (2 * M + 8 * (ε * M)) ≤ 3 * (ε * M) := by nlinarith
  linarith

include hM in
theorem ewmClose_step {s E : EwmSt ℚ} (h : EwmClose ε M S s E) (x : XF ℚ) (hx : ∀ v, x = .fin v → |v| ≤ M)
    (hinf : x.isInf = false) : EwmClose ε M S (ewmStepR r q s x) (ewmStep (1 / S) E x) := by
  have he := eps_small he0 hS hSε
  have hS0 : 0 < S := by linarith
  have hεM : 0 ≤ ε * M := mul_nonneg he0 hM
  have hSM : 0 ≤ 56 * (S * S) * (ε * M) := by positivity
  cases x with
  | ninf => simp [XF.isInf] at hinf
  | pinf => simp [XF.isInf] at hinf
  | nan =>
    rcases h with ⟨h1, h2, h3, h4⟩ | ⟨a, b, ha, hb, hbM, hab, hw0, hE0, hES, hw⟩
    · left
      simp [ewmStepR, ewmStep, h1, h2, XF.isNan, h3, h4]
    · right
      obtain ⟨k1, k2, k3, k4, _⟩ := weight_step he0 hS hSε hr hq0 hq hw0 hE0 hES hw
      refine ⟨a, b, by simp [ewmStepR, ha, XF.isNan], by simp [ewmStep, hb, XF.isNan], hbM, hab, ?_, ?_, ?_, ?_⟩
      · simpa [ewmStepR, ha, XF.isNan] using k1
      · have : (ewmStep (1 / S) E .nan).oldWt = E.oldWt * (1 - 1 / S) := by simp [ewmStep, hb, XF.isNan]
        rw [this]; exact k2
      · have : (ewmStep (1 / S) E .nan).oldWt = E.oldWt * (1 - 1 / S) := by simp [ewmStep, hb, XF.isNan]
        rw [this]; linarith
      · have e1 : (ewmStep (1 / S) E .nan).oldWt = E.oldWt * (1 - 1 / S) := by simp [ewmStep, hb, XF.isNan]
        have e2 : (ewmStepR r q s .nan).oldWt = r (s.oldWt * q) := by simp [ewmStepR, ha, XF.isNan]
        rw [e1, e2]; exact k4
  | fin v =>
    have hv := hx v rfl
    rcases h with ⟨h1, h2, h3, h4⟩ | ⟨a, b, ha, hb, hbM, hab, hw0, hE0, hES, hw⟩
    · right
      refine ⟨v, v, by simp [ewmStepR, h1, XF.isNan], by simp [ewmStep, h2, XF.isNan], hv, by simpa using hSM, ?_, ?_, ?_, ?_⟩
      · simp [ewmStepR, h1, h3, XF.isNan]
      · simp [ewmStep, h2, h4, XF.isNan]
      · simpa [ewmStep, h2, h4, XF.isNan] using hS
      · have : 0 ≤ 15 * (S * S) * ε := by positivity
        simpa [ewmStepR, ewmStep, h1, h2, h3, h4, XF.isNan] using this
    · right
      obtain ⟨k1, k2, k3, k4, k5⟩ := weight_step he0 hS hSε hr hq0 hq hw0 hE0 hES hw
      have eE : (ewmStep (1 / S) E (.fin v)).oldWt = E.oldWt * (1 - 1 / S) + 1 := by
        simp only [ewmStep, hb, XF.isNan, Bool.false_eq_true, if_false]
        split_ifs <;> rfl
      have es : (ewmStepR r q s (.fin v)).oldWt = r (r (s.oldWt * q) + 1) := by
        simp only [ewmStepR, ha, XF.isNan, Bool.false_eq_true, if_false]
        split_ifs <;> rfl
      have mE : (ewmStep (1 / S) E (.fin v)).mean =
          .fin ((E.oldWt * (1 - 1 / S) * b + v) / (E.oldWt * (1 - 1 / S) + 1)) := by
        have hne : E.oldWt * (1 - 1 / S) + 1 ≠ 0 := by linarith
        simp only [ewmStep, hb, XF.isNan, Bool.false_eq_true, if_false]
        by_cases hbv : b = v
        · have : (b * (E.oldWt * (1 - 1 / S)) + b) / (E.oldWt * (1 - 1 / S) + 1) = b := by
            rw [div_eq_iff hne]; ring
          subst hbv
          rw [if_pos (by simp [XF.beq])]
          rw [mul_comm _ b, this]
        · rw [if_neg (by simpa [XF.beq] using hbv)]
          simp only [XF.mul, XF.add, XF.div]
          rw [if_neg hne]
      set o := E.oldWt * (1 - 1 / S) with ho
      set oh := r (s.oldWt * q) with hoh
      have hd : 0 < o + 1 := by linarith
      have hdh : 0 < oh + 1 := by linarith
      have hbv : |(o * b + v) / (o + 1)| ≤ M := by
        rw [abs_div, abs_of_pos hd, div_le_iff₀ hd]
        refine (abs_add_le _ _).trans ?_
        rw [abs_mul, abs_of_nonneg k2]
        nlinarith
      have ha2 : |a| ≤ 2 * M := by
        have h1 := abs_sub_abs_le_abs_sub a b
        have h2 : 56 * (S * S) * (ε * M) ≤ 1 * M := by
          rw [← mul_assoc]
          apply mul_le_mul_of_nonneg_right _ hM
          nlinarith
        linarith
      have hT := average_round he0 hM hS hSε hr k1 ha2 hv
      -- contraction
      have key : ∀ c, |c - (oh * a + v) / (oh + 1)| ≤ 11 * (ε * M) → |c - (o * b + v) / (o + 1)| ≤ 56 * (S * S) * (ε * M) := by
        intro c hc
        have e : (oh * a + v) / (oh + 1) - (o * b + v) / (o + 1) =
            o / (o + 1) * (a - b) + (oh - o) / (oh + 1) * (1 / (o + 1)) * (a - v) := by
          field_simp; ring
        have hav : |a - v| ≤ 3 * M := by
          have := abs_sub a v
          linarith
        have c1 : |(oh - o) / (oh + 1) * (1 / (o + 1)) * (a - v)| ≤ 45 * (S * S) * (ε * M) * (1 / (o + 1)) := by
          rw [abs_mul, abs_mul, abs_div, abs_of_pos hdh, abs_of_pos (show 0 < 1 / (o + 1) by positivity)]
          have d1 : |oh - o| / (oh + 1) ≤ 15 * (S * S) * ε := (div_le_self (abs_nonneg _) (by linarith)).trans k4
          have d2 : |oh - o| / (oh + 1) * (1 / (o + 1)) ≤ 15 * (S * S) * ε * (1 / (o + 1)) :=
            mul_le_mul_of_nonneg_right d1 (by positivity)
          refine (mul_le_mul d2 hav (abs_nonneg _) (by positivity)).trans (le_of_eq (by ring))
        have c2 : |o / (o + 1) * (a - b)| ≤ o / (o + 1) * (56 * (S * S) * (ε * M)) := by
          rw [abs_mul, abs_of_nonneg (div_nonneg k2 hd.le)]
          exact mul_le_mul_of_nonneg_left hab (div_nonneg k2 hd.le)
        have hl : o / (o + 1) = 1 - 1 / (o + 1) := by field_simp; ring
        have hi : 1 ≤ S * (1 / (o + 1)) := by
          rw [mul_one_div, le_div_iff₀ hd]; linarith
        have c3 : 11 * (ε * M) ≤ 11 * (S * S) * (ε * M) * (1 / (o + 1)) := by
          have f1 : 1 ≤ S * S * (1 / (o + 1)) := by
            have := mul_le_mul_of_nonneg_left hi hS0.le
            rw [← mul_assoc] at this
            linarith
          have f2 := mul_le_mul_of_nonneg_right f1 hεM
          linarith
        have t := abs_add_le (c - (oh * a + v) / (oh + 1)) ((oh * a + v) / (oh + 1) - (o * b + v) / (o + 1))
        rw [sub_add_sub_cancel] at t
        have t2 := abs_add_le (o / (o + 1) * (a - b)) ((oh - o) / (oh + 1) * (1 / (o + 1)) * (a - v))
        rw [← e] at t2
        have c4 : o / (o + 1) * (56 * (S * S) * (ε * M)) =
            56 * (S * S) * (ε * M) - 56 * (S * S) * (ε * M) * (1 / (o + 1)) := by rw [hl]; ring
        linarith
      by_cases hav : a = v
      · have ms : (ewmStepR r q s (.fin v)).mean = .fin a := by
          simp [ewmStepR, ha, XF.isNan, XF.beq, hav]
        refine ⟨a, _, ms, mE, hbv, key a ?_, by rw [es]; exact r_nonneg he hr hdh.le, by rw [eE]; exact hd.le,
          by rw [eE]; exact k3, by rw [eE, es]; exact k5⟩
        have : (oh * a + v) / (oh + 1) = a := by rw [div_eq_iff hdh.ne', hav]; ring
        rw [this, sub_self, abs_zero]
        positivity
      · have ms : (ewmStepR r q s (.fin v)).mean = .fin (r (r (r (oh * a) + v) / r (oh + 1))) := by
          simp only [ewmStepR, ha, XF.isNan, Bool.false_eq_true, if_false]
          rw [if_neg (by simpa [XF.beq] using hav)]
          simp only [XF.mul, rnd, XF.add, XF.div]
          rw [if_neg hT.1.ne']
        exact ⟨_, _, ms, mE, hbv, key _ hT.2, by rw [es]; exact r_nonneg he hr hdh.le, by rw [eE]; exact hd.le,
          by rw [eE]; exact k3, by rw [eE, es]; exact k5⟩

end step

end Mizar.Rd
