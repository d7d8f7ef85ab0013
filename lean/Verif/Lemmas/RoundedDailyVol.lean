import Verif.Lemmas.RoundedBet
import Verif.Lemmas.RoundedEwm
import Verif.Model.RoundedDailyVol

/-!
Error analysis of `ewm(span).var()` with rounding.
-/

namespace Mizar.Rd
open Mizar.Spec

section step
variable {r : ℚ → ℚ} {ε M S q : ℚ} (he0 : 0 ≤ ε) (hM : 0 ≤ M) (hS : 1 ≤ S) (hSε : 4096 * (S * S * S) * ε ≤ 1)
  (hr : ∀ x, |r x - x| ≤ ε * |x|) (hq0 : 0 ≤ q) (hq : |q - (1 - 1 / S)| ≤ 4 * ε)
include he0 hS hSε

theorem eps_units : ε ≤ 1 / 4096 ∧ S * ε ≤ 1 / 4096 ∧ S * S * ε ≤ 1 / 4096 ∧ ε ≤ S * ε ∧ S * ε ≤ S * S * ε ∧
    S * S * ε ≤ S * S * S * ε ∧ 64 * (S * S) * ε ≤ 1 := by
  have a : ε ≤ S * ε := by nlinarith
  have hSe : 0 ≤ S * ε := mul_nonneg (by linarith) he0
  have b : S * ε ≤ S * S * ε := by nlinarith
  have hSSe : 0 ≤ S * S * ε := mul_nonneg (by nlinarith) he0
  have c : S * S * ε ≤ S * S * S * ε := by nlinarith
  refine ⟨by linarith, by linarith, by linarith, a, b, c, by linarith⟩

include hr hq0 hq

/-- The factor of the squared weights. -/
theorem factor2_near : 0 ≤ r (q * q) ∧ |r (q * q) - (1 - 1 / S) * (1 - 1 / S)| ≤ 10 * ε := by
  obtain ⟨h1, -⟩ := eps_units he0 hS hSε
  have hS0 : 0 < S := by linarith
  have hi : 0 ≤ 1 / S := by positivity
  have hQ0 : 0 ≤ 1 - 1 / S := by rw [sub_nonneg, div_le_one hS0]; exact hS
  have hQ1 : |1 - 1 / S| ≤ 1 := by rw [abs_of_nonneg hQ0]; linarith
  refine ⟨r_nonneg (by linarith) hr (mul_nonneg hq0 hq0), ?_⟩
  have h2 := near_mul hq hQ1 hq hQ1
  have hQQ : |(1 - 1 / S) * (1 - 1 / S)| ≤ 1 := by
    rw [abs_mul]
    exact mul_le_one₀ hQ1 (abs_nonneg _) hQ1
  have h3 := near_round he0 hr h2 hQQ
  refine h3.trans ?_
  have e1 : ε * ε ≤ 1 / 4096 * ε := mul_le_mul_of_nonneg_right h1 he0
  have e2 : ε * (ε * ε) ≤ 1 / 4096 * (1 / 4096 * ε) := by
    have := mul_le_mul_of_nonneg_left e1 he0
    linarith
  linarith

/-- Sums of squared weights. -/
theorem weight2_step {w E : ℚ} (hw : 0 ≤ w) (hE : 0 ≤ E) (hES : E ≤ S) (h : |w - E| ≤ 26 * (S * S) * ε) :
    0 ≤ r (w * r (q * q)) ∧ 0 ≤ E * ((1 - 1 / S) * (1 - 1 / S)) ∧
      |r (r (w * r (q * q)) + 1) - (E * ((1 - 1 / S) * (1 - 1 / S)) + 1)| ≤ 26 * (S * S) * ε := by
  obtain ⟨u1, u2, u3, u4, u5, u6, -⟩ := eps_units he0 hS hSε
  obtain ⟨f0, f1⟩ := factor2_near he0 hS hSε hr hq0 hq
  set q2 := r (q * q)
  have hS0 : 0 < S := by linarith
  have hQ0 : 0 ≤ 1 - 1 / S := by rw [sub_nonneg, div_le_one hS0]; exact hS
  have hi : 0 ≤ 1 / S := by positivity
  have hSQ : S * (1 - 1 / S) = S - 1 := by field_simp
  set Q := 1 - 1 / S with hQ
  have hQ1 : Q ≤ 1 := by linarith
  have hQQ : Q * Q ≤ Q := by nlinarith
  have hQQ0 : 0 ≤ Q * Q := mul_nonneg hQ0 hQ0
  have hO0 : 0 ≤ E * (Q * Q) := mul_nonneg hE hQQ0
  have hO : E * (Q * Q) + 1 ≤ S := by
    have := mul_le_mul hES hQQ hQQ0 hS0.le
    linarith
  have hw2 : w ≤ 2 * S := by
    have := (abs_le.1 h).2
    linarith
  have hSε0 : 0 ≤ S * ε := mul_nonneg hS0.le he0
  have hD : 0 ≤ 26 * (S * S) * ε := by positivity
  have h1 : |w * q2 - E * (Q * Q)| ≤ 26 * (S * S) * ε - 6 * (S * ε) := by
    rw [show w * q2 - E * (Q * Q) = (Q * Q) * (w - E) + w * (q2 - Q * Q) by ring]
    refine (abs_add_le _ _).trans ?_
    rw [abs_mul (Q * Q), abs_mul w, abs_of_nonneg hQQ0, abs_of_nonneg hw]
    have a1 : Q * Q * |w - E| ≤ Q * (26 * (S * S) * ε) := mul_le_mul hQQ h (abs_nonneg _) hQ0
    have a2 : w * |q2 - Q * Q| ≤ 2 * S * (10 * ε) := mul_le_mul hw2 f1 (abs_nonneg _) (by linarith)
    have a3 : Q * (26 * (S * S) * ε) = 26 * (S * S) * ε - 26 * (S * ε) := by rw [hQ]; field_simp
    linarith
  have h2 := near_round he0 hr h1 (show |E * (Q * Q)| ≤ S by rw [abs_of_nonneg hO0]; linarith)
  have e1 : ε * (S + (26 * (S * S) * ε - 6 * (S * ε))) ≤ 2 * (S * ε) := by
    have : S + (26 * (S * S) * ε - 6 * (S * ε)) ≤ 2 * S := by linarith
    have := mul_le_mul_of_nonneg_left this he0
    linarith
  have h3 : |r (w * q2) + 1 - (E * (Q * Q) + 1)| ≤ 26 * (S * S) * ε - 4 * (S * ε) := by
    rw [add_sub_add_right_eq_sub]; linarith
  have h4 := near_round he0 hr h3 (show |E * (Q * Q) + 1| ≤ S by rw [abs_of_nonneg (by linarith)]; exact hO)
  have e2 : ε * (S + (26 * (S * S) * ε - 4 * (S * ε))) ≤ 2 * (S * ε) := by
    have : S + (26 * (S * S) * ε - 4 * (S * ε)) ≤ 2 * S := by linarith
    have := mul_le_mul_of_nonneg_left this he0
    linarith
  exact ⟨r_nonneg (by linarith) hr (mul_nonneg hw f0), hO0, by linarith⟩

omit hq0 hq in
include hM in
/-- The two squared differences of one step. -/
theorem squares_round {a b a' b' v : ℚ}
    (hb : |b| ≤ M) (hb' : |b'| ≤ M) (hv : |v| ≤ M) (hab : |a - b| ≤ 56 * (S * S) * (ε * M))
    (hab' : |a' - b'| ≤ 56 * (S * S) * (ε * M)) :
    |r (r (a - a') * r (a - a')) - (b - b') * (b - b')| ≤ 472 * (S * S * ε * (M * M)) ∧
    |r (r (v - a') * r (v - a')) - (v - b') * (v - b')| ≤ 245 * (S * S * ε * (M * M)) ∧
    (b - b') * (b - b') ≤ 4 * (M * M) ∧ (v - b') * (v - b') ≤ 4 * (M * M) := by
  obtain ⟨u1, u2, u3, u4, u5, u6, -⟩ := eps_units he0 hS hSε
  have hS0 : 0 < S := by linarith
  have hMM : 0 ≤ M * M := mul_nonneg hM hM
  obtain ⟨T, hT⟩ : ∃ T, T = S * S * ε * (M * M) := ⟨_, rfl⟩
  have hSS : 0 ≤ S * S * ε := by positivity
  have hT0 : 0 ≤ T := by rw [hT]; positivity
  have hTM : T ≤ 1 / 4096 * (M * M) := by rw [hT]; exact mul_le_mul_of_nonneg_right u3 hMM
  have hεT : ε * (M * M) ≤ T := by rw [hT]; exact mul_le_mul_of_nonneg_right (u4.trans u5) hMM
  have hSεT : S * (ε * (M * M)) ≤ T := by rw [hT, ← mul_assoc]; exact mul_le_mul_of_nonneg_right u5 hMM
  obtain ⟨A, hA⟩ : ∃ A, A = 56 * (S * S) * (ε * M) := ⟨_, rfl⟩
  rw [← hA] at hab hab'
  have hA0 : 0 ≤ A := (abs_nonneg _).trans hab
  have hMA : M * A = 56 * T := by rw [hA, hT]; ring
  have hAM : A ≤ 56 / 4096 * M := by
    rw [hA]
    have := mul_le_mul_of_nonneg_right u3 hM
    linarith
  have hAA : A * A ≤ T := by
    have := mul_le_mul_of_nonneg_right hAM hA0
    linarith
  have hεM : ε * M ≤ A / 56 := by
    rw [hA]
    have := mul_le_mul_of_nonneg_right (u4.trans u5) hM
    linarith
  have hεM0 : 0 ≤ ε * M := mul_nonneg he0 hM
  have hεA : ε * A ≤ A / 4096 := by nlinarith
  -- the two differences
  have hbb : |b - b'| ≤ 2 * M := by have := abs_sub b b'; linarith
  have hvb : |v - b'| ≤ 2 * M := by have := abs_sub v b'; linarith
  have d1 : |a - a' - (b - b')| ≤ 2 * A := by
    rw [show a - a' - (b - b') = (a - b) - (a' - b') by ring]
    have := abs_sub (a - b) (a' - b')
    linarith
  have d2 : |v - a' - (v - b')| ≤ A := by
    rw [show v - a' - (v - b') = -(a' - b') by ring, abs_neg]; exact hab'
  have d1' : |r (a - a') - (b - b')| ≤ 33 / 16 * A := by
    have := near_round he0 hr d1 hbb
    linarith
  have d2' : |r (v - a') - (v - b')| ≤ 17 / 16 * A := by
    have := near_round he0 hr d2 hvb
    linarith
  generalize r (a - a') = dm at d1' ⊢
  generalize r (v - a') = dx at d2' ⊢
  have hbb2 : |(b - b') * (b - b')| ≤ 4 * (M * M) := by
    rw [abs_mul]
    have := mul_le_mul hbb hbb (abs_nonneg _) (by linarith)
    linarith
  have hvb2 : |(v - b') * (v - b')| ≤ 4 * (M * M) := by
    rw [abs_mul]
    have := mul_le_mul hvb hvb (abs_nonneg _) (by linarith)
    linarith
  have hεT' : ε * T ≤ T / 4096 := by nlinarith
  have s1 : |r (dm * dm) - (b - b') * (b - b')| ≤ 472 * T := by
    have h1 := near_mul d1' hbb d1' hbb
    have h2 : |dm * dm - (b - b') * (b - b')| ≤ 467 * T := by
      have e : 33 / 16 * A * (2 * M + 33 / 16 * A) + 2 * M * (33 / 16 * A) = 33 / 4 * (M * A) + 1089 / 256 * (A * A) := by ring
      linarith
    have h3 := near_round he0 hr h2 hbb2
    linarith
  have s2 : |r (dx * dx) - (v - b') * (v - b')| ≤ 245 * T := by
    have h1 := near_mul d2' hvb d2' hvb
    have h2 : |dx * dx - (v - b') * (v - b')| ≤ 240 * T := by
      have e : 17 / 16 * A * (2 * M + 17 / 16 * A) + 2 * M * (17 / 16 * A) = 17 / 4 * (M * A) + 289 / 256 * (A * A) := by ring
      linarith
    have h3 := near_round he0 hr h2 hvb2
    linarith
  rw [abs_of_nonneg (mul_self_nonneg _)] at hbb2 hvb2
  rw [← hT]
  exact ⟨s1, s2, hbb2, hvb2⟩

omit he0 hS hSε hr hq0 hq in
theorem quotient_bound {T B o dh σ : ℚ} (hT0 : 0 ≤ T) (hBT : B = 1000 * (S * T)) (hST : T ≤ S * T) (hσ : 0 ≤ σ)
    (hinv : σ * S ≤ 1 / 4096) (hoS : o + 1 ≤ S) (ho : 0 ≤ o) (hd2 : |dh - (o + 1)| ≤ 15 * σ) :
    o * (B + 478 * T) + 365 * T ≤ (B - 40 * T) * dh := by
  have h1 : (B - 40 * T) * (o + 1 - 15 * σ) ≤ (B - 40 * T) * dh :=
    mul_le_mul_of_nonneg_left (by have := (abs_le.1 hd2).1; linarith) (by linarith)
  have h2 : B * (15 * σ) ≤ 15 * 1000 / 4096 * T := by
    have : B * (15 * σ) = 15 * 1000 * (T * (σ * S)) := by rw [hBT]; ring
    rw [this]
    have := mul_le_mul_of_nonneg_left hinv hT0
    linarith
  have h3 : 0 ≤ T * σ := mul_nonneg hT0 hσ
  have h4 : (o + 1) * T ≤ S * T := mul_le_mul_of_nonneg_right hoS hT0
  have h5 : 0 ≤ o * T := mul_nonneg ho hT0
  have e : (B - 40 * T) * (o + 1 - 15 * σ) = o * B + B - 40 * (o * T) - 40 * T - B * (15 * σ) + 600 * (T * σ) := by ring
  have e2 : o * (B + 478 * T) + 365 * T = o * B + 478 * (o * T) + 365 * T := by ring
  have e3 : (o + 1) * T = o * T + T := by ring
  rw [e2]
  rw [e] at h1
  rw [e3] at h4
  linarith

omit hq0 hq in
include hM in
/-- The covariance of one step. -/
theorem cov_round {o oh a b a' b' v c ch : ℚ} (ho : 0 ≤ o) (hoS : o + 1 ≤ S) (hoh : 0 ≤ oh) (hoo : |oh - o| ≤ 15 * (S * S) * ε)
    (hd : |r (oh + 1) - (o + 1)| ≤ 15 * (S * S) * ε)
    (hb : |b| ≤ M) (hb' : |b'| ≤ M) (hv : |v| ≤ M) (hab : |a - b| ≤ 56 * (S * S) * (ε * M))
    (hab' : |a' - b'| ≤ 56 * (S * S) * (ε * M)) (hc0 : 0 ≤ c) (hcM : c ≤ M * M)
    (hc' : (o * (c + (b - b') * (b - b')) + (v - b') * (v - b')) / (o + 1) ≤ M * M)
    (hc : |ch - c| ≤ 1000 * (S * S * S) * (ε * (M * M))) :
    0 < r (oh + 1) ∧
    |r (r (r (oh * r (ch + r (r (a - a') * r (a - a')))) + r (r (v - a') * r (v - a'))) / r (oh + 1)) -
      (o * (c + (b - b') * (b - b')) + (v - b') * (v - b')) / (o + 1)| ≤ 1000 * (S * S * S) * (ε * (M * M)) := by
  obtain ⟨s1, s2, hbb2, hvb2⟩ := squares_round he0 hM hS hSε hr hb hb' hv hab hab'
  obtain ⟨u1, u2, u3, u4, u5, u6, -⟩ := eps_units he0 hS hSε
  have hS0 : 0 < S := by linarith
  have hMM : 0 ≤ M * M := mul_nonneg hM hM
  obtain ⟨T, hT⟩ : ∃ T, T = S * S * ε * (M * M) := ⟨_, rfl⟩
  rw [← hT] at s1 s2
  have hSS : 0 ≤ S * S * ε := by positivity
  have hT0 : 0 ≤ T := by rw [hT]; positivity
  have hTM : T ≤ 1 / 4096 * (M * M) := by rw [hT]; exact mul_le_mul_of_nonneg_right u3 hMM
  have hεT : ε * (M * M) ≤ T := by rw [hT]; exact mul_le_mul_of_nonneg_right (u4.trans u5) hMM
  have hSεT : S * (ε * (M * M)) ≤ T := by rw [hT, ← mul_assoc]; exact mul_le_mul_of_nonneg_right u5 hMM
  have hbb0 : 0 ≤ (b - b') * (b - b') := mul_self_nonneg _
  have hvb0 : 0 ≤ (v - b') * (v - b') := mul_self_nonneg _
  clear hab hab' hb hb' hv
  generalize r (r (a - a') * r (a - a')) = dm2 at s1 ⊢
  generalize r (r (v - a') * r (v - a')) = dx2 at s2 ⊢
  generalize (b - b') * (b - b') = D1 at *
  generalize (v - b') * (v - b') = D2 at *
  -- the bound `B` on the error of the covariance
  obtain ⟨B, hB⟩ : ∃ B, B = 1000 * (S * S * S) * (ε * (M * M)) := ⟨_, rfl⟩
  rw [← hB] at hc ⊢
  have hBT : B = 1000 * (S * T) := by rw [hB, hT]; ring
  have hST : T ≤ S * T := by nlinarith
  have hBM : B ≤ 1000 / 4096 * (M * M) := by
    rw [hB]
    have := mul_le_mul_of_nonneg_right hSε hMM
    linarith
  have hB0 : 0 ≤ B := by linarith [mul_nonneg hS0.le hT0]
  have c1 : |ch + dm2 - (c + D1)| ≤ B + 472 * T := by
    rw [show ch + dm2 - (c + D1) = (ch - c) + (dm2 - D1) by ring]
    exact (abs_add_le _ _).trans (add_le_add hc s1)
  have hX : |c + D1| ≤ 5 * (M * M) := by rw [abs_of_nonneg (by linarith)]; linarith
  have c2 : |r (ch + dm2) - (c + D1)| ≤ B + 478 * T := by
    have h1 := near_round he0 hr c1 hX
    have h2 : ε * (5 * (M * M) + (B + 472 * T)) ≤ 6 * (ε * (M * M)) := by
      have : 5 * (M * M) + (B + 472 * T) ≤ 6 * (M * M) := by linarith
      have := mul_le_mul_of_nonneg_left this he0
      linarith
    linarith
  generalize r (ch + dm2) = X at c2 ⊢
  have hX0 : 0 ≤ c + D1 := by linarith
  generalize hXe : c + D1 = Xe at *
  rw [abs_of_nonneg hX0] at hX
  have hXh : |X| ≤ 6 * (M * M) := by
    have := abs_sub_abs_le_abs_sub X Xe
    rw [abs_of_nonneg hX0] at this
    linarith
  have c3 : |oh * X - o * Xe| ≤ o * (B + 478 * T) + 90 * T := by
    rw [show oh * X - o * Xe = o * (X - Xe) + (oh - o) * X by ring]
    refine (abs_add_le _ _).trans ?_
    rw [abs_mul, abs_mul, abs_of_nonneg ho]
    have h1 := mul_le_mul_of_nonneg_left c2 ho
    have h2 : |oh - o| * |X| ≤ 15 * (S * S) * ε * (6 * (M * M)) := mul_le_mul hoo hXh (abs_nonneg _) (by positivity)
    have h3 : 15 * (S * S) * ε * (6 * (M * M)) = 90 * T := by rw [hT]; ring
    linarith
  have hohS : oh ≤ 2 * S := by have := (abs_le.1 hoo).2; linarith
  have hoX : |oh * X| ≤ 12 * (S * (M * M)) := by
    rw [abs_mul, abs_of_nonneg hoh]
    have := mul_le_mul hohS hXh (abs_nonneg _) (by linarith)
    linarith
  have c4 : |r (oh * X) - o * Xe| ≤ o * (B + 478 * T) + 102 * T := by
    have h1 := hr (oh * X)
    have h2 := mul_le_mul_of_nonneg_left hoX he0
    have h3 := abs_sub_le (r (oh * X)) (oh * X) (o * Xe)
    linarith
  have c5 : |r (oh * X) + dx2 - (o * Xe + D2)| ≤ o * (B + 478 * T) + 347 * T := by
    rw [show r (oh * X) + dx2 - (o * Xe + D2) = (r (oh * X) - o * Xe) + (dx2 - D2) by ring]
    have := abs_add_le (r (oh * X) - o * Xe) (dx2 - D2)
    linarith
  have hd1 : 1 ≤ o + 1 := by linarith
  have hd0 : 0 < o + 1 := by linarith
  have hN0 : 0 ≤ o * Xe + D2 := by have := mul_nonneg ho hX0; linarith
  have hN : |o * Xe + D2| ≤ S * (M * M) := by
    rw [abs_of_nonneg hN0]
    rw [div_le_iff₀ hd0] at hc'
    have := mul_le_mul_of_nonneg_left hoS hMM
    linarith
  have hoB : o * (B + 478 * T) ≤ S * (M * M) := by
    have h1 : B + 478 * T ≤ M * M := by linarith
    exact mul_le_mul (by linarith) h1 (by linarith) hS0.le
  have hSMM : M * M ≤ S * (M * M) := by nlinarith
  have c6 : |r (r (oh * X) + dx2) - (o * Xe + D2)| ≤ o * (B + 478 * T) + 350 * T := by
    have h1 := near_round he0 hr c5 hN
    have h2 : ε * (S * (M * M) + (o * (B + 478 * T) + 347 * T)) ≤ 3 * (S * (ε * (M * M))) := by
      have : S * (M * M) + (o * (B + 478 * T) + 347 * T) ≤ 3 * (S * (M * M)) := by linarith
      have := mul_le_mul_of_nonneg_left this he0
      linarith
    linarith
  generalize r (r (oh * X) + dx2) = Nh at c6 ⊢
  generalize hNe : o * Xe + D2 = N at *
  -- the quotient
  have hdh : 4080 / 4096 * (o + 1) ≤ r (oh + 1) := by
    have := (abs_le.1 hd).1
    linarith
  have hdh0 : 0 < r (oh + 1) := by linarith
  refine ⟨hdh0, ?_⟩
  generalize r (oh + 1) = dh at *
  have hd2 : |dh - (o + 1)| ≤ 15 * (S * S * ε) := by linarith
  have hinv : S * S * ε * S ≤ 1 / 4096 := by linarith
  have hq1 : |N / (o + 1)| ≤ M * M := by rw [abs_div, abs_of_nonneg hN0, abs_of_pos hd0]; exact hc'
  have c7 : |Nh / dh - N / (o + 1)| ≤ (o * (B + 478 * T) + 365 * T) / dh := by
    have e : Nh / dh - N / (o + 1) = ((Nh - N) - N / (o + 1) * (dh - (o + 1))) / dh := by field_simp; ring
    rw [e, abs_div, abs_of_pos hdh0]
    apply div_le_div_of_nonneg_right _ hdh0.le
    refine (abs_sub _ _).trans ?_
    rw [abs_mul]
    have h1 : |N / (o + 1)| * |dh - (o + 1)| ≤ M * M * (15 * (S * S * ε)) := mul_le_mul hq1 hd2 (abs_nonneg _) hMM
    have h2 : M * M * (15 * (S * S * ε)) = 15 * T := by rw [hT]; ring
    linarith
  have c8 : (o * (B + 478 * T) + 365 * T) / dh ≤ B - 40 * T := by
    rw [div_le_iff₀ hdh0]
    exact quotient_bound hT0 hBT hST hSS hinv hoS ho hd2
  have c9 := near_round he0 hr (c7.trans c8) hq1
  have c10 : ε * (M * M + (B - 40 * T)) ≤ 2 * (ε * (M * M)) := by
    have : M * M + (B - 40 * T) ≤ 2 * (M * M) := by linarith
    have := mul_le_mul_of_nonneg_left this he0
    linarith
  linarith

omit hq0 hq in
include hM in
/-- The output of one step. -/
theorem out_round {w E w2 E2 c ch : ℚ} (hE : 4 / 3 ≤ E) (hES : E ≤ S) (hE2 : 0 ≤ E2) (hE2E : E2 ≤ E) (hw : |w - E| ≤ 15 * (S * S) * ε)
    (hw2 : |w2 - E2| ≤ 26 * (S * S) * ε) (hc0 : 0 ≤ c) (hcM : c ≤ M * M) (hc : |ch - c| ≤ 1000 * (S * S * S) * (ε * (M * M))) :
    0 < E * E - E2 ∧ 0 < r (r (w * w) - w2) ∧
    |r (r (r (w * w) / r (r (w * w) - w2)) * ch) - E * E / (E * E - E2) * c| ≤ 4900 * (S * S * S) * (ε * (M * M)) := by
  obtain ⟨u1, u2, u3, u4, u5, u6, -⟩ := eps_units he0 hS hSε
  have hS0 : 0 < S := by linarith
  have hMM : 0 ≤ M * M := mul_nonneg hM hM
  obtain ⟨U, hU⟩ : ∃ U, U = S * S * S * ε := ⟨_, rfl⟩
  have hU0 : 0 ≤ U := by rw [hU]; positivity
  have hUs : U ≤ 1 / 4096 := by rw [hU]; linarith
  have hE0 : 0 < E := by linarith
  have hEa : |E| ≤ S := by rw [abs_of_pos hE0]; exact hES
  have hEE : |E * E| ≤ S * S := by
    rw [abs_mul]
    exact mul_le_mul hEa hEa (abs_nonneg _) hS0.le
  have hεSS : ε * (S * S) ≤ U := by rw [hU]; linarith
  have n1 : |w * w - E * E| ≤ 31 * U := by
    have h1 := near_mul hw hEa hw hEa
    have h2 : 15 * (S * S) * ε * (15 * (S * S) * ε) ≤ U := by
      have : 15 * (S * S) * ε * (15 * (S * S) * ε) = 225 * (S * ε) * U := by rw [hU]; ring
      rw [this]
      have := mul_le_mul_of_nonneg_right u2 hU0
      linarith
    have h3 : 15 * (S * S) * ε * S = 15 * U := by rw [hU]; ring
    linarith
  have n2 : |r (w * w) - E * E| ≤ 33 * U := by
    have h1 := near_round he0 hr n1 hEE
    have h2 : ε * (31 * U) ≤ U / 2 := by
      have := mul_le_mul_of_nonneg_right u1 hU0
      linarith
    linarith
  generalize r (w * w) = N at n2 ⊢
  have n3 : |N - w2 - (E * E - E2)| ≤ 59 * U := by
    rw [show N - w2 - (E * E - E2) = (N - E * E) - (w2 - E2) by ring]
    have := abs_sub (N - E * E) (w2 - E2)
    linarith
  have hD : E / 3 ≤ E * E - E2 := by nlinarith
  have hD1 : 4 / 9 ≤ E * E - E2 := by linarith
  have hDa : |E * E - E2| ≤ S * S := by
    rw [abs_of_pos (by linarith)]
    rw [abs_of_pos (by positivity)] at hEE
    linarith
  have n4 : |r (N - w2) - (E * E - E2)| ≤ 61 * U := by
    have h1 := near_round he0 hr n3 hDa
    have h2 : ε * (59 * U) ≤ U / 2 := by
      have := mul_le_mul_of_nonneg_right u1 hU0
      linarith
    linarith
  generalize r (N - w2) = D at n4 ⊢
  have hratio : E * E / (E * E - E2) ≤ 4 := by
    rw [div_le_iff₀ (by linarith)]
    nlinarith
  have hratio0 : 0 ≤ E * E / (E * E - E2) := div_nonneg (mul_self_nonneg _) (by linarith)
  have hDpos : 0 < E * E - E2 := by linarith
  generalize E * E - E2 = De at *
  have hDh : 3 / 7 ≤ D := by
    have := (abs_le.1 n4).1
    linarith
  have hDh0 : 0 < D := by linarith
  refine ⟨hDpos, hDh0, ?_⟩
  have n5 : |N / D - E * E / De| ≤ 648 * U := by
    have e : N / D - E * E / De = ((N - E * E) - E * E / De * (D - De)) / D := by field_simp; ring
    rw [e, abs_div, abs_of_pos hDh0, div_le_iff₀ hDh0]
    refine (abs_sub _ _).trans ?_
    rw [abs_mul, abs_of_nonneg hratio0]
    have h1 : E * E / De * |D - De| ≤ 4 * (61 * U) := mul_le_mul hratio n4 (abs_nonneg _) (by norm_num)
    have h2 := mul_le_mul_of_nonneg_left hDh (show 0 ≤ 648 * U by linarith)
    linarith
  have hra : |E * E / De| ≤ 4 := by rw [abs_of_nonneg hratio0]; exact hratio
  have n6 : |r (N / D) - E * E / De| ≤ 653 * U := by
    have h1 := near_round he0 hr n5 hra
    have h2 : ε * (648 * U) ≤ U / 2 := by
      have := mul_le_mul_of_nonneg_right u1 hU0
      linarith
    have h3 : ε ≤ U := by rw [hU]; linarith
    linarith
  generalize r (N / D) = ρ at n6 ⊢
  generalize E * E / De = ρe at *
  have hca : |c| ≤ M * M := by rw [abs_of_nonneg hc0]; exact hcM
  obtain ⟨V, hV⟩ : ∃ V, V = U * (M * M) := ⟨_, rfl⟩
  have hV0 : 0 ≤ V := by rw [hV]; positivity
  have hVM : V ≤ 1 / 4096 * (M * M) := by rw [hV]; exact mul_le_mul_of_nonneg_right hUs hMM
  have hc2 : |ch - c| ≤ 1000 * V := by rw [hV, hU]; linarith
  have n7 := near_mul n6 hra hc2 hca
  have n8 : |ρ * ch - ρe * c| ≤ 4850 * V := by
    have h1 : 653 * U * (M * M + 1000 * V) ≤ 653 * V + 653 * 1000 / 4096 * V := by
      have : U * V ≤ 1 / 4096 * V := mul_le_mul_of_nonneg_right hUs hV0
      have e : 653 * U * (M * M + 1000 * V) = 653 * V + 653 * 1000 * (U * V) := by rw [hV]; ring
      rw [e]; linarith
    linarith
  have hpa : |ρe * c| ≤ 4 * (M * M) := by
    rw [abs_mul]
    exact mul_le_mul hra hca (abs_nonneg _) (by norm_num)
  have n9 := near_round he0 hr n8 hpa
  have h3 : ε * (4 * (M * M) + 4850 * V) ≤ 6 * V := by
    have h4 : 4 * (M * M) + 4850 * V ≤ 6 * (M * M) := by linarith
    have h5 := mul_le_mul_of_nonneg_left h4 he0
    have h6 : ε * (M * M) ≤ V := by
      rw [hV]
      exact mul_le_mul_of_nonneg_right (by rw [hU]; linarith) hMM
    linarith
  have h7 : 4900 * (S * S * S) * (ε * (M * M)) = 4900 * V := by rw [hV, hU]; ring
  rw [h7]
  linarith

omit he0 hS hSε hr hq0 hq in
theorem varStep_mean (r : ℚ → ℚ) (q : ℚ) (s : EwmVarSt ℚ) (x : XF ℚ) :
    (ewmVarStepR r q s x).mean = (ewmStepR r q ⟨s.mean, s.oldWt⟩ x).mean ∧
      (ewmVarStepR r q s x).oldWt = (ewmStepR r q ⟨s.mean, s.oldWt⟩ x).oldWt := by
  unfold ewmVarStepR ewmStepR
  dsimp only
  split_ifs <;> exact ⟨rfl, rfl⟩

omit he0 hS hSε hr hq0 hq in
theorem varStep_mean_exact (a : ℚ) (s : EwmVarSt ℚ) (x : XF ℚ) :
    (ewmVarStep a s x).mean = (ewmStep a ⟨s.mean, s.oldWt⟩ x).mean ∧
      (ewmVarStep a s x).oldWt = (ewmStep a ⟨s.mean, s.oldWt⟩ x).oldWt := by
  unfold ewmVarStep ewmStep
  dsimp only
  split_ifs <;> exact ⟨rfl, rfl⟩

/-- The rounded state `s` beside the exact state `E`, once there is an observation. -/
structure VarClose (ε M S : ℚ) (s E : EwmVarSt ℚ) (a b ch c : ℚ) : Prop where
  mean : s.mean = .fin a
  meanE : E.mean = .fin b
  cov : s.cov = .fin ch
  covE : E.cov = .fin c
  hb : |b| ≤ M
  hab : |a - b| ≤ 56 * (S * S) * (ε * M)
  c0 : 0 ≤ c
  cb : c + b * b ≤ M * M
  hc : |ch - c| ≤ 1000 * (S * S * S) * (ε * (M * M))
  sw : s.sumWt = s.oldWt
  swE : E.sumWt = E.oldWt
  w0 : 0 ≤ s.oldWt
  E1 : 1 ≤ E.oldWt
  ES : E.oldWt ≤ S
  hw : |s.oldWt - E.oldWt| ≤ 15 * (S * S) * ε
  w20 : 0 ≤ s.sumWt2
  E20 : 0 ≤ E.sumWt2
  E2E : E.sumWt2 ≤ E.oldWt
  hw2 : |s.sumWt2 - E.sumWt2| ≤ 26 * (S * S) * ε

include hM in
theorem varClose_step {s E : EwmVarSt ℚ} {a b ch c : ℚ} (h : VarClose ε M S s E a b ch c) (v : ℚ) (hv : |v| ≤ M) :
    (∃ a' b' ch' c', VarClose ε M S (ewmVarStepR r q s (.fin v)) (ewmVarStep (1 / S) E (.fin v)) a' b' ch' c') ∧
      (3 / 2 ≤ S → 4 / 3 ≤ (ewmVarStep (1 / S) E (.fin v)).oldWt) := by
  obtain ⟨u1, u2, u3, u4, u5, u6, h64⟩ := eps_units he0 hS hSε
  have hS0 : 0 < S := by linarith
  have hMM : 0 ≤ M * M := mul_nonneg hM hM
  have hE0 : 0 ≤ E.oldWt := by linarith [h.E1]
  have hcl : EwmClose ε M S ⟨s.mean, s.oldWt⟩ ⟨E.mean, E.oldWt⟩ :=
    .inr ⟨a, b, h.mean, h.meanE, h.hb, h.hab, h.w0, hE0, h.ES, h.hw⟩
  have hst := ewmClose_step he0 hM hS h64 hr hq0 hq hcl (.fin v) (fun w e => by cases e; exact hv) rfl
  obtain ⟨m1, m2⟩ := varStep_mean r q s (.fin v)
  obtain ⟨m3, m4⟩ := varStep_mean_exact (1 / S) E (.fin v)
  obtain ⟨k1, k2, k3, k4, k5⟩ := weight_step he0 hS h64 hr hq0 hq h.w0 hE0 h.ES h.hw
  obtain ⟨l1, l2, l3⟩ := weight2_step he0 hS hSε hr hq0 hq h.w20 h.E20 (h.E2E.trans h.ES) h.hw2
  have hi : 0 < 1 / S := by positivity
  have hQ0 : 0 ≤ 1 - 1 / S := by rw [sub_nonneg, div_le_one hS0]; exact hS
  have oE : (ewmVarStep (1 / S) E (.fin v)).oldWt = E.oldWt * (1 - 1 / S) + 1 := by
    simp only [ewmVarStep, h.meanE, XF.isNan, Bool.false_eq_true, if_false]
  have os : (ewmVarStepR r q s (.fin v)).oldWt = r (r (s.oldWt * q) + 1) := by
    simp only [ewmVarStepR, h.mean, XF.isNan, Bool.false_eq_true, if_false]
  refine ⟨?_, fun hS' => ?_⟩
  · have mE : (ewmVarStep (1 / S) E (.fin v)).mean =
        .fin ((E.oldWt * (1 - 1 / S) * b + v) / (E.oldWt * (1 - 1 / S) + 1)) := by
      have hne : E.oldWt * (1 - 1 / S) + 1 ≠ 0 := by linarith
      simp only [ewmVarStep, h.meanE, XF.isNan, Bool.false_eq_true, if_false]
      by_cases hbv : b = v
      · have : (b * (E.oldWt * (1 - 1 / S)) + b) / (E.oldWt * (1 - 1 / S) + 1) = b := by
          rw [div_eq_iff hne]; ring
        subst hbv
        rw [if_pos (by simp [XF.beq])]
        rw [mul_comm _ b, this]
      · rw [if_neg (by simpa [XF.beq] using hbv)]
        simp only [XF.mul, XF.add, XF.div]
        rw [if_neg hne]
    rcases hst with ⟨-, z, -⟩ | ⟨a', b', ha', hb', hbM', hab', -⟩
    · rw [← m3, mE] at z; cases z
    · rw [← m1] at ha'
      rw [← m3] at hb'
      have hbe : b' = (E.oldWt * (1 - 1 / S) * b + v) / (E.oldWt * (1 - 1 / S) + 1) := by
        rw [mE] at hb'
        cases hb'
        rfl
      have es : ewmVarStepR r q s (.fin v) = ⟨(ewmVarStepR r q s (.fin v)).mean,
          rnd r (XF.div (rnd r (XF.add (rnd r (XF.mul (.fin (r (s.oldWt * q))) (rnd r (XF.add s.cov
            (rnd r (XF.mul (rnd r (XF.sub s.mean (ewmVarStepR r q s (.fin v)).mean))
              (rnd r (XF.sub s.mean (ewmVarStepR r q s (.fin v)).mean))))))))
            (rnd r (XF.mul (rnd r (XF.sub (.fin v) (ewmVarStepR r q s (.fin v)).mean))
              (rnd r (XF.sub (.fin v) (ewmVarStepR r q s (.fin v)).mean)))))) (.fin (r (r (s.oldWt * q) + 1)))),
          r (r (s.sumWt * q) + 1), r (r (s.sumWt2 * r (q * q)) + 1), r (r (s.oldWt * q) + 1)⟩ := by
        simp only [ewmVarStepR, h.mean, XF.isNan, Bool.false_eq_true, if_false]
      have eE : ewmVarStep (1 / S) E (.fin v) = ⟨(ewmVarStep (1 / S) E (.fin v)).mean,
          XF.div (XF.add (XF.mul (.fin (E.oldWt * (1 - 1 / S))) (XF.add E.cov
            (XF.mul (XF.sub E.mean (ewmVarStep (1 / S) E (.fin v)).mean) (XF.sub E.mean (ewmVarStep (1 / S) E (.fin v)).mean))))
            (XF.mul (XF.sub (.fin v) (ewmVarStep (1 / S) E (.fin v)).mean) (XF.sub (.fin v) (ewmVarStep (1 / S) E (.fin v)).mean)))
            (.fin (E.oldWt * (1 - 1 / S) + 1)),
          E.sumWt * (1 - 1 / S) + 1, E.sumWt2 * ((1 - 1 / S) * (1 - 1 / S)) + 1, E.oldWt * (1 - 1 / S) + 1⟩ := by
        simp only [ewmVarStep, h.meanE, XF.isNan, Bool.false_eq_true, if_false]
      have hd0 : 0 < E.oldWt * (1 - 1 / S) + 1 := by linarith
      have cE : (ewmVarStep (1 / S) E (.fin v)).cov = .fin ((E.oldWt * (1 - 1 / S) * (c + (b - b') * (b - b')) +
          (v - b') * (v - b')) / (E.oldWt * (1 - 1 / S) + 1)) := by
        rw [eE, hb', h.covE, h.meanE]
        simp only [XF.sub, XF.neg, XF.add, XF.mul, XF.div]
        rw [if_neg hd0.ne']
        simp only [sub_eq_add_neg]
      have hcM : c ≤ M * M := by linarith [h.cb, mul_self_nonneg b]
      have hcb : (E.oldWt * (1 - 1 / S) * (c + (b - b') * (b - b')) + (v - b') * (v - b')) / (E.oldWt * (1 - 1 / S) + 1) + b' * b' ≤
          M * M := by
        have hvv : v * v ≤ M * M := by
          rw [← abs_mul_abs_self v]
          exact mul_le_mul hv hv (abs_nonneg _) hM
        have e : (E.oldWt * (1 - 1 / S) * (c + (b - b') * (b - b')) + (v - b') * (v - b')) / (E.oldWt * (1 - 1 / S) + 1) + b' * b' =
            (E.oldWt * (1 - 1 / S) * (c + b * b) + v * v) / (E.oldWt * (1 - 1 / S) + 1) := by
          rw [hbe]
          generalize E.oldWt * (1 - 1 / S) = o at hd0 ⊢
          field_simp
          ring
        rw [e, div_le_iff₀ hd0]
        have := mul_le_mul_of_nonneg_left h.cb k2
        linarith
      have hc0 : 0 ≤ (E.oldWt * (1 - 1 / S) * (c + (b - b') * (b - b')) + (v - b') * (v - b')) / (E.oldWt * (1 - 1 / S) + 1) := by
        have i1 := mul_self_nonneg (b - b')
        have i2 := mul_self_nonneg (v - b')
        have := mul_nonneg k2 (add_nonneg h.c0 i1)
        exact div_nonneg (by linarith) hd0.le
      obtain ⟨cr0, cr⟩ := cov_round he0 hM hS hSε hr k2 k3 k1 k4 k5 h.hb hbM' hv h.hab hab' h.c0 hcM
        (by linarith [mul_self_nonneg b']) h.hc
      have cs : (ewmVarStepR r q s (.fin v)).cov = .fin (r (r (r (r (s.oldWt * q) * r (ch + r (r (a - a') * r (a - a')))) +
          r (r (v - a') * r (v - a'))) / r (r (s.oldWt * q) + 1))) := by
        rw [es, ha', h.cov, h.mean]
        simp only [XF.sub, XF.neg, XF.add, XF.mul, XF.div, rnd]
        rw [if_neg cr0.ne']
        simp only [sub_eq_add_neg]
      have hE1 : (1 : ℚ) - 1 / S ≤ 1 := by linarith
      exact ⟨a', b', _, _, {
        mean := ha'
        meanE := hb'
        cov := cs
        covE := cE
        hb := hbM'
        hab := hab'
        c0 := hc0
        cb := hcb
        hc := cr
        sw := by rw [es, h.sw]
        swE := by rw [eE, h.swE]
        w0 := by rw [os]; exact r_nonneg (by linarith) hr (by linarith)
        E1 := by rw [oE]; linarith
        ES := by rw [oE]; exact k3
        hw := by rw [os, oE]; exact k5
        w20 := by rw [es]; exact r_nonneg (by linarith) hr (by linarith)
        E20 := by rw [eE]; show 0 ≤ E.sumWt2 * ((1 - 1 / S) * (1 - 1 / S)) + 1; linarith
        E2E := by
          rw [eE]
          show E.sumWt2 * ((1 - 1 / S) * (1 - 1 / S)) + 1 ≤ E.oldWt * (1 - 1 / S) + 1
          have := mul_le_mul h.E2E (show (1 - 1 / S) * (1 - 1 / S) ≤ 1 - 1 / S by nlinarith) (mul_nonneg hQ0 hQ0) hE0
          linarith
        hw2 := by rw [es, eE]; exact l3 }⟩
  · rw [oE]
    have : 1 / S ≤ 2 / 3 := by rw [div_le_div_iff₀ hS0 (by norm_num)]; linarith
    nlinarith [h.E1]

end step

/-- The factor is positive for a span of at least 2. -/
theorem ewmFactor_pos {p : ℕ} (hp : 2 ≤ p) {span : ℕ} (hs : 2 ≤ span) : 0 < ewmFactor (roundBits p) span := by
  have hp1 : 1 ≤ p := by omega
  have hs' : (2 : ℚ) ≤ span := by exact_mod_cast hs
  have h4 : (4 : ℤ) ≤ 2 ^ p := by
    calc (4 : ℤ) = 2 ^ 2 := by norm_num
      _ ≤ 2 ^ p := pow_le_pow_right₀ (by norm_num) hp
  have f32 : IsFloat p (3 / 2) := ⟨3, -1, by norm_num; linarith, by norm_num⟩
  have f34 : IsFloat p (3 / 4) := ⟨3, -2, by norm_num; linarith, by norm_num⟩
  have h1 : 1 / 2 ≤ roundBits p (((span : ℚ) - 1) / 2) := le_round hp1 (isFloat_half hp1) (by linarith)
  have h2 : 3 / 2 ≤ roundBits p (1 + roundBits p (((span : ℚ) - 1) / 2)) := le_round hp1 f32 (by linarith)
  have h3 : roundBits p (1 / roundBits p (1 + roundBits p (((span : ℚ) - 1) / 2))) ≤ 3 / 4 := by
    apply round_le hp1 f34
    rw [div_le_iff₀ (by linarith)]
    linarith
  exact roundBits_pos p hp1 (by linarith)

/-- What is known of the state after the numbers `m`: without a number nothing, with one number the mean is that number and
the covariance 0, with different numbers the covariance is positive. -/
def VarSign (s : EwmVarSt ℚ) (m : List (XF ℚ)) : Prop :=
  0 < s.oldWt ∧ 0 < s.sumWt ∧ ((s.mean = .nan ∧ s.cov = .fin 0 ∧ ∀ q, .fin q ∉ m) ∨
    (∃ v, s.mean = .fin v ∧ s.cov = .fin 0 ∧ .fin v ∈ m ∧ ∀ q, .fin q ∈ m → q = v) ∨
    ∃ a c x y, s.mean = .fin a ∧ s.cov = .fin c ∧ 0 < c ∧ .fin x ∈ m ∧ .fin y ∈ m ∧ x ≠ y)

theorem varSign_step {p : ℕ} (hp : 1 ≤ p) {q : ℚ} (hq : 0 < q) {s : EwmVarSt ℚ} {m : List (XF ℚ)} (h : VarSign s m) (x : XF ℚ)
    (hx : x.isInf = false) : VarSign (ewmVarStepR (roundBits p) q s x) (m ++ [x]) := by
  obtain ⟨ho, hw, h⟩ := h
  have po := roundBits_pos p hp (mul_pos ho hq)
  have pw := roundBits_pos p hp (mul_pos hw hq)
  have po1 : 0 < roundBits p (roundBits p (s.oldWt * q) + 1) := roundBits_pos p hp (by linarith)
  have pw1 : 0 < roundBits p (roundBits p (s.sumWt * q) + 1) := roundBits_pos p hp (by linarith)
  have h0 := roundBits_zero p
  cases x with
  | ninf => simp [XF.isInf] at hx
  | pinf => simp [XF.isInf] at hx
  | nan =>
    have hmem : ∀ z : ℚ, (.fin z : XF ℚ) ∈ m ++ [.nan] ↔ (.fin z : XF ℚ) ∈ m := by intro z; simp
    unfold VarSign
    simp only [hmem]
    rcases h with ⟨h1, h2, h3⟩ | ⟨v, h1, h2, h3⟩ | ⟨a, c, x, y, h1, h2, h3⟩
    · simp only [ewmVarStepR, h1, XF.isNan, if_true]
      exact ⟨ho, hw, .inl ⟨trivial, h2, h3⟩⟩
    · simp only [ewmVarStepR, h1, XF.isNan, Bool.false_eq_true, if_false, if_true]
      exact ⟨po, pw, .inr (.inl ⟨v, rfl, h2, h3⟩)⟩
    · simp only [ewmVarStepR, h1, XF.isNan, Bool.false_eq_true, if_false, if_true]
      exact ⟨po, pw, .inr (.inr ⟨a, c, x, y, rfl, h2, h3⟩)⟩
  | fin z =>
    have hmem : ∀ u : ℚ, (.fin u : XF ℚ) ∈ m ++ [.fin z] ↔ (.fin u : XF ℚ) ∈ m ∨ u = z := by intro u; simp
    have key : ∀ v c, s.mean = .fin v → s.cov = .fin c → 0 ≤ c →
        ∃ a c', (ewmVarStepR (roundBits p) q s (.fin z)).mean = .fin a ∧ (ewmVarStepR (roundBits p) q s (.fin z)).cov = .fin c' ∧
          (v = z → a = v) ∧ (v = z → c = 0 → c' = 0) ∧ (0 < c ∨ v ≠ z → 0 < c') ∧
          (ewmVarStepR (roundBits p) q s (.fin z)).oldWt = roundBits p (roundBits p (s.oldWt * q) + 1) ∧
          (ewmVarStepR (roundBits p) q s (.fin z)).sumWt = roundBits p (roundBits p (s.sumWt * q) + 1) := by
      intro v c hv hc hc0
      set o := roundBits p (s.oldWt * q) with ho'
      set d := roundBits p (o + 1) with hd'
      have hm : ∃ a, (if XF.beq (.fin v) (.fin z) then (.fin v : XF ℚ) else rnd (roundBits p)
          (XF.div (rnd (roundBits p) (XF.add (rnd (roundBits p) (XF.mul (.fin o) (.fin v))) (.fin z))) (.fin d))) = .fin a ∧
          (v = z → a = v) := by
        by_cases hvz : v = z
        · exact ⟨v, by rw [if_pos (by simp [XF.beq, hvz])], fun _ => rfl⟩
        · refine ⟨roundBits p (roundBits p (roundBits p (o * v) + z) / d), ?_, fun e => absurd e hvz⟩
          rw [if_neg (by simpa [XF.beq] using hvz)]
          simp only [XF.mul, rnd, XF.add, XF.div]
          rw [if_neg po1.ne']
      obtain ⟨a, ha, hva⟩ := hm
      set dm := roundBits p (v - a) with hdm
      set dx := roundBits p (z - a) with hdx
      refine ⟨a, roundBits p (roundBits p (roundBits p (o * roundBits p (c + roundBits p (dm * dm))) + roundBits p (dx * dx)) / d),
        ?_, ?_, hva, ?_, ?_, ?_, ?_⟩
      · simp only [ewmVarStepR, hv, XF.isNan, Bool.false_eq_true, if_false]
        exact ha
      · simp only [ewmVarStepR, hv, hc, XF.isNan, Bool.false_eq_true, if_false]
        rw [← ho', ← hd', ha]
        simp only [XF.sub, XF.neg, XF.add, XF.mul, XF.div, rnd]
        rw [if_neg po1.ne', ← sub_eq_add_neg, ← sub_eq_add_neg]
      · intro e1 e2
        have e3 : dm = 0 := by rw [hdm, hva e1, sub_self, h0]
        have e4 : dx = 0 := by rw [hdx, hva e1, ← e1, sub_self, h0]
        simp [e2, e3, e4, h0]
      · intro hpos
        have n1 : 0 ≤ roundBits p (dm * dm) := roundBits_nonneg p hp (mul_self_nonneg _)
        have n2 : 0 ≤ roundBits p (dx * dx) := roundBits_nonneg p hp (mul_self_nonneg _)
        have n3 : 0 ≤ roundBits p (c + roundBits p (dm * dm)) := roundBits_nonneg p hp (by linarith)
        have n4 : 0 ≤ roundBits p (o * roundBits p (c + roundBits p (dm * dm))) := roundBits_nonneg p hp (mul_nonneg po.le n3)
        have nz : ∀ u : ℚ, u ≠ 0 → roundBits p u ≠ 0 := by
          intro u hu
          rcases lt_or_gt_of_ne hu with h | h
          · have := roundBits_pos p hp (show 0 < -u by linarith)
            rw [roundBits_neg] at this
            linarith
          · exact (roundBits_pos p hp h).ne'
        have sqp : ∀ u : ℚ, u ≠ 0 → 0 < roundBits p (roundBits p u * roundBits p u) := fun u hu =>
          roundBits_pos p hp (lt_of_le_of_ne (mul_self_nonneg _) (mul_self_ne_zero.2 (nz u hu)).symm)
        apply roundBits_pos p hp (div_pos (roundBits_pos p hp _) po1)
        by_cases hcv : 0 < c ∨ v ≠ a
        · have : 0 < c + roundBits p (dm * dm) := by
            rcases hcv with h | h
            · linarith
            · have := sqp (v - a) (sub_ne_zero.2 h)
              linarith
          have := roundBits_pos p hp (mul_pos po (roundBits_pos p hp this))
          linarith
        · push Not at hcv
          have hvz : v ≠ z := by
            rcases hpos with h | h
            · exact absurd h (not_lt.2 hcv.1)
            · exact h
          have := sqp (z - a) (sub_ne_zero.2 (by rw [← hcv.2]; exact hvz.symm))
          linarith
      · simp only [ewmVarStepR, hv, XF.isNan, Bool.false_eq_true, if_false]; rfl
      · simp only [ewmVarStepR, hv, XF.isNan, Bool.false_eq_true, if_false]
    unfold VarSign
    simp only [hmem]
    rcases h with ⟨h1, h2, h3⟩ | ⟨v, h1, h2, h3, h4⟩ | ⟨a, c, x, y, h1, h2, h3, h4, h5, h6⟩
    · simp only [ewmVarStepR, h1, XF.isNan, if_true, Bool.false_eq_true, if_false]
      refine ⟨ho, hw, .inr (.inl ⟨z, rfl, h2, .inr rfl, ?_⟩)⟩
      rintro u (hu | hu)
      · exact absurd hu (h3 u)
      · exact hu
    · obtain ⟨a', c', k1, k2, k3, k4, k5, k6, k7⟩ := key v 0 h1 h2 le_rfl
      refine ⟨by rw [k6]; exact po1, by rw [k7]; exact pw1, .inr ?_⟩
      by_cases hvz : v = z
      · refine .inl ⟨v, by rw [k1, k3 hvz], by rw [k2, k4 hvz rfl], .inr hvz, ?_⟩
        rintro u (hu | hu)
        · exact h4 u hu
        · rw [hu, hvz]
      · exact .inr ⟨a', c', v, z, k1, k2, k5 (.inr hvz), .inl h3, .inr rfl, hvz⟩
    · obtain ⟨a', c', k1, k2, k3, k4, k5, k6, k7⟩ := key a c h1 h2 h3.le
      exact ⟨by rw [k6]; exact po1, by rw [k7]; exact pw1, .inr (.inr ⟨a', c', x, y, k1, k2, k5 (.inl h3), .inl h4, .inl h5, h6⟩)⟩

theorem varSign_fold {p : ℕ} (hp : 1 ≤ p) {q : ℚ} (hq : 0 < q) (m : List (XF ℚ)) (hm : ∀ x ∈ m, x.isInf = false) :
    VarSign (m.foldl (ewmVarStepR (roundBits p) q) ⟨.nan, .fin 0, 1, 1, 1⟩) m := by
  induction m using List.reverseRecOn with
  | nil => exact ⟨zero_lt_one, zero_lt_one, .inl ⟨rfl, rfl, by simp⟩⟩
  | append_singleton m x ih =>
    rw [List.foldl_append]
    exact varSign_step hp hq (ih fun y hy => hm y (by simp [hy])) x (hm x (by simp))

/-- One exact step: mean and second moment are weighted means. -/
theorem exact_step {a : ℚ} (ha : 0 ≤ 1 - a) {E : EwmVarSt ℚ} {b c : ℚ} (hm : E.mean = .fin b) (hc : E.cov = .fin c)
    (hE : 0 ≤ E.oldWt) (v : ℚ) : ∃ b' c', ewmVarStep a E (.fin v) =
      ⟨.fin b', .fin c', E.sumWt * (1 - a) + 1, E.sumWt2 * ((1 - a) * (1 - a)) + 1, E.oldWt * (1 - a) + 1⟩ ∧
      b' = (E.oldWt * (1 - a) * b + v) / (E.oldWt * (1 - a) + 1) ∧
      c' + b' * b' = (E.oldWt * (1 - a) * (c + b * b) + v * v) / (E.oldWt * (1 - a) + 1) := by
  have ho : 0 ≤ E.oldWt * (1 - a) := mul_nonneg hE ha
  have hne : E.oldWt * (1 - a) + 1 ≠ 0 := by linarith
  refine ⟨_, (E.oldWt * (1 - a) * (c + (b - (E.oldWt * (1 - a) * b + v) / (E.oldWt * (1 - a) + 1)) *
    (b - (E.oldWt * (1 - a) * b + v) / (E.oldWt * (1 - a) + 1))) + (v - (E.oldWt * (1 - a) * b + v) / (E.oldWt * (1 - a) + 1)) *
    (v - (E.oldWt * (1 - a) * b + v) / (E.oldWt * (1 - a) + 1))) / (E.oldWt * (1 - a) + 1), ?_, rfl, ?_⟩
  · have hmean : (if XF.beq E.mean (.fin v) then E.mean else XF.div (XF.add (XF.mul (.fin (E.oldWt * (1 - a))) E.mean) (.fin v))
        (.fin (E.oldWt * (1 - a) + 1))) = .fin ((E.oldWt * (1 - a) * b + v) / (E.oldWt * (1 - a) + 1)) := by
      rw [hm]
      by_cases hbv : b = v
      · have : (b * (E.oldWt * (1 - a)) + b) / (E.oldWt * (1 - a) + 1) = b := by
          rw [div_eq_iff hne]; ring
        subst hbv
        rw [if_pos (by simp [XF.beq])]
        rw [mul_comm _ b, this]
      · rw [if_neg (by simpa [XF.beq] using hbv)]
        simp only [XF.mul, XF.add, XF.div]
        rw [if_neg hne]
    rw [ewmVarStep, if_neg (by simp [hm, XF.isNan]), if_neg (by simp [XF.isNan])]
    dsimp only
    rw [hmean, hm, hc]
    simp only [XF.sub, XF.neg, XF.add, XF.mul, XF.div]
    rw [if_neg hne]
    simp only [sub_eq_add_neg]
  · generalize E.oldWt * (1 - a) = o at hne ⊢
    field_simp
    ring

/-- Two exact states behind nearby observations. -/
def VarPair (M δ S : ℚ) (X Y : EwmVarSt ℚ) : Prop :=
  ∃ b b' c c', X.mean = .fin b ∧ Y.mean = .fin b' ∧ X.cov = .fin c ∧ Y.cov = .fin c' ∧ |b| ≤ M ∧ |b'| ≤ M ∧ |b - b'| ≤ δ ∧
    |(c + b * b) - (c' + b' * b')| ≤ 2 * M * δ ∧ X.oldWt = Y.oldWt ∧ X.sumWt = X.oldWt ∧ Y.sumWt = Y.oldWt ∧
    X.sumWt2 = Y.sumWt2 ∧ 1 ≤ X.oldWt ∧ 0 ≤ X.sumWt2 ∧ X.sumWt2 ≤ X.oldWt

theorem sq_diff {M δ x y : ℚ} (hx : |x| ≤ M) (hy : |y| ≤ M) (h : |x - y| ≤ δ) : |x * x - y * y| ≤ 2 * M * δ := by
  have e : x * x - y * y = (x + y) * (x - y) := by ring
  rw [e, abs_mul]
  have h1 : |x + y| ≤ 2 * M := (abs_add_le _ _).trans (by linarith)
  exact mul_le_mul h1 h (abs_nonneg _) ((abs_nonneg _).trans h1)

theorem mean_diff {o a b x y D : ℚ} (ho : 0 ≤ o) (h1 : |a - b| ≤ D) (h2 : |x - y| ≤ D) :
    |(o * a + x) / (o + 1) - (o * b + y) / (o + 1)| ≤ D := by
  have hd : 0 < o + 1 := by linarith
  rw [← sub_div, abs_div, abs_of_pos hd, div_le_iff₀ hd, show o * a + x - (o * b + y) = o * (a - b) + (x - y) by ring]
  refine (abs_add_le _ _).trans ?_
  rw [abs_mul, abs_of_nonneg ho]
  nlinarith

theorem varPair_step {M δ S : ℚ} (hS : 1 ≤ S) {X Y : EwmVarSt ℚ} (h : VarPair M δ S X Y) (x y : ℚ) (hx : |x| ≤ M)
    (hy : |y| ≤ M) (hxy : |x - y| ≤ δ) : VarPair M δ S (ewmVarStep (1 / S) X (.fin x)) (ewmVarStep (1 / S) Y (.fin y)) ∧
      (3 / 2 ≤ S → 4 / 3 ≤ (ewmVarStep (1 / S) X (.fin x)).oldWt) := by
  obtain ⟨b, b', c, c', h1, h2, h3, h4, h5, h6, h7, h8, h9, h10, h11, h12, h13, h14, h15⟩ := h
  have hS0 : 0 < S := by linarith
  have hQ0 : 0 ≤ 1 - 1 / S := by rw [sub_nonneg, div_le_one hS0]; exact hS
  have hi : 0 < 1 / S := by positivity
  have ho : 0 ≤ X.oldWt * (1 - 1 / S) := mul_nonneg (by linarith) hQ0
  have hd : 0 < X.oldWt * (1 - 1 / S) + 1 := by linarith
  obtain ⟨e, f, k1, k2, k3⟩ := exact_step hQ0 h1 h3 (by linarith) x
  obtain ⟨e', f', l1, l2, l3⟩ := exact_step hQ0 h2 h4 (by linarith [h9]) y
  rw [← h9] at l2 l3
  have bd : ∀ u z : ℚ, |u| ≤ M → |z| ≤ M → |(X.oldWt * (1 - 1 / S) * u + z) / (X.oldWt * (1 - 1 / S) + 1)| ≤ M := by
    intro u z hu hz
    rw [abs_div, abs_of_pos hd, div_le_iff₀ hd]
    refine (abs_add_le _ _).trans ?_
    rw [abs_mul, abs_of_nonneg ho]
    nlinarith
  constructor
  · refine ⟨e, e', f, f', by rw [k1], by rw [l1], by rw [k1], by rw [l1], by rw [k2]; exact bd b x h5 hx,
      by rw [l2]; exact bd b' y h6 hy, by rw [k2, l2]; exact mean_diff ho h7 hxy,
      by rw [k3, l3]; exact mean_diff ho h8 (sq_diff hx hy hxy), by rw [k1, l1]; simp [h9], by rw [k1]; simp [h10],
      by rw [l1]; simp [h11], by rw [k1, l1]; simp [h12], by rw [k1]; show 1 ≤ X.oldWt * (1 - 1 / S) + 1; linarith, ?_, ?_⟩
    · rw [k1]
      have := mul_nonneg h14 (mul_nonneg hQ0 hQ0)
      show 0 ≤ X.sumWt2 * ((1 - 1 / S) * (1 - 1 / S)) + 1
      linarith
    · rw [k1]
      show X.sumWt2 * ((1 - 1 / S) * (1 - 1 / S)) + 1 ≤ X.oldWt * (1 - 1 / S) + 1
      have := mul_le_mul h15 (show (1 - 1 / S) * (1 - 1 / S) ≤ 1 - 1 / S by nlinarith) (mul_nonneg hQ0 hQ0) (by linarith)
      linarith
  · intro hS'
    rw [k1]
    show 4 / 3 ≤ X.oldWt * (1 - 1 / S) + 1
    have : 1 / S ≤ 2 / 3 := by rw [div_le_div_iff₀ hS0 (by norm_num)]; linarith
    nlinarith

/-- The variances of nearby observations are near. -/
theorem varPair_out {M δ S : ℚ} {X Y : EwmVarSt ℚ} (h : VarPair M δ S X Y) (hE : 4 / 3 ≤ X.oldWt) :
    ∃ u u', ewmVarOut X = .fin u ∧ ewmVarOut Y = .fin u' ∧ |u - u'| ≤ 16 * M * δ := by
  obtain ⟨b, b', c, c', h1, h2, h3, h4, h5, h6, h7, h8, h9, h10, h11, h12, h13, h14, h15⟩ := h
  set W := X.oldWt with hW
  have hD : 0 < W * W - X.sumWt2 := by nlinarith
  have hratio : W * W / (W * W - X.sumWt2) ≤ 4 := by
    rw [div_le_iff₀ hD]
    nlinarith
  have hratio0 : 0 ≤ W * W / (W * W - X.sumWt2) := div_nonneg (mul_self_nonneg _) hD.le
  refine ⟨W * W / (W * W - X.sumWt2) * c, W * W / (W * W - X.sumWt2) * c', ?_, ?_, ?_⟩
  · rw [ewmVarOut, if_neg (by simp [h1, XF.isNan]), h10, if_pos hD, h3, XF.mul]
  · rw [ewmVarOut, if_neg (by simp [h2, XF.isNan]), h11, ← h9, ← h12, if_pos hD, h4, XF.mul]
  · rw [← mul_sub, abs_mul, abs_of_nonneg hratio0]
    have h16 := sq_diff h5 h6 h7
    have h17 : |c - c'| ≤ 4 * M * δ := by
      rw [show c - c' = (c + b * b - (c' + b' * b')) - (b * b - b' * b') by ring]
      refine (abs_sub _ _).trans ?_
      linarith
    have := mul_le_mul hratio h17 (abs_nonneg _) (by norm_num)
    linarith

end Mizar.Rd
