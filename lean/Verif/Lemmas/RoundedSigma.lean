import Verif.Lemmas.RoundedSpread
import Mathlib.Analysis.Real.Pi.Bounds

/-! Helper lemmas for C137: the error of the Beckers-Parkinson volatility. -/

namespace Mizar.Rd

/-- The first term of the volatility. -/
theorem sigma_first {a a' d d' s s' m u z y e : ℝ} (he0 : 0 < e) (he : e ≤ 1 / 256) (hz : 0 ≤ z) (hy : 0 ≤ y) (hez : e * z ≤ y / 16)
    (hyz : y ≤ 21 / 100 * z) (ha : |a' - a| ≤ 185 / 100 * e) (ha1 : |a| ≤ 4143 / 10000) (hd : |d' - d| ≤ 62 / 10 * e)
    (hd0 : 27 / 100 ≤ d) (hs : |s' - s| ≤ 137 / 10 * y) (hs' : |s'| ≤ 43 / 10 * z) (hs0 : 0 ≤ s) (hsz : s ≤ 1415 / 1000 * z)
    (hm : |m - a' * s'| ≤ e * |a' * s'|) (hu : |u - m / d'| ≤ e * |m / d'|) :
    |u - a * s / d| ≤ 31 * y ∧ |u| ≤ 8 * z := by
  have hd' : 245 / 1000 ≤ d' := by linarith [(abs_le.1 hd).1]
  have hd'0 : 0 < d' := by linarith
  have hdpos : 0 < d := by linarith
  have e1 : |a' * s' - a * s| ≤ 185 / 100 * e * (43 / 10 * z) + 4143 / 10000 * (137 / 10 * y) := by
    rw [show a' * s' - a * s = (a' - a) * s' + a * (s' - s) by ring]
    refine (abs_add_le _ _).trans (add_le_add ?_ ?_)
    · rw [abs_mul]
      exact mul_le_mul ha hs' (abs_nonneg _) (by positivity)
    · rw [abs_mul]
      exact mul_le_mul ha1 hs (abs_nonneg _) (by norm_num)
  have e2 : |a' * s'| ≤ 422 / 1000 * (43 / 10 * z) := by
    rw [abs_mul]
    refine mul_le_mul ?_ hs' (abs_nonneg _) (by norm_num)
    have := abs_sub_abs_le_abs_sub a' a
    linarith
  have e3 := mul_le_mul_of_nonneg_left e2 he0.le
  have e4 : |m - a * s| ≤ 64 / 10 * y := by
    have := abs_sub_le m (a' * s') (a * s)
    linarith
  have ezz : e * z ≤ 1 / 256 * z := mul_le_mul_of_nonneg_right he hz
  have e5 : |m| ≤ 183 / 100 * z := by
    have := abs_sub_abs_le_abs_sub m (a' * s')
    linarith
  have has : |a * s| ≤ 4143 / 10000 * (1415 / 1000 * z) := by
    rw [abs_mul, abs_of_nonneg hs0]
    exact mul_le_mul ha1 hsz hs0 (by norm_num)
  have e6 : |m / d'| ≤ 75 / 10 * z := by
    rw [abs_div, abs_of_pos hd'0, div_le_iff₀ hd'0]
    have := mul_le_mul_of_nonneg_left hd' (show 0 ≤ 75 / 10 * z by positivity)
    linarith
  have e7 : |m / d' - a * s / d| ≤ 262 / 10 * y + 55 * (e * z) := by
    have e8 : m / d' - a * s / d = (m - a * s) / d' + a * s * (d - d') / (d * d') := by
      field_simp
      ring
    rw [e8]
    refine (abs_add_le _ _).trans (add_le_add ?_ ?_)
    · rw [abs_div, abs_of_pos hd'0, div_le_iff₀ hd'0]
      have := mul_le_mul_of_nonneg_left hd' (show 0 ≤ 262 / 10 * y by positivity)
      linarith
    · rw [abs_div, abs_of_pos (mul_pos hdpos hd'0), div_le_iff₀ (mul_pos hdpos hd'0), abs_mul, abs_sub_comm]
      have h1 := mul_le_mul has hd (abs_nonneg _) (by positivity)
      have h2 : (27 / 100 : ℝ) * (245 / 1000) ≤ d * d' := mul_le_mul hd0 hd' (by norm_num) hdpos.le
      have h3 := mul_le_mul_of_nonneg_left h2 (show 0 ≤ 55 * (e * z) by positivity)
      have h4 : 0 ≤ e * z := by positivity
      linarith
  have e9 := mul_le_mul_of_nonneg_left e6 he0.le
  refine ⟨?_, ?_⟩
  · have := abs_sub_le u (m / d') (a * s / d)
    linarith
  · have := abs_sub_abs_le_abs_sub u (m / d')
    linarith

/-- The second term of the volatility. -/
theorem sigma_second {d d' g g' v t z y e : ℝ} (he0 : 0 < e) (he : e ≤ 1 / 256) (hz : 0 ≤ z) (hy : 0 ≤ y) (hez : e * z ≤ y / 16)
    (hey : e * z ^ 2 ≤ y ^ 2) (hd : |d' - d| ≤ 12 * e) (hd0 : 43 / 100 ≤ d) (hg : |g' - g| ≤ 6 * z ^ 2 * e)
    (hg' : |g'| ≤ 103 / 100 * z ^ 2) (hg0 : 0 ≤ g) (hgz : g ≤ z ^ 2) (hv0 : 0 ≤ v) (hv : |v - g' / d'| ≤ e * |g' / d'|)
    (ht : |t - √v| ≤ √v * e) :
    |t - √(g / d)| ≤ 98 / 10 * y ∧ |t| ≤ 17 / 10 * z := by
  have hd' : 38 / 100 ≤ d' := by linarith [(abs_le.1 hd).1]
  have hd'0 : 0 < d' := by linarith
  have hdpos : 0 < d := by linarith
  have hZ : 0 ≤ z ^ 2 := by positivity
  have hZe : 0 ≤ z ^ 2 * e := by positivity
  have e1 : |g' / d'| ≤ 272 / 100 * z ^ 2 := by
    rw [abs_div, abs_of_pos hd'0, div_le_iff₀ hd'0]
    have := mul_le_mul_of_nonneg_left hd' (show 0 ≤ 272 / 100 * z ^ 2 by positivity)
    linarith
  have e2 : |g' / d' - g / d| ≤ 16 * (z ^ 2 * e) + 74 * (z ^ 2 * e) := by
    have e8 : g' / d' - g / d = (g' - g) / d' + g * (d - d') / (d * d') := by
      field_simp
      ring
    rw [e8]
    refine (abs_add_le _ _).trans (add_le_add ?_ ?_)
    · rw [abs_div, abs_of_pos hd'0, div_le_iff₀ hd'0]
      have := mul_le_mul_of_nonneg_left hd' (show 0 ≤ 16 * (z ^ 2 * e) by positivity)
      linarith
    · rw [abs_div, abs_of_pos (mul_pos hdpos hd'0), div_le_iff₀ (mul_pos hdpos hd'0), abs_mul, abs_of_nonneg hg0, abs_sub_comm]
      have h1 := mul_le_mul hgz hd (abs_nonneg _) hZ
      have h2 : (43 / 100 : ℝ) * (38 / 100) ≤ d * d' := mul_le_mul hd0 hd' (by norm_num) hdpos.le
      have h3 := mul_le_mul_of_nonneg_left h2 (show 0 ≤ 74 * (z ^ 2 * e) by positivity)
      linarith
  have e3 := mul_le_mul_of_nonneg_left e1 he0.le
  have e4 : |v - g / d| ≤ 93 * y ^ 2 := by
    have := abs_sub_le v (g' / d') (g / d)
    linarith
  have e5 : v ≤ 274 / 100 * z ^ 2 := by
    have h1 := abs_sub_abs_le_abs_sub v (g' / d')
    have h2 := mul_le_mul_of_nonneg_right he (show 0 ≤ 272 / 100 * z ^ 2 by positivity)
    rw [abs_of_nonneg hv0] at h1
    linarith
  have e6 : √v ≤ 166 / 100 * z := root_le (by norm_num) hz (C := 274 / 100) (by norm_num) e5
  have e7 : |√v - √(g / d)| ≤ 965 / 100 * y :=
    (root_close' hv0 (div_nonneg hg0 hdpos.le) e4).trans (root_le (by norm_num) hy (C := 93) (by norm_num) le_rfl)
  have e8 : √v * e ≤ 166 / 100 * z * e := mul_le_mul_of_nonneg_right e6 he0.le
  have ezz : e * z ≤ 1 / 256 * z := mul_le_mul_of_nonneg_right he hz
  refine ⟨?_, ?_⟩
  · have := abs_sub_le t (√v) (√(g / d))
    linarith
  · have h1 := abs_sub_abs_le_abs_sub t (√v)
    rw [abs_of_nonneg (Real.sqrt_nonneg v)] at h1
    linarith

/-- `√(8/π)` lies between 1.595 and 1.597. -/
theorem root_eight_pi : (1595 / 1000 : ℝ) ≤ √(8 / Real.pi) ∧ √(8 / Real.pi) ≤ 1597 / 1000 := by
  have h1 := Real.pi_gt_d2
  have h2 := Real.pi_lt_d4
  have h0 := Real.pi_pos
  constructor
  · apply Real.le_sqrt_of_sq_le
    rw [le_div_iff₀ h0]
    linarith
  · apply Real.sqrt_le_iff.2 ⟨by norm_num, ?_⟩
    rw [div_le_iff₀ h0]
    linarith

/-- The constant `1/√2 - 1`. -/
theorem const_near {h h' a' e : ℝ} (he0 : 0 < e) (he : e ≤ 1 / 256) (h0 : 7 / 10 ≤ h) (h1 : h ≤ 71 / 100) (hh : |h' - h| ≤ 2 * h * e)
    (ha : |a' - (h' - 1)| ≤ e * |h' - 1|) : |a' - (h - 1)| ≤ 185 / 100 * e ∧ |h - 1| ≤ 4143 / 10000 := by
  have h2 : |h' - h| ≤ 142 / 100 * e := hh.trans (mul_le_mul_of_nonneg_right (by linarith) he0.le)
  obtain ⟨h3, h4⟩ := abs_le.1 h2
  have h5 : |h' - 1| ≤ 31 / 100 := abs_le.2 ⟨by linarith, by linarith⟩
  have h6 := mul_le_mul_of_nonneg_left h5 he0.le
  have h7 := abs_sub_le a' (h' - 1) (h - 1)
  rw [show h' - 1 - (h - 1) = h' - h by ring] at h7
  exact ⟨by linarith, abs_le.2 ⟨by linarith, by linarith⟩⟩

/-- The two denominators `k den` and `k² den`. -/
theorem dens_near {k k' c c' K d1 d2 e : ℝ} (he0 : 0 < e) (he : e ≤ 1 / 256) (hk0 : 1595 / 1000 ≤ k) (hk1 : k ≤ 1597 / 1000)
    (hk : |k' - k| ≤ 3 * k * e) (hc0 : 1714 / 10000 ≤ c) (hc1 : c ≤ 1720 / 10000) (hc : |c' - c| ≤ 31 / 10 * e)
    (h1 : |d1 - k' * c'| ≤ e * |k' * c'|) (hK : |K - k' * k'| ≤ e * |k' * k'|) (h2 : |d2 - K * c'| ≤ e * |K * c'|) :
    (|d1 - k * c| ≤ 62 / 10 * e ∧ 27 / 100 ≤ k * c) ∧ |d2 - k ^ 2 * c| ≤ 12 * e ∧ 43 / 100 ≤ k ^ 2 * c := by
  have hk' : |k' - k| ≤ 48 / 10 * e := hk.trans (mul_le_mul_of_nonneg_right (by linarith) he0.le)
  obtain ⟨k1, k2⟩ := abs_le.1 hk'
  obtain ⟨c1, c2⟩ := abs_le.1 hc
  have hc' : |c'| ≤ 1842 / 10000 := abs_le.2 ⟨by linarith, by linarith⟩
  have hka : |k| ≤ 1597 / 1000 := abs_le.2 ⟨by linarith, by linarith⟩
  have hka' : |k'| ≤ 1616 / 1000 := abs_le.2 ⟨by linarith, by linarith⟩
  have p1 : |k' * c' - k * c| ≤ 48 / 10 * e * (1842 / 10000) + 1597 / 1000 * (31 / 10 * e) := by
    rw [show k' * c' - k * c = (k' - k) * c' + k * (c' - c) by ring]
    refine (abs_add_le _ _).trans (add_le_add ?_ ?_)
    · rw [abs_mul]; exact mul_le_mul hk' hc' (abs_nonneg _) (by positivity)
    · rw [abs_mul]; exact mul_le_mul hka hc (abs_nonneg _) (by norm_num)
  have p2 : |k' * c'| ≤ 1616 / 1000 * (1842 / 10000) := by
    rw [abs_mul]; exact mul_le_mul hka' hc' (abs_nonneg _) (by norm_num)
  have p3 := mul_le_mul_of_nonneg_left p2 he0.le
  have p4 := abs_sub_le d1 (k' * c') (k * c)
  have q1 : |k' * k' - k ^ 2| ≤ 48 / 10 * e * (1616 / 1000) + 1597 / 1000 * (48 / 10 * e) := by
    rw [show k' * k' - k ^ 2 = (k' - k) * k' + k * (k' - k) by ring]
    refine (abs_add_le _ _).trans (add_le_add ?_ ?_)
    · rw [abs_mul]; exact mul_le_mul hk' hka' (abs_nonneg _) (by positivity)
    · rw [abs_mul]; exact mul_le_mul hka hk' (abs_nonneg _) (by norm_num)
  have q2 : |k' * k'| ≤ 1616 / 1000 * (1616 / 1000) := by
    rw [abs_mul]; exact mul_le_mul hka' hka' (abs_nonneg _) (by norm_num)
  have q3 := mul_le_mul_of_nonneg_left q2 he0.le
  have q4 := abs_sub_le K (k' * k') (k ^ 2)
  have q5 : |K - k ^ 2| ≤ 181 / 10 * e := by linarith
  have k2a : |k ^ 2| ≤ 2551 / 1000 := by
    rw [abs_pow]
    exact (pow_le_pow_left₀ (abs_nonneg k) hka 2).trans (by norm_num)
  have q6 : |K| ≤ 2622 / 1000 := by
    have := abs_sub_abs_le_abs_sub K (k ^ 2)
    linarith
  have s1 : |K * c' - k ^ 2 * c| ≤ 181 / 10 * e * (1842 / 10000) + 2551 / 1000 * (31 / 10 * e) := by
    rw [show K * c' - k ^ 2 * c = (K - k ^ 2) * c' + k ^ 2 * (c' - c) by ring]
    refine (abs_add_le _ _).trans (add_le_add ?_ ?_)
    · rw [abs_mul]; exact mul_le_mul q5 hc' (abs_nonneg _) (by positivity)
    · rw [abs_mul]; exact mul_le_mul k2a hc (abs_nonneg _) (by norm_num)
  have s2 : |K * c'| ≤ 2622 / 1000 * (1842 / 10000) := by
    rw [abs_mul]; exact mul_le_mul q6 hc' (abs_nonneg _) (by norm_num)
  have s3 := mul_le_mul_of_nonneg_left s2 he0.le
  have s4 := abs_sub_le d2 (K * c') (k ^ 2 * c)
  refine ⟨⟨by linarith, ?_⟩, by linarith, ?_⟩
  · have := mul_le_mul hk0 hc0 (by norm_num) (by linarith)
    linarith
  · have h3 := pow_le_pow_left₀ (by norm_num) hk0 2
    have := mul_le_mul h3 hc0 (by norm_num) (by positivity)
    linarith

end Mizar.Rd
