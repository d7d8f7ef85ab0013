import Mathlib.Analysis.SpecialFunctions.ExpDeriv
import Mathlib.Analysis.SpecialFunctions.Sqrt
import Mathlib.Analysis.Calculus.Deriv.MeanValue

/-! Helper lemmas for C137: the error of the Corwin-Schultz spread. -/

namespace Mizar.Rd

/-- `2 (e^d - 1) ≤ d (e^d + 1)` for `d ≥ 0`. -/
theorem exp_tanh {d : ℝ} (hd : 0 ≤ d) : 2 * (Real.exp d - 1) ≤ d * (Real.exp d + 1) := by
  have hder : ∀ x : ℝ, HasDerivAt (fun x => x * (Real.exp x + 1) - 2 * (Real.exp x - 1))
      (1 * (Real.exp x + 1) + x * Real.exp x - 2 * Real.exp x) x := by
    intro x
    have h1 := (hasDerivAt_id x).mul ((Real.hasDerivAt_exp x).add_const 1)
    have h2 := ((Real.hasDerivAt_exp x).sub_const 1).const_mul 2
    exact h1.sub h2
  have hmono : MonotoneOn (fun x => x * (Real.exp x + 1) - 2 * (Real.exp x - 1)) (Set.Ici 0) := by
    apply monotoneOn_of_deriv_nonneg (convex_Ici 0)
    · exact fun x _ => (hder x).continuousAt.continuousWithinAt
    · exact fun x _ => (hder x).differentiableAt.differentiableWithinAt
    · intro x hx
      rw [(hder x).deriv]
      have h3 := Real.add_one_le_exp (-x)
      have h4 := mul_le_mul_of_nonneg_left h3 (Real.exp_pos x).le
      rw [← Real.exp_add, add_neg_cancel, Real.exp_zero] at h4
      linarith
  have := hmono (Set.mem_Ici.2 le_rfl) (Set.mem_Ici.2 hd) hd
  simp only [Real.exp_zero] at this
  linarith

/-- The spread as a function of alpha does not stretch distances. -/
theorem spread_lipschitz {a b : ℝ} (ha : 0 ≤ a) (hab : a ≤ b) :
    |2 * (Real.exp b - 1) / (1 + Real.exp b) - 2 * (Real.exp a - 1) / (1 + Real.exp a)| ≤ b - a := by
  obtain ⟨d, rfl⟩ : ∃ d, b = a + d := ⟨b - a, by ring⟩
  have hd : 0 ≤ d := by linarith
  have h1 := exp_tanh hd
  rw [Real.exp_add]
  have hA : 1 ≤ Real.exp a := Real.one_le_exp ha
  have hk : 1 ≤ Real.exp d := Real.one_le_exp hd
  generalize Real.exp a = A at *
  generalize Real.exp d = k at *
  have hAk : 1 ≤ A * k := by nlinarith
  have e : 2 * (A * k - 1) / (1 + A * k) - 2 * (A - 1) / (1 + A) = 4 * A * (k - 1) / ((1 + A) * (1 + A * k)) := by
    have : (1 + A * k) ≠ 0 := by positivity
    field_simp
    ring
  have hpos : 0 < (1 + A) * (1 + A * k) := by positivity
  rw [e, abs_of_nonneg (div_nonneg (mul_nonneg (by positivity) (by linarith)) hpos.le), div_le_iff₀ hpos]
  have h2 : 2 * A * (1 + k) ≤ (1 + A) * (1 + A * k) := by
    have := mul_nonneg (show 0 ≤ A - 1 by linarith) (show 0 ≤ A * k - 1 by linarith)
    nlinarith
  have h3 := mul_le_mul_of_nonneg_left h2 hd
  have h4 := mul_le_mul_of_nonneg_left h1 (show 0 ≤ 2 * A by positivity)
  linarith

theorem root_close' {a b δ : ℝ} (ha : 0 ≤ a) (hb : 0 ≤ b) (h : |a - b| ≤ δ) : |√a - √b| ≤ √δ := by
  have h0 := Real.sqrt_nonneg a
  have h1 := Real.sqrt_nonneg b
  have e : (√a - √b) * (√a + √b) = a - b := by
    have := Real.mul_self_sqrt ha
    have := Real.mul_self_sqrt hb
    linarith
  have e' : |√a - √b| * (√a + √b) = |a - b| := by
    rw [← e, abs_mul, abs_of_nonneg (add_nonneg h0 h1)]
  apply Real.le_sqrt_of_sq_le
  have h2 : |√a - √b| ≤ √a + √b := abs_le.2 ⟨by linarith, by linarith⟩
  have := mul_le_mul_of_nonneg_left h2 (abs_nonneg (√a - √b))
  rw [pow_two]
  linarith

/-- `√x ≤ c z` from `x ≤ c² z²`. -/
theorem root_le {x c z C : ℝ} (hc : 0 ≤ c) (hz : 0 ≤ z) (hC : C ≤ c ^ 2) (h : x ≤ C * z ^ 2) : √x ≤ c * z := by
  apply Real.sqrt_le_iff.2
  refine ⟨by positivity, h.trans ?_⟩
  rw [mul_pow]
  exact mul_le_mul_of_nonneg_right hC (by positivity)

/-- The square root of beta. -/
theorem beta_root {b b' s' z y e : ℝ} (he0 : 0 < e) (he : e ≤ 1 / 256) (hz : 0 ≤ z) (hy : 0 ≤ y) (hez : e * z ≤ y / 16)
    (hyz : y ≤ 21 / 100 * z) (hb : 0 ≤ b) (hb' : 0 ≤ b') (hbz : b ≤ 2 * z ^ 2) (h : |b' - b| ≤ 182 * y ^ 2)
    (hs : |s' - √b'| ≤ √b' * e) :
    |s' - √b| ≤ 137 / 10 * y ∧ |s'| ≤ 43 / 10 * z ∧ √b ≤ 1415 / 1000 * z := by
  have h1 : |√b' - √b| ≤ 135 / 10 * y := (root_close' hb' hb h).trans (root_le (by norm_num) hy (C := 182) (by norm_num) le_rfl)
  have h2 : √b ≤ 1415 / 1000 * z := root_le (by norm_num) hz (C := 2) (by norm_num) hbz
  have h3 := (abs_le.1 h1).2
  have h4 : √b' * e ≤ (1415 / 1000 * z + 135 / 10 * y) * e := mul_le_mul_of_nonneg_right (by linarith) he0.le
  have h5 : y * e ≤ y * (1 / 256) := mul_le_mul_of_nonneg_left he hy
  have h6 := abs_sub_le s' (√b') (√b)
  have h7 : |s' - √b| ≤ 137 / 10 * y := by linarith
  refine ⟨h7, ?_, h2⟩
  have h8 := abs_sub_abs_le_abs_sub s' (√b)
  rw [abs_of_nonneg (Real.sqrt_nonneg b)] at h8
  linarith

/-- The first term of alpha. -/
theorem first_term {a a' d d' s s' m u z y e : ℝ} (he0 : 0 < e) (he : e ≤ 1 / 256) (hz : 0 ≤ z) (hy : 0 ≤ y) (hez : e * z ≤ y / 16)
    (hyz : y ≤ 21 / 100 * z) (ha : |a' - a| ≤ 185 / 100 * e) (ha0 : 0 ≤ a) (ha1 : a ≤ 4143 / 10000) (hd : |d' - d| ≤ 31 / 10 * e)
    (hd0 : 1714 / 10000 ≤ d) (hs : |s' - s| ≤ 137 / 10 * y) (hs' : |s'| ≤ 43 / 10 * z) (hs0 : 0 ≤ s) (hsz : s ≤ 1415 / 1000 * z)
    (hm : |m - a' * s'| ≤ e * |a' * s'|) (hu : |u - m / d'| ≤ e * |m / d'|) :
    |u - a * s / d| ≤ 46 * y ∧ |u| ≤ 12 * z := by
  have hd' : 1592 / 10000 ≤ d' := by linarith [(abs_le.1 hd).1]
  have hd'0 : 0 < d' := by linarith
  have hdpos : 0 < d := by linarith
  have e1 : |a' * s' - a * s| ≤ 185 / 100 * e * (43 / 10 * z) + 4143 / 10000 * (137 / 10 * y) := by
    rw [show a' * s' - a * s = (a' - a) * s' + a * (s' - s) by ring]
    refine (abs_add_le _ _).trans (add_le_add ?_ ?_)
    · rw [abs_mul]
      exact mul_le_mul ha hs' (abs_nonneg _) (by positivity)
    · rw [abs_mul, abs_of_nonneg ha0]
      exact mul_le_mul ha1 hs (abs_nonneg _) (by norm_num)
  have e2 : |a' * s'| ≤ 422 / 1000 * (43 / 10 * z) := by
    rw [abs_mul]
    refine mul_le_mul ?_ hs' (abs_nonneg _) (by norm_num)
    have := abs_sub_abs_le_abs_sub a' a
    rw [abs_of_nonneg ha0] at this
    linarith
  have e3 := mul_le_mul_of_nonneg_left e2 he0.le
  have e4 : |m - a * s| ≤ 64 / 10 * y := by
    have := abs_sub_le m (a' * s') (a * s)
    linarith
  have ezz : e * z ≤ 1 / 256 * z := mul_le_mul_of_nonneg_right he hz
  have e5 : |m| ≤ 183 / 100 * z := by
    have := abs_sub_abs_le_abs_sub m (a' * s')
    linarith
  have has : a * s ≤ 4143 / 10000 * (1415 / 1000 * z) := mul_le_mul ha1 hsz hs0 (by norm_num)
  have has0 : 0 ≤ a * s := mul_nonneg ha0 hs0
  have e6 : |m / d'| ≤ 115 / 10 * z := by
    rw [abs_div, abs_of_pos hd'0, div_le_iff₀ hd'0]
    have := mul_le_mul_of_nonneg_left hd' (show 0 ≤ 115 / 10 * z by positivity)
    linarith
  have e7 : |m / d' - a * s / d| ≤ 403 / 10 * y + 67 * (e * z) := by
    have e8 : m / d' - a * s / d = (m - a * s) / d' + a * s * (d - d') / (d * d') := by
      field_simp
      ring
    rw [e8]
    refine (abs_add_le _ _).trans (add_le_add ?_ ?_)
    · rw [abs_div, abs_of_pos hd'0, div_le_iff₀ hd'0]
      have := mul_le_mul_of_nonneg_left hd' (show 0 ≤ 403 / 10 * y by positivity)
      linarith
    · rw [abs_div, abs_of_pos (mul_pos hdpos hd'0), div_le_iff₀ (mul_pos hdpos hd'0), abs_mul, abs_of_nonneg has0, abs_sub_comm]
      have h1 := mul_le_mul has hd (abs_nonneg _) (by positivity)
      have h2 : (1714 / 10000 : ℝ) * (1592 / 10000) ≤ d * d' := mul_le_mul hd0 hd' (by norm_num) hdpos.le
      have h3 := mul_le_mul_of_nonneg_left h2 (show 0 ≤ 67 * (e * z) by positivity)
      have h4 : 0 ≤ e * z := by positivity
      linarith
  have e9 := mul_le_mul_of_nonneg_left e6 he0.le
  refine ⟨?_, ?_⟩
  · have := abs_sub_le u (m / d') (a * s / d)
    linarith
  · have := abs_sub_abs_le_abs_sub u (m / d')
    linarith

/-- The second term of alpha. -/
theorem second_term {d d' g g' v t z y e : ℝ} (he0 : 0 < e) (he : e ≤ 1 / 256) (hz : 0 ≤ z) (hy : 0 ≤ y) (hez : e * z ≤ y / 16)
    (hey : e * z ^ 2 ≤ y ^ 2) (hd : |d' - d| ≤ 31 / 10 * e) (hd0 : 1714 / 10000 ≤ d) (hg : |g' - g| ≤ 6 * z ^ 2 * e)
    (hg' : |g'| ≤ 103 / 100 * z ^ 2) (hg0 : 0 ≤ g) (hgz : g ≤ z ^ 2) (hv0 : 0 ≤ v) (hv : |v - g' / d'| ≤ e * |g' / d'|)
    (ht : |t - √v| ≤ √v * e) :
    |t - √(g / d)| ≤ 128 / 10 * y ∧ |t| ≤ 26 / 10 * z := by
  have hd' : 1592 / 10000 ≤ d' := by linarith [(abs_le.1 hd).1]
  have hd'0 : 0 < d' := by linarith
  have hdpos : 0 < d := by linarith
  have hZ : 0 ≤ z ^ 2 := by positivity
  have hZe : 0 ≤ z ^ 2 * e := by positivity
  have e1 : |g' / d'| ≤ 65 / 10 * z ^ 2 := by
    rw [abs_div, abs_of_pos hd'0, div_le_iff₀ hd'0]
    have := mul_le_mul_of_nonneg_left hd' (show 0 ≤ 65 / 10 * z ^ 2 by positivity)
    linarith
  have e2 : |g' / d' - g / d| ≤ 38 * (z ^ 2 * e) + 114 * (z ^ 2 * e) := by
    have e8 : g' / d' - g / d = (g' - g) / d' + g * (d - d') / (d * d') := by
      field_simp
      ring
    rw [e8]
    refine (abs_add_le _ _).trans (add_le_add ?_ ?_)
    · rw [abs_div, abs_of_pos hd'0, div_le_iff₀ hd'0]
      have := mul_le_mul_of_nonneg_left hd' (show 0 ≤ 38 * (z ^ 2 * e) by positivity)
      linarith
    · rw [abs_div, abs_of_pos (mul_pos hdpos hd'0), div_le_iff₀ (mul_pos hdpos hd'0), abs_mul, abs_of_nonneg hg0, abs_sub_comm]
      have h1 := mul_le_mul hgz hd (abs_nonneg _) hZ
      have h2 : (1714 / 10000 : ℝ) * (1592 / 10000) ≤ d * d' := mul_le_mul hd0 hd' (by norm_num) hdpos.le
      have h3 := mul_le_mul_of_nonneg_left h2 (show 0 ≤ 114 * (z ^ 2 * e) by positivity)
      linarith
  have e3 := mul_le_mul_of_nonneg_left e1 he0.le
  have e4 : |v - g / d| ≤ 159 * y ^ 2 := by
    have := abs_sub_le v (g' / d') (g / d)
    linarith
  have e5 : v ≤ 66 / 10 * z ^ 2 := by
    have h1 := abs_sub_abs_le_abs_sub v (g' / d')
    have h2 := mul_le_mul_of_nonneg_right he (show 0 ≤ 65 / 10 * z ^ 2 by positivity)
    rw [abs_of_nonneg hv0] at h1
    linarith
  have e6 : √v ≤ 257 / 100 * z := root_le (by norm_num) hz (C := 66 / 10) (by norm_num) e5
  have e7 : |√v - √(g / d)| ≤ 1262 / 100 * y :=
    (root_close' hv0 (div_nonneg hg0 hdpos.le) e4).trans (root_le (by norm_num) hy (C := 159) (by norm_num) le_rfl)
  have e8 : √v * e ≤ 257 / 100 * z * e := mul_le_mul_of_nonneg_right e6 he0.le
  have ezz : e * z ≤ 1 / 256 * z := mul_le_mul_of_nonneg_right he hz
  refine ⟨?_, ?_⟩
  · have := abs_sub_le t (√v) (√(g / d))
    linarith
  · have h1 := abs_sub_abs_le_abs_sub t (√v)
    rw [abs_of_nonneg (Real.sqrt_nonneg v)] at h1
    linarith

/-- The last steps of the spread. -/
theorem spread_steps {E E' A B q e : ℝ} (he0 : 0 < e) (he : e ≤ 1 / 256) (hE : 1 ≤ E) (hE' : 1 ≤ E')
    (h : |E' - E| ≤ 2 * E * e) (hA : |A - (E' - 1)| ≤ e * |E' - 1|) (hB : |B - (1 + E')| ≤ e * |1 + E'|)
    (hq : |q - 2 * A / B| ≤ e * |2 * A / B|) : |q - 2 * (E - 1) / (1 + E)| ≤ 11 * e := by
  rw [abs_of_nonneg (show 0 ≤ E' - 1 by linarith)] at hA
  rw [abs_of_nonneg (show 0 ≤ 1 + E' by linarith)] at hB
  obtain ⟨a1, a2⟩ := abs_le.1 hA
  obtain ⟨b1, b2⟩ := abs_le.1 hB
  have hx0 : 0 ≤ E' - 1 := by linarith
  have hy2 : 2 ≤ 1 + E' := by linarith
  have hm1 : e * (1 + E') ≤ 1 / 256 * (1 + E') := mul_le_mul_of_nonneg_right he (by linarith)
  have hm2 : e * (E' - 1) ≤ 1 / 256 * (E' - 1) := mul_le_mul_of_nonneg_right he hx0
  have hBlo : 255 / 256 * (1 + E') ≤ B := by linarith
  have hB0 : 0 < B := by linarith
  have hA0 : 0 ≤ A := by linarith
  have hAhi : A ≤ 257 / 256 * (1 + E') := by linarith
  have hAB : 2 * A / B ≤ 203 / 100 := by
    rw [div_le_iff₀ hB0]
    linarith
  have hAB0 : 0 ≤ 2 * A / B := div_nonneg (by linarith) hB0.le
  have h1 : |2 * A / B - 2 * (E' - 1) / (1 + E')| ≤ 41 / 10 * e := by
    have hne : (1 + E') ≠ 0 := by linarith
    have e1 : 2 * A / B - 2 * (E' - 1) / (1 + E') = 2 * (A - (E' - 1)) / B + 2 * ((E' - 1) / (1 + E')) * ((1 + E' - B) / B) := by
      field_simp
      ring
    have hf0 : 0 ≤ (E' - 1) / (1 + E') := div_nonneg hx0 (by linarith)
    have hf1 : (E' - 1) / (1 + E') ≤ 1 := by
      rw [div_le_one (by linarith)]
      linarith
    rw [e1]
    have t1 : |2 * (A - (E' - 1)) / B| ≤ 205 / 100 * e := by
      rw [abs_div, abs_of_pos hB0, div_le_iff₀ hB0, abs_mul, abs_of_pos (by norm_num : (0 : ℝ) < 2)]
      have h3 := mul_le_mul_of_nonneg_left hBlo (show 0 ≤ 205 / 100 * e by positivity)
      have h4 : 0 ≤ e * 1 := by linarith
      have h5 : 0 ≤ e * (1 + E') := by positivity
      linarith
    have t2 : |(1 + E' - B) / B| ≤ 102 / 100 * e := by
      rw [abs_div, abs_of_pos hB0, div_le_iff₀ hB0, abs_sub_comm]
      have h3 := mul_le_mul_of_nonneg_left hBlo (show 0 ≤ 102 / 100 * e by positivity)
      have h5 : 0 ≤ e * (1 + E') := by positivity
      linarith
    refine (abs_add_le _ _).trans ?_
    have t3 : |2 * ((E' - 1) / (1 + E')) * ((1 + E' - B) / B)| ≤ 2 * 1 * (102 / 100 * e) := by
      rw [abs_mul, abs_of_nonneg (show 0 ≤ 2 * ((E' - 1) / (1 + E')) by positivity)]
      exact mul_le_mul (by linarith) t2 (abs_nonneg _) (by norm_num)
    linarith
  have h2 : |2 * (E' - 1) / (1 + E') - 2 * (E - 1) / (1 + E)| ≤ 4 * e := by
    have e2 : 2 * (E' - 1) / (1 + E') - 2 * (E - 1) / (1 + E) = 4 * (E' - E) / ((1 + E') * (1 + E)) := by
      have : (1 + E') ≠ 0 := by linarith
      have : (1 + E) ≠ 0 := by linarith
      field_simp
      ring
    have hp : 0 < (1 + E') * (1 + E) := mul_pos (by linarith) (by linarith)
    rw [e2, abs_div, abs_of_pos hp, div_le_iff₀ hp, abs_mul, abs_of_pos (by norm_num : (0 : ℝ) < 4)]
    have h3 : 2 * (1 + E) ≤ (1 + E') * (1 + E) := mul_le_mul_of_nonneg_right hy2 (by linarith)
    have h4 := mul_le_mul_of_nonneg_left h3 (show 0 ≤ 4 * e by positivity)
    linarith
  have h3 : e * |2 * A / B| ≤ e * (203 / 100) := by
    rw [abs_of_nonneg hAB0]
    exact mul_le_mul_of_nonneg_left hAB he0.le
  have h4 := abs_sub_le q (2 * A / B) (2 * (E - 1) / (1 + E))
  have h5 := abs_sub_le (2 * A / B) (2 * (E' - 1) / (1 + E')) (2 * (E - 1) / (1 + E))
  linarith

end Mizar.Rd
