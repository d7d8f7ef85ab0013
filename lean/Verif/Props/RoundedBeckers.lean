import Verif.Props.RoundedSpread
import Verif.Lemmas.RoundedSigma

/-!
Property theorems C137, continued: how far the Beckers-Parkinson volatility is from its exact value.
-/

namespace Mizar.Props
open Mizar.Spec Mizar.Rd

private theorem sigma_fin {p : ℕ} (hp : 1 ≤ p) {sq : ℚ → ℚ} {h2 k2 : ℚ} (hd : 0 < denR (roundBits p) sq) (hk : 0 < k2) {b g : ℚ}
    (hg : 0 ≤ g) : sigmaR (roundBits p) sq h2 k2 (.fin b) (.fin g) = if b < 0 then .nan else
      .fin (max (roundBits p (roundBits p (roundBits p (roundBits p (h2 - 1) * sq b) / roundBits p (k2 * denR (roundBits p) sq)) +
        sq (roundBits p (g / roundBits p (roundBits p (k2 * k2) * denR (roundBits p) sq))))) 0) := by
  have h3 : 0 < roundBits p (k2 * denR (roundBits p) sq) := roundBits_pos p hp (mul_pos hk hd)
  have h4 : 0 < roundBits p (roundBits p (k2 * k2) * denR (roundBits p) sq) :=
    roundBits_pos p hp (mul_pos (roundBits_pos p hp (mul_pos hk hk)) hd)
  have h1 : ¬ roundBits p (g / roundBits p (roundBits p (k2 * k2) * denR (roundBits p) sq)) < 0 :=
    not_lt.2 (roundBits_nonneg p hp (div_nonneg hg h4.le))
  by_cases hb : b < 0
  · rw [if_pos hb, sigmaR, sqrtR, if_pos hb]
    rfl
  · rw [if_neg hb, sigmaR, sqrtR, if_neg hb, rnd_div_fin _ h4, sqrtR, if_neg h1, XF.mul, rnd, rnd_div_fin _ h3, XF.add, rnd, clip_fin]

private theorem sigma_exact {b g : ℝ} (hb : 0 ≤ b) (hg : 0 ≤ g) :
    sigmaR id Real.sqrt (1 / √2) √(8 / Real.pi) (.fin b) (.fin g) =
      .fin (max ((1 / √2 - 1) * √b / (√(8 / Real.pi) * (3 - 2 * √2)) + √(g / (√(8 / Real.pi) ^ 2 * (3 - 2 * √2)))) 0) := by
  have hs2 : √2 ≤ (1.4143 : ℝ) := Real.sqrt_le_iff.2 ⟨by norm_num, by norm_num⟩
  obtain ⟨hk, -⟩ := root_eight_pi
  have hc : 0 < 3 - 2 * √(2 : ℝ) := by linarith
  have hk0 : 0 < √(8 / Real.pi) := by linarith
  have h1 : √(8 / Real.pi) * (3 - 2 * √2) ≠ 0 := (mul_pos hk0 hc).ne'
  have h2 : √(8 / Real.pi) * √(8 / Real.pi) * (3 - 2 * √2) ≠ 0 := (mul_pos (mul_pos hk0 hk0) hc).ne'
  have hg0 : ¬ g / (√(8 / Real.pi) * √(8 / Real.pi) * (3 - 2 * √(2 : ℝ))) < 0 :=
    not_lt.2 (div_nonneg hg (mul_pos (mul_pos hk0 hk0) hc).le)
  rw [sigmaR, den_exact, sqrtR, if_neg (not_lt.2 hb)]
  simp only [id, XF.mul, rnd, XF.div, if_neg h1, if_neg h2, sqrtR, if_neg hg0, XF.add, clipR]
  rw [← pow_two]
  generalize (1 / √2 - 1) * √b / (√(8 / Real.pi) * (3 - 2 * √2)) + √(g / (√(8 / Real.pi) ^ 2 * (3 - 2 * √2))) = v
  by_cases hc : v < 0
  · rw [if_pos (by simp [XF.lt, hc]), max_eq_right hc.le]
  · rw [if_neg (by simp [XF.lt, hc]), max_eq_left (not_lt.1 hc)]

private theorem sigma_close {p : ℕ} (hp : 8 ≤ p) {sq : ℚ → ℚ} (hsq : GoodSqrt p sq) {h2 k2 : ℚ}
    (hh2 : |(h2 : ℝ) - 1 / √2| ≤ 2 * (1 / √2) / 2 ^ p) (hk2 : |(k2 : ℝ) - √(8 / Real.pi)| ≤ 3 * √(8 / Real.pi) / 2 ^ p) (hk0 : 0 < k2)
    {b' g' : ℚ} {b g z n e y : ℝ}
    (hee : e = 1 / 2 ^ p) (hy : y = z * √(n * e)) (hn1 : 1 ≤ n) (hne : 24 * (n * e) ≤ 1) (hz1 : 1 ≤ z) (hb0' : 0 ≤ b') (gn0 : 0 ≤ g')
    (hbet : 0 ≤ b ∧ b ≤ 2 * z ^ 2) (ge0 : 0 ≤ g) (g3 : g ≤ z ^ 2) (hbb : |(b' : ℝ) - b| ≤ 182 * n * z ^ 2 / 2 ^ p)
    (g1 : |(g' : ℝ) - g| ≤ 6 * z ^ 2 * (1 / 2 ^ p)) (g2 : |(g' : ℝ)| ≤ 103 / 100 * z ^ 2) :
    |((roundBits p (roundBits p (roundBits p (roundBits p (h2 - 1) * sq b') / roundBits p (k2 * denR (roundBits p) sq)) +
        sq (roundBits p (g' / roundBits p (roundBits p (k2 * k2) * denR (roundBits p) sq)))) : ℚ) : ℝ) -
      ((1 / √2 - 1) * √b / (√(8 / Real.pi) * (3 - 2 * √2)) + √(g / (√(8 / Real.pi) ^ 2 * (3 - 2 * √2))))| ≤ 42 * y := by
  obtain ⟨he0, he⟩ := eps_real hp
  have hp1 : 1 ≤ p := by omega
  obtain ⟨hdn, hd⟩ := den_pos hp hsq
  have hs1 : (1.414 : ℝ) ≤ √2 := Real.le_sqrt_of_sq_le (by norm_num)
  have hs2 : √2 ≤ (1.4143 : ℝ) := Real.sqrt_le_iff.2 ⟨by norm_num, by norm_num⟩
  have hden0 : 1714 / 10000 ≤ 3 - 2 * √(2 : ℝ) := by linarith
  have hden1 : 3 - 2 * √(2 : ℝ) ≤ 1720 / 10000 := by linarith
  have hh0 : (7 / 10 : ℝ) ≤ 1 / √2 := by
    rw [le_div_iff₀ (by linarith)]
    linarith
  have hh1 : (1 / √2 : ℝ) ≤ 71 / 100 := by
    rw [div_le_iff₀ (by linarith)]
    linarith
  obtain ⟨hp0, hp2⟩ := root_eight_pi
  rw [div_eq_mul_one_div (2 * (1 / √2)), ← hee] at hh2
  rw [div_eq_mul_one_div (3 * √(8 / Real.pi)), ← hee] at hk2
  rw [← hee] at he0 he hdn g1
  have hz0 : 0 ≤ z := by linarith
  have hne0 : 0 ≤ n * e := by positivity
  have hr1 : √e ≤ √(n * e) := Real.sqrt_le_sqrt (by nlinarith)
  have hr2 : √(n * e) ≤ 21 / 100 := Real.sqrt_le_iff.2 ⟨by norm_num, by linarith⟩
  have hr3 : e ≤ √e / 16 := by
    have h1 : √e ≤ 1 / 16 := Real.sqrt_le_iff.2 ⟨by norm_num, by linarith⟩
    have h2 := Real.mul_self_sqrt he0.le
    have h3 := mul_le_mul_of_nonneg_left h1 (Real.sqrt_nonneg e)
    linarith
  have hy0 : 0 ≤ y := by rw [hy]; positivity
  have hez : e * z ≤ y / 16 := by
    have h1 := mul_le_mul_of_nonneg_right (hr3.trans (by linarith : √e / 16 ≤ √(n * e) / 16)) hz0
    rw [hy]
    linarith
  have hyz : y ≤ 21 / 100 * z := by
    rw [hy, mul_comm]
    exact mul_le_mul_of_nonneg_right hr2 hz0
  have hy2 : y ^ 2 = z ^ 2 * (n * e) := by rw [hy, mul_pow, Real.sq_sqrt hne0]
  have hey : e * z ^ 2 ≤ y ^ 2 := by
    rw [hy2]
    have h1 : e ≤ n * e := by nlinarith
    have := mul_le_mul_of_nonneg_left h1 (show 0 ≤ z ^ 2 by positivity)
    linarith
  have hbb' : |(b' : ℝ) - b| ≤ 182 * y ^ 2 := by
    rw [hy2]
    refine hbb.trans (le_of_eq ?_)
    rw [hee]
    ring
  have hsb := hsq b' hb0'
  rw [div_eq_mul_one_div, ← hee] at hsb
  have hb0r : (0 : ℝ) ≤ b' := by exact_mod_cast hb0'
  obtain ⟨s1, s2, s3⟩ := beta_root he0 he hz0 hy0 hez hyz hbet.1 hb0r hbet.2 hbb' hsb
  have ra := round_real hp1 (h2 - 1)
  have rd1 := round_real hp1 (k2 * denR (roundBits p) sq)
  have rK := round_real hp1 (k2 * k2)
  have rd2 := round_real hp1 (roundBits p (k2 * k2) * denR (roundBits p) sq)
  have hD2 : 0 < roundBits p (roundBits p (k2 * k2) * denR (roundBits p) sq) :=
    roundBits_pos p hp1 (mul_pos (roundBits_pos p hp1 (mul_pos hk0 hk0)) hd)
  generalize roundBits p (roundBits p (k2 * k2) * denR (roundBits p) sq) = d2 at *
  generalize roundBits p (k2 * k2) = K at *
  generalize roundBits p (k2 * denR (roundBits p) sq) = d1 at *
  generalize denR (roundBits p) sq = c' at *
  generalize roundBits p (h2 - 1) = a' at *
  have hm := round_real hp1 (a' * sq b')
  have hu := round_real hp1 (roundBits p (a' * sq b') / d1)
  have hv := round_real hp1 (g' / d2)
  have hv0 : 0 ≤ roundBits p (g' / d2) := roundBits_nonneg p hp1 (div_nonneg gn0 hD2.le)
  have ht := hsq _ hv0
  have hv0r : (0 : ℝ) ≤ ((roundBits p (g' / d2) : ℚ) : ℝ) := by exact_mod_cast hv0
  have hal := round_real hp1 (roundBits p (roundBits p (a' * sq b') / d1) + sq (roundBits p (g' / d2)))
  rw [div_eq_mul_one_div (√_)] at ht
  rw [← hee] at hm hu hv ht hal ra rd1 rK rd2
  push_cast at hm hu hv hal ra rd1 rK rd2
  obtain ⟨ha, ha1⟩ := const_near he0 he hh0 hh1 hh2 ra
  obtain ⟨⟨n1, n2⟩, n3, n4⟩ := dens_near he0 he hp0 hp2 hk2 hden0 hden1 hdn rd1 rK rd2
  obtain ⟨u1, u2⟩ := sigma_first he0 he hz0 hy0 hez hyz ha ha1 n1 n2 s1 s2 (Real.sqrt_nonneg b) s3 hm hu
  obtain ⟨t1, t2⟩ := sigma_second he0 he hz0 hy0 hez hey n3 n4 g1 g2 ge0 g3 hv0r hv ht
  generalize roundBits p (roundBits p (a' * sq b') / d1) = u at *
  generalize sq (roundBits p (g' / d2)) = t at *
  generalize (1 / √2 - 1) * √b / (√(8 / Real.pi) * (3 - 2 * √2)) = U at *
  generalize √(g / (√(8 / Real.pi) ^ 2 * (3 - 2 * √2))) = V at *
  have h1 : |(u : ℝ) + t| ≤ 97 / 10 * z := by
    have := abs_add_le (u : ℝ) t
    linarith
  have h2 := mul_le_mul_of_nonneg_left h1 he0.le
  have h3 := abs_sub_le ((roundBits p (u + t) : ℚ) : ℝ) ((u : ℝ) + t) (U + V)
  have h4 : |(u : ℝ) + t - (U + V)| ≤ |(u : ℝ) - U| + |(t : ℝ) - V| := by
    rw [show (u : ℝ) + t - (U + V) = (u - U) + (t - V) by ring]
    exact abs_add_le _ _
  linarith

/-- C137: with positive prices the Beckers-Parkinson volatility in floating point is missing only where beta has become negative;
otherwise it is off by at most `42 (1 + T) √((i+1) / 2^p)` at position `i`, where `T` bounds the logarithms of the bars so far and of
the last two bars taken together, and the constants `1/√2` and `√(8/π)` are the computed ones. -/
theorem C137_sigma (p : ℕ) (hp : 8 ≤ p) (w : ℕ) (hw : 1 ≤ w) (lg sq : ℚ → ℚ) (hlg : GoodLog p lg) (hsq : GoodSqrt p sq) (h2 k2 : ℚ)
    (hh2 : |(h2 : ℝ) - 1 / √2| ≤ 2 * (1 / √2) / 2 ^ p) (hk2 : |(k2 : ℝ) - √(8 / Real.pi)| ≤ 3 * √(8 / Real.pi) / 2 ^ p)
    (H L : List ℚ) (h : Bars H L) (i : ℕ) (hi : i < H.length) (hwi : w ≤ i)
    (hn : 24 * (i + 1) ≤ 2 ^ p) (T : ℚ) (hT0 : 0 ≤ T) (hT : ∀ j ≤ i, |Real.log ((H.getD j 0 : ℝ) / L.getD j 0)| ≤ T)
    (hT2 : |Real.log (max (H.getD (i - 1) 0 : ℝ) (H.getD i 0) / min (L.getD (i - 1) 0 : ℝ) (L.getD i 0))| ≤ T)
    (high low : String) (f : Frame ℝ) (hx : f.col high = .ok ((H.map .fin).map toReal))
    (hy : f.col low = .ok ((L.map .fin).map toReal)) (out : List (XF ℝ)) (ho : Feat.beckersParkinson w high low f = .ok out) :
    ((beckersParkinsonR (roundBits p) lg sq h2 k2 w (H.map .fin) (L.map .fin)).getD i .nan = .nan ∧
      ∃ b, (betaR (roundBits p) lg w (H.map .fin) (L.map .fin)).getD i .nan = .fin b ∧ b < 0) ∨
    ∃ q s, (beckersParkinsonR (roundBits p) lg sq h2 k2 w (H.map .fin) (L.map .fin)).getD i .nan = .fin q ∧
      out.getD i .nan = .fin s ∧ |(q : ℝ) - s| ≤ 42 * (1 + T) * √((i + 1) / 2 ^ p) := by
  obtain ⟨he0, he⟩ := eps_real hp
  have hp1 : 1 ≤ p := by omega
  have hl := h.len
  obtain ⟨hdn, hd⟩ := den_pos hp hsq
  obtain ⟨k, rfl⟩ : ∃ k, i = k + 1 := ⟨i - 1, by omega⟩
  have hT0' : (0 : ℝ) ≤ T := by exact_mod_cast hT0
  have hk0 : 0 < k2 := by
    obtain ⟨a1, -⟩ := root_eight_pi
    rw [div_eq_mul_one_div (3 * √(8 / Real.pi))] at hk2
    generalize √(8 / Real.pi) = r at *
    have h3 := mul_le_mul_of_nonneg_left he (show 0 ≤ 3 * r by linarith)
    have h4 : (0 : ℝ) < k2 := by linarith [(abs_le.1 hk2).1]
    exact_mod_cast h4
  have hEx := (C137_exact w hw high low f _ _ hx hy).2.2.1 out ho
  have hlen : ∀ (K : Type) [Field K] [LinearOrder K] (r lg : K → K) (x y : List (XF K)), x.length = y.length →
      (betaR r lg w x y).length = x.length ∧ (gammaR r lg x y).length = x.length := by
    intro K _ _ r lg x y hxy
    simp [betaR, pairR, gammaR, rollMean, rollSum, rolling, hxy]
  obtain ⟨lb, lg1⟩ := hlen ℚ (roundBits p) lg (H.map .fin) (L.map .fin) (by simpa using hl)
  obtain ⟨lb', lg1'⟩ := hlen ℝ id Real.log ((H.map .fin).map toReal) ((L.map .fin).map toReal) (by simpa using hl)
  obtain ⟨b', b, g', g, hb', hb, gR, gE, hbb, hbet, gn0, g1, g2, ge0, g3⟩ :=
    beta_gamma_near hp hw hlg h hi hwi hn hT0 hT hT2
  have eR : (beckersParkinsonR (roundBits p) lg sq h2 k2 w (H.map .fin) (L.map .fin)).getD (k + 1) .nan =
      sigmaR (roundBits p) sq h2 k2 (.fin b') (.fin g') := by
    rw [List.length_map] at lb lg1
    rw [beckersParkinsonR, zipWith_getD _ _ _ .nan .nan (by omega) (k + 1) (by omega), hb', gR]
  have eE : out.getD (k + 1) .nan = sigmaR id Real.sqrt (1 / √2) √(8 / Real.pi) (.fin b) (.fin g) := by
    rw [List.length_map (f := toReal), List.length_map] at lb' lg1'
    rw [hEx, beckersParkinsonR, zipWith_getD _ _ _ .nan .nan (by omega) (k + 1) (by omega), hb, gE]
  rw [eR, eE, hb', sigma_fin hp1 hd hk0 gn0]
  by_cases hneg : b' < 0
  · exact .inl ⟨by rw [if_pos hneg], b', rfl, hneg⟩
  right
  rw [if_neg hneg]
  have hb0' : 0 ≤ b' := not_lt.1 hneg
  rw [sigma_exact hbet.1 ge0]
  refine ⟨_, _, rfl, rfl, ?_⟩
  have hz1 : 1 ≤ 1 + (T : ℝ) := by linarith
  have hn1 : (1 : ℝ) ≤ ((k + 1 : ℕ) : ℝ) + 1 := by push_cast; linarith [(Nat.cast_nonneg k : (0 : ℝ) ≤ k)]
  have hne : 24 * ((((k + 1 : ℕ) : ℝ) + 1) * (1 / 2 ^ p)) ≤ 1 := by
    rw [mul_one_div, ← mul_div_assoc, div_le_one (by positivity)]
    exact_mod_cast hn
  have hA := sigma_close hp hsq hh2 hk2 hk0 rfl rfl hn1 hne hz1 hb0' gn0 hbet ge0 g3 hbb g1 g2
  rw [mul_one_div] at hA
  have hB := max_near hA
  rw [Rat.cast_max, Rat.cast_zero]
  exact hB.trans (le_of_eq (by ring))

end Mizar.Props
