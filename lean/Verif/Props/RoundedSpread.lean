import Verif.Props.RoundedLog
import Verif.Lemmas.RoundedSpread
import Verif.Lemmas.RoundedLambda

/-!
Property theorems C137, continued: how far the Corwin-Schultz spread and the lambdas of Amihud and Hasbrouck are from their exact
values.
-/

namespace Mizar.Props
open Mizar.Spec Mizar.Rd

private theorem sum_between {L : List ℝ} {M : ℝ} (h : ∀ x ∈ L, 0 ≤ x ∧ x ≤ M) : 0 ≤ L.sum ∧ L.sum ≤ L.length * M := by
  induction L with
  | nil => simp
  | cons a L ih =>
    rw [List.sum_cons, List.length_cons]
    push_cast
    obtain ⟨h1, h2⟩ := ih fun x hx => h x (by simp [hx])
    obtain ⟨h3, h4⟩ := h a (by simp)
    exact ⟨by linarith, by linarith⟩

private theorem window_between {l : List (XF ℝ)} {w i : ℕ} {M : ℝ}
    (h : ∀ j ≤ i, 0 ≤ (l.getD j .nan).toK ∧ (l.getD j .nan).toK ≤ M) :
    ∀ x ∈ (winAt w i l).map XF.toK, 0 ≤ x ∧ x ≤ M := by
  intro v hv
  obtain ⟨a, ha, rfl⟩ := List.mem_map.1 hv
  obtain ⟨k, hk, -, h2, rfl⟩ := mem_window' w i _ ha
  rw [← List.getD_eq_getElem _ .nan]
  exact h k h2

private theorem roll_sum_between {l : List (XF ℝ)} {w i : ℕ} {M : ℝ} (hM : 0 ≤ M) (hi : i < l.length)
    (h : ∀ j ≤ i, 0 ≤ (l.getD j .nan).toK ∧ (l.getD j .nan).toK ≤ M) :
    0 ≤ ((rolling w winSum l).getD i .nan).toK ∧ ((rolling w winSum l).getD i .nan).toK ≤ w * M := by
  rw [rolling_getD _ _ _ i hi]
  split_ifs with hc
  · obtain ⟨h1, h2⟩ := sum_between (window_between (w := w) h)
    rw [List.length_map, winAt_length w i l hc.1 hi] at h2
    exact ⟨h1, h2⟩
  · exact ⟨le_refl _, by change (0 : ℝ) ≤ _; positivity⟩

private theorem roll_mean_between {l : List (XF ℝ)} {w i : ℕ} (hw : 1 ≤ w) {M b : ℝ} (hi : i < l.length)
    (h : ∀ j ≤ i, 0 ≤ (l.getD j .nan).toK ∧ (l.getD j .nan).toK ≤ M) (hb : (rolling w winMean l).getD i .nan = .fin b) :
    0 ≤ b ∧ b ≤ M := by
  rw [rolling_getD _ _ _ i hi] at hb
  split_ifs at hb with hc
  obtain ⟨h1, h2⟩ := sum_between (window_between (w := w) h)
  have hw0 : (0 : ℝ) < w := by exact_mod_cast hw
  rw [List.length_map, winAt_length w i l hc.1 hi] at h2
  rw [winMean, List.length_map, winAt_length w i l hc.1 hi, if_neg (by omega)] at hb
  cases hb
  refine ⟨by positivity, ?_⟩
  rw [div_le_iff₀ hw0]
  linarith

theorem real_max (H : List ℚ) (i : ℕ) (hi : i + 1 < H.length) :
    (rolling 2 winMax ((H.map XF.fin).map toReal)).getD (i + 1) .nan = toReal (.fin (max H[i] H[i + 1])) := by
  rw [rolling_getD _ _ _ _ (by simpa using hi), two_window _ i (by simpa using hi)]
  simp only [List.getElem_map, toReal]
  rw [if_pos ⟨by omega, by simp [XF.undef, XF.isNan, XF.isInf]⟩, Rat.cast_max]
  rfl

theorem real_min (H : List ℚ) (i : ℕ) (hi : i + 1 < H.length) :
    (rolling 2 winMin ((H.map XF.fin).map toReal)).getD (i + 1) .nan = toReal (.fin (min H[i] H[i + 1])) := by
  rw [rolling_getD _ _ _ _ (by simpa using hi), two_window _ i (by simpa using hi)]
  simp only [List.getElem_map, toReal]
  rw [if_pos ⟨by omega, by simp [XF.undef, XF.isNan, XF.isInf]⟩, Rat.cast_min]
  rfl

theorem root_two_near {p : ℕ} (hp : 8 ≤ p) {sq : ℚ → ℚ} (hsq : GoodSqrt p sq) :
    |((roundBits p (sq 2 - 1) : ℚ) : ℝ) - (√2 - 1)| ≤ 185 / 100 * (1 / 2 ^ p) := by
  obtain ⟨he0, he⟩ := eps_real hp
  have h1 := hsq 2 (by norm_num)
  have h2 := round_real (show 1 ≤ p by omega) (sq 2 - 1)
  rw [div_eq_mul_one_div] at h1
  have hs1 : (1.414 : ℝ) ≤ √2 := Real.le_sqrt_of_sq_le (by norm_num)
  have hs2 : √2 ≤ (1.4143 : ℝ) := Real.sqrt_le_iff.2 ⟨by norm_num, by norm_num⟩
  push_cast at h1 h2
  generalize ((roundBits p (sq 2 - 1) : ℚ) : ℝ) = d at *
  generalize (1 : ℝ) / 2 ^ p = e at *
  generalize √(2 : ℝ) = s at *
  generalize (sq 2 : ℝ) = t at *
  have h3 := mul_le_mul_of_nonneg_right hs2 he0.le
  have h4 : |t - s| ≤ 1.4143 * e := h1.trans h3
  have h6 : |t - 1| ≤ 42 / 100 := by
    obtain ⟨h7, h8⟩ := abs_le.1 h4
    exact abs_le.2 ⟨by linarith, by linarith⟩
  have h7 := mul_le_mul_of_nonneg_left h6 he0.le
  have h8 := abs_sub_le d (t - 1) (s - 1)
  have h9 : |t - 1 - (s - 1)| = |t - s| := by ring_nf
  linarith

theorem max_near {a b δ : ℝ} (h : |a - b| ≤ δ) : |max a 0 - max b 0| ≤ δ :=
  (abs_max_sub_max_le_abs a b 0).trans h

private theorem small_unit {e n : ℝ} (he0 : 0 < e) (he : e ≤ 1 / 256) (hn : 1 ≤ n) : e ≤ √(n * e) / 16 := by
  have h0 : e ≤ n * e := by nlinarith
  have h1 : √e ≤ √(n * e) := Real.sqrt_le_sqrt h0
  have h2 : √e ≤ 1 / 16 := Real.sqrt_le_iff.2 ⟨by norm_num, by linarith⟩
  have h3 := Real.mul_self_sqrt he0.le
  have h4 := mul_le_mul_of_nonneg_left h2 (Real.sqrt_nonneg e)
  linarith

theorem den_exact : (denR id Real.sqrt : ℝ) = 3 - 2 * √2 := rfl

theorem alpha_exact {b g : ℝ} (hb : 0 ≤ b) (hg : 0 ≤ g) : alphaR id Real.sqrt (.fin b) (.fin g) =
    .fin (max ((√2 - 1) * √b / (3 - 2 * √2) - √(g / (3 - 2 * √2))) 0) := by
  have hs2 : √2 ≤ (1.4143 : ℝ) := Real.sqrt_le_iff.2 ⟨by norm_num, by norm_num⟩
  have hdne : (3 - 2 * √(2 : ℝ)) ≠ 0 := by linarith
  have hg0 : ¬ id (g / (3 - 2 * √(2 : ℝ))) < 0 := not_lt.2 (div_nonneg hg (by linarith))
  rw [alphaR, den_exact, sqrtR, if_neg (not_lt.2 hb), XF.div, if_neg hdne, XF.mul, rnd, rnd, XF.div, if_neg hdne, rnd, sqrtR,
    if_neg hg0, XF.sub_fin, rnd, clipR]
  simp only [id]
  by_cases hc : (√2 - 1) * √b / (3 - 2 * √2) - √(g / (3 - 2 * √2)) < 0
  · rw [if_pos (by simp [XF.lt, hc]), max_eq_right hc.le]
  · rw [if_neg (by simp [XF.lt, hc]), max_eq_left (not_lt.1 hc)]

theorem spread_exact (a : ℝ) : spreadR id Real.exp (.fin a) = .fin (2 * (Real.exp a - 1) / (1 + Real.exp a)) := by
  have hne : 1 + Real.exp a ≠ 0 := by positivity
  simp only [spreadR, expR, XF.sub_fin, rnd, id, XF.mul, XF.add, XF.div, if_neg hne]

private theorem alpha_close {p : ℕ} (hp : 8 ≤ p) {sq : ℚ → ℚ} (hsq : GoodSqrt p sq) {b' g' : ℚ} {b g z n e y : ℝ}
    (hee : e = 1 / 2 ^ p) (hy : y = z * √(n * e)) (hn1 : 1 ≤ n) (hne : 24 * (n * e) ≤ 1) (hz1 : 1 ≤ z) (hb0' : 0 ≤ b') (gn0 : 0 ≤ g')
    (hbet : 0 ≤ b ∧ b ≤ 2 * z ^ 2) (ge0 : 0 ≤ g) (g3 : g ≤ z ^ 2) (hbb : |(b' : ℝ) - b| ≤ 182 * n * z ^ 2 / 2 ^ p)
    (g1 : |(g' : ℝ) - g| ≤ 6 * z ^ 2 * (1 / 2 ^ p)) (g2 : |(g' : ℝ)| ≤ 103 / 100 * z ^ 2) :
    |((roundBits p (roundBits p (roundBits p (roundBits p (sq 2 - 1) * sq b') / denR (roundBits p) sq) -
      sq (roundBits p (g' / denR (roundBits p) sq))) : ℚ) : ℝ) - ((√2 - 1) * √b / (3 - 2 * √2) - √(g / (3 - 2 * √2)))| ≤
      598 / 10 * y := by
  obtain ⟨he0, he⟩ := eps_real hp
  have hp1 : 1 ≤ p := by omega
  obtain ⟨hdn, hd⟩ := den_pos hp hsq
  have hs1 : (1.414 : ℝ) ≤ √2 := Real.le_sqrt_of_sq_le (by norm_num)
  have hs2 : √2 ≤ (1.4143 : ℝ) := Real.sqrt_le_iff.2 ⟨by norm_num, by norm_num⟩
  have hden0 : 1714 / 10000 ≤ 3 - 2 * √(2 : ℝ) := by linarith
  rw [← hee] at he0 he hdn g1
  have hz0 : 0 ≤ z := by linarith
  have hne0 : 0 ≤ n * e := by positivity
  have hr1 : √e ≤ √(n * e) := Real.sqrt_le_sqrt (by nlinarith)
  have hr2 : √(n * e) ≤ 21 / 100 := Real.sqrt_le_iff.2 ⟨by norm_num, by linarith⟩
  have hr3 : e ≤ √e / 16 := by
    have h1 : √e ≤ 1 / 16 := Real.sqrt_le_iff.2 ⟨by norm_num, by linarith⟩
    have h2 := Real.mul_self_sqrt he0.le
    have h3 := mul_le_mul_of_nonneg_left h1 (Real.sqrt_nonneg e)
    linarith
  have hy0 : 0 ≤ y := by rw [hy]; positivity
  have hez : e * z ≤ y / 16 := by
    have h1 := mul_le_mul_of_nonneg_right (hr3.trans (by linarith : √e / 16 ≤ √(n * e) / 16)) hz0
    rw [hy]
    linarith
  have hyz : y ≤ 21 / 100 * z := by
    rw [hy, mul_comm]
    exact mul_le_mul_of_nonneg_right hr2 hz0
  have hy2 : y ^ 2 = z ^ 2 * (n * e) := by rw [hy, mul_pow, Real.sq_sqrt hne0]
  have hey : e * z ^ 2 ≤ y ^ 2 := by
    rw [hy2]
    have h1 : e ≤ n * e := by nlinarith
    have := mul_le_mul_of_nonneg_left h1 (show 0 ≤ z ^ 2 by positivity)
    linarith
  have hbb' : |(b' : ℝ) - b| ≤ 182 * y ^ 2 := by
    rw [hy2]
    refine hbb.trans (le_of_eq ?_)
    rw [hee]
    ring
  have hsb := hsq b' hb0'
  rw [div_eq_mul_one_div, ← hee] at hsb
  have hb0r : (0 : ℝ) ≤ b' := by exact_mod_cast hb0'
  obtain ⟨s1, s2, s3⟩ := beta_root he0 he hz0 hy0 hez hyz hbet.1 hb0r hbet.2 hbb' hsb
  have hm := round_real hp1 (roundBits p (sq 2 - 1) * sq b')
  have hu := round_real hp1 (roundBits p (roundBits p (sq 2 - 1) * sq b') / denR (roundBits p) sq)
  have hv := round_real hp1 (g' / denR (roundBits p) sq)
  have hv0 : 0 ≤ roundBits p (g' / denR (roundBits p) sq) := roundBits_nonneg p hp1 (div_nonneg gn0 hd.le)
  have ht := hsq _ hv0
  have hv0r : (0 : ℝ) ≤ ((roundBits p (g' / denR (roundBits p) sq) : ℚ) : ℝ) := by exact_mod_cast hv0
  have ha := root_two_near hp hsq
  have hal := round_real hp1 (roundBits p (roundBits p (roundBits p (sq 2 - 1) * sq b') / denR (roundBits p) sq) -
    sq (roundBits p (g' / denR (roundBits p) sq)))
  rw [div_eq_mul_one_div (√_)] at ht
  rw [← hee] at hm hu hv ht ha hal
  push_cast at hm hu hv hal
  have hdn' : |((denR (roundBits p) sq : ℚ) : ℝ) - (3 - 2 * √2)| ≤ 31 / 10 * e := hdn
  obtain ⟨u1, u2⟩ := first_term he0 he hz0 hy0 hez hyz ha (by linarith) (by linarith) hdn' hden0 s1 s2 (Real.sqrt_nonneg b) s3 hm hu
  obtain ⟨t1, t2⟩ := second_term he0 he hz0 hy0 hez hey hdn' hden0 g1 g2 ge0 g3 hv0r hv ht
  generalize roundBits p (roundBits p (roundBits p (sq 2 - 1) * sq b') / denR (roundBits p) sq) = u at *
  generalize sq (roundBits p (g' / denR (roundBits p) sq)) = t at *
  generalize (√2 - 1) * √b / (3 - 2 * √2) = U at *
  generalize √(g / (3 - 2 * √2)) = V at *
  have h1 : |(u : ℝ) - t| ≤ 146 / 10 * z := by
    have := abs_sub (u : ℝ) t
    linarith
  have h2 := mul_le_mul_of_nonneg_left h1 he0.le
  have h3 := abs_sub_le ((roundBits p (u - t) : ℚ) : ℝ) ((u : ℝ) - t) (U - V)
  have h4 : |(u : ℝ) - t - (U - V)| ≤ |(u : ℝ) - U| + |(t : ℝ) - V| := by
    rw [show (u : ℝ) - t - (U - V) = (u - U) - (t - V) by ring]
    exact abs_sub _ _
  linarith

private theorem spread_close {p : ℕ} (hp : 8 ≤ p) {ex : ℚ → ℚ} (hxp : GoodExp p ex) (hex : ∀ x, 0 ≤ x → 1 ≤ ex x) {a : ℚ} {U y : ℝ}
    (hA : |(a : ℝ) - U| ≤ 598 / 10 * y) (hey' : 1 / 2 ^ p ≤ y / 16) :
    |((roundBits p (2 * roundBits p (ex (max a 0) - 1) / roundBits p (1 + ex (max a 0))) : ℚ) : ℝ) -
      2 * (Real.exp (max U 0) - 1) / (1 + Real.exp (max U 0))| ≤ 61 * y := by
  obtain ⟨he0, he⟩ := eps_real hp
  have hp1 : 1 ≤ p := by omega
  obtain ⟨e, hee⟩ : ∃ e : ℝ, e = 1 / 2 ^ p := ⟨_, rfl⟩
  rw [← hee] at he0 he hey'
  have hA' := max_near hA
  have hcm : ((max a 0 : ℚ) : ℝ) = max (a : ℝ) 0 := by push_cast; rfl
  rw [← hcm] at hA'
  have hα0 : 0 ≤ max a 0 := le_max_right _ _
  have hβ0 : 0 ≤ max U 0 := le_max_right _ _
  generalize max a 0 = α at *
  generalize max U 0 = β at *
  have hα0r : (0 : ℝ) ≤ α := by exact_mod_cast hα0
  have hE1 := hxp α
  have hE2 := hex α hα0
  have hE2r : (1 : ℝ) ≤ ex α := by exact_mod_cast hE2
  have r1 := round_real hp1 (ex α - 1)
  have r2 := round_real hp1 (1 + ex α)
  have r3 := round_real hp1 (2 * roundBits p (ex α - 1) / roundBits p (1 + ex α))
  rw [mul_div_assoc, div_eq_mul_one_div (Real.exp _), ← hee, ← mul_assoc] at hE1
  rw [← hee] at r1 r2 r3
  push_cast at r1 r2 r3
  have hfin := spread_steps he0 he (Real.one_le_exp hα0r) hE2r hE1 r1 r2 r3
  have hlip : |2 * (Real.exp α - 1) / (1 + Real.exp α) - 2 * (Real.exp β - 1) / (1 + Real.exp β)| ≤ |(α : ℝ) - β| := by
    rcases le_total β α with hc | hc
    · rw [abs_of_nonneg (show 0 ≤ (α : ℝ) - β by linarith)]
      exact spread_lipschitz hβ0 hc
    · rw [abs_sub_comm, abs_sub_comm (α : ℝ), abs_of_nonneg (show 0 ≤ β - (α : ℝ) by linarith)]
      exact spread_lipschitz hα0r hc
  have hle := abs_sub_le ((roundBits p (2 * roundBits p (ex α - 1) / roundBits p (1 + ex α)) : ℚ) : ℝ)
    (2 * (Real.exp α - 1) / (1 + Real.exp α)) (2 * (Real.exp β - 1) / (1 + Real.exp β))
  linarith

/-- Beta and gamma with and without rounding at a position past the first `w`. -/
theorem beta_gamma_near {p : ℕ} (hp : 8 ≤ p) {w : ℕ} (hw : 1 ≤ w) {lg : ℚ → ℚ} (hlg : GoodLog p lg) {H L : List ℚ} (h : Bars H L)
    {k : ℕ} (hi : k + 1 < H.length) (hwi : w ≤ k + 1) (hn : 24 * (k + 1 + 1) ≤ 2 ^ p) {T : ℚ} (hT0 : 0 ≤ T)
    (hT : ∀ j ≤ k + 1, |Real.log ((H.getD j 0 : ℝ) / L.getD j 0)| ≤ T)
    (hT2 : |Real.log (max (H.getD (k + 1 - 1) 0 : ℝ) (H.getD (k + 1) 0) / min (L.getD (k + 1 - 1) 0 : ℝ) (L.getD (k + 1) 0))| ≤ T) :
    ∃ (b' : ℚ) (b : ℝ) (g' : ℚ) (g : ℝ), (betaR (roundBits p) lg w (H.map .fin) (L.map .fin)).getD (k + 1) .nan = .fin b' ∧
      (betaR id Real.log w ((H.map .fin).map toReal) ((L.map .fin).map toReal)).getD (k + 1) .nan = .fin b ∧
      (gammaR (roundBits p) lg (H.map .fin) (L.map .fin)).getD (k + 1) .nan = .fin g' ∧
      (gammaR id Real.log ((H.map .fin).map toReal) ((L.map .fin).map toReal)).getD (k + 1) .nan = .fin g ∧
      |(b' : ℝ) - b| ≤ 182 * ((k + 1 : ℕ) + 1) * (1 + T) ^ 2 / 2 ^ p ∧ (0 ≤ b ∧ b ≤ 2 * (1 + (T : ℝ)) ^ 2) ∧ 0 ≤ g' ∧
      |(g' : ℝ) - g| ≤ 6 * (1 + (T : ℝ)) ^ 2 * (1 / 2 ^ p) ∧ |(g' : ℝ)| ≤ 103 / 100 * (1 + (T : ℝ)) ^ 2 ∧ 0 ≤ g ∧
      g ≤ (1 + (T : ℝ)) ^ 2 := by
  obtain ⟨he0, he⟩ := eps_real hp
  have hp1 : 1 ≤ p := by omega
  have hl := h.len
  have hT0' : (0 : ℝ) ≤ T := by exact_mod_cast hT0
  have hcol : ∀ (C : List ℚ) (j : ℕ), j < C.length → (C.map XF.fin).getD j .nan = .fin (C.getD j 0) := by
    intro C j hj
    rw [List.getD_eq_getElem _ _ (by simpa using hj), List.getElem_map, List.getD_eq_getElem _ _ hj]
  have hW : ∀ j ≤ k + 1, Within T ((H.map XF.fin).getD j .nan) ((L.map XF.fin).getD j .nan) := by
    intro j hj a b ha hb _
    rw [hcol H j (by omega)] at ha
    rw [hcol L j (by omega)] at hb
    cases ha
    cases hb
    exact hT j hj
  -- gamma
  have hpos : 0 < max H[k] H[k + 1] / min L[k] L[k + 1] :=
    div_pos (lt_max_of_lt_left (h.high _ (List.getElem_mem _)))
      (lt_min (h.low _ (List.getElem_mem _)) (h.low _ (List.getElem_mem _)))
  have hT2' : |Real.log (((max H[k] H[k + 1] : ℚ) : ℝ) / (min L[k] L[k + 1] : ℚ))| ≤ T := by
    rw [Nat.add_sub_cancel, List.getD_eq_getElem _ _ (by omega), List.getD_eq_getElem _ _ hi, List.getD_eq_getElem _ _ (by omega),
      List.getD_eq_getElem _ _ (by omega)] at hT2
    push_cast
    exact hT2
  have gR : (gammaR (roundBits p) lg (H.map .fin) (L.map .fin)).getD (k + 1) .nan =
      rangeR (roundBits p) lg (.fin (max H[k] H[k + 1])) (.fin (min L[k] L[k + 1])) := by
    rw [gammaR, zipWith_getD _ _ _ .nan .nan (by simp [rolling, hl]) (k + 1) (by simpa [rolling] using hi), roll_max H k hi,
      roll_min L k (by omega)]
  have gE : (gammaR id Real.log ((H.map .fin).map toReal) ((L.map .fin).map toReal)).getD (k + 1) .nan =
      rangeR id Real.log (toReal (.fin (max H[k] H[k + 1]))) (toReal (.fin (min L[k] L[k + 1]))) := by
    rw [gammaR, zipWith_getD _ _ _ .nan .nan (by simp [rolling, hl]) (k + 1) (by simpa [rolling] using hi), real_max H k hi,
      real_min L k (by omega)]
  obtain ⟨⟨-, g1⟩, g2⟩ := range_near hp hlg (x := .fin (max H[k] H[k + 1])) (y := .fin (min L[k] L[k + 1])) hT0'
    (by rintro a b ⟨⟩ ⟨⟩ _; exact hT2')
  have g3 := range_bound (x := .fin (max H[k] H[k + 1])) (y := .fin (min L[k] L[k + 1])) (T := T)
    (by rintro a b ⟨⟩ ⟨⟩ _; exact hT2') hT0'
  rw [range_real hpos] at g1 g3 gE
  rw [rangeR_usable (fun x hx => roundBits_pos p hp1 (q := x) hx) hpos] at g1 g2 gR
  have gn0 : 0 ≤ roundBits p (lg (roundBits p (max H[k] H[k + 1] / min L[k] L[k + 1])) *
      lg (roundBits p (max H[k] H[k + 1] / min L[k] L[k + 1]))) := roundBits_nonneg p hp1 (mul_self_nonneg _)
  generalize roundBits p (lg (roundBits p (max H[k] H[k + 1] / min L[k] L[k + 1])) *
      lg (roundBits p (max H[k] H[k + 1] / min L[k] L[k + 1]))) = g' at *
  have ge0 := mul_self_nonneg (Real.log (((max H[k] H[k + 1] : ℚ) : ℝ) / (min L[k] L[k + 1] : ℚ)))
  generalize Real.log (((max H[k] H[k + 1] : ℚ) : ℝ) / (min L[k] L[k + 1] : ℚ)) *
    Real.log (((max H[k] H[k + 1] : ℚ) : ℝ) / (min L[k] L[k + 1] : ℚ)) = g at *
  change |(g' : ℝ) - g| ≤ _ at g1
  change |(g' : ℝ)| ≤ _ at g2
  change |g| ≤ _ at g3
  rw [abs_of_nonneg ge0] at g3
  -- beta
  have hbE : betaR id Real.log w ((H.map .fin).map toReal) ((L.map .fin).map toReal) =
      rolling w winMean (rolling 2 winSum (List.zipWith (rangeR id Real.log) ((H.map .fin).map toReal) ((L.map .fin).map toReal))) := by
    rw [betaR, pairR, (C131_exact 2 (by norm_num) _).1, (C131_exact w hw _).2]
  have hlogR : logR Real.log = XF.log := by funext z; cases z <;> rfl
  have hgB : Feat.getBeta ((H.map .fin).map toReal) ((L.map .fin).map toReal) w =
      .ok (betaR id Real.log w ((H.map .fin).map toReal) ((L.map .fin).map toReal)) := by
    have hid : ∀ x : XF ℝ, rnd id x = x := fun x => by cases x <;> rfl
    have hE : ∀ (n : ℕ) (f : List ℝ → XF ℝ) (l : List (XF ℝ)), rollE (n : ℤ) f l = .ok (rolling n f l) := by
      intro n f l
      simp only [rollE, if_neg (show ¬ ((n : ℤ) < 0) by omega), Int.toNat_natCast]
    rw [Feat.getBeta, show (2 : ℤ) = ((2 : ℕ) : ℤ) from rfl, hE, Py.bind_ok, hE, hbE, List.map_zipWith]
    congr 4
    funext s t
    rw [rangeR, squareR, hid, hid, hlogR]
    rfl
  have hB := C137_beta p hp w hw lg hlg (H.map .fin) (L.map .fin) (by simpa using hl) (k + 1) (by simpa using hi) hn T hT0 hW _ hgB
  have hB' : ∃ b' b, (betaR (roundBits p) lg w (H.map .fin) (L.map .fin)).getD (k + 1) .nan = .fin b' ∧
      (betaR id Real.log w ((H.map .fin).map toReal) ((L.map .fin).map toReal)).getD (k + 1) .nan = .fin b ∧
      |(b' : ℝ) - b| ≤ 182 * ((k + 1 : ℕ) + 1) * (1 + T) ^ 2 / 2 ^ p := by
    obtain ⟨hnan, -⟩ | ⟨b', b, h1, h2, h3⟩ := hB
    · exfalso
      refine (C137_missing p hp1 w hw lg ?_ (H.map .fin) (L.map .fin) (by simpa using hl) (k + 1) (by simpa using hi)).2.1 hnan
        ⟨hwi, fun j _ hj => ?_⟩
      · have h2 := hlg 2 (by norm_num)
        push_cast at h2
        have h3 : 0 < Real.log 2 := Real.log_pos (by norm_num)
        rw [mul_div_right_comm, div_eq_mul_one_div 2, abs_of_pos h3, mul_assoc] at h2
        have h4 := mul_le_mul_of_nonneg_right he h3.le
        have h5 : (0 : ℝ) < lg 2 := by linarith [(abs_le.1 h2).1]
        exact_mod_cast h5
      · rw [hcol H j (by omega), hcol L j (by omega)]
        refine ⟨_, _, rfl, rfl, ?_⟩
        rw [List.getD_eq_getElem _ _ (by omega), List.getD_eq_getElem _ _ (by omega)]
        exact div_pos (h.high _ (List.getElem_mem _)) (h.low _ (List.getElem_mem _))
    · exact ⟨b', b, h1, h2, h3⟩
  obtain ⟨b', b, hb', hb, hbb⟩ := hB'
  have hZ : (0 : ℝ) ≤ (1 + (T : ℝ)) ^ 2 := by positivity
  have hbet : 0 ≤ b ∧ b ≤ 2 * (1 + (T : ℝ)) ^ 2 := by
    rw [hbE] at hb
    refine roll_mean_between hw (by simp [rolling]; omega) (fun j hj => ?_) hb
    have := roll_sum_between (w := 2) (M := (1 + (T : ℝ)) ^ 2) hZ
      (l := List.zipWith (rangeR id Real.log) ((H.map .fin).map toReal) ((L.map .fin).map toReal)) (i := j) (by simp; omega) ?_
    · exact_mod_cast this
    · intro m hm
      rw [zip_real_getD _ _ (by simpa using hl) m (by simp; omega)]
      have h1 := range_bound (hW m (by omega)) hT0'
      refine ⟨?_, (le_abs_self _).trans h1⟩
      rw [rangeR, squareR]
      cases logR Real.log (rnd id (XF.div (toReal ((H.map XF.fin).getD m .nan)) (toReal ((L.map XF.fin).getD m .nan)))) with
      | fin t => exact mul_self_nonneg t
      | _ => simp [XF.mul, rnd, XF.toK]
  exact ⟨b', b, g', g, hb', hb, gR, gE, hbb, hbet, gn0, g1, g2, ge0, g3⟩

/-- C137: with positive prices the Corwin-Schultz spread in floating point is missing only where beta has become negative; otherwise
it is off by at most `61 (1 + T) √((i+1) / 2^p)` at position `i`, where `T` bounds the logarithms of the bars so far and of the last
two bars taken together. -/
theorem C137_spread (p : ℕ) (hp : 8 ≤ p) (w : ℕ) (hw : 1 ≤ w) (lg sq ex : ℚ → ℚ) (hlg : GoodLog p lg) (hsq : GoodSqrt p sq)
    (hxp : GoodExp p ex) (hex : ∀ x, 0 ≤ x → 1 ≤ ex x) (H L : List ℚ) (h : Bars H L) (i : ℕ) (hi : i < H.length) (hwi : w ≤ i)
    (hn : 24 * (i + 1) ≤ 2 ^ p) (T : ℚ) (hT0 : 0 ≤ T) (hT : ∀ j ≤ i, |Real.log ((H.getD j 0 : ℝ) / L.getD j 0)| ≤ T)
    (hT2 : |Real.log (max (H.getD (i - 1) 0 : ℝ) (H.getD i 0) / min (L.getD (i - 1) 0 : ℝ) (L.getD i 0))| ≤ T)
    (high low : String) (f : Frame ℝ) (hx : f.col high = .ok ((H.map .fin).map toReal))
    (hy : f.col low = .ok ((L.map .fin).map toReal)) (out : List (XF ℝ)) (ho : Feat.corwinSchultz w high low f = .ok out) :
    ((corwinSchultzR (roundBits p) lg sq ex w (H.map .fin) (L.map .fin)).getD i .nan = .nan ∧
      ∃ b, (betaR (roundBits p) lg w (H.map .fin) (L.map .fin)).getD i .nan = .fin b ∧ b < 0) ∨
    ∃ q s, (corwinSchultzR (roundBits p) lg sq ex w (H.map .fin) (L.map .fin)).getD i .nan = .fin q ∧ out.getD i .nan = .fin s ∧
      |(q : ℝ) - s| ≤ 61 * (1 + T) * √((i + 1) / 2 ^ p) := by
  obtain ⟨he0, he⟩ := eps_real hp
  have hp1 : 1 ≤ p := by omega
  have hl := h.len
  obtain ⟨hdn, hd⟩ := den_pos hp hsq
  obtain ⟨k, rfl⟩ : ∃ k, i = k + 1 := ⟨i - 1, by omega⟩
  have hT0' : (0 : ℝ) ≤ T := by exact_mod_cast hT0
  -- exact
  have hEx := (C137_exact w hw high low f _ _ hx hy).2.1 out ho
  have hlen : ∀ (K : Type) [Field K] [LinearOrder K] (r lg : K → K) (x y : List (XF K)), x.length = y.length →
      (betaR r lg w x y).length = x.length ∧ (gammaR r lg x y).length = x.length := by
    intro K _ _ r lg x y hxy
    simp [betaR, pairR, gammaR, rollMean, rollSum, rolling, hxy]
  obtain ⟨lb, lg1⟩ := hlen ℚ (roundBits p) lg (H.map .fin) (L.map .fin) (by simpa using hl)
  obtain ⟨lb', lg1'⟩ := hlen ℝ id Real.log ((H.map .fin).map toReal) ((L.map .fin).map toReal) (by simpa using hl)
  have eR : (corwinSchultzR (roundBits p) lg sq ex w (H.map .fin) (L.map .fin)).getD (k + 1) .nan =
      spreadR (roundBits p) ex (alphaR (roundBits p) sq ((betaR (roundBits p) lg w (H.map .fin) (L.map .fin)).getD (k + 1) .nan)
        ((gammaR (roundBits p) lg (H.map .fin) (L.map .fin)).getD (k + 1) .nan)) := by
    rw [List.length_map] at lb lg1
    rw [corwinSchultzR, List.getD_eq_getElem _ _ (by simp; omega), List.getElem_map, ← List.getD_eq_getElem _ .nan,
      zipWith_getD _ _ _ .nan .nan (by omega) (k + 1) (by omega)]
  have eE : out.getD (k + 1) .nan = spreadR id Real.exp (alphaR id Real.sqrt
      ((betaR id Real.log w ((H.map .fin).map toReal) ((L.map .fin).map toReal)).getD (k + 1) .nan)
      ((gammaR id Real.log ((H.map .fin).map toReal) ((L.map .fin).map toReal)).getD (k + 1) .nan)) := by
    rw [List.length_map (f := toReal), List.length_map] at lb' lg1'
    rw [hEx, corwinSchultzR, List.getD_eq_getElem _ _ (by simp only [List.length_map, List.length_zipWith]; omega), List.getElem_map, ← List.getD_eq_getElem _ .nan,
      zipWith_getD _ _ _ .nan .nan (by omega) (k + 1) (by omega)]
  obtain ⟨b', b, g', g, hb', hb, gR, gE, hbb, hbet, gn0, g1, g2, ge0, g3⟩ :=
    beta_gamma_near hp hw hlg h hi hwi hn hT0 hT hT2
  rw [eR, eE, hb', hb, gR, gE, alpha_val hp1 hd gn0]
  by_cases hneg : b' < 0
  · exact .inl ⟨by rw [if_pos hneg]; rfl, b', rfl, hneg⟩
  right
  rw [if_neg hneg]
  have hb0' : 0 ≤ b' := not_lt.1 hneg
  rw [alpha_exact hbet.1 ge0, spread_exact, (spread_fin (by omega) (hex _ (le_max_right _ _))).1]
  refine ⟨_, _, rfl, rfl, ?_⟩
  have hz1 : 1 ≤ 1 + (T : ℝ) := by linarith
  have hn1 : (1 : ℝ) ≤ ((k + 1 : ℕ) : ℝ) + 1 := by push_cast; linarith [(Nat.cast_nonneg k : (0 : ℝ) ≤ k)]
  have hne : 24 * ((((k + 1 : ℕ) : ℝ) + 1) * (1 / 2 ^ p)) ≤ 1 := by
    rw [mul_one_div, ← mul_div_assoc, div_le_one (by positivity)]
    exact_mod_cast hn
  have hA := alpha_close hp hsq rfl rfl hn1 hne hz1 hb0' gn0 hbet ge0 g3 hbb g1 g2
  rw [mul_one_div] at hA
  refine (spread_close hp hxp hex hA ?_).trans (le_of_eq (by ring))
  have := small_unit he0 he hn1
  have h2 := mul_le_mul_of_nonneg_right hz1 (Real.sqrt_nonneg ((((k + 1 : ℕ) : ℝ) + 1) * (1 / 2 ^ p)))
  rw [mul_one_div] at this h2
  linarith

private theorem real_col (C : List ℚ) : (C.map XF.fin).map toReal = (C.map fun x : ℚ => (x : ℝ)).map XF.fin := by
  rw [List.map_map, List.map_map]
  rfl

private theorem lambda_near {p : ℕ} (hp : 8 ≤ p) {w : ℕ} (hw : 1 ≤ w) {lg : ℚ → ℚ} (hlg : GoodLog p lg) {C V' : List ℚ} {V : List ℝ}
    (hC : ∀ x ∈ C, 0 < x) (hl' : V'.length = C.length) (hl : V.length = C.length) {i : ℕ} (hi : i < C.length)
    (hn : 24 * (i + 1) ≤ 2 ^ p) {T μ : ℚ} (hT0 : 0 ≤ T) (hT : ∀ j ≤ i, |Real.log (C.getD j 0)| ≤ T) (hμ : 0 < μ)
    (hV0 : ∀ x ∈ V', 0 < x) (hV : ∀ j ≤ i, μ ≤ V.getD j 0 ∧ |(V'.getD j 0 : ℝ) - V.getD j 0| ≤ V.getD j 0 * (1 / 2 ^ p)) :
    NearR (66 * (i + 1) * T / (μ * 2 ^ p))
      ((rollMean (roundBits p) w (List.zipWith (fun a b => rnd (roundBits p) (XF.div a b)) (logMovesR (roundBits p) lg (C.map .fin))
        (V'.map .fin))).getD i .nan)
      ((rollMean id w (List.zipWith (fun a b => rnd id (XF.div a b)) (logMovesR id Real.log ((C.map .fin).map toReal))
        (V.map .fin))).getD i .nan) ∧
    ((rollMean (roundBits p) w (List.zipWith (fun a b => rnd (roundBits p) (XF.div a b)) (logMovesR (roundBits p) lg (C.map .fin))
        (V'.map .fin))).getD i .nan = .nan ↔ i < w) := by
  obtain ⟨he0, he⟩ := eps_real hp
  have hp1 : 1 ≤ p := by omega
  have hT0' : (0 : ℝ) ≤ T := by exact_mod_cast hT0
  have hμ' : (0 : ℝ) < μ := by exact_mod_cast hμ
  have lm : ∀ (K : Type) [Field K] [LinearOrder K] (r lg : K → K) (x : List (XF K)), (logMovesR r lg x).length = x.length := by
    intro K _ _ r lg x
    simp [logMovesR, diffR, pdDiff, pdShift]
  have hcolQ : ∀ (D : List ℚ) (j : ℕ), j < D.length → (D.map XF.fin).getD j .nan = .fin (D.getD j 0) := by
    intro D j hj
    rw [List.getD_eq_getElem _ _ (by simpa using hj), List.getElem_map, List.getD_eq_getElem _ _ hj]
  have hcolR : ∀ (D : List ℝ) (j : ℕ), j < D.length → (D.map XF.fin).getD j .nan = .fin (D.getD j 0) := by
    intro D j hj
    rw [List.getD_eq_getElem _ _ (by simpa using hj), List.getElem_map, List.getD_eq_getElem _ _ hj]
  have hcast : ∀ j, j < C.length → (C.map fun x : ℚ => (x : ℝ)).getD j 0 = (C.getD j 0 : ℝ) := by
    intro j hj
    rw [List.getD_eq_getElem _ _ (by simpa using hj), List.getElem_map, List.getD_eq_getElem _ _ hj]
  have hVp : ∀ j, j < C.length → 0 < V'.getD j 0 := by
    intro j hj
    rw [List.getD_eq_getElem _ _ (by omega)]
    exact hV0 _ (List.getElem_mem _)
  have eQ : ∀ j, j < C.length → (List.zipWith (fun a b => rnd (roundBits p) (XF.div a b)) (logMovesR (roundBits p) lg (C.map .fin))
      (V'.map .fin)).getD j .nan = if j = 0 then .nan else
        .fin (roundBits p (|roundBits p (lg (C.getD j 0) - lg (C.getD (j - 1) 0))| / V'.getD j 0)) := by
    intro j hj
    rw [zipWith_getD _ _ _ .nan .nan (by rw [lm]; simp [hl']) j (by rw [lm]; simpa using hj), logMoves_getD _ _ C hC j hj,
      hcolQ V' j (by omega)]
    by_cases h0 : j = 0
    · rw [if_pos h0, if_pos h0]; rfl
    · rw [if_neg h0, if_neg h0, XF.div, if_neg (hVp j hj).ne', rnd]
  have eR : ∀ j ≤ i, (List.zipWith (fun a b => rnd id (XF.div a b)) (logMovesR id Real.log ((C.map .fin).map toReal))
      (V.map .fin)).getD j .nan = if j = 0 then .nan else
        .fin (|Real.log (C.getD j 0) - Real.log (C.getD (j - 1) 0)| / V.getD j 0) := by
    intro j hj
    rw [real_col, zipWith_getD _ _ _ .nan .nan (by rw [lm]; simp [hl]) j (by rw [lm]; simp; omega),
      logMoves_getD _ _ _ (by intro x hx; obtain ⟨y, hy, rfl⟩ := List.mem_map.1 hx; exact_mod_cast hC y hy) j (by simp; omega),
      hcolR V j (by omega), hcast j (by omega), hcast (j - 1) (by omega)]
    by_cases h0 : j = 0
    · rw [if_pos h0, if_pos h0]; rfl
    · rw [if_neg h0, if_neg h0, XF.div, if_neg (hμ'.trans_le (hV j hj).1).ne', rnd]
      rfl
  have hE : ∀ j ≤ i, j ≠ 0 →
      |((roundBits p (|roundBits p (lg (C.getD j 0) - lg (C.getD (j - 1) 0))| / V'.getD j 0) : ℚ) : ℝ) -
        |Real.log (C.getD j 0) - Real.log (C.getD (j - 1) 0)| / V.getD j 0| ≤ 11 * T / μ * (1 / 2 ^ p) ∧
      |((roundBits p (|roundBits p (lg (C.getD j 0) - lg (C.getD (j - 1) 0))| / V'.getD j 0) : ℚ) : ℝ)| ≤ 21 / 10 * (T / μ) := by
    intro j hj h0
    have hG : ∀ m, m ≤ i → |(lg (C.getD m 0) : ℝ) - Real.log (C.getD m 0)| ≤ 2 * T * (1 / 2 ^ p) := by
      intro m hm
      have hpos : 0 < C.getD m 0 := by
        rw [List.getD_eq_getElem _ _ (by omega)]
        exact hC _ (List.getElem_mem _)
      refine (hlg _ hpos).trans ?_
      rw [div_eq_mul_one_div]
      exact mul_le_mul_of_nonneg_right (mul_le_mul_of_nonneg_left (hT m hm) (by norm_num)) he0.le
    have r1 := round_real hp1 (lg (C.getD j 0) - lg (C.getD (j - 1) 0))
    have r2 := round_real hp1 (|roundBits p (lg (C.getD j 0) - lg (C.getD (j - 1) 0))| / V'.getD j 0)
    rw [Rat.cast_sub] at r1
    rw [Rat.cast_div, Rat.cast_abs] at r2
    exact entry_near he0 he hT0' hμ' (hT j hj) (hT (j - 1) (by omega)) (hG j hj) (hG (j - 1) (by omega)) r1 (hV j hj).1 (hV j hj).2 r2
  constructor
  · rw [(C131_exact w hw _).2]
    have := mean_near hp hw (η := 11 * T / μ * (1 / 2 ^ p)) (M := 21 / 10 * (T / μ)) (i := i)
      (A := List.zipWith (fun a b => rnd (roundBits p) (XF.div a b)) (logMovesR (roundBits p) lg (C.map .fin)) (V'.map .fin))
      (B := List.zipWith (fun a b => rnd id (XF.div a b)) (logMovesR id Real.log ((C.map .fin).map toReal)) (V.map .fin))
      (by simp [lm, hl, hl']) (by simp [lm, hl']; omega) ?_ ?_ hn
    · obtain h1 | ⟨a, b, h1, h2, h3⟩ := this
      · exact .inl h1
      · refine .inr ⟨a, b, h1, h2, h3.trans ?_⟩
        push_cast
        have e1 : 26 * ((i : ℝ) + 1) * (21 / 10 * (T / μ)) / 2 ^ p + 11 * T / μ * (1 / 2 ^ p) =
            (546 / 10 * (i + 1) + 11) * (T / μ * (1 / 2 ^ p)) := by ring
        have e2 : 66 * ((i : ℝ) + 1) * T / (μ * 2 ^ p) = 66 * (i + 1) * (T / μ * (1 / 2 ^ p)) := by
          rw [mul_one_div, div_div, mul_div_assoc]
        rw [e1, e2]
        refine mul_le_mul_of_nonneg_right ?_ (by positivity)
        have : (0 : ℝ) ≤ i := Nat.cast_nonneg i
        linarith
    · intro j hj
      rw [eQ j (by omega), eR j hj]
      by_cases h0 : j = 0
      · rw [if_pos h0, if_pos h0]
        exact ⟨rfl, by simp only [XF.toK, Rat.cast_zero, sub_zero, abs_zero]; positivity⟩
      · rw [if_neg h0, if_neg h0]
        exact ⟨rfl, (hE j hj h0).1⟩
    · intro j hj
      rw [eQ j (by omega)]
      by_cases h0 : j = 0
      · rw [if_pos h0]
        change |(0 : ℚ)| ≤ _
        rw [abs_zero]
        positivity
      · rw [if_neg h0]
        have := (hE j hj h0).2
        rw [← Rat.cast_le (K := ℝ), Rat.cast_abs]
        push_cast
        exact this
  · rw [rollMean_missing _ hw _ i (by simp [lm, hl']; omega)]
    constructor
    · intro h
      by_contra hc
      refine h ⟨by omega, fun j h1 h2 => ?_⟩
      rw [eQ j (by omega), if_neg (by omega)]
      rfl
    · rintro h ⟨h1, h2⟩
      have := h2 0 (by omega) (Nat.zero_le _)
      rw [eQ 0 (by omega), if_pos rfl] at this
      simp [XF.undef, XF.isNan] at this

/-- C137: with positive closes whose logarithms are at most `T` in absolute value and volumes of at least `μ`, Amihud's lambda in
floating point is off by at most `66 (i+1) T / (μ 2^p)` at position `i`; with volumes whose square roots are at least `μ` so is
Hasbrouck's lambda.  Both are missing in exactly the first `w` positions. -/
theorem C137_lambda (p : ℕ) (hp : 8 ≤ p) (w : ℕ) (hw : 1 ≤ w) (lg sq : ℚ → ℚ) (hlg : GoodLog p lg) (hsq : GoodSqrt p sq)
    (C V : List ℚ) (h : Bars C V) (i : ℕ) (hi : i < C.length) (hn : 24 * (i + 1) ≤ 2 ^ p) (T μ : ℚ) (hT0 : 0 ≤ T)
    (hT : ∀ j ≤ i, |Real.log (C.getD j 0)| ≤ T) (hμ : 0 < μ) (close volume : String) (f : Frame ℝ)
    (hx : f.col close = .ok ((C.map .fin).map toReal)) (hy : f.col volume = .ok ((V.map .fin).map toReal)) (out : List (XF ℝ)) :
    (Feat.amihud w close volume f = .ok out → (∀ j ≤ i, μ ≤ V.getD j 0) →
      NearR (66 * (i + 1) * T / (μ * 2 ^ p)) ((amihudR (roundBits p) lg w (C.map .fin) (V.map .fin)).getD i .nan) (out.getD i .nan) ∧
      ((amihudR (roundBits p) lg w (C.map .fin) (V.map .fin)).getD i .nan = .nan ↔ i < w)) ∧
    (Feat.hasbrouck w close volume f = .ok out → (∀ j ≤ i, (μ : ℝ) ≤ √(V.getD j 0)) →
      NearR (66 * (i + 1) * T / (μ * 2 ^ p)) ((hasbrouckR (roundBits p) lg sq w (C.map .fin) (V.map .fin)).getD i .nan)
        (out.getD i .nan) ∧
      ((hasbrouckR (roundBits p) lg sq w (C.map .fin) (V.map .fin)).getD i .nan = .nan ↔ i < w)) := by
  obtain ⟨he0, he⟩ := eps_real hp
  have hE := C137_exact w hw close volume f _ _ hx hy
  have hl := h.len
  have hVj : ∀ j, j < C.length → 0 < V.getD j 0 := by
    intro j hj
    rw [List.getD_eq_getElem _ _ (by omega)]
    exact h.low _ (List.getElem_mem _)
  constructor
  · intro ho hV
    rw [hE.2.2.2.1 out ho, amihudR, amihudR, real_col V]
    refine lambda_near hp hw hlg h.high hl.symm (by simpa using hl.symm) hi hn hT0 hT hμ h.low fun j hj => ?_
    have hVc : (V.map fun x : ℚ => (x : ℝ)).getD j 0 = (V.getD j 0 : ℝ) := by
      rw [List.getD_eq_getElem _ _ (by simp; omega), List.getElem_map, List.getD_eq_getElem _ _ (by omega)]
    rw [hVc]
    refine ⟨by exact_mod_cast hV j hj, ?_⟩
    rw [sub_self, abs_zero]
    have : (0 : ℝ) < V.getD j 0 := by exact_mod_cast hVj j (by omega)
    positivity
  · intro ho hV
    have hpos : ∀ x : ℚ, 0 < x → 0 < sq x := by
      intro x hx
      have h1 := hsq x hx.le
      have h2 : 0 < √(x : ℝ) := Real.sqrt_pos.2 (by exact_mod_cast hx)
      rw [div_eq_mul_one_div] at h1
      have h3 := mul_le_mul_of_nonneg_left he h2.le
      have : (0 : ℝ) < sq x := by linarith [(abs_le.1 h1).1]
      exact_mod_cast this
    have e1 : (V.map XF.fin).map (sqrtR sq) = (V.map sq).map XF.fin := by
      rw [List.map_map, List.map_map]
      refine List.map_congr_left fun x hx => ?_
      simp only [Function.comp, sqrtR, if_neg (not_lt.2 (h.low x hx).le)]
    have e2 : ((V.map XF.fin).map toReal).map (sqrtR Real.sqrt) = (V.map fun x : ℚ => √(x : ℝ)).map XF.fin := by
      rw [List.map_map, List.map_map, List.map_map]
      refine List.map_congr_left fun x hx => ?_
      have hx' : (0 : ℝ) ≤ x := by exact_mod_cast (h.low x hx).le
      simp only [Function.comp, toReal, sqrtR, if_neg (not_lt.2 hx')]
    rw [hE.2.2.2.2 out ho, hasbrouckR, hasbrouckR, e1, e2]
    refine lambda_near hp hw hlg h.high (by simpa using hl.symm) (by simpa using hl.symm) hi hn hT0 hT hμ ?_ fun j hj => ?_
    · intro x hx
      obtain ⟨v, hv, rfl⟩ := List.mem_map.1 hx
      exact hpos v (h.low v hv)
    · have hVc : (V.map fun x : ℚ => √(x : ℝ)).getD j 0 = √(V.getD j 0 : ℝ) := by
        rw [List.getD_eq_getElem _ _ (by simp; omega), List.getElem_map, List.getD_eq_getElem _ _ (by omega)]
      have hVs : (V.map sq).getD j 0 = sq (V.getD j 0) := by
        rw [List.getD_eq_getElem _ _ (by simp; omega), List.getElem_map, List.getD_eq_getElem _ _ (by omega)]
      rw [hVc, hVs, ← div_eq_mul_one_div]
      exact ⟨hV j hj, hsq _ (hVj j (by omega)).le⟩

end Mizar.Props
