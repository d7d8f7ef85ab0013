import Verif.Model.RoundedBet
import Verif.Lemmas.BetSizing
import Verif.Lemmas.RoundedCusum

/-!
Lemmas about bet sizing with rounding.
-/

namespace Mizar.Rd
open Mizar.Bet

theorem round_le {p : ℕ} (hp : 1 ≤ p) {x b : ℚ} (hb : IsFloat p b) (h : x ≤ b) : roundBits p x ≤ b := by
  rw [← roundBits_eq_self p hp hb]; exact roundBits_mono p hp h

theorem le_round {p : ℕ} (hp : 1 ≤ p) {x b : ℚ} (hb : IsFloat p b) (h : b ≤ x) : b ≤ roundBits p x := by
  rw [← roundBits_eq_self p hp hb]; exact roundBits_mono p hp h

theorem isFloat_one {p : ℕ} (hp : 1 ≤ p) : IsFloat p 1 :=
  ⟨1, 0, by rw [abs_one]; exact one_lt_pow₀ (by norm_num) (by omega), by norm_num⟩

theorem isFloat_neg {p : ℕ} {x : ℚ} (h : IsFloat p x) : IsFloat p (-x) := by
  obtain ⟨m, e, h1, h2⟩ := h
  exact ⟨-m, e, by rwa [abs_neg], by rw [h2]; push_cast; ring⟩

theorem isFloat_half {p : ℕ} (hp : 1 ≤ p) : IsFloat p (1 / 2) :=
  ⟨1, -1, by rw [abs_one]; exact one_lt_pow₀ (by norm_num) (by omega), by norm_num⟩

theorem isFloat_two {p : ℕ} (hp : 1 ≤ p) : IsFloat p 2 :=
  ⟨1, 1, by rw [abs_one]; exact one_lt_pow₀ (by norm_num) (by omega), by norm_num⟩

theorem isFloat_zero {p : ℕ} : IsFloat p 0 := ⟨0, 0, by simp, by simp⟩

theorem round_abs_le_one {p : ℕ} (hp : 1 ≤ p) {x : ℚ} (h : |x| ≤ 1) : |roundBits p x| ≤ 1 := by
  rw [abs_le] at h ⊢
  exact ⟨le_round hp (isFloat_neg (isFloat_one hp)) h.1, round_le hp (isFloat_one hp) h.2⟩

/-- `1 - x` is exact for `x` in `[1/2, 1]`. -/
theorem isFloat_one_sub_half {p : ℕ} (hp : 1 ≤ p) {x : ℚ} (h : IsFloat p x) (h1 : 1 / 2 ≤ x) (h2 : x ≤ 1) : IsFloat p (1 - x) := by
  rcases h2.eq_or_lt with e | h2
  · rw [e, sub_self]; exact isFloat_zero
  obtain ⟨m, e, m1, m2, rfl⟩ := normalise p hp (by linarith) h
  have he := two_zpow_pos e
  have hm1 : (2 : ℚ) ^ (p - 1) ≤ m := by exact_mod_cast m1
  have hm2 : (m : ℚ) < 2 ^ p := by exact_mod_cast m2
  have hpp : (2 : ℚ) ^ p = 2 * 2 ^ (p - 1) := by rw [← pow_succ', Nat.sub_add_cancel hp]
  have u1 : (2 : ℚ) ^ ((p : ℤ) - 1 + e) < 2 ^ (0 : ℤ) := by
    rw [zpow_add₀ (by norm_num), show ((p : ℤ) - 1) = ((p - 1 : ℕ) : ℤ) by omega, zpow_natCast, zpow_zero]
    exact lt_of_le_of_lt (mul_le_mul_of_nonneg_right hm1 he.le) h2
  have u2 : (2 : ℚ) ^ (-1 : ℤ) < 2 ^ ((p : ℤ) + e) := by
    rw [zpow_add₀ (by norm_num), zpow_natCast]
    refine lt_of_le_of_lt ?_ (mul_lt_mul_of_pos_right hm2 he)
    norm_num
    linarith
  have v1 := (zpow_lt_zpow_iff_right₀ (by norm_num : (1 : ℚ) < 2)).1 u1
  have v2 := (zpow_lt_zpow_iff_right₀ (by norm_num : (1 : ℚ) < 2)).1 u2
  have ee : e = -(p : ℤ) := by omega
  refine ⟨2 ^ p - m, e, ?_, ?_⟩
  · rw [abs_of_nonneg (by omega)]
    have : (0 : ℤ) < 2 ^ (p - 1) := by positivity
    omega
  · rw [ee]
    push_cast
    rw [sub_mul, zpow_neg, zpow_natCast, mul_inv_cancel₀ (by positivity)]

/-- What is assumed of the library functions: `norm.cdf` is a probability (also at the infinities), `** 0.5` is positive for
positive numbers and 0 at 0. -/
structure BetFnOk (F : BetFn) : Prop where
  cdf_range : ∀ x, x ≠ .nan → ∃ c : ℚ, F.cdf x = .fin c ∧ 0 ≤ c ∧ c ≤ 1
  root_pos : ∀ x : ℚ, 0 < x → ∃ y : ℚ, F.root (.fin x) = .fin y ∧ 0 < y
  root_zero : F.root (.fin 0) = .fin 0

theorem round_inv_pos {p : ℕ} (hp : 1 ≤ p) {n : ℕ} (hn : 2 ≤ n) :
    0 < roundBits p (1 / (n : ℚ)) ∧ roundBits p (1 / (n : ℚ)) ≤ 1 / 2 := by
  have h2 : (2 : ℚ) ≤ n := by exact_mod_cast hn
  refine ⟨roundBits_pos p hp (by positivity), round_le hp (isFloat_half hp) ?_⟩
  exact one_div_le_one_div_of_le (by norm_num) h2

/-- The three cases of the test statistic. -/
theorem betZ_cases {p : ℕ} (hp : 1 ≤ p) {F : BetFn} (hF : BetFnOk F) {n : ℕ} (hn : 2 ≤ n) {x : ℚ} (h0 : 0 ≤ x) (h1 : x ≤ 1) :
    (x = 0 ∧ betZ (roundBits p) F n (.fin x) = .ninf) ∨ (x = 1 ∧ betZ (roundBits p) F n (.fin x) = .pinf) ∨
    (0 < x ∧ x < 1 ∧ ∃ y, 0 < y ∧ F.root (.fin (roundBits p (x * roundBits p (1 - x)))) = .fin y ∧
      betZ (roundBits p) F n (.fin x) = .fin (roundBits p (roundBits p (x - roundBits p (1 / (n : ℚ))) / y))) := by
  obtain ⟨i0, i1⟩ := round_inv_pos (p := p) hp hn
  rcases h0.eq_or_lt with e | h0
  · left
    refine ⟨e.symm, ?_⟩
    subst e
    unfold betZ
    simp only [XF.sub_fin, rx, XF.mul_fin, zero_mul, roundBits_zero, hF.root_zero, zero_sub, roundBits_neg]
    have : 0 < roundBits p (roundBits p (1 / (n : ℚ))) := roundBits_pos p hp i0
    have h2 : ¬ 0 < -roundBits p (roundBits p (1 / (n : ℚ))) := by linarith
    have h3 : -roundBits p (roundBits p (1 / (n : ℚ))) < 0 := by linarith
    simp only [XF.div, XF.infSign, if_true]
    rw [if_neg h2, if_pos h3]
  · rcases h1.eq_or_lt with e | h1
    · right; left
      refine ⟨e, ?_⟩
      subst e
      unfold betZ
      simp only [XF.sub_fin, rx, XF.mul_fin, sub_self, mul_zero, roundBits_zero, hF.root_zero]
      have : 0 < roundBits p (1 - roundBits p (1 / (n : ℚ))) := roundBits_pos p hp (by linarith)
      simp only [XF.div, XF.infSign, if_true]
      rw [if_pos this]
    · right; right
      have h2 : 0 < roundBits p (1 - x) := roundBits_pos p hp (by linarith)
      obtain ⟨y, hy, hy0⟩ := hF.root_pos _ (roundBits_pos p hp (mul_pos h0 h2))
      refine ⟨h0, h1, y, hy0, hy, ?_⟩
      unfold betZ
      simp only [XF.sub_fin, rx, XF.mul_fin, hy]
      rw [XF.div_fin _ _ hy0.ne']

/-- The confidence of one row. -/
theorem cdf_betZ {p : ℕ} (hp : 1 ≤ p) {F : BetFn} (hF : BetFnOk F) {n : ℕ} (hn : 2 ≤ n) {x : ℚ} (h0 : 0 ≤ x) (h1 : x ≤ 1) :
    ∃ c : ℚ, F.cdf (betZ (roundBits p) F n (.fin x)) = .fin c ∧ 0 ≤ c ∧ c ≤ 1 := by
  apply hF.cdf_range
  rcases betZ_cases hp hF hn h0 h1 with ⟨_, e⟩ | ⟨_, e⟩ | ⟨_, _, y, _, _, e⟩ <;> rw [e] <;> simp

theorem conf_range {p : ℕ} (hp : 1 ≤ p) {c : ℚ} (h0 : 0 ≤ c) (h1 : c ≤ 1) : |roundBits p (roundBits p (2 * c) - 1)| ≤ 1 := by
  apply round_abs_le_one hp
  have a := le_round hp (isFloat_zero (p := p)) (show (0 : ℚ) ≤ 2 * c by linarith)
  have b := round_le hp (isFloat_two hp) (show 2 * c ≤ 2 by linarith)
  rw [abs_le]
  constructor <;> linarith

theorem betSignal_fin {p : ℕ} {F : BetFn} {n : ℕ} {x c : ℚ} (y : ℚ)
    (h : F.cdf (betZ (roundBits p) F n (.fin x)) = .fin c) :
    betSignal (roundBits p) F n (.fin y) (.fin x) = .fin (roundBits p (y * roundBits p (roundBits p (2 * c) - 1))) := by
  unfold betSignal
  rw [h]
  simp [rx]

/-- Sequential summation with rounding: range and error. -/
theorem foldl_round {p : ℕ} (hp : 1 ≤ p) (l : List ℚ) (hl : ∀ x ∈ l, |x| ≤ 1) : ∀ (s : ℚ) (k : ℕ), |s| ≤ k →
    k + l.length < 2 ^ p →
    ∃ t : ℚ, (l.map XF.fin).foldl (fun s x => rx (roundBits p) (XF.add s x)) (.fin s) = .fin t ∧
      |t| ≤ k + l.length ∧ |t - (s + l.sum)| ≤ l.length * ((k + l.length : ℕ) : ℚ) / 2 ^ p := by
  induction l with
  | nil => intro s k h _; exact ⟨s, rfl, by simpa using h, by simp⟩
  | cons x l ih =>
    intro s k hs hk
    rw [List.length_cons] at hk
    have hx := hl x (List.mem_cons_self)
    have hsx : |s + x| ≤ ((k + 1 : ℕ) : ℚ) := by
      have := abs_add_le s x
      push_cast
      linarith
    have hfl : IsFloat p ((k + 1 : ℕ) : ℚ) := by
      have := isFloat_int p ((k + 1 : ℕ) : ℤ) (by
        rw [abs_of_nonneg (by positivity)]
        have : k + 1 < 2 ^ p := by omega
        exact_mod_cast this)
      exact_mod_cast this
    have h1 : |roundBits p (s + x)| ≤ ((k + 1 : ℕ) : ℚ) := by
      rw [abs_le] at hsx ⊢
      exact ⟨le_round hp (isFloat_neg hfl) hsx.1, round_le hp hfl hsx.2⟩
    obtain ⟨t, e, h2, h3⟩ := ih (fun y hy => hl y (List.mem_cons_of_mem _ hy)) (roundBits p (s + x)) (k + 1) h1 (by omega)
    refine ⟨t, ?_, ?_, ?_⟩
    · rw [List.map_cons, List.foldl_cons]
      exact e
    · rw [List.length_cons]; push_cast at h2 ⊢; linarith
    · have h4 := roundBits_error p hp (s + x)
      have h5 : |s + x| / 2 ^ p ≤ ((k + (x :: l).length : ℕ) : ℚ) / 2 ^ p := by
        apply div_le_div_of_nonneg_right _ (by positivity)
        refine hsx.trans ?_
        rw [List.length_cons]; push_cast
        have : (0 : ℚ) ≤ l.length := by positivity
        linarith
      have h6 : t - (s + (x :: l).sum) = (t - (roundBits p (s + x) + l.sum)) + (roundBits p (s + x) - (s + x)) := by
        rw [List.sum_cons]; ring
      rw [h6]
      refine (abs_add_le _ _).trans ?_
      have h7 : ((x :: l).length : ℚ) * ((k + (x :: l).length : ℕ) : ℚ) / 2 ^ p =
          (l.length : ℚ) * ((k + 1 + l.length : ℕ) : ℚ) / 2 ^ p + ((k + (x :: l).length : ℕ) : ℚ) / 2 ^ p := by
        rw [List.length_cons]; push_cast; ring
      rw [h7]
      linarith

theorem betMean_close {p : ℕ} (hp : 1 ≤ p) (l : List ℚ) (hl : ∀ x ∈ l, |x| ≤ 1) (hn : l ≠ []) (hlen : l.length < 2 ^ p) :
    ∃ t : ℚ, betMean (roundBits p) (l.map .fin) = .fin t ∧ |t| ≤ 1 ∧
      |t - l.sum / l.length| ≤ (l.length + 1) / 2 ^ p := by
  obtain ⟨t, e, h1, h2⟩ := foldl_round hp l hl 0 0 (by simp) (by omega)
  have hpos : (0 : ℚ) < l.length := by exact_mod_cast List.length_pos_iff.2 hn
  have hb : |t / l.length| ≤ 1 := by
    rw [abs_div, abs_of_pos hpos, div_le_one hpos]
    simpa using h1
  refine ⟨roundBits p (t / l.length), ?_, round_abs_le_one hp hb, ?_⟩
  · unfold betMean
    rw [e, List.length_map, XF.div_fin _ _ hpos.ne']
    rfl
  · have h3 := roundBits_error p hp (t / l.length)
    have h4 : |t / l.length| / 2 ^ p ≤ 1 / 2 ^ p := div_le_div_of_nonneg_right hb (by positivity)
    have h5 : |t / l.length - l.sum / l.length| ≤ l.length / 2 ^ p := by
      rw [← sub_div, abs_div, abs_of_pos hpos, div_le_iff₀ hpos]
      simp only [zero_add] at h2
      calc |t - l.sum| ≤ _ := h2
        _ = _ := by ring
    have h6 : roundBits p (t / l.length) - l.sum / l.length =
      (roundBits p (t / l.length) - t / l.length) + (t / l.length - l.sum / l.length) := by ring
    rw [h6]
    refine (abs_add_le _ _).trans ?_
    rw [add_div]
    linarith

/-- The discretised value as a number. -/
def discR (r : ℚ → ℚ) (step s : ℚ) : ℚ :=
  clip (r ((roundHalfEven (r (r ((roundHalfEven (r (s / step)) : ℚ) * step) * 1000)) : ℚ) / 1000))

theorem betDisc1_fin (r : ℚ → ℚ) {step : ℚ} (hs : 0 < step) (s : ℚ) : betDisc1 r step (.fin s) = .fin (discR r step s) := by
  unfold betDisc1 discR
  have h : rx r (XF.div (xround (rx r (XF.mul (rx r (XF.mul (xround (rx r (XF.div (.fin s) (.fin step)))) (.fin step)))
      (.fin 1000)))) (.fin 1000)) =
      .fin (r ((roundHalfEven (r (r ((roundHalfEven (r (s / step)) : ℚ) * step) * 1000)) : ℚ) / 1000)) := by
    rw [XF.div_fin _ _ hs.ne']
    simp only [rx, xround, XF.mul_fin]
    rw [XF.div_fin _ _ (by norm_num)]
  simp only [h]
  generalize r ((roundHalfEven (r (r ((roundHalfEven (r (s / step)) : ℚ) * step) * 1000)) : ℚ) / 1000) = x
  simp only [XF.lt_fin, decide_eq_true_eq, clip]
  by_cases h1 : 1 < x
  · simp only [h1, if_true, XF.lt_fin, decide_eq_true_eq]
    rw [min_eq_left h1.le, if_neg (by linarith), max_eq_right (by linarith)]
  · simp only [h1, if_false, XF.lt_fin, decide_eq_true_eq]
    rw [min_eq_right (by linarith)]
    split
    · rw [max_eq_left (by linarith)]
    · rw [max_eq_right (by linarith)]

theorem discR_range (r : ℚ → ℚ) (step s : ℚ) : |discR r step s| ≤ 1 := abs_le.2 (clip_range _)

theorem discR_mono {r : ℚ → ℚ} (hr : ∀ x y, x ≤ y → r x ≤ r y) {step : ℚ} (hs : 0 < step) {x y : ℚ} (h : x ≤ y) :
    discR r step x ≤ discR r step y := by
  unfold discR
  have cast : ∀ a b : ℚ, a ≤ b → (roundHalfEven a : ℚ) ≤ (roundHalfEven b : ℚ) := fun a b e => by
    exact_mod_cast roundHalfEven_mono e
  refine clip_mono (hr _ _ (div_le_div_of_nonneg_right (cast _ _ (hr _ _ (mul_le_mul_of_nonneg_right (hr _ _
    (mul_le_mul_of_nonneg_right (cast _ _ (hr _ _ (div_le_div_of_nonneg_right h hs.le))) hs.le)) (by norm_num)))) (by norm_num)))

theorem discR_neg {r : ℚ → ℚ} (hr : ∀ x, r (-x) = -r x) (step s : ℚ) : discR r step (-s) = -discR r step s := by
  unfold discR
  rw [neg_div, hr, roundHalfEven_neg]
  push_cast
  rw [neg_mul, hr, neg_mul, hr, roundHalfEven_neg]
  push_cast
  rw [neg_div, hr, clip_neg]

theorem discR_zero {r : ℚ → ℚ} (hr : ∀ x, r (-x) = -r x) (step : ℚ) : discR r step 0 = 0 := by
  have := discR_neg hr step 0
  rw [neg_zero] at this
  linarith

theorem discR_abs {r : ℚ → ℚ} (hm : ∀ x y, x ≤ y → r x ≤ r y) (hr : ∀ x, r (-x) = -r x) {step : ℚ} (hs : 0 < step) (s : ℚ) :
    |discR r step s| = discR r step |s| := by
  rcases le_total 0 s with h | h
  · rw [abs_of_nonneg h, abs_of_nonneg]
    rw [← discR_zero hr step]; exact discR_mono hm hs h
  · rw [abs_of_nonpos h, discR_neg hr, abs_of_nonpos]
    rw [← discR_zero hr step]; exact discR_mono hm hs h

theorem discR_close {p : ℕ} (hp : 1 ≤ p) {step : ℚ} (h0 : 0 < step) (h1 : step < 1) {s : ℚ} (hs : |s| ≤ 1) :
    |discR (roundBits p) step s - s| ≤ step / 2 + 5 / 10000 + 12 / 2 ^ p := by
  obtain ⟨u, hu⟩ : ∃ u : ℚ, u = 1 / 2 ^ p := ⟨_, rfl⟩
  have hu0 : 0 < u := by rw [hu]; positivity
  have hu1 : u ≤ 1 / 2 := by
    rw [hu]
    apply one_div_le_one_div_of_le (by norm_num)
    calc (2 : ℚ) = 2 ^ 1 := by norm_num
      _ ≤ 2 ^ p := pow_le_pow_right₀ (by norm_num) hp
  have err : ∀ q : ℚ, |roundBits p q - q| ≤ |q| * u := fun q => by
    have := roundBits_error p hp q
    rw [hu]; rwa [div_eq_mul_one_div] at this
  have hs' := abs_le.1 hs
  unfold discR
  refine (clip_close hs'.1 hs'.2).trans ?_
  obtain ⟨a, ha⟩ : ∃ a, a = roundBits p (s / step) := ⟨_, rfl⟩
  obtain ⟨k, hk⟩ : ∃ k : ℚ, k = (roundHalfEven a : ℚ) := ⟨_, rfl⟩
  obtain ⟨b, hb⟩ : ∃ b, b = roundBits p (k * step) := ⟨_, rfl⟩
  obtain ⟨c, hc⟩ : ∃ c, c = roundBits p (b * 1000) := ⟨_, rfl⟩
  obtain ⟨m, hm⟩ : ∃ m : ℚ, m = (roundHalfEven c : ℚ) := ⟨_, rfl⟩
  rw [← ha, ← hk, ← hb, ← hc, ← hm]
  have e1 : |a * step - s| ≤ u := by
    have h := err (s / step)
    rw [← ha] at h
    have : a * step - s = (a - s / step) * step := by field_simp
    rw [this, abs_mul, abs_of_pos h0]
    calc |a - s / step| * step ≤ |s / step| * u * step := mul_le_mul_of_nonneg_right h h0.le
      _ = |s| * u := by rw [abs_div, abs_of_pos h0]; field_simp
      _ ≤ 1 * u := mul_le_mul_of_nonneg_right hs hu0.le
      _ = u := one_mul u
  have e2 : |k * step - a * step| ≤ step / 2 := by
    have h := abs_roundHalfEven_sub_le a
    rw [← hk] at h
    rw [← sub_mul, abs_mul, abs_of_pos h0]
    calc |k - a| * step ≤ 1 / 2 * step := mul_le_mul_of_nonneg_right h h0.le
      _ = step / 2 := by ring
  have k1 : |k * step| ≤ 2 := by
    have : k * step = (k * step - a * step) + (a * step - s) + s := by ring
    rw [this]
    refine (abs_add_three _ _ _).trans ?_
    linarith
  have e3 : |b - k * step| ≤ 2 * u := by
    have h := err (k * step)
    rw [← hb] at h
    exact h.trans (mul_le_mul_of_nonneg_right k1 hu0.le)
  have b1 : |b| ≤ 3 := by
    have : b = (b - k * step) + k * step := by ring
    rw [this]
    refine (abs_add_le _ _).trans ?_
    linarith
  have e4 : |c - b * 1000| ≤ 3000 * u := by
    have h := err (b * 1000)
    rw [← hc] at h
    refine h.trans (mul_le_mul_of_nonneg_right ?_ hu0.le)
    rw [abs_mul, abs_of_pos (show (0 : ℚ) < 1000 by norm_num)]
    linarith
  have e5 : |m - c| ≤ 1 / 2 := by
    have h := abs_roundHalfEven_sub_le c
    rwa [← hm] at h
  have m1 : |m / 1000| ≤ 6 := by
    have : m / 1000 = (m - c) / 1000 + (c - b * 1000) / 1000 + b := by ring
    rw [this]
    refine (abs_add_three _ _ _).trans ?_
    rw [abs_div, abs_div, abs_of_pos (show (0 : ℚ) < 1000 by norm_num)]
    have : |m - c| / 1000 ≤ 1 / 2 / 1000 := div_le_div_of_nonneg_right e5 (by norm_num)
    have : |c - b * 1000| / 1000 ≤ 3000 * u / 1000 := div_le_div_of_nonneg_right e4 (by norm_num)
    linarith
  have e6 : |roundBits p (m / 1000) - m / 1000| ≤ 6 * u :=
    (err _).trans (mul_le_mul_of_nonneg_right m1 hu0.le)
  have hfin : (12 : ℚ) / 2 ^ p = 12 * u := by rw [hu]; ring
  rw [hfin]
  rw [abs_le] at *
  constructor <;> linarith [e1.1, e1.2, e2.1, e2.2, e3.1, e3.2, e4.1, e4.2, e5.1, e5.2, e6.1, e6.2]

end Mizar.Rd
