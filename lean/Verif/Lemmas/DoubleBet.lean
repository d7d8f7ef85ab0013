import Verif.Model.DoubleBet
import Verif.Lemmas.RoundedBet
import Verif.Lemmas.DoubleEvent

/-! Bet sizes and mean probabilities with a bounded exponent follow those without bounds. -/

namespace Mizar

/-- Formats with room for the constants of bet sizing: the smallest normal number is far below the precision, its reciprocal is
finite. -/
structure Fmt.Roomy (f : Fmt) : Prop where
  p : 1 ≤ f.p
  low : f.emin + 3 * (f.p : ℤ) + 12 ≤ 0
  high : (f.p : ℤ) + 15 ≤ f.emax
  sym : 2 ≤ f.emin + f.p + f.emax

/-- The smallest normal number. -/
def Fmt.tiny (f : Fmt) : ℚ := 2 ^ (f.emin + ((f.p : ℤ) - 1))

theorem Fmt.tiny_pos (f : Fmt) : 0 < f.tiny := two_zpow_pos _

theorem Fmt.Roomy.tiny_le {f : Fmt} (R : f.Roomy) {k : ℤ} (h : -2 * (f.p : ℤ) - 13 ≤ k) : f.tiny ≤ 2 ^ k :=
  zpow_le_zpow_right₀ (by norm_num) (by have := R.low; have := R.p; omega)

theorem abs_roundBits_le (p : ℕ) (hp : 1 ≤ p) {q : ℚ} {k : ℤ} (h : |q| ≤ 2 ^ k) : |roundBits p q| ≤ 2 ^ k := by
  rw [abs_le] at h ⊢
  constructor
  · have := roundBits_small p hp (q := -q) (k := k) (by linarith [h.1])
    rw [roundBits_neg] at this
    linarith
  · exact roundBits_small p hp h.2

theorem le_abs_roundBits (p : ℕ) (hp : 1 ≤ p) {q : ℚ} {k : ℤ} (h : (2 : ℚ) ^ k ≤ |q|) : 2 ^ k ≤ |roundBits p q| := by
  rcases le_total 0 q with h0 | h0
  · rw [abs_of_nonneg h0] at h
    rw [abs_of_nonneg (roundBits_nonneg p hp h0)]
    have := roundBits_mono p hp h
    rwa [roundBits_zpow_self p hp] at this
  · rw [abs_of_nonpos h0] at h
    rw [← abs_neg, ← roundBits_neg, abs_of_nonneg (roundBits_nonneg p hp (by linarith))]
    have := roundBits_mono p hp h
    rwa [roundBits_zpow_self p hp] at this

/-- What happens neither below the smallest normal number nor beyond the bound is as without bounds. -/
theorem Fmt.float_mid (f : Fmt) (R : f.Roomy) {q : ℚ} (h : f.tiny ≤ |q| ∨ OnUnit f.emin q) (hb : |q| ≤ 2 ^ (f.emax - 1)) :
    f.float q = .fin (roundBits f.p q) := by
  have hr : f.round q = roundBits f.p q := by
    rcases h with h | h
    · exact f.round_of_le h
    · exact f.round_unit R.p h
  have h1 := abs_roundBits_le f.p R.p hb
  have h2 : (2 : ℚ) ^ (f.emax - 1) < 2 ^ f.emax := zpow_lt_zpow_right₀ (by norm_num) (by omega)
  rw [abs_le] at h1
  unfold Fmt.float
  rw [hr, if_neg (by linarith [h1.2]), if_neg (by linarith [h1.1])]

theorem Fmt.Roomy.pow_le {f : Fmt} (R : f.Roomy) {k : ℤ} (h : k ≤ f.p + 14) : (2 : ℚ) ^ k ≤ 2 ^ (f.emax - 1) :=
  zpow_le_zpow_right₀ (by norm_num) (by have := R.high; omega)

theorem Fmt.Roomy.one_le {f : Fmt} (R : f.Roomy) : (1 : ℚ) ≤ 2 ^ (f.emax - 1) := by
  have := R.pow_le (k := 0) (by omega)
  simpa using this

theorem Fmt.Roomy.tiny_le_one {f : Fmt} (R : f.Roomy) : f.tiny ≤ 1 := by
  have := R.tiny_le (k := 0) (by omega)
  simpa using this

/-- Rounding a number of the unit interval. -/
theorem Fmt.round_one (f : Fmt) (R : f.Roomy) {q : ℚ} (h : |q| ≤ 1) :
    |f.round q| ≤ 1 ∧ |f.round q - q| ≤ 1 / 2 ^ f.p ∧ (0 ≤ q → 0 ≤ f.round q) := by
  refine ⟨?_, ?_, f.round_nonneg⟩
  · by_cases hn : f.tiny ≤ |q|
    · rw [f.round_of_le hn]; exact Rd.round_abs_le_one R.p h
    · push Not at hn
      rw [abs_lt] at hn
      rw [abs_le]
      constructor
      · rcases le_total 0 q with h0 | h0
        · linarith [f.round_nonneg h0]
        · have := f.round_small R.p (q := -q) (by linarith) (by unfold Fmt.tiny at hn; linarith [hn.1])
          rw [f.round_neg] at this
          have := R.tiny_le_one
          unfold Fmt.tiny at this
          linarith
      · rcases le_total 0 q with h0 | h0
        · have := f.round_small R.p h0 hn.2
          have := R.tiny_le_one
          unfold Fmt.tiny at this
          linarith
        · have := f.round_nonneg (q := -q) (by linarith)
          rw [f.round_neg] at this
          linarith
  · by_cases hn : f.tiny ≤ |q|
    · rw [f.round_of_le hn]
      refine (roundBits_error f.p R.p q).trans ?_
      exact div_le_div_of_nonneg_right h (by positivity)
    · push Not at hn
      by_cases h0 : q = 0
      · subst h0; rw [f.round_zero]; simp
      have hlog : Int.log 2 |q| < f.emin + ((f.p : ℤ) - 1) :=
        (Int.lt_zpow_iff_log_lt (b := 2) (by norm_num) (abs_pos.2 h0) (x := f.emin + ((f.p : ℤ) - 1))).1 (by exact_mod_cast hn)
      unfold Fmt.round
      rw [if_neg h0]
      dsimp only
      rw [max_eq_left (by omega)]
      have hu : (0 : ℚ) < 2 ^ f.emin := two_zpow_pos _
      have e := abs_roundHalfEven_sub_le (q / 2 ^ f.emin)
      have e2 : (roundHalfEven (q / 2 ^ f.emin) : ℚ) * 2 ^ f.emin - q = ((roundHalfEven (q / 2 ^ f.emin) : ℚ) - q / 2 ^ f.emin) * 2 ^ f.emin := by
        rw [sub_mul, div_mul_cancel₀ _ hu.ne']
      rw [e2, abs_mul, abs_of_pos hu]
      have e3 : (2 : ℚ) ^ f.emin ≤ 1 / 2 ^ f.p := by
        rw [one_div, ← zpow_natCast, ← zpow_neg]
        exact zpow_le_zpow_right₀ (by norm_num) (by have := R.low; have := R.p; omega)
      calc _ ≤ 1 / 2 * (2 : ℚ) ^ f.emin := mul_le_mul_of_nonneg_right e hu.le
        _ ≤ 2 ^ f.emin := by linarith
        _ ≤ _ := e3

theorem Fmt.float_one (f : Fmt) (R : f.Roomy) {q : ℚ} (h : |q| ≤ 1) : f.float q = .fin (f.round q) := by
  have h1 := abs_le.1 (f.round_one R h).1
  have h2 : (1 : ℚ) < 2 ^ f.emax := one_lt_zpow₀ (by norm_num) (by have := R.high; omega)
  unfold Fmt.float
  rw [if_neg (by linarith [h1.2]), if_neg (by linarith [h1.1])]

theorem OnUnit.one {e : ℤ} (h : e ≤ 0) : OnUnit e 1 := OnUnit.coarser h ⟨1, by simp⟩

theorem OnUnit.natMul {e : ℤ} {x : ℚ} (n : ℤ) (h : OnUnit e x) : OnUnit e (n * x) := by
  obtain ⟨z, rfl⟩ := h
  exact ⟨n * z, by push_cast; ring⟩

theorem OnUnit.pos_le {e : ℤ} {x : ℚ} (h : OnUnit e x) (h0 : 0 < x) : 2 ^ e ≤ x := by
  obtain ⟨z, rfl⟩ := h
  have hu : (0 : ℚ) < 2 ^ e := two_zpow_pos _
  have hz : 0 < z := by
    have : (0 : ℚ) < z := by
      by_contra hc
      push Not at hc
      have := mul_nonpos_of_nonpos_of_nonneg hc hu.le
      linarith
    exact_mod_cast this
  have : (1 : ℚ) ≤ z := by exact_mod_cast hz
  nlinarith

namespace Rd
open Bet

theorem rhe_small {x : ℚ} (h : |x| < 1 / 2) : roundHalfEven x = 0 := by
  have e := abs_roundHalfEven_sub_le x
  rw [abs_le] at e
  rw [abs_lt] at h
  have h1 : ((roundHalfEven x : ℤ) : ℚ) < 1 := by linarith [e.2, h.2]
  have h2 : (-1 : ℚ) < ((roundHalfEven x : ℤ) : ℚ) := by linarith [e.1, h.1]
  have h3 : roundHalfEven x < 1 := by exact_mod_cast h1
  have h4 : -1 < roundHalfEven x := by exact_mod_cast h2
  omega

/-- `round` of a quotient does not notice underflow. -/
theorem xround_float (f : Fmt) (R : f.Roomy) {q : ℚ} (hb : |q| ≤ 2 ^ (f.emax - 1)) :
    xround (f.float q) = .fin (roundHalfEven (roundBits f.p q) : ℚ) := by
  by_cases hn : f.tiny ≤ |q|
  · rw [f.float_mid R (.inl hn) hb]; rfl
  · push Not at hn
    have h1 : |q| ≤ 1 := hn.le.trans R.tiny_le_one
    rw [f.float_one R h1]
    have ht : f.tiny < 1 / 2 := by
      have := R.tiny_le (k := -2) (by have := R.p; omega)
      norm_num at this
      linarith
    have a1 : |f.round q| < 1 / 2 := by
      refine lt_of_le_of_lt ?_ ht
      rcases le_total 0 q with h0 | h0
      · rw [abs_of_nonneg (f.round_nonneg h0)]
        rw [abs_of_nonneg h0] at hn
        exact f.round_small R.p h0 hn
      · rw [← abs_neg, ← f.round_neg, abs_of_nonneg (f.round_nonneg (by linarith))]
        rw [abs_of_nonpos h0] at hn
        exact f.round_small R.p (by linarith) hn
    have a2 : |roundBits f.p q| < 1 / 2 := lt_of_le_of_lt (abs_roundBits_le f.p R.p hn.le) ht
    unfold xround
    simp only
    rw [rhe_small a1, rhe_small a2]

/-- Discretisation with a step that is at least the smallest normal number. -/
theorem betDisc1D_eq (f : Fmt) (R : f.Roomy) {step : ℚ} (hs : f.tiny ≤ step) (h1 : step < 1) {x : ℚ} (hx : |x| ≤ 1) :
    betDisc1D f.float step (.fin x) = betDisc1 (roundBits f.p) step (.fin x) := by
  have h0 : 0 < step := lt_of_lt_of_le f.tiny_pos hs
  have hinv : |x / step| ≤ 1 / step := by
    rw [abs_div, abs_of_pos h0]
    exact div_le_div_of_nonneg_right hx h0.le
  have hinv2 : 1 / step ≤ 2 ^ (f.emax - 1) := by
    calc 1 / step ≤ 1 / f.tiny := one_div_le_one_div_of_le f.tiny_pos hs
      _ = 2 ^ (-(f.emin + ((f.p : ℤ) - 1))) := by rw [zpow_neg, one_div]; rfl
      _ ≤ _ := zpow_le_zpow_right₀ (by norm_num) (by have := R.sym; omega)
  have hp2 : (1 : ℚ) / 2 ^ f.p ≤ 1 := by
    rw [div_le_one (by positivity)]
    exact one_le_pow₀ (by norm_num)
  have twice : ∀ q : ℚ, |roundBits f.p q| ≤ 2 * |q| := by
    intro q
    have e := roundBits_error f.p R.p q
    have e' : |q| / 2 ^ f.p ≤ |q| := by
      rw [div_eq_mul_one_div]
      exact mul_le_of_le_one_right (abs_nonneg _) hp2
    have : roundBits f.p q = (roundBits f.p q - q) + q := by ring
    rw [this]
    refine (abs_add_le _ _).trans ?_
    linarith
  have hk : ∀ y : ℚ, |(roundHalfEven y : ℚ)| ≤ |y| + 1 / 2 := by
    intro y
    have e := abs_roundHalfEven_sub_le y
    have : (roundHalfEven y : ℚ) = ((roundHalfEven y : ℚ) - y) + y := by ring
    rw [this]
    refine (abs_add_le _ _).trans ?_
    linarith
  have hint : ∀ z : ℤ, z = 0 ∨ (1 : ℚ) ≤ |(z : ℚ)| := by
    intro z
    by_cases hz : z = 0
    · exact .inl hz
    · right
      have := Int.one_le_abs hz
      exact_mod_cast this
  unfold betDisc1D betDisc1
  obtain ⟨k, ek⟩ : ∃ k : ℤ, k = roundHalfEven (roundBits f.p (x / step)) := ⟨_, rfl⟩
  have b1 : |(k : ℚ) * step| ≤ 3 := by
    rw [abs_mul, abs_of_pos h0, ek]
    have a1 := hk (roundBits f.p (x / step))
    have a2 := twice (x / step)
    have a3 : |((roundHalfEven (roundBits f.p (x / step)) : ℤ) : ℚ)| ≤ 2 * (1 / step) + 1 / 2 := by linarith
    calc _ ≤ (2 * (1 / step) + 1 / 2) * step := mul_le_mul_of_nonneg_right a3 h0.le
      _ = 2 + step / 2 := by field_simp
      _ ≤ 3 := by linarith
  have s1 : XF.rounded f.float (XF.mul (xround (XF.rounded f.float (XF.div (.fin x) (.fin step)))) (.fin step)) =
      .fin (roundBits f.p (k * step)) := by
    rw [XF.div_fin _ _ h0.ne']
    simp only [XF.rounded]
    rw [xround_float f R (hinv.trans hinv2), ← ek, XF.mul_fin]
    simp only [XF.rounded]
    refine f.float_mid R ?_ (b1.trans ?_)
    · rcases hint k with hz | hz
      · right; rw [hz]; simp only [Int.cast_zero, zero_mul]; exact OnUnit.zero _
      · left
        rw [abs_mul, abs_of_pos h0]
        exact hs.trans (le_mul_of_one_le_left h0.le hz)
    · have := R.pow_le (k := 2) (by omega)
      norm_num at this
      linarith
  have s1' : rx (roundBits f.p) (XF.mul (xround (rx (roundBits f.p) (XF.div (.fin x) (.fin step)))) (.fin step)) =
      .fin (roundBits f.p (k * step)) := by
    rw [XF.div_fin _ _ h0.ne']
    simp only [rx, xround, XF.mul_fin, ek]
  rw [s1, s1']
  obtain ⟨a, ea⟩ : ∃ a, a = roundBits f.p (k * step) := ⟨_, rfl⟩
  rw [← ea]
  have a1 : |a| ≤ 6 := by
    rw [ea]
    exact (twice _).trans (by linarith)
  have a2 : a = 0 ∨ f.tiny ≤ |a| := by
    rcases hint k with hz | hz
    · left; rw [ea, hz]; simp [roundBits_zero]
    · right
      rw [ea]
      apply le_abs_roundBits f.p R.p
      change f.tiny ≤ _
      rw [abs_mul, abs_of_pos h0]
      exact hs.trans (le_mul_of_one_le_left h0.le hz)
  have c1 : |a * 1000| ≤ 6000 := by
    rw [abs_mul, abs_of_pos (show (0 : ℚ) < 1000 by norm_num)]; linarith
  have e13 : (2 : ℚ) ^ (13 : ℤ) ≤ 2 ^ (f.emax - 1) := R.pow_le (by have := R.p; omega)
  norm_num at e13
  have s2 : XF.rounded f.float (XF.mul (.fin a) (.fin 1000)) = rx (roundBits f.p) (XF.mul (.fin a) (.fin 1000)) := by
    rw [XF.mul_fin]
    simp only [XF.rounded, rx]
    refine f.float_mid R ?_ (by linarith)
    rcases a2 with h | h
    · right; rw [h]; simp only [zero_mul]; exact OnUnit.zero _
    · left
      rw [abs_mul, abs_of_pos (show (0 : ℚ) < 1000 by norm_num)]
      linarith [abs_nonneg a]
  obtain ⟨m, em⟩ : ∃ m : ℤ, m = roundHalfEven (roundBits f.p (a * 1000)) := ⟨_, rfl⟩
  have s3 : XF.rounded f.float (XF.div (.fin (m : ℚ)) (.fin 1000)) = rx (roundBits f.p) (XF.div (.fin (m : ℚ)) (.fin 1000)) := by
    rw [XF.div_fin _ _ (by norm_num)]
    simp only [XF.rounded, rx]
    have m1 : |(m : ℚ)| ≤ 12001 := by
      rw [em]
      have := hk (roundBits f.p (a * 1000))
      have := twice (a * 1000)
      linarith
    have hd : |(m : ℚ) / 1000| = |(m : ℚ)| / 1000 := by rw [abs_div, abs_of_pos (show (0 : ℚ) < 1000 by norm_num)]
    refine f.float_mid R ?_ ?_
    · rcases hint m with h | h
      · right; rw [h]; simp only [Int.cast_zero, zero_div]; exact OnUnit.zero _
      · left
        rw [hd]
        have := R.tiny_le (k := -10) (by have := R.p; omega)
        norm_num at this
        linarith
    · rw [hd]; linarith
  have s4 : xround (rx (roundBits f.p) (XF.mul (.fin a) (.fin 1000))) = .fin (m : ℚ) := by rw [XF.mul_fin, em]; rfl
  dsimp only
  rw [s2, s4, s3]

/-- What is assumed of `** 0.5` and `norm.cdf` as functions on floats: the root of a number of the unit interval lies there and its
reciprocal is finite, the distribution function returns floats. -/
structure BetFnFits (f : Fmt) (F : BetFn) : Prop where
  root : ∀ x : ℚ, 2 ^ f.emin ≤ x → x ≤ 1 → ∃ y : ℚ, F.root (.fin x) = .fin y ∧ 2 ^ (1 - f.emax) ≤ y ∧ y ≤ 1
  cdf : ∀ (x : XF ℚ) (c : ℚ), F.cdf x = .fin c → f.Has c

theorem two_neg_le_inv {p n : ℕ} (hn : 2 ≤ n) (hnp : n ≤ 2 ^ p) : (2 : ℚ) ^ (-(p : ℤ)) ≤ 1 / n := by
  rw [zpow_neg, zpow_natCast, ← one_div]
  exact one_div_le_one_div_of_le (by positivity) (by exact_mod_cast hnp)

/-- Two different floats, one of which is at least `2^-p`, differ by at least `2^(-2p)`. -/
theorem float_gap {p : ℕ} (hp : 1 ≤ p) {x i : ℚ} (hx : IsFloat p x) (hi : IsFloat p i) (x0 : 0 ≤ x) (hi0 : (2 : ℚ) ^ (-(p : ℤ)) ≤ i) (hne : x ≠ i) :
    (2 : ℚ) ^ (-2 * (p : ℤ)) ≤ |x - i| := by
  have hhalf : (2 : ℚ) ^ (-(p : ℤ) - 1) = 2 ^ (-(p : ℤ)) / 2 := by rw [zpow_sub₀ (by norm_num), zpow_one]
  have hle : (2 : ℚ) ^ (-2 * (p : ℤ)) ≤ 2 ^ (-(p : ℤ) - 1) := zpow_le_zpow_right₀ (by norm_num) (by omega)
  by_cases h : x < 2 ^ (-(p : ℤ) - 1)
  · rw [abs_of_nonpos (by rw [hhalf] at h; have := two_zpow_pos (-(p : ℤ)); linarith)]
    rw [hhalf] at h hle
    linarith
  · push Not at h
    obtain ⟨a, ha⟩ := multiple_of_float p hp hx (k := -(p : ℤ) - 1) h
    obtain ⟨b, hb⟩ := multiple_of_float p hp hi (k := -(p : ℤ) - 1) (by
      exact le_trans (zpow_le_zpow_right₀ (by norm_num) (by omega)) hi0)
    rw [show -(p : ℤ) - 1 - ((p : ℤ) - 1) = -2 * p by ring] at ha hb
    have hab : a ≠ b := by
      intro e; apply hne; rw [ha, hb, e]
    have h1 : (1 : ℚ) ≤ |(a : ℚ) - b| := by
      have := Int.one_le_abs (sub_ne_zero.2 hab)
      exact_mod_cast this
    rw [ha, hb, ← sub_mul, abs_mul, abs_of_pos (two_zpow_pos (-2 * (p : ℤ)))]
    exact le_mul_of_one_le_left (two_zpow_pos _).le h1

/-- The test statistic. -/
theorem betZD_eq (f : Fmt) (R : f.Roomy) {F : BetFn} (hF : BetFnOk F) (hF' : BetFnFits f F) {n : ℕ} (hn : 2 ≤ n) (hnp : n ≤ 2 ^ f.p)
    {x : ℚ} (hx : f.Has x) (h0 : 0 ≤ x) (h1 : x ≤ 1) :
    betZD f.float F n (.fin x) = betZ (roundBits f.p) F n (.fin x) := by
  have he : f.emin ≤ 0 := by have := R.low; have := R.p; omega
  have hi := two_neg_le_inv hn hnp
  have i0 : (0 : ℚ) < 1 / n := lt_of_lt_of_le (two_zpow_pos _) hi
  obtain ⟨r0, r1⟩ := round_inv_pos (p := f.p) R.p hn
  have ti : f.tiny ≤ |1 / (n : ℚ)| := by
    rw [abs_of_pos i0]
    exact (R.tiny_le (by omega)).trans hi
  have ei : f.float (1 / (n : ℚ)) = .fin (roundBits f.p (1 / (n : ℚ))) := by
    refine f.float_mid R (.inl ti) ?_
    rw [abs_of_pos i0]
    have h2 : (2 : ℚ) ≤ n := by exact_mod_cast hn
    have : 1 / (n : ℚ) ≤ 1 / 2 := one_div_le_one_div_of_le (by norm_num) h2
    linarith [R.one_le]
  have ui : OnUnit f.emin (roundBits f.p (1 / (n : ℚ))) := by rw [← f.round_of_le ti]; exact f.round_onUnit _
  have li : (2 : ℚ) ^ (-(f.p : ℤ)) ≤ roundBits f.p (1 / (n : ℚ)) := by
    have := roundBits_mono f.p R.p hi
    rwa [roundBits_zpow_self f.p R.p] at this
  obtain ⟨i, eqi⟩ : ∃ i, i = roundBits f.p (1 / (n : ℚ)) := ⟨_, rfl⟩
  have fi : IsFloat f.p i := by rw [eqi]; exact isFloat_roundBits f.p R.p _
  unfold betZD betZ
  rw [ei, ← eqi]
  rw [← eqi] at r0 r1 ui li
  simp only [XF.sub_fin, XF.rounded, rx]
  have e1 : f.float (x - i) = .fin (roundBits f.p (x - i)) := by
    refine f.float_mid R (.inr (hx.onUnit.sub ui)) ?_
    refine le_trans ?_ R.one_le
    rw [abs_le]; constructor <;> linarith
  have e2 : f.float (1 - x) = .fin (roundBits f.p (1 - x)) := by
    refine f.float_mid R (.inr ((OnUnit.one he).sub hx.onUnit)) ?_
    refine le_trans ?_ R.one_le
    rw [abs_le]; constructor <;> linarith
  rw [e1, e2]
  simp only [XF.mul_fin]
  obtain ⟨w, ew⟩ : ∃ w, w = roundBits f.p (1 - x) := ⟨_, rfl⟩
  have w0 : 0 ≤ w := by rw [ew]; exact roundBits_nonneg f.p R.p (by linarith)
  have w1 : w ≤ 1 := by rw [ew]; exact round_le R.p (isFloat_one R.p) (by linarith)
  have e3 : (f.tiny ≤ |x * w| ∨ OnUnit f.emin (x * w)) := by
    by_cases hs : x ≤ 2 ^ (-(f.p : ℤ) - 2)
    · right
      have : w = 1 := by
        have := roundBits_near_neg_one f.p R.p h0 hs
        rw [ew, show (1 : ℚ) - x = -(x - 1) by ring, roundBits_neg, this]; norm_num
      rw [this, mul_one]; exact hx.onUnit
    · push Not at hs
      rcases h1.eq_or_lt with e | h1'
      · right
        rw [ew, e, sub_self, roundBits_zero, mul_zero]; exact OnUnit.zero _
      · left
        have g := float_gap R.p hx.isFloat (isFloat_one R.p) h0 (by
          have : (2 : ℚ) ^ (-(f.p : ℤ)) ≤ 2 ^ (0 : ℤ) := zpow_le_zpow_right₀ (by norm_num) (by omega)
          simpa using this) h1'.ne
        have g1 : (2 : ℚ) ^ (-(f.p : ℤ)) ≤ 1 - x := by
          by_cases hx2 : x ≤ 1 / 2
          · have : (2 : ℚ) ^ (-(f.p : ℤ)) ≤ 2 ^ (-1 : ℤ) := zpow_le_zpow_right₀ (by norm_num) (by have := R.p; omega)
            norm_num at this
            norm_num at hx2
            linarith
          · push Not at hx2
            have hh : (2 : ℚ) ^ (-1 : ℤ) = 1 / 2 := by norm_num
            obtain ⟨a, ha⟩ := multiple_of_float f.p R.p hx.isFloat (k := -1) (by rw [hh]; exact hx2.le)
            obtain ⟨b, hb⟩ := multiple_of_float f.p R.p (isFloat_one R.p) (k := -1) (by rw [hh]; norm_num)
            rw [show (-1 : ℤ) - ((f.p : ℤ) - 1) = -f.p by ring] at ha hb
            have hab : a < b := by
              by_contra hc
              push Not at hc
              have : (b : ℚ) * 2 ^ (-(f.p : ℤ)) ≤ a * 2 ^ (-(f.p : ℤ)) :=
                mul_le_mul_of_nonneg_right (by exact_mod_cast hc) (two_zpow_pos _).le
              rw [← ha, ← hb] at this
              linarith
            have hab' : (1 : ℚ) ≤ (b : ℚ) - a := by
              have : a + 1 ≤ b := hab
              have : ((a + 1 : ℤ) : ℚ) ≤ b := by exact_mod_cast this
              push_cast at this; linarith
            calc (2 : ℚ) ^ (-(f.p : ℤ)) ≤ ((b : ℚ) - a) * 2 ^ (-(f.p : ℤ)) := le_mul_of_one_le_left (two_zpow_pos _).le hab'
              _ = 1 - x := by rw [sub_mul, ← ha, ← hb]
        have g2 : (2 : ℚ) ^ (-(f.p : ℤ)) ≤ w := by
          rw [ew]
          have := roundBits_mono f.p R.p g1
          rwa [roundBits_zpow_self f.p R.p] at this
        rw [abs_of_nonneg (mul_nonneg h0 w0)]
        calc f.tiny ≤ 2 ^ (-2 * (f.p : ℤ) - 2) := R.tiny_le (by omega)
          _ = 2 ^ (-(f.p : ℤ) - 2) * 2 ^ (-(f.p : ℤ)) := by rw [← zpow_add₀ (by norm_num)]; congr 1; ring
          _ ≤ x * w := mul_le_mul hs.le g2 (two_zpow_pos _).le h0
  have b3 : |x * w| ≤ 1 := by
    rw [abs_of_nonneg (mul_nonneg h0 w0)]
    exact mul_le_one₀ h1 w0 w1
  rw [← ew, f.float_mid R e3 (b3.trans R.one_le)]
  obtain ⟨v, ev⟩ : ∃ v, v = roundBits f.p (x * w) := ⟨_, rfl⟩
  rw [← ev]
  have uv : OnUnit f.emin v := by
    rw [ev]
    rcases e3 with h | h
    · rw [← f.round_of_le h]; exact f.round_onUnit _
    · exact h.roundBits R.p
  have v0 : 0 ≤ v := by rw [ev]; exact roundBits_nonneg f.p R.p (mul_nonneg h0 w0)
  have v1 : v ≤ 1 := by
    rw [ev]
    exact round_le R.p (isFloat_one R.p) (abs_le.1 b3).2
  rcases v0.eq_or_lt with hv | hv
  · rw [← hv, hF.root_zero]
    unfold XF.div XF.infSign
    simp only [if_true]
    split_ifs <;> rfl
  · obtain ⟨y, ey, y0, y1⟩ := hF'.root v (uv.pos_le hv) v1
    have yp : 0 < y := lt_of_lt_of_le (two_zpow_pos _) y0
    rw [ey, XF.div_fin _ _ yp.ne']
    simp only
    have nb : |roundBits f.p (x - i)| ≤ 1 := round_abs_le_one R.p (by rw [abs_le]; constructor <;> linarith)
    refine f.float_mid R ?_ ?_
    · by_cases hxi : x = i
      · right; rw [hxi, sub_self, roundBits_zero, zero_div]; exact OnUnit.zero _
      · left
        have g := le_abs_roundBits f.p R.p (float_gap R.p hx.isFloat fi h0 li hxi)
        rw [abs_div, abs_of_pos yp, le_div_iff₀ yp]
        calc f.tiny * y ≤ f.tiny * 1 := mul_le_mul_of_nonneg_left y1 f.tiny_pos.le
          _ = f.tiny := mul_one _
          _ ≤ 2 ^ (-2 * (f.p : ℤ)) := R.tiny_le (by omega)
          _ ≤ _ := g
    · rw [abs_div, abs_of_pos yp, div_le_iff₀ yp]
      calc |roundBits f.p (x - i)| ≤ 1 := nb
        _ = 2 ^ (f.emax - 1) * 2 ^ (1 - f.emax) := by rw [← zpow_add₀ (by norm_num)]; simp
        _ ≤ _ := mul_le_mul_of_nonneg_left y0 (two_zpow_pos _).le

/-- The signal of one row, for a prediction of -1, 0 or 1. -/
theorem betSignalD_eq (f : Fmt) (R : f.Roomy) {F : BetFn} (hF : BetFnOk F) (hF' : BetFnFits f F) {n : ℕ} (hn : 2 ≤ n) (hnp : n ≤ 2 ^ f.p)
    {x : ℚ} (hx : f.Has x) (h0 : 0 ≤ x) (h1 : x ≤ 1) {y : ℤ} (hy : |y| ≤ 1) :
    ∃ v : ℚ, betSignalD f.float F n (.fin y) (.fin x) = .fin v ∧ betSignal (roundBits f.p) F n (.fin y) (.fin x) = .fin v ∧
      |v| ≤ 1 ∧ OnUnit f.emin v := by
  have he : f.emin ≤ 0 := by have := R.low; have := R.p; omega
  obtain ⟨c, ec, c0, c1⟩ := cdf_betZ R.p hF hn h0 h1
  have uc : OnUnit f.emin c := (hF'.cdf _ _ ec).onUnit
  have hyq : |(y : ℚ)| ≤ 1 := by exact_mod_cast hy
  rw [betSignal_fin _ ec]
  have u2 : OnUnit f.emin (2 * c) := by simpa using uc.natMul 2
  have e2 : f.float (2 * c) = .fin (roundBits f.p (2 * c)) := by
    refine f.float_mid R (.inr u2) ?_
    rw [abs_of_nonneg (by linarith)]
    have := R.pow_le (k := 1) (by omega)
    norm_num at this
    linarith
  obtain ⟨d, ed⟩ : ∃ d, d = roundBits f.p (2 * c) := ⟨_, rfl⟩
  have ud : OnUnit f.emin d := by rw [ed]; exact u2.roundBits R.p
  have d0 : 0 ≤ d := by rw [ed]; exact le_round R.p isFloat_zero (by linarith)
  have d2 : d ≤ 2 := by rw [ed]; exact round_le R.p (isFloat_two R.p) (by linarith)
  have e3 : f.float (d - 1) = .fin (roundBits f.p (d - 1)) := by
    refine f.float_mid R (.inr (ud.sub (OnUnit.one he))) (le_trans ?_ R.one_le)
    rw [abs_le]; constructor <;> linarith
  obtain ⟨w, ew⟩ : ∃ w, w = roundBits f.p (d - 1) := ⟨_, rfl⟩
  have uw : OnUnit f.emin w := by rw [ew]; exact (ud.sub (OnUnit.one he)).roundBits R.p
  have w1 : |w| ≤ 1 := by rw [ew, ed]; exact conf_range R.p c0 c1
  have b : |(y : ℚ) * w| ≤ 1 := by rw [abs_mul]; exact mul_le_one₀ hyq (abs_nonneg _) w1
  refine ⟨roundBits f.p (y * w), ?_, by rw [ew, ed], round_abs_le_one R.p b, (uw.natMul y).roundBits R.p⟩
  unfold betSignalD
  rw [betZD_eq f R hF hF' hn hnp hx h0 h1, ec]
  simp only [XF.mul_fin, XF.rounded]
  rw [e2, ← ed]
  simp only [XF.sub_fin]
  rw [e3, ← ew]
  simp only [XF.mul_fin]
  exact f.float_mid R (.inr (uw.natMul y)) (b.trans R.one_le)

/-- Sums of floats do not underflow. -/
theorem foldD (f : Fmt) (R : f.Roomy) (l : List (ℚ × ℕ)) (hl : ∀ x ∈ l, |x.1| ≤ x.2 ∧ OnUnit f.emin x.1) : ∀ (s : ℚ) (k : ℕ),
    |s| ≤ k → OnUnit f.emin s → k + (l.map (·.2)).sum < 2 ^ f.p →
    (l.map fun x => XF.fin x.1).foldl (fun a x => XF.rounded f.float (XF.add a x)) (.fin s) =
      .fin ((l.map (·.1)).foldl (fun a x => roundBits f.p (a + x)) s) ∧
    |(l.map (·.1)).foldl (fun a x => roundBits f.p (a + x)) s| ≤ ((k + (l.map (·.2)).sum : ℕ) : ℚ) ∧
    OnUnit f.emin ((l.map (·.1)).foldl (fun a x => roundBits f.p (a + x)) s) := by
  induction l with
  | nil => intro s k hs hu _; exact ⟨rfl, by simpa using hs, hu⟩
  | cons x l ih =>
    intro s k hs hu hk
    simp only [List.map_cons, List.sum_cons, List.foldl_cons] at hk ⊢
    obtain ⟨x1, ux⟩ := hl x List.mem_cons_self
    have hsx : |s + x.1| ≤ ((k + x.2 : ℕ) : ℚ) := by
      have := abs_add_le s x.1
      push_cast
      linarith
    have hfl : IsFloat f.p ((k + x.2 : ℕ) : ℚ) := by
      have := isFloat_int f.p ((k + x.2 : ℕ) : ℤ) (by
        rw [abs_of_nonneg (by positivity)]
        have : k + x.2 < 2 ^ f.p := by omega
        exact_mod_cast this)
      exact_mod_cast this
    have h1 : |roundBits f.p (s + x.1)| ≤ ((k + x.2 : ℕ) : ℚ) := by
      rw [abs_le] at hsx ⊢
      exact ⟨le_round R.p (isFloat_neg hfl) hsx.1, round_le R.p hfl hsx.2⟩
    have hbig : ((k + x.2 : ℕ) : ℚ) ≤ 2 ^ (f.emax - 1) := by
      refine le_trans ?_ (R.pow_le (k := f.p) (by omega))
      rw [zpow_natCast]
      exact_mod_cast (by omega : k + x.2 ≤ 2 ^ f.p)
    have e : XF.rounded f.float (XF.add (.fin s) (.fin x.1)) = .fin (roundBits f.p (s + x.1)) := by
      rw [XF.add_fin]
      exact f.float_mid R (.inr (hu.add ux)) (hsx.trans hbig)
    obtain ⟨i1, i2, i3⟩ := ih (fun y hy => hl y (List.mem_cons_of_mem _ hy)) (roundBits f.p (s + x.1)) (k + x.2) h1
      ((hu.add ux).roundBits R.p) (by omega)
    rw [e]
    exact ⟨i1, by rw [show k + (x.2 + (l.map (·.2)).sum) = k + x.2 + (l.map (·.2)).sum by omega]; exact i2, i3⟩

theorem foldl_rx (r : ℚ → ℚ) (l : List ℚ) : ∀ s : ℚ, (l.map XF.fin).foldl (fun a x => rx r (XF.add a x)) (.fin s) =
    .fin (l.foldl (fun a x => r (a + x)) s) := by
  induction l with
  | nil => intro s; rfl
  | cons x l ih => intro s; simp only [List.map_cons, List.foldl_cons, XF.add_fin, rx]; exact ih _

/-- The mean of floats: the sum as without bounds, and a quotient that may underflow. -/
theorem betMeanD_close (f : Fmt) (R : f.Roomy) (l : List ℚ) (hl : ∀ x ∈ l, |x| ≤ 1) (hu : ∀ x ∈ l, OnUnit f.emin x) (hn : l ≠ [])
    (hlen : l.length < 2 ^ f.p) :
    ∃ t : ℚ, betMeanD f.float (l.map .fin) = .fin t ∧ |t| ≤ 1 ∧ |t - l.sum / l.length| ≤ (l.length + 1) / 2 ^ f.p := by
  obtain ⟨t, e, h1, h2⟩ := foldl_round R.p l hl 0 0 (by simp) (by omega)
  rw [foldl_rx] at e
  obtain ⟨d1, -, -⟩ := foldD f R (l.map fun x => (x, 1)) (by
    intro x hx
    obtain ⟨y, hy, rfl⟩ := List.mem_map.1 hx
    exact ⟨by simpa using hl y hy, hu y hy⟩) 0 0 (by simp) (OnUnit.zero _) (by simp [Function.comp_def]; exact hlen)
  simp only [List.map_map, Function.comp_def, List.map_id'] at d1
  rw [e] at d1
  have hpos : (0 : ℚ) < l.length := by exact_mod_cast List.length_pos_iff.2 hn
  have hb : |t / l.length| ≤ 1 := by
    rw [abs_div, abs_of_pos hpos, div_le_one hpos]
    simpa using h1
  obtain ⟨o1, o2, -⟩ := f.round_one R hb
  refine ⟨f.round (t / l.length), ?_, o1, ?_⟩
  · unfold betMeanD
    rw [show (l.map XF.fin).foldl (fun s x => XF.rounded f.float (XF.add s x)) (.fin 0) = .fin t from d1, List.length_map,
      XF.div_fin _ _ hpos.ne']
    exact f.float_one R hb
  · have h5 : |t / l.length - l.sum / l.length| ≤ l.length / 2 ^ f.p := by
      rw [← sub_div, abs_div, abs_of_pos hpos, div_le_iff₀ hpos]
      simp only [zero_add] at h2
      calc |t - l.sum| ≤ _ := h2
        _ = _ := by ring
    have h6 : f.round (t / l.length) - l.sum / l.length =
      (f.round (t / l.length) - t / l.length) + (t / l.length - l.sum / l.length) := by ring
    rw [h6]
    refine (abs_add_le _ _).trans ?_
    rw [add_div]
    linarith

end Rd
end Mizar
