import Verif.Model.RoundedCount
import Verif.Lemmas.RoundedBet

/-!
C109: numbers of samples, features and batches computed in floating point
(`/repo/mizarlabs/model/sequentially_bootstrapped_bagging_classifier.py`, `/repo/mizarlabs/model/bootstrapping.py`).
-/

namespace Mizar.Props
open Rd

theorem isFloat_natCast {b n : ℕ} (h : n < 2 ^ b) : IsFloat b (n : ℚ) := by
  have := isFloat_int b (n : ℤ) (by rw [abs_of_nonneg (by positivity)]; exact_mod_cast h)
  exact_mod_cast this

theorem floor_round {b : ℕ} (hb : 1 ≤ b) {x : ℚ} (h0 : 0 ≤ x) (hx : ⌊x⌋ + 1 < 2 ^ b) :
    ⌊roundBits b x⌋ = ⌊x⌋ ∨ (⌊roundBits b x⌋ = ⌊x⌋ + 1 ∧ roundBits b x = ⌊x⌋ + 1) := by
  have hf : 0 ≤ ⌊x⌋ := Int.floor_nonneg.2 h0
  have f1 : IsFloat b ((⌊x⌋ : ℤ) : ℚ) := isFloat_int b _ (by rw [abs_of_nonneg hf]; omega)
  have f2 : IsFloat b ((⌊x⌋ + 1 : ℤ) : ℚ) := isFloat_int b _ (by rw [abs_of_nonneg (by omega)]; omega)
  have h1 := le_round hb f1 (Int.floor_le x)
  have h2 := round_le hb f2 (by push_cast; exact (Int.lt_floor_add_one x).le)
  rcases h2.lt_or_eq with h | h
  · left
    rw [Int.floor_eq_iff]
    push_cast at h
    exact ⟨h1, h⟩
  · right
    refine ⟨by rw [h, Int.floor_intCast], by rw [h]; push_cast; rfl⟩

/-- The smallest floating point number above 1. -/
theorem one_gap {b : ℕ} (hb : 1 ≤ b) {q : ℚ} (hq : IsFloat b q) (h1 : 1 < q) : 1 + 2 / 2 ^ b ≤ q := by
  have hbb : (2 : ℚ) ^ b = 2 * 2 ^ (b - 1) := by rw [← pow_succ', Nat.sub_add_cancel hb]
  have hb0 : (0 : ℚ) < 2 ^ (b - 1) := by positivity
  have hgap : (2 : ℚ) / 2 ^ b = 1 / 2 ^ (b - 1) := by rw [hbb]; field_simp
  have hb1 : (1 : ℚ) ≤ 2 ^ (b - 1) := one_le_pow₀ (by norm_num)
  rw [hgap]
  by_cases h2 : 2 ≤ q
  · have : (1 : ℚ) / 2 ^ (b - 1) ≤ 1 := by rw [div_le_one hb0]; exact hb1
    linarith
  · obtain ⟨m, e, m1, m2, rfl⟩ := normalise b hb (by linarith) hq
    have he := two_zpow_pos e
    have hm1 : (2 : ℚ) ^ (b - 1) ≤ m := by exact_mod_cast m1
    have hm2 : (m : ℚ) < 2 ^ b := by exact_mod_cast m2
    have u1 : (2 : ℚ) ^ ((b : ℤ) - 1 + e) < 2 ^ (1 : ℤ) := by
      rw [zpow_add₀ (by norm_num), show ((b : ℤ) - 1) = ((b - 1 : ℕ) : ℤ) by omega, zpow_natCast, zpow_one]
      exact lt_of_le_of_lt (mul_le_mul_of_nonneg_right hm1 he.le) (not_le.1 h2)
    have u2 : (2 : ℚ) ^ (0 : ℤ) < 2 ^ ((b : ℤ) + e) := by
      rw [zpow_add₀ (by norm_num), zpow_natCast, zpow_zero]
      exact h1.trans (mul_lt_mul_of_pos_right hm2 he)
    have v1 := (zpow_lt_zpow_iff_right₀ (by norm_num : (1 : ℚ) < 2)).1 u1
    have v2 := (zpow_lt_zpow_iff_right₀ (by norm_num : (1 : ℚ) < 2)).1 u2
    have ee : e = -((b - 1 : ℕ) : ℤ) := by omega
    rw [ee, zpow_neg, zpow_natCast] at h1 ⊢
    have h3 : (2 : ℚ) ^ (b - 1) < m := by
      rw [← div_eq_mul_inv, lt_div_iff₀ hb0, one_mul] at h1
      exact h1
    have h4 : (2 : ℤ) ^ (b - 1) + 1 ≤ m := by
      have : (2 : ℤ) ^ (b - 1) < m := by exact_mod_cast h3
      omega
    have h5 : (2 : ℚ) ^ (b - 1) + 1 ≤ m := by exact_mod_cast h4
    rw [← div_eq_mul_inv, le_div_iff₀ hb0, add_mul, one_mul, div_mul_cancel₀ _ hb0.ne']
    exact h5

/-- C109: a non-negative fraction `q` of `n` rows: with rounding `max_samples` resolves to an integer from 1 to `n` or raises
`ValueError`; the integer is `floor(q * n)` of the exact product, or one more when the product rounds up to that
integer; a larger fraction that is accepted never gives fewer samples, and the fraction 1.0 gives all. -/
theorem C109_max_samples {b : ℕ} (hb : 1 ≤ b) (n : ℕ) (hn : 1 ≤ n) (hnb : n + 1 < 2 ^ b) :
    (∀ q : ℚ, maxSamples (roundBits b) q n = .error .valueError ∨
      ∃ m : ℤ, maxSamples (roundBits b) q n = .ok m ∧ 1 ≤ m ∧ m ≤ n) ∧
    (∀ q : ℚ, 0 ≤ q → ∀ m : ℤ, maxSamples (roundBits b) q n = .ok m →
      m = ⌊q * n⌋ ∨ (m = ⌊q * n⌋ + 1 ∧ (m : ℚ) - q * n ≤ q * n / 2 ^ b)) ∧
    (∀ q q' : ℚ, q ≤ q' → ∀ m m' : ℤ, maxSamples (roundBits b) q n = .ok m → maxSamples (roundBits b) q' n = .ok m' → m ≤ m') ∧
    (∀ q : ℚ, 1 / (n : ℚ) ≤ q → q ≤ 1 → ∃ m : ℤ, maxSamples (roundBits b) q n = .ok m) ∧
    (∀ q : ℚ, q ≤ 0 → maxSamples (roundBits b) q n = .error .valueError) ∧
    maxSamples (roundBits b) 1 n = .ok n := by
  have hn0 : (0 : ℚ) < n := by exact_mod_cast hn
  have fn : IsFloat b (n : ℚ) := isFloat_natCast (by omega)
  have okf : ∀ (q : ℚ) (m : ℤ), maxSamples (roundBits b) q n = .ok m →
      m = pyIntTrunc (roundBits b (q * n)) ∧ 1 ≤ m ∧ m ≤ n := by
    intro q m h
    unfold maxSamples at h
    dsimp only at h
    split at h
    · rename_i h1; cases h; exact ⟨rfl, by omega, h1.2⟩
    · cases h
  have okpos : ∀ (q : ℚ) (m : ℤ), maxSamples (roundBits b) q n = .ok m → m = ⌊roundBits b (q * n)⌋ ∧ 0 ≤ q := by
    intro q m h
    obtain ⟨h1, h2, _⟩ := okf q m h
    unfold pyIntTrunc at h1
    split at h1
    · rename_i h3
      refine ⟨h1, ?_⟩
      by_contra hc
      have : roundBits b (q * n) ≤ 0 := by
        have := roundBits_mono b hb (mul_nonpos_of_nonpos_of_nonneg (not_le.1 hc).le hn0.le)
        rwa [roundBits_zero] at this
      have h4 : roundBits b (q * n) = 0 := le_antisymm this h3
      rw [h4, Int.floor_zero] at h1
      omega
    · rename_i h3
      have : ⌈roundBits b (q * n)⌉ ≤ 0 := Int.ceil_le.2 (by push_cast; exact (not_le.1 h3).le)
      omega
  refine ⟨?_, ?_, ?_, ?_, ?_, ?_⟩
  · intro q
    cases h : maxSamples (roundBits b) q n with
    | error e =>
      left
      unfold maxSamples at h
      dsimp only at h
      split at h
      · cases h
      · rw [← h]
    | ok m => exact Or.inr ⟨m, rfl, (okf q m h).2⟩
  · intro q hq m h
    obtain ⟨h1, _⟩ := okpos q m h
    have h0 : 0 ≤ q * n := mul_nonneg hq hn0.le
    have hle := (okf q m h).2.2
    have hfl : ⌊q * n⌋ ≤ n := by
      by_contra hc
      have h3 : ((n + 1 : ℕ) : ℚ) ≤ q * n := by
        have : ((n + 1 : ℕ) : ℤ) ≤ ⌊q * n⌋ := by push_cast; omega
        exact_mod_cast (Int.le_floor.1 this)
      have h4 := le_round hb (isFloat_natCast (n := n + 1) hnb) h3
      have : ((n + 1 : ℕ) : ℤ) ≤ ⌊roundBits b (q * n)⌋ := Int.le_floor.2 (by exact_mod_cast h4)
      push_cast at this
      omega
    rcases floor_round hb h0 (by
      have : ((n : ℤ) + 1) < 2 ^ b := by exact_mod_cast hnb
      omega) with e | ⟨e, e'⟩
    · left; omega
    · right
      refine ⟨by omega, ?_⟩
      have h5 := (abs_le.1 (roundBits_error b hb (q * n))).2
      rw [abs_of_nonneg h0] at h5
      have : (m : ℚ) = roundBits b (q * n) := by rw [e', h1, e]; push_cast; rfl
      rw [this]
      exact h5
  · intro q q' hqq m m' h h'
    rw [(okpos q m h).1, (okpos q' m' h').1]
    exact Int.floor_le_floor (roundBits_mono b hb (mul_le_mul_of_nonneg_right hqq hn0.le))
  · intro q h1 h2
    have a : 1 ≤ roundBits b (q * n) := le_round hb (isFloat_one hb) (by rwa [div_le_iff₀ hn0] at h1)
    have c : roundBits b (q * n) ≤ n := round_le hb fn (by
      calc q * n ≤ 1 * n := mul_le_mul_of_nonneg_right h2 hn0.le
        _ = n := one_mul _)
    unfold maxSamples
    dsimp only
    rw [pyIntTrunc, if_pos (show 0 ≤ roundBits b (q * n) by linarith)]
    have d1 : 1 ≤ ⌊roundBits b (q * n)⌋ := Int.le_floor.2 (by push_cast; exact a)
    have d2 : ⌊roundBits b (q * n)⌋ ≤ n := by
      have := Int.floor_le_floor c
      rwa [Int.floor_natCast] at this
    rw [if_pos ⟨by omega, d2⟩]
    exact ⟨_, rfl⟩
  · intro q hq
    cases h : maxSamples (roundBits b) q n with
    | ok m =>
      have h1 := okpos q m h
      have h2 := okf q m h
      have : q = 0 := le_antisymm hq h1.2
      rw [this, zero_mul, roundBits_zero, Int.floor_zero] at h1
      omega
    | error e =>
      unfold maxSamples at h
      dsimp only at h
      split at h
      · cases h
      · rw [← h]
  · unfold maxSamples
    dsimp only
    rw [one_mul, roundBits_eq_self b hb fn, pyIntTrunc, if_pos hn0.le, Int.floor_natCast, if_pos ⟨by omega, le_rfl⟩]

/-- C109: what a decimal fraction gives depends on its nearest double: 0.7 of 10 rows are 7, although the double is below
0.7 and the exact product would be cut to 6; 0.29 of 100 rows are 28, not 29. -/
theorem C109_decimal_refuted :
    maxSamples (roundBits 53) (roundBits 53 (7 / 10)) 10 = .ok 7 ∧ ⌊roundBits 53 (7 / 10) * 10⌋ = 6 ∧
    maxSamples (roundBits 53) (roundBits 53 (29 / 100)) 100 = .ok 28 := by decide +kernel

/-- C109: for a floating point fraction `q` of `n` features, `max_features` is accepted exactly for `0 < q <= 1`; the number is
at least 1, at most `n` and, above 1, `floor(q * n)` or one more when the product rounds up to that integer. -/
theorem C109_max_features {b : ℕ} (hb : 1 ≤ b) (n : ℕ) (hn : 1 ≤ n) (hnb : n + 1 < 2 ^ b) (q : ℚ) (hq : IsFloat b q) :
    (0 < q ∧ q ≤ 1 → ∃ m : ℤ, maxFeatures (roundBits b) q n = .ok m ∧ 1 ≤ m ∧ m ≤ n ∧
      (m = max 1 ⌊q * n⌋ ∨ m = max 1 (⌊q * n⌋ + 1))) ∧
    (¬ (0 < q ∧ q ≤ 1) → maxFeatures (roundBits b) q n = .error .valueError) := by
  have hn0 : (0 : ℚ) < n := by exact_mod_cast hn
  have fn : IsFloat b (n : ℚ) := isFloat_natCast (by omega)
  constructor
  · rintro ⟨h0, h1⟩
    have hle : q * n ≤ n := by
      calc q * n ≤ 1 * n := mul_le_mul_of_nonneg_right h1 hn0.le
        _ = n := one_mul _
    have a := roundBits_pos b hb (mul_pos h0 hn0)
    have c := round_le hb fn hle
    unfold maxFeatures
    dsimp only
    rw [if_pos ⟨a, c⟩, pyIntTrunc, if_pos a.le]
    have d2 : ⌊roundBits b (q * n)⌋ ≤ n := by
      have := Int.floor_le_floor c
      rwa [Int.floor_natCast] at this
    refine ⟨_, rfl, le_max_left _ _, max_le (by omega) d2, ?_⟩
    have hfl : ⌊q * n⌋ ≤ n := by
      have := Int.floor_le_floor hle
      rwa [Int.floor_natCast] at this
    rcases floor_round hb (mul_pos h0 hn0).le (by
      have : ((n : ℤ) + 1) < 2 ^ b := by exact_mod_cast hnb
      omega) with e | ⟨e, _⟩
    · left; rw [e]
    · right; rw [e]
  · intro h
    unfold maxFeatures
    dsimp only
    rw [if_neg]
    rintro ⟨h1, h2⟩
    have hq0 : 0 < q := by
      by_contra hc
      have := roundBits_mono b hb (mul_nonpos_of_nonpos_of_nonneg (not_lt.1 hc) hn0.le)
      rw [roundBits_zero] at this
      linarith
    have hq1 : 1 < q := by
      by_contra hc
      exact h ⟨hq0, not_lt.1 hc⟩
    have herr := (abs_le.1 (roundBits_error_result b hb (q * n) (mul_pos hq0 hn0))).1
    have hdiv : roundBits b (q * n) / 2 ^ b ≤ n / 2 ^ b := div_le_div_of_nonneg_right h2 (by positivity)
    have hgap := one_gap hb hq hq1
    have hup : q * n ≤ n * (1 + 1 / 2 ^ b) := by
      rw [mul_add, mul_one, mul_one_div]
      linarith
    have hq2 : q ≤ 1 + 1 / 2 ^ b := by
      rw [mul_comm] at hup
      exact le_of_mul_le_mul_left hup hn0
    have : (0 : ℚ) < 1 / 2 ^ b := by positivity
    rw [show (2 : ℚ) / 2 ^ b = 2 * (1 / 2 ^ b) by ring] at hgap
    linarith

/-- C109: the number of batches of the sequential bootstrap, computed through a float, is the exact one for all sample lengths
below `2^b`: the number used in the exact model, and for positive batch sizes the number of batches that cover the sample
length without an empty one. -/
theorem C109_batches {b : ℕ} (hb : 1 ≤ b) (len every : ℤ) (he : every ≠ 0) (hlen : |len| < 2 ^ b) :
    batches (roundBits b) len every = ⌈(len : ℚ) / (every : ℚ)⌉ ∧
    (0 < every → len ≤ batches (roundBits b) len every * every ∧ (batches (roundBits b) len every - 1) * every < len) := by
  have key : batches (roundBits b) len every = ⌈(len : ℚ) / (every : ℚ)⌉ := by
    unfold batches
    have he' : (0 : ℚ) < |(every : ℚ)| := abs_pos.2 (by exact_mod_cast he)
    have he1 : (1 : ℚ) ≤ |(every : ℚ)| := by
      have : 1 ≤ |every| := Int.one_le_abs he
      rw [← Int.cast_abs]
      exact_mod_cast this
    have hl : |(len : ℚ)| < 2 ^ b := by
      rw [← Int.cast_abs]
      exact_mod_cast hlen
    obtain ⟨x, hx⟩ : ∃ x : ℚ, x = (len : ℚ) / (every : ℚ) := ⟨_, rfl⟩
    have hxabs : |x| = |(len : ℚ)| / |(every : ℚ)| := by rw [hx, abs_div]
    have hxle : |x| ≤ |(len : ℚ)| := by rw [hxabs]; exact div_le_self (abs_nonneg _) he1
    have hc : |⌈x⌉| ≤ |len| := by
      have := abs_le.1 hxle
      rw [← Int.cast_abs] at this
      rw [abs_le]
      constructor
      · have : -|len| ≤ ⌈x⌉ := by
          have h := this.1.trans (Int.le_ceil x)
          exact_mod_cast h
        exact this
      · exact Int.ceil_le.2 this.2
    rw [← hx, Int.ceil_eq_iff]
    constructor
    · have e1 := (abs_le.1 (roundBits_error b hb x)).1
      have e2 : |x| / 2 ^ b < 1 / |(every : ℚ)| := by
        rw [hxabs, div_div, div_lt_div_iff₀ (by positivity) he', one_mul, mul_comm]
        exact mul_lt_mul_of_pos_left hl he'
      have e3 : 1 / |(every : ℚ)| ≤ x - (⌈x⌉ - 1 : ℤ) := by
        have p0 : 0 < x - ((⌈x⌉ - 1 : ℤ) : ℚ) := by
          have := Int.ceil_lt_add_one x
          push_cast
          linarith
        have hev : (every : ℚ) ≠ 0 := by exact_mod_cast he
        have e4 : x - ((⌈x⌉ - 1 : ℤ) : ℚ) = ((len - (⌈x⌉ - 1) * every : ℤ) : ℚ) / (every : ℚ) := by
          rw [eq_div_iff hev, sub_mul, hx, div_mul_cancel₀ _ hev]
          push_cast
          ring
        have e5 : (1 : ℚ) ≤ |((len - (⌈x⌉ - 1) * every : ℤ) : ℚ)| := by
          have : len - (⌈x⌉ - 1) * every ≠ 0 := by
            intro h0
            rw [e4, h0] at p0
            simp at p0
          rw [← Int.cast_abs]
          exact_mod_cast Int.one_le_abs this
        rw [← abs_of_pos p0, e4, abs_div]
        exact div_le_div_of_nonneg_right e5 he'.le
      push_cast at e3
      linarith
    · exact round_le hb (isFloat_int b _ (lt_of_le_of_lt hc hlen)) (Int.le_ceil x)
  refine ⟨key, fun hpos => ?_⟩
  rw [key]
  have hp : (0 : ℚ) < every := by exact_mod_cast hpos
  constructor
  · have := Int.le_ceil ((len : ℚ) / every)
    rw [div_le_iff₀ hp] at this
    exact_mod_cast this
  · have := Int.ceil_lt_add_one ((len : ℚ) / every)
    rw [← sub_lt_iff_lt_add, lt_div_iff₀ hp] at this
    exact_mod_cast this

/-- C109: without rounding these are the functions of the exact model. -/
theorem C109_exact (q : ℚ) (n : ℕ) :
    Bag.resolveMaxSamples (.float (.fin q)) n = maxSamples id q n ∧
    Bag.resolveMaxFeatures (.float (.fin q)) n = maxFeatures id q n := by
  constructor
  · rfl
  · simp [Bag.resolveMaxFeatures, maxFeatures, XF.mul, XF.lt, XF.le, XF.toK, ← le_iff_lt_or_eq]

/-- C109: the bound on the sample length is needed: with `2^54 + 2` samples in batches of four the quotient `2^52 + 1/2` is
rounded to `2^52` and the last batch is lost. -/
theorem C109_batches_refuted : batches (roundBits 53) 18014398509481986 4 = 4503599627370496 ∧
    ⌈((18014398509481986 : ℤ) : ℚ) / ((4 : ℤ) : ℚ)⌉ = 4503599627370497 := by decide +kernel

example : batches (roundBits 53) 1000 7 = 143 ∧ batches (roundBits 53) 1001 7 = 143 ∧ maxSamples (roundBits 53) (roundBits 53 (1 / 3)) 1000 = .ok 333 ∧
    maxFeatures (roundBits 53) (roundBits 53 (1 / 10)) 7 = .ok 1 ∧
    maxFeatures (roundBits 53) (1 + 1 / 2 ^ 52) 7 = .error .valueError := by decide +kernel

end Mizar.Props
