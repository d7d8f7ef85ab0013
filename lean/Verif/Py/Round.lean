import Verif.Py.Num

/-!
Rounding of exact results to binary floating point numbers with `p` bits, ties to even (`p = 53` for `float64`, `p = 24`
for `float32`), as done by every arithmetic operation of the float code in `/repo/mizarlabs`.  The exponent is not
bounded: overflow and the loss of precision of subnormal numbers are not modelled.
-/

namespace Mizar

/-- The `p` bit floating point number nearest to `q`, ties to even. -/
def roundBits (p : ℕ) (q : ℚ) : ℚ :=
  if q = 0 then 0
  else
    let e : ℤ := Int.log 2 |q| - ((p : ℤ) - 1)
    (roundHalfEven (q / 2 ^ e) : ℚ) * 2 ^ e

theorem toDouble_eq (q : ℚ) : toDouble q = roundBits 53 q := by
  unfold toDouble roundBits
  norm_num

/-- The numbers with a mantissa of `p` bits. -/
def IsFloat (p : ℕ) (x : ℚ) : Prop := ∃ m e : ℤ, |m| < 2 ^ p ∧ x = m * 2 ^ e

theorem roundBits_zero (p : ℕ) : roundBits p 0 = 0 := by simp [roundBits]

theorem roundBits_neg (p : ℕ) (q : ℚ) : roundBits p (-q) = -roundBits p q := by
  unfold roundBits
  by_cases h : q = 0
  · simp [h]
  · rw [if_neg (by simpa using h), if_neg h]
    simp only [abs_neg, neg_div, roundHalfEven_neg]
    push_cast
    ring

theorem two_zpow_pos (e : ℤ) : (0 : ℚ) < 2 ^ e := zpow_pos (by norm_num) e

/-- Value in a binade. -/
theorem roundBits_binade (p : ℕ) (q : ℚ) (k : ℤ) (h1 : (2 : ℚ) ^ k ≤ q) (h2 : q < 2 ^ (k + 1)) :
    roundBits p q = (roundHalfEven (q / 2 ^ (k - ((p : ℤ) - 1))) : ℚ) * 2 ^ (k - ((p : ℤ) - 1)) := by
  have hpos : 0 < q := lt_of_lt_of_le (two_zpow_pos k) h1
  have hlog : Int.log 2 |q| = k := by
    rw [abs_of_pos hpos]
    apply le_antisymm
    · have := (Int.lt_zpow_iff_log_lt (b := 2) (by norm_num) hpos (x := k + 1)).1 (by exact_mod_cast h2)
      omega
    · exact (Int.zpow_le_iff_le_log (b := 2) (by norm_num) hpos).1 (by exact_mod_cast h1)
  unfold roundBits
  rw [if_neg hpos.ne']
  simp only [hlog]

theorem exists_binade {q : ℚ} (h : 0 < q) : ∃ k : ℤ, (2 : ℚ) ^ k ≤ q ∧ q < 2 ^ (k + 1) := by
  refine ⟨Int.log 2 q, ?_, ?_⟩
  · exact_mod_cast Int.zpow_log_le_self (b := 2) (by norm_num) h
  · exact_mod_cast Int.lt_zpow_succ_log_self (b := 2) (by norm_num) q

/-- A multiple of `2^f` stays between its neighbours that are multiples. -/
theorem rhe_le {q : ℚ} {f : ℤ} {m : ℤ} (h : q ≤ m * 2 ^ f) : (roundHalfEven (q / 2 ^ f) : ℚ) * 2 ^ f ≤ m * 2 ^ f := by
  have h1 : q / 2 ^ f ≤ m := by rwa [div_le_iff₀ (two_zpow_pos f)]
  have h2 := roundHalfEven_mono h1
  rw [roundHalfEven_intCast] at h2
  have h3 : ((roundHalfEven (q / 2 ^ f) : ℤ) : ℚ) ≤ m := by exact_mod_cast h2
  exact mul_le_mul_of_nonneg_right h3 (two_zpow_pos f).le

theorem le_rhe {q : ℚ} {f : ℤ} {m : ℤ} (h : m * 2 ^ f ≤ q) : (m : ℚ) * 2 ^ f ≤ (roundHalfEven (q / 2 ^ f) : ℚ) * 2 ^ f := by
  have h1 : (m : ℚ) ≤ q / 2 ^ f := by rwa [le_div_iff₀ (two_zpow_pos f)]
  have h2 := roundHalfEven_mono h1
  rw [roundHalfEven_intCast] at h2
  have h3 : (m : ℚ) ≤ ((roundHalfEven (q / 2 ^ f) : ℤ) : ℚ) := by exact_mod_cast h2
  exact mul_le_mul_of_nonneg_right h3 (two_zpow_pos f).le

theorem zpow_split (p : ℕ) (hp : 1 ≤ p) (k : ℤ) : (2 : ℚ) ^ k = ((2 ^ (p - 1) : ℤ) : ℚ) * 2 ^ (k - ((p : ℤ) - 1)) := by
  push_cast
  rw [← zpow_natCast, ← zpow_add₀ (by norm_num)]
  congr 1
  omega

theorem roundBits_in_binade (p : ℕ) (hp : 1 ≤ p) (q : ℚ) (k : ℤ) (h1 : (2 : ℚ) ^ k ≤ q) (h2 : q < 2 ^ (k + 1)) :
    2 ^ k ≤ roundBits p q ∧ roundBits p q ≤ 2 ^ (k + 1) := by
  rw [roundBits_binade p q k h1 h2]
  have e1 := zpow_split p hp k
  have e2 : (2 : ℚ) ^ (k + 1) = ((2 ^ p : ℤ) : ℚ) * 2 ^ (k - ((p : ℤ) - 1)) := by
    push_cast
    rw [← zpow_natCast, ← zpow_add₀ (by norm_num)]
    congr 1
    omega
  constructor
  · rw [e1]; exact le_rhe (by rw [← e1]; exact h1)
  · rw [e2]; exact rhe_le (by rw [← e2]; exact h2.le)

theorem roundBits_pos (p : ℕ) (hp : 1 ≤ p) {q : ℚ} (h : 0 < q) : 0 < roundBits p q := by
  obtain ⟨k, h1, h2⟩ := exists_binade h
  exact lt_of_lt_of_le (two_zpow_pos k) (roundBits_in_binade p hp q k h1 h2).1

theorem roundBits_nonneg (p : ℕ) (hp : 1 ≤ p) {q : ℚ} (h : 0 ≤ q) : 0 ≤ roundBits p q := by
  rcases h.eq_or_lt with rfl | h
  · rw [roundBits_zero]
  · exact (roundBits_pos p hp h).le

theorem roundBits_mono_pos (p : ℕ) (hp : 1 ≤ p) {x y : ℚ} (hx : 0 < x) (h : x ≤ y) : roundBits p x ≤ roundBits p y := by
  obtain ⟨k, h1, h2⟩ := exists_binade hx
  obtain ⟨k', h1', h2'⟩ := exists_binade (lt_of_lt_of_le hx h)
  have hk : k ≤ k' := by
    by_contra hc
    push Not at hc
    have : (2 : ℚ) ^ (k' + 1) ≤ 2 ^ k := zpow_le_zpow_right₀ (by norm_num) (by omega)
    linarith
  rcases hk.eq_or_lt with rfl | hk
  · rw [roundBits_binade p x k h1 h2, roundBits_binade p y k h1' h2']
    have := roundHalfEven_mono (div_le_div_of_nonneg_right h (two_zpow_pos (k - ((p : ℤ) - 1))).le)
    exact mul_le_mul_of_nonneg_right (by exact_mod_cast this) (two_zpow_pos _).le
  · have a := (roundBits_in_binade p hp x k h1 h2).2
    have b := (roundBits_in_binade p hp y k' h1' h2').1
    have c : (2 : ℚ) ^ (k + 1) ≤ 2 ^ k' := zpow_le_zpow_right₀ (by norm_num) (by omega)
    linarith

theorem roundBits_mono (p : ℕ) (hp : 1 ≤ p) {x y : ℚ} (h : x ≤ y) : roundBits p x ≤ roundBits p y := by
  rcases lt_trichotomy 0 x with hx | hx | hx
  · exact roundBits_mono_pos p hp hx h
  · rw [← hx, roundBits_zero]
    exact roundBits_nonneg p hp (hx ▸ h)
  · rcases le_or_gt 0 y with hy | hy
    · have := roundBits_pos p hp (neg_pos.2 hx)
      rw [roundBits_neg] at this
      have := roundBits_nonneg p hp hy
      linarith
    · have := roundBits_mono_pos p hp (neg_pos.2 hy) (neg_le_neg h)
      rw [roundBits_neg, roundBits_neg] at this
      linarith

/-- Rounding leaves floating point numbers unchanged. -/
theorem roundBits_eq_self (p : ℕ) (hp : 1 ≤ p) {x : ℚ} (h : IsFloat p x) : roundBits p x = x := by
  have key : ∀ x : ℚ, 0 < x → IsFloat p x → roundBits p x = x := by
    intro x hx ⟨m, e, hm, he⟩
    obtain ⟨k, h1, h2⟩ := exists_binade hx
    rw [roundBits_binade p x k h1 h2]
    have hke : k - ((p : ℤ) - 1) ≤ e := by
      by_contra hc
      push Not at hc
      have h3 : x < 2 ^ (e + p) := by
        rw [he, zpow_add₀ (by norm_num), mul_comm, zpow_natCast]
        apply mul_lt_mul_of_pos_left _ (two_zpow_pos e)
        have : (m : ℚ) ≤ |(m : ℚ)| := le_abs_self _
        have : |(m : ℚ)| < 2 ^ p := by exact_mod_cast hm
        linarith
      have h4 : (2 : ℚ) ^ (e + p) ≤ 2 ^ k := zpow_le_zpow_right₀ (by norm_num) (by omega)
      linarith
    obtain ⟨n, hn⟩ : ∃ n : ℕ, e - (k - ((p : ℤ) - 1)) = n := ⟨(e - (k - ((p : ℤ) - 1))).toNat, by omega⟩
    have hq : x / 2 ^ (k - ((p : ℤ) - 1)) = ((m * 2 ^ n : ℤ) : ℚ) := by
      rw [he, mul_div_assoc, ← zpow_sub₀ (by norm_num), hn]
      push_cast
      rw [zpow_natCast]
    rw [hq, roundHalfEven_intCast, ← hq, div_mul_cancel₀ _ (two_zpow_pos _).ne']
  rcases lt_trichotomy 0 x with hx | hx | hx
  · exact key x hx h
  · rw [← hx, roundBits_zero]
  · obtain ⟨m, e, hm, he⟩ := h
    have := key (-x) (neg_pos.2 hx) ⟨-m, e, by rwa [abs_neg], by rw [he]; push_cast; ring⟩
    rw [roundBits_neg] at this
    linarith

/-- The result of rounding is a floating point number. -/
theorem isFloat_roundBits (p : ℕ) (hp : 1 ≤ p) (q : ℚ) : IsFloat p (roundBits p q) := by
  have key : ∀ q : ℚ, 0 < q → IsFloat p (roundBits p q) := by
    intro q hq
    obtain ⟨k, h1, h2⟩ := exists_binade hq
    have hb := (roundBits_in_binade p hp q k h1 h2)
    rcases hb.2.eq_or_lt with he | hlt
    · refine ⟨1, k + 1, ?_, by rw [he]; simp⟩
      rw [abs_one]
      exact one_lt_pow₀ (by norm_num) (by omega)
    · refine ⟨roundHalfEven (q / 2 ^ (k - ((p : ℤ) - 1))), k - ((p : ℤ) - 1), ?_, roundBits_binade p q k h1 h2⟩
      rw [roundBits_binade p q k h1 h2] at hb hlt
      have e2 : (2 : ℚ) ^ (k + 1) = (2 ^ p : ℚ) * 2 ^ (k - ((p : ℤ) - 1)) := by
        rw [← zpow_natCast, ← zpow_add₀ (by norm_num)]
        congr 1
        omega
      rw [e2] at hlt
      have h3 := lt_of_mul_lt_mul_right hlt (two_zpow_pos _).le
      have h4 : 0 ≤ roundHalfEven (q / 2 ^ (k - ((p : ℤ) - 1))) := by
        have := roundHalfEven_mono (div_nonneg hq.le (two_zpow_pos (k - ((p : ℤ) - 1))).le)
        have e0 := roundHalfEven_intCast (K := ℚ) 0
        rw [Int.cast_zero] at e0
        rwa [e0] at this
      rw [abs_of_nonneg h4]
      exact_mod_cast h3
  rcases lt_trichotomy 0 q with hq | hq | hq
  · exact key q hq
  · rw [← hq, roundBits_zero]
    exact ⟨0, 0, by simp, by simp⟩
  · obtain ⟨m, e, hm, he⟩ := key (-q) (neg_pos.2 hq)
    rw [roundBits_neg] at he
    exact ⟨-m, e, by rwa [abs_neg], by push_cast; linarith⟩

/-- Relative error. -/
theorem roundBits_error (p : ℕ) (hp : 1 ≤ p) (q : ℚ) : |roundBits p q - q| ≤ |q| / 2 ^ p := by
  have key : ∀ q : ℚ, 0 < q → |roundBits p q - q| ≤ q / 2 ^ p := by
    intro q hq
    obtain ⟨k, h1, h2⟩ := exists_binade hq
    rw [roundBits_binade p q k h1 h2]
    set f := k - ((p : ℤ) - 1)
    have h := abs_roundHalfEven_sub_le (q / 2 ^ f)
    have hf := two_zpow_pos f
    have e : (roundHalfEven (q / 2 ^ f) : ℚ) * 2 ^ f - q = ((roundHalfEven (q / 2 ^ f) : ℚ) - q / 2 ^ f) * 2 ^ f := by
      field_simp
    rw [e, abs_mul, abs_of_pos hf]
    have h3 : |(roundHalfEven (q / 2 ^ f) : ℚ) - q / 2 ^ f| * 2 ^ f ≤ 1 / 2 * 2 ^ f := mul_le_mul_of_nonneg_right h hf.le
    have h4 : (1 : ℚ) / 2 * 2 ^ f = 2 ^ k / 2 ^ p := by
      have : (2 : ℚ) ^ k = 2 ^ f * 2 ^ ((p : ℤ) - 1) := by rw [← zpow_add₀ (by norm_num)]; congr 1; omega
      have e3 : (2 : ℚ) ^ ((p : ℤ) - 1) = 2 ^ p / 2 := by rw [zpow_sub₀ (by norm_num), zpow_natCast, zpow_one]
      rw [this, e3]
      field_simp
    have h5 : (2 : ℚ) ^ k / 2 ^ p ≤ q / 2 ^ p := div_le_div_of_nonneg_right h1 (by positivity)
    linarith
  rcases lt_trichotomy 0 q with hq | hq | hq
  · rw [abs_of_pos hq]; exact key q hq
  · rw [← hq, roundBits_zero]; simp
  · have := key (-q) (neg_pos.2 hq)
    rw [roundBits_neg] at this
    rw [abs_of_neg hq, abs_sub_comm]
    rw [show q - roundBits p q = -roundBits p q - -q by ring]
    exact this

/-- Integers with at most `p` bits are floating point numbers. -/
theorem isFloat_int (p : ℕ) (m : ℤ) (h : |m| < 2 ^ p) : IsFloat p m := ⟨m, 0, h, by simp⟩

theorem roundBits_natCast (p : ℕ) (hp : 1 ≤ p) (n : ℕ) (h : n < 2 ^ p) : roundBits p (n : ℚ) = n := by
  have := roundBits_eq_self p hp (isFloat_int p (n : ℤ) (by rw [abs_of_nonneg (by omega)]; exact_mod_cast h))
  simpa using this

theorem roundBits_one (p : ℕ) (hp : 1 ≤ p) : roundBits p 1 = 1 := by
  have := roundBits_natCast p hp 1 (one_lt_pow₀ (by norm_num) (by omega))
  simpa using this

/-- A mantissa with exactly `p` bits. -/
theorem normalise (p : ℕ) (hp : 1 ≤ p) {x : ℚ} (hx : 0 < x) (h : IsFloat p x) :
    ∃ (m : ℤ) (e : ℤ), 2 ^ (p - 1) ≤ m ∧ m < 2 ^ p ∧ x = m * 2 ^ e := by
  have hr := roundBits_eq_self p hp h
  obtain ⟨k, h1, h2⟩ := exists_binade hx
  rw [roundBits_binade p x k h1 h2] at hr
  refine ⟨roundHalfEven (x / 2 ^ (k - ((p : ℤ) - 1))), k - ((p : ℤ) - 1), ?_, ?_, hr.symm⟩
  · rw [zpow_split p hp k, ← hr] at h1
    have := le_of_mul_le_mul_right h1 (two_zpow_pos _)
    exact_mod_cast this
  · have e2 : (2 : ℚ) ^ (k + 1) = (2 ^ p : ℚ) * 2 ^ (k - ((p : ℤ) - 1)) := by
      rw [← zpow_natCast, ← zpow_add₀ (by norm_num)]
      congr 1
      omega
    rw [e2, ← hr] at h2
    have := lt_of_mul_lt_mul_right h2 (two_zpow_pos _).le
    exact_mod_cast this

end Mizar
