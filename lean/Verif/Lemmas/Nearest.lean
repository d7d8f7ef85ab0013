import Verif.Spec.Nearest

/-! `roundBits` is correct rounding: to a nearest number with `p` bits, ties to even. -/

namespace Mizar
open Spec

/-- No integer is nearer than the rounded one. -/
theorem roundHalfEven_nearest (x : ℚ) (z : ℤ) : |(roundHalfEven x : ℚ) - x| ≤ |(z : ℚ) - x| := by
  have h1 := abs_roundHalfEven_sub_le x
  by_cases he : z = roundHalfEven x
  · rw [he]
  · have h2 : (1 : ℚ) ≤ |(z : ℚ) - roundHalfEven x| := by
      have : 1 ≤ |z - roundHalfEven x| := Int.one_le_abs (sub_ne_zero.2 he)
      exact_mod_cast this
    have h3 := abs_sub_le (z : ℚ) x (roundHalfEven x)
    rw [abs_sub_comm x] at h3
    linarith

/-- Only a tie has two nearest integers, and then the even one is taken. -/
theorem roundHalfEven_tie (x : ℚ) (z : ℤ) (hz : z ≠ roundHalfEven x) (h : |(z : ℚ) - x| = |(roundHalfEven x : ℚ) - x|) :
    roundHalfEven x % 2 = 0 := by
  have h1 := abs_roundHalfEven_sub_le x
  have h2 : (1 : ℚ) ≤ |(z : ℚ) - roundHalfEven x| := by
    have : 1 ≤ |z - roundHalfEven x| := Int.one_le_abs (sub_ne_zero.2 hz)
    exact_mod_cast this
  have h3 := abs_sub_le (z : ℚ) x (roundHalfEven x)
  rw [abs_sub_comm x] at h3
  have h4 : |(roundHalfEven x : ℚ) - x| = 1 / 2 := by linarith
  have f1 := Int.floor_le x
  have f2 := Int.lt_floor_add_one x
  unfold roundHalfEven at h4 ⊢
  simp only at h4 ⊢
  split_ifs at h4 ⊢ with a b c
  · rw [abs_sub_comm, abs_of_nonneg (by linarith)] at h4
    linarith
  · push_cast at h4
    rw [abs_of_nonneg (by linarith)] at h4
    linarith
  · exact c
  · omega

/-- A number with `p` bits that is at least `2 ^ k` is a multiple of `2 ^ (k - (p - 1))`. -/
theorem multiple_of_float (p : ℕ) (hp : 1 ≤ p) {y : ℚ} {k : ℤ} (hy : IsFloat p y) (h : (2 : ℚ) ^ k ≤ y) :
    ∃ z : ℤ, y = z * 2 ^ (k - ((p : ℤ) - 1)) := by
  obtain ⟨m, e, _, hm, rfl⟩ := normalise p hp (lt_of_lt_of_le (two_zpow_pos k) h) hy
  have h1 : (2 : ℚ) ^ k < 2 ^ (e + p) := by
    refine lt_of_le_of_lt h ?_
    rw [zpow_add₀ (by norm_num), zpow_natCast, mul_comm]
    exact mul_lt_mul_of_pos_left (by exact_mod_cast hm) (two_zpow_pos e)
  have h2 : k < e + p := (zpow_lt_zpow_iff_right₀ (by norm_num)).1 h1
  obtain ⟨d, hd⟩ : ∃ d : ℕ, e = k - ((p : ℤ) - 1) + d := ⟨(e - (k - ((p : ℤ) - 1))).toNat, by omega⟩
  refine ⟨m * 2 ^ d, ?_⟩
  rw [hd, zpow_add₀ (by norm_num), zpow_natCast]
  push_cast
  ring

/-- Distances of multiples. -/
theorem scaled_distance (z : ℤ) (q : ℚ) (f : ℤ) : |(z : ℚ) * 2 ^ f - q| = |(z : ℚ) - q / 2 ^ f| * 2 ^ f := by
  have hf := two_zpow_pos f
  rw [show (z : ℚ) * 2 ^ f - q = ((z : ℚ) - q / 2 ^ f) * 2 ^ f by field_simp, abs_mul, abs_of_pos hf]

theorem nearest_pos (p : ℕ) (hp : 1 ≤ p) {q : ℚ} (hq : 0 < q) (y : ℚ) (hy : IsFloat p y) :
    |roundBits p q - q| ≤ |y - q| ∧ (y ≠ roundBits p q → |y - q| = |roundBits p q - q| → EvenMantissa p (roundBits p q)) := by
  obtain ⟨k, h1, h2⟩ := exists_binade hq
  have hb := roundBits_in_binade p hp q k h1 h2
  rw [roundBits_binade p q k h1 h2] at hb ⊢
  have e2 : (2 : ℚ) ^ (k + 1) = (2 ^ p : ℚ) * 2 ^ (k - ((p : ℤ) - 1)) := by
    rw [← zpow_natCast, ← zpow_add₀ (by norm_num)]
    congr 1
    omega
  rw [e2, zpow_split p hp k] at hb
  have e1 := zpow_split p hp k
  obtain ⟨f, hf⟩ : ∃ f, f = k - ((p : ℤ) - 1) := ⟨_, rfl⟩
  obtain ⟨R, hR⟩ : ∃ R, R = roundHalfEven (q / 2 ^ f) := ⟨_, rfl⟩
  rw [← hf, ← hR] at hb ⊢
  rw [← hf] at e1
  have hfp := two_zpow_pos f
  have b1 : (2 : ℤ) ^ (p - 1) ≤ R := by exact_mod_cast le_of_mul_le_mul_right hb.1 hfp
  have b2 : R ≤ 2 ^ p := by exact_mod_cast le_of_mul_le_mul_right hb.2 hfp
  have hnear : ∀ z : ℤ, |(R : ℚ) * 2 ^ f - q| ≤ |(z : ℚ) * 2 ^ f - q| := by
    intro z
    rw [scaled_distance, scaled_distance, hR]
    exact mul_le_mul_of_nonneg_right (roundHalfEven_nearest _ z) hfp.le
  rcases le_or_gt ((2 : ℚ) ^ k) y with hky | hky
  · obtain ⟨z, rfl⟩ := multiple_of_float p hp hy hky
    rw [← hf]
    refine ⟨hnear z, fun hne heq => ⟨R, f, ?_, ?_, ?_, rfl⟩⟩
    · rw [abs_of_nonneg (le_trans (by positivity) b1)]; exact b1
    · rw [abs_of_nonneg (le_trans (by positivity) b1)]; exact b2
    · rw [scaled_distance, scaled_distance] at heq
      have := mul_right_cancel₀ hfp.ne' heq
      rw [hR] at this ⊢
      refine roundHalfEven_tie _ z ?_ this
      rintro rfl
      exact hne (by rw [← hR])
  · have h3 := hnear (2 ^ (p - 1))
    rw [← e1] at h3
    have h4 : |(2 : ℚ) ^ k - q| < |y - q| := by
      rw [abs_sub_comm, abs_of_nonneg (by linarith), abs_sub_comm y, abs_of_nonneg (by linarith)]
      linarith
    exact ⟨by linarith, fun _ heq => absurd heq (by intro h; rw [h] at h4; linarith)⟩

/-- `roundBits p q` is a nearest number with `p` bits; if there is another one, its mantissa is even. -/
theorem roundBits_correct (p : ℕ) (hp : 1 ≤ p) (q : ℚ) : Nearest p q (roundBits p q) ∧
    ∀ y, Nearest p q y → y ≠ roundBits p q → EvenMantissa p (roundBits p q) := by
  have key : ∀ y, IsFloat p y → |roundBits p q - q| ≤ |y - q| ∧
      (y ≠ roundBits p q → |y - q| = |roundBits p q - q| → EvenMantissa p (roundBits p q)) := by
    intro y hy
    rcases lt_trichotomy 0 q with hq | hq | hq
    · exact nearest_pos p hp hq y hy
    · rw [← hq, roundBits_zero]
      refine ⟨by simp, fun hne heq => absurd ?_ hne⟩
      simpa using heq
    · obtain ⟨m, e, hm, he⟩ := hy
      have h := nearest_pos p hp (neg_pos.2 hq) (-y) ⟨-m, e, by rwa [abs_neg], by rw [he]; push_cast; ring⟩
      rw [roundBits_neg] at h
      have e1 : |-roundBits p q - -q| = |roundBits p q - q| := by rw [← abs_neg]; congr 1; ring
      have e2 : |-y - -q| = |y - q| := by rw [← abs_neg]; congr 1; ring
      rw [e1, e2] at h
      refine ⟨h.1, fun hne heq => ?_⟩
      obtain ⟨M, E, h1, h2, h3, h4⟩ := h.2 (fun hc => hne (neg_injective hc)) heq
      exact ⟨-M, E, by rwa [abs_neg], by rwa [abs_neg], by omega, by push_cast; linarith⟩
  refine ⟨⟨isFloat_roundBits p hp q, fun y hy => (key y hy).1⟩, fun y hy hne => (key y hy.1).2 hne ?_⟩
  exact le_antisymm (hy.2 _ (isFloat_roundBits p hp q)) (key y hy.1).1

/-- Rounding an integer gives an integer. -/
theorem roundBits_int (p : ℕ) (hp : 1 ≤ p) (n : ℕ) : ∃ m : ℕ, roundBits p (n : ℚ) = m := by
  rcases Nat.eq_zero_or_pos n with rfl | hn
  · exact ⟨0, by simp [roundBits_zero]⟩
  · have hq : (0 : ℚ) < n := by exact_mod_cast hn
    rcases Nat.lt_or_ge n (2 ^ p) with h | h
    · exact ⟨n, roundBits_natCast p hp n h⟩
    · obtain ⟨k, h1, h2⟩ := exists_binade hq
      have hk : (p : ℤ) ≤ k := by
        have h3 : (2 : ℚ) ^ (p : ℤ) < 2 ^ (k + 1) := by
          refine lt_of_le_of_lt ?_ h2
          rw [zpow_natCast]
          exact_mod_cast h
        have := (zpow_lt_zpow_iff_right₀ (by norm_num : (1 : ℚ) < 2)).1 h3
        omega
      have hpos := roundBits_nonneg p hp hq.le
      rw [roundBits_binade p n k h1 h2] at hpos ⊢
      obtain ⟨d, hd⟩ : ∃ d : ℕ, k - ((p : ℤ) - 1) = d := ⟨(k - ((p : ℤ) - 1)).toNat, by omega⟩
      rw [hd, zpow_natCast] at hpos ⊢
      have hR : (0 : ℤ) ≤ roundHalfEven ((n : ℚ) / 2 ^ d) * 2 ^ d := by exact_mod_cast hpos
      refine ⟨(roundHalfEven ((n : ℚ) / 2 ^ d) * 2 ^ d).toNat, ?_⟩
      have := Int.toNat_of_nonneg hR
      have h4 : (((roundHalfEven ((n : ℚ) / 2 ^ d) * 2 ^ d).toNat : ℤ) : ℚ) = ((roundHalfEven ((n : ℚ) / 2 ^ d) * 2 ^ d : ℤ) : ℚ) := by rw [this]
      push_cast at h4
      exact_mod_cast h4.symm

/-- The overflow threshold of a format with greatest exponent `E`: half a unit above the greatest number. -/
theorem roundBits_overflow (p : ℕ) (hp : 1 ≤ p) (E : ℕ) (hE : p < E) (q : ℚ) (hq : 0 < q) :
    (2 : ℚ) ^ E ≤ roundBits p q ↔ (2 : ℚ) ^ E - 2 ^ (E - p - 1) ≤ q := by
  obtain ⟨d, rfl⟩ : ∃ d, E = p + 1 + d := ⟨E - p - 1, by omega⟩
  have ed : p + 1 + d - p - 1 = d := by omega
  rw [ed]
  have eE : (2 : ℚ) ^ (p + 1 + d) = 2 ^ p * 2 ^ (d + 1) := by rw [← pow_add]; congr 1; omega
  have two : (2 : ℚ) ^ (d + 1) = 2 * 2 ^ d := by rw [pow_succ]; ring
  have hd : (0 : ℚ) < 2 ^ d := by positivity
  have hpb : (2 : ℚ) ≤ 2 ^ p := by
    calc (2 : ℚ) = 2 ^ 1 := by norm_num
      _ ≤ 2 ^ p := pow_le_pow_right₀ (by norm_num) hp
  constructor
  · intro h
    by_contra hc
    push Not at hc
    -- the greatest number below the threshold
    have hfl : IsFloat p (((2 ^ p - 1 : ℤ) : ℚ) * 2 ^ ((d + 1 : ℕ) : ℤ)) := by
      refine ⟨2 ^ p - 1, ((d + 1 : ℕ) : ℤ), ?_, rfl⟩
      have : (1 : ℤ) ≤ 2 ^ p := by exact_mod_cast Nat.one_le_two_pow
      rw [abs_of_nonneg (by omega)]
      omega
    have hn := ((roundBits_correct p hp q).1).2 _ hfl
    rw [zpow_natCast] at hn
    push_cast at hn
    rw [eE] at h hc
    rw [abs_of_nonneg (by nlinarith)] at hn
    have : |((2 : ℚ) ^ p - 1) * 2 ^ (d + 1) - q| < 2 ^ p * 2 ^ (d + 1) - q := by
      rw [abs_lt]
      constructor <;> nlinarith
    linarith
  · intro h
    have hm := roundBits_mono p hp h
    refine le_trans ?_ hm
    have hthr : roundBits p ((2 : ℚ) ^ (p + 1 + d) - 2 ^ d) = 2 ^ (p + 1 + d) := by
      have z1 : (2 : ℚ) ^ ((p + d : ℕ) : ℤ) ≤ (2 : ℚ) ^ (p + 1 + d) - 2 ^ d := by
        rw [zpow_natCast, eE, two, pow_add]
        nlinarith
      have z2 : (2 : ℚ) ^ (p + 1 + d) - 2 ^ d < 2 ^ (((p + d : ℕ) : ℤ) + 1) := by
        have : ((p + d : ℕ) : ℤ) + 1 = ((p + 1 + d : ℕ) : ℤ) := by push_cast; ring
        rw [this, zpow_natCast]
        linarith
      rw [roundBits_binade p _ _ z1 z2]
      have ef : ((p + d : ℕ) : ℤ) - ((p : ℤ) - 1) = ((d + 1 : ℕ) : ℤ) := by push_cast; ring
      rw [ef, zpow_natCast]
      have ediv : ((2 : ℚ) ^ (p + 1 + d) - 2 ^ d) / 2 ^ (d + 1) = 2 ^ p - 1 / 2 := by
        rw [eE, two]
        field_simp
      have efl : ⌊(2 : ℚ) ^ p - 1 / 2⌋ = 2 ^ p - 1 := by
        rw [Int.floor_eq_iff]
        push_cast
        constructor <;> linarith
      have erhe : roundHalfEven ((2 : ℚ) ^ p - 1 / 2) = 2 ^ p := by
        unfold roundHalfEven
        simp only [efl]
        push_cast
        have e0 : (2 : ℚ) ^ p - 1 / 2 - (2 ^ p - 1) = 1 / 2 := by ring
        rw [e0, if_neg (lt_irrefl _), if_neg (lt_irrefl _), if_neg]
        · ring
        · obtain ⟨c, rfl⟩ : ∃ c, p = c + 1 := ⟨p - 1, by omega⟩
          rw [pow_succ]
          omega
      rw [ediv, erhe, eE]
      push_cast
      ring
    exact hthr.ge

end Mizar
