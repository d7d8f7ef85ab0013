import Verif.Model.Rounded
import Mathlib.Data.List.MinMax
import Mathlib.Tactic.Positivity
import Mathlib.Tactic.Linarith
import Mathlib.Tactic.FieldSimp

namespace Mizar.Rd
open Mizar

variable {p : ℕ}

theorem succ_le_rhe {z : ℚ} {n : ℤ} (h : (n : ℚ) + 1 / 2 < z) : n + 1 ≤ roundHalfEven z := by
  have h1 := abs_roundHalfEven_sub_le z
  rw [abs_le] at h1
  have : (n : ℚ) < roundHalfEven z := by linarith [h1.1]
  exact_mod_cast this

/-- Above the midpoint behind one, the rounded value exceeds one. -/
theorem one_lt_roundBits (hp : 1 ≤ p) {q : ℚ} (h : 1 + 1 / 2 ^ p < q) : 1 < roundBits p q := by
  rcases lt_or_ge q 2 with h2 | h2
  · have hpos : (0 : ℚ) < 1 / 2 ^ p := by positivity
    rw [roundBits_binade p q 0 (by simp; linarith) (by simpa using h2)]
    set f : ℤ := 0 - ((p : ℤ) - 1) with hf
    have e1 := zpow_split p hp 0
    simp only [zpow_zero] at e1
    have hff : (0 : ℚ) < 2 ^ f := two_zpow_pos f
    have e2 : (1 : ℚ) / 2 ^ p = 2 ^ f / 2 := by
      rw [hf, one_div, ← zpow_natCast, ← zpow_neg, eq_div_iff (by norm_num), ← zpow_add_one₀ (by norm_num)]
      congr 1
      omega
    have h3 : (((2 ^ (p - 1) : ℤ)) : ℚ) + 1 / 2 < q / 2 ^ f := by
      rw [lt_div_iff₀ hff, add_mul]
      rw [← e1]
      linarith [e2]
    have h4 := succ_le_rhe h3
    have h5 : (((2 ^ (p - 1) : ℤ)) : ℚ) + 1 ≤ (roundHalfEven (q / 2 ^ f) : ℚ) := by exact_mod_cast h4
    have h6 := mul_le_mul_of_nonneg_right h5 hff.le
    rw [add_mul, ← e1] at h6
    linarith
  · have h3 := roundBits_mono p hp h2
    have h4 := (roundBits_in_binade p hp 2 1 (by norm_num) (by norm_num)).1
    norm_num at h4
    linarith

/-- The predecessor of one is a float. -/
theorem roundBits_pred (hp : 1 ≤ p) : roundBits p (1 - 1 / 2 ^ p) = 1 - 1 / 2 ^ p := by
  apply roundBits_eq_self p hp
  refine ⟨2 ^ p - 1, -(p : ℤ), ?_, ?_⟩
  · rw [abs_of_nonneg]
    · omega
    · have : (1 : ℤ) ≤ 2 ^ p := one_le_pow₀ (by norm_num)
      omega
  · push_cast
    rw [zpow_neg, zpow_natCast]
    field_simp

theorem ratio_gt (hp : 1 ≤ p) {x y : ℚ} (hx : 0 < x) (fx : IsFloat p x) (fy : IsFloat p y) (h : x < y) :
    1 + 1 / 2 ^ p < y / x := by
  obtain ⟨m, e, hm1, hm2, rfl⟩ := normalise p hp hx fx
  obtain ⟨n, f, hn1, hn2, rfl⟩ := normalise p hp (hx.trans h) fy
  have he := two_zpow_pos e
  have hf := two_zpow_pos f
  have hmq : (0 : ℚ) < m := by
    by_contra hc
    push Not at hc
    nlinarith
  have hmp : (m : ℚ) < 2 ^ p := by exact_mod_cast hm2
  rcases le_or_gt e f with hef | hef
  · obtain ⟨d, rfl⟩ := Int.le.dest hef
    have hz : (2 : ℚ) ^ (e + (d : ℤ)) = 2 ^ d * 2 ^ e := by
      rw [zpow_add₀ (by norm_num), zpow_natCast, mul_comm]
    rw [hz, ← mul_assoc] at h ⊢
    have h1 : (m : ℚ) < n * 2 ^ d := lt_of_mul_lt_mul_right h he.le
    have h2 : m < n * 2 ^ d := by exact_mod_cast h1
    have h3 : (m : ℚ) + 1 ≤ n * 2 ^ d := by exact_mod_cast h2
    rw [mul_div_mul_right _ _ he.ne', lt_div_iff₀ hmq, add_mul, one_mul]
    have : 1 / 2 ^ p * (m : ℚ) < 1 := by
      rw [div_mul_eq_mul_div, one_mul, div_lt_one (by positivity)]
      exact hmp
    linarith
  · exfalso
    have h1 : (n : ℚ) < 2 ^ p := by exact_mod_cast hn2
    have h2 : ((2 : ℚ)) ^ (p - 1) ≤ m := by exact_mod_cast hm1
    have h3 : (2 : ℚ) ^ p * 2 ^ f ≤ 2 ^ (p - 1) * 2 ^ e := by
      rw [← zpow_natCast, ← zpow_natCast, ← zpow_add₀ (by norm_num), ← zpow_add₀ (by norm_num)]
      exact zpow_le_zpow_right₀ (by norm_num) (by omega)
    have h4 : (2 : ℚ) ^ (p - 1) * 2 ^ e ≤ m * 2 ^ e := mul_le_mul_of_nonneg_right h2 he.le
    have h5 : (n : ℚ) * 2 ^ f < 2 ^ p * 2 ^ f := mul_lt_mul_of_pos_right h1 hf
    linarith

theorem ratio_lt (hp : 1 ≤ p) {x y : ℚ} (hy : 0 < y) (fx : IsFloat p x) (fy : IsFloat p y) (h : y < x) :
    y / x ≤ 1 - 1 / 2 ^ p := by
  obtain ⟨m, e, hm1, hm2, rfl⟩ := normalise p hp (hy.trans h) fx
  obtain ⟨n, f, hn1, hn2, rfl⟩ := normalise p hp hy fy
  have he := two_zpow_pos e
  have hf := two_zpow_pos f
  have hP : (0 : ℚ) < 2 ^ p := by positivity
  have hx := hy.trans h
  have hmq : (0 : ℚ) < m := by
    by_contra hc
    push Not at hc
    nlinarith
  have hmp : (m : ℚ) < 2 ^ p := by exact_mod_cast hm2
  rcases lt_trichotomy e f with hef | hef | hef
  · exfalso
    have h1 : (m : ℚ) < 2 ^ p := by exact_mod_cast hm2
    have h2 : ((2 : ℚ)) ^ (p - 1) ≤ n := by exact_mod_cast hn1
    have h3 : (2 : ℚ) ^ p * 2 ^ e ≤ 2 ^ (p - 1) * 2 ^ f := by
      rw [← zpow_natCast, ← zpow_natCast, ← zpow_add₀ (by norm_num), ← zpow_add₀ (by norm_num)]
      exact zpow_le_zpow_right₀ (by norm_num) (by omega)
    have h4 : (2 : ℚ) ^ (p - 1) * 2 ^ f ≤ n * 2 ^ f := mul_le_mul_of_nonneg_right h2 hf.le
    have h5 : (m : ℚ) * 2 ^ e < 2 ^ p * 2 ^ e := mul_lt_mul_of_pos_right h1 he
    linarith
  · subst hef
    have h1 : (n : ℚ) < m := lt_of_mul_lt_mul_right h he.le
    have h2 : n < m := by exact_mod_cast h1
    have h3 : (n : ℚ) + 1 ≤ m := by exact_mod_cast h2
    rw [mul_div_mul_right _ _ he.ne', div_le_iff₀ hmq, sub_mul, one_mul]
    have : 1 / 2 ^ p * (m : ℚ) < 1 := by
      rw [div_mul_eq_mul_div, one_mul, div_lt_one (by positivity)]
      exact hmp
    linarith
  · have h1 : (n : ℚ) + 1 ≤ 2 ^ p := by exact_mod_cast hn2
    have h2 : ((2 : ℚ)) ^ (p - 1) ≤ m := by exact_mod_cast hm1
    have h3 : (2 : ℚ) ^ p * 2 ^ f ≤ 2 ^ (p - 1) * 2 ^ e := by
      rw [← zpow_natCast, ← zpow_natCast, ← zpow_add₀ (by norm_num), ← zpow_add₀ (by norm_num)]
      exact zpow_le_zpow_right₀ (by norm_num) (by omega)
    have h4 : (2 : ℚ) ^ (p - 1) * 2 ^ e ≤ m * 2 ^ e := mul_le_mul_of_nonneg_right h2 he.le
    rw [div_le_iff₀ hx]
    have h5 : (n : ℚ) * 2 ^ f ≤ (1 - 1 / 2 ^ p) * (2 ^ p * 2 ^ f) := by
      have : (1 - 1 / 2 ^ p : ℚ) * (2 ^ p * 2 ^ f) = (2 ^ p - 1) * 2 ^ f := by field_simp
      rw [this]
      exact mul_le_mul_of_nonneg_right (by linarith) hf.le
    have h6 : (0 : ℚ) ≤ 1 - 1 / 2 ^ p := by
      rw [sub_nonneg, div_le_one hP]
      exact one_le_pow₀ (by norm_num)
    exact h5.trans (mul_le_mul_of_nonneg_left (h3.trans h4) h6)

theorem roundBits_lt_zero (hp : 1 ≤ p) {q : ℚ} (h : q < 0) : roundBits p q < 0 := by
  have := roundBits_pos p hp (neg_pos.2 h)
  rw [roundBits_neg] at this
  linarith

theorem roundBits_pos_iff (hp : 1 ≤ p) {q : ℚ} : 0 < roundBits p q ↔ 0 < q := by
  refine ⟨fun h => ?_, roundBits_pos p hp⟩
  by_contra hc
  push Not at hc
  have := roundBits_mono p hp hc
  rw [roundBits_zero] at this
  linarith

theorem roundBits_neg_iff (hp : 1 ≤ p) {q : ℚ} : roundBits p q < 0 ↔ q < 0 := by
  refine ⟨fun h => ?_, roundBits_lt_zero hp⟩
  by_contra hc
  push Not at hc
  have := roundBits_nonneg p hp hc
  linarith

theorem roundBits_idem (hp : 1 ≤ p) (q : ℚ) : roundBits p (roundBits p q) = roundBits p q :=
  roundBits_eq_self p hp (isFloat_roundBits p hp q)

theorem ret_self (hp : 1 ≤ p) {x : ℚ} (hx : 0 < x) : ret (roundBits p) x x = 0 := by
  unfold ret
  rw [div_self hx.ne', roundBits_one p hp, sub_self, roundBits_zero]

theorem ret_pos (hp : 1 ≤ p) {x y : ℚ} (hx : 0 < x) (fx : IsFloat p x) (fy : IsFloat p y) (h : x < y) :
    0 < ret (roundBits p) x y := by
  unfold ret
  apply roundBits_pos p hp
  have := one_lt_roundBits hp (ratio_gt hp hx fx fy h)
  linarith

theorem ret_neg (hp : 1 ≤ p) {x y : ℚ} (hy : 0 < y) (fx : IsFloat p x) (fy : IsFloat p y) (h : y < x) :
    ret (roundBits p) x y < 0 := by
  unfold ret
  apply roundBits_lt_zero hp
  have h1 := roundBits_mono p hp (ratio_lt hp hy fx fy h)
  rw [roundBits_pred hp] at h1
  have : (0 : ℚ) < 1 / 2 ^ p := by positivity
  linarith

theorem ret_sign (hp : 1 ≤ p) {x y : ℚ} (hx : 0 < x) (hy : 0 < y) (fx : IsFloat p x) (fy : IsFloat p y) :
    (0 < ret (roundBits p) x y ↔ x < y) ∧ (ret (roundBits p) x y < 0 ↔ y < x) ∧ (ret (roundBits p) x y = 0 ↔ x = y) := by
  rcases lt_trichotomy x y with h | h | h
  · have := ret_pos hp hx fx fy h
    exact ⟨by simp [this, h], by constructor <;> intro <;> linarith, by constructor <;> intro <;> linarith⟩
  · subst h
    have := ret_self hp hx
    exact ⟨by simp [this], by simp [this], by simp [this]⟩
  · have := ret_neg hp hy fx fy h
    exact ⟨by constructor <;> intro <;> linarith, by simp [this, h], by constructor <;> intro <;> linarith⟩

theorem side_ret (hp : 1 ≤ p) {x y side : ℚ} (hs : side = 1 ∨ side = -1) :
    roundBits p (ret (roundBits p) x y * side) = ret (roundBits p) x y * side := by
  rcases hs with rfl | rfl
  · rw [mul_one]
    exact roundBits_idem hp _
  · rw [mul_neg_one, roundBits_neg]
    unfold ret
    rw [roundBits_idem hp]

end Mizar.Rd
