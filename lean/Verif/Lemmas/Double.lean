import Verif.Py.Double
import Verif.Lemmas.Nearest
import Mathlib.Tactic.Linarith
import Mathlib.Tactic.FieldSimp
import Mathlib.Tactic.Positivity
import Mathlib.Tactic.Ring

/-! Lemmas about floating point with a bounded exponent. -/

namespace Mizar

/-- The multiples of `2^e`. -/
def OnUnit (e : ℤ) (x : ℚ) : Prop := ∃ m : ℤ, x = m * 2 ^ e

theorem OnUnit.zero (e : ℤ) : OnUnit e 0 := ⟨0, by simp⟩

theorem OnUnit.add {e : ℤ} {x y : ℚ} (hx : OnUnit e x) (hy : OnUnit e y) : OnUnit e (x + y) := by
  obtain ⟨m, rfl⟩ := hx
  obtain ⟨n, rfl⟩ := hy
  exact ⟨m + n, by push_cast; ring⟩

theorem OnUnit.neg {e : ℤ} {x : ℚ} (hx : OnUnit e x) : OnUnit e (-x) := by
  obtain ⟨m, rfl⟩ := hx
  exact ⟨-m, by push_cast; ring⟩

theorem OnUnit.sub {e : ℤ} {x y : ℚ} (hx : OnUnit e x) (hy : OnUnit e y) : OnUnit e (x - y) := by
  rw [sub_eq_add_neg]; exact hx.add hy.neg

theorem OnUnit.coarser {e k : ℤ} (h : e ≤ k) {x : ℚ} (hx : OnUnit k x) : OnUnit e x := by
  obtain ⟨m, rfl⟩ := hx
  obtain ⟨n, rfl⟩ := Int.le.dest h
  refine ⟨m * 2 ^ n, ?_⟩
  rw [zpow_add₀ (by norm_num), zpow_natCast]
  push_cast
  ring

theorem Fmt.Has.onUnit {f : Fmt} {x : ℚ} (h : f.Has x) : OnUnit f.emin x := by
  obtain ⟨⟨m, e, _, he, rfl⟩, _⟩ := h
  exact OnUnit.coarser he ⟨m, rfl⟩

theorem Fmt.Has.isFloat {f : Fmt} {x : ℚ} (h : f.Has x) : IsFloat f.p x := by
  obtain ⟨⟨m, e, hm, _, rfl⟩, _⟩ := h
  exact ⟨m, e, hm, rfl⟩

theorem Fmt.round_zero (f : Fmt) : f.round 0 = 0 := by simp [Fmt.round]

/-- Without underflow the exponent does not matter. -/
theorem Fmt.round_normal (f : Fmt) {q : ℚ} (h : f.emin ≤ Int.log 2 |q| - ((f.p : ℤ) - 1)) : f.round q = roundBits f.p q := by
  unfold Fmt.round roundBits
  by_cases hq : q = 0
  · rw [if_pos hq, if_pos hq]
  · rw [if_neg hq, if_neg hq]
    dsimp only
    rw [max_eq_right h]

/-- A multiple of the smallest number is rounded as without bounds: sums of floats never lose bits by underflow. -/
theorem Fmt.round_unit (f : Fmt) (hp : 1 ≤ f.p) {q : ℚ} (h : OnUnit f.emin q) : f.round q = roundBits f.p q := by
  rcases le_or_gt f.emin (Int.log 2 |q| - ((f.p : ℤ) - 1)) with hc | hc
  · exact f.round_normal hc
  · by_cases hq : q = 0
    · rw [hq, Fmt.round_zero, roundBits_zero]
    obtain ⟨m, hm⟩ := h
    have h1 : f.round q = q := by
      unfold Fmt.round
      rw [if_neg hq]
      dsimp only
      rw [max_eq_left hc.le, hm, mul_div_assoc, div_self (two_zpow_pos _).ne', mul_one, roundHalfEven_intCast]
    have h2 : roundBits f.p q = q := by
      apply roundBits_eq_self f.p hp
      refine ⟨m, f.emin, ?_, hm⟩
      have hlt : |q| < 2 ^ (Int.log 2 |q| + 1) := by exact_mod_cast Int.lt_zpow_succ_log_self (b := 2) (by norm_num) |q|
      have hle : (2 : ℚ) ^ (Int.log 2 |q| + 1) ≤ 2 ^ (f.emin + (f.p : ℤ)) := zpow_le_zpow_right₀ (by norm_num) (by omega)
      have he : |q| = |(m : ℚ)| * 2 ^ f.emin := by rw [hm, abs_mul, abs_of_pos (two_zpow_pos f.emin)]
      rw [zpow_add₀ (by norm_num) f.emin, zpow_natCast] at hle
      have hlt2 := lt_of_lt_of_le hlt hle
      rw [he, mul_comm ((2 : ℚ) ^ f.emin)] at hlt2
      have := lt_of_mul_lt_mul_right hlt2 (two_zpow_pos f.emin).le
      exact_mod_cast this
    rw [h1, h2]

/-- Rounding keeps multiples of the smallest number. -/
theorem OnUnit.roundBits {p : ℕ} (hp : 1 ≤ p) {e : ℤ} {q : ℚ} (h : OnUnit e q) : OnUnit e (Mizar.roundBits p q) := by
  have hr := Fmt.round_unit ⟨p, e, 0⟩ hp (q := q) h
  rw [← hr]
  unfold Fmt.round
  split
  · exact OnUnit.zero e
  · exact OnUnit.coarser (le_max_left _ _) ⟨_, rfl⟩

theorem Fmt.float_unit (f : Fmt) (hp : 1 ≤ f.p) {q : ℚ} (h : OnUnit f.emin q) : f.float q =
    if 2 ^ f.emax ≤ roundBits f.p q then .pinf else if roundBits f.p q ≤ -2 ^ f.emax then .ninf else .fin (roundBits f.p q) := by
  unfold Fmt.float
  rw [f.round_unit hp h]

/-- Rounding gives a multiple of the smallest number ... -/
theorem Fmt.round_onUnit (f : Fmt) (q : ℚ) : OnUnit f.emin (f.round q) := by
  unfold Fmt.round
  split
  · exact OnUnit.zero _
  · exact OnUnit.coarser (le_max_left _ _) ⟨_, rfl⟩

/-- ... with `p` bits ... -/
theorem Fmt.round_isFloat (f : Fmt) (hp : 1 ≤ f.p) (q : ℚ) : IsFloat f.p (f.round q) := by
  rcases le_or_gt f.emin (Int.log 2 |q| - ((f.p : ℤ) - 1)) with hc | hc
  · rw [f.round_normal hc]; exact isFloat_roundBits f.p hp q
  by_cases hq : q = 0
  · rw [hq, f.round_zero]; exact ⟨0, 0, by positivity, by simp⟩
  have e1 : f.round q = (roundHalfEven (q / 2 ^ f.emin) : ℚ) * 2 ^ f.emin := by
    unfold Fmt.round
    rw [if_neg hq]
    dsimp only
    rw [max_eq_left hc.le]
  have hlt : |q| < 2 ^ (Int.log 2 |q| + 1) := by exact_mod_cast Int.lt_zpow_succ_log_self (b := 2) (by norm_num) |q|
  have hle : (2 : ℚ) ^ (Int.log 2 |q| + 1) ≤ 2 ^ (f.emin + ((f.p : ℤ) - 1)) := zpow_le_zpow_right₀ (by norm_num) (by omega)
  have e3 : (2 : ℚ) ^ (f.emin + ((f.p : ℤ) - 1)) = ((2 ^ (f.p - 1) : ℤ) : ℚ) * 2 ^ f.emin := by
    push_cast
    rw [← zpow_natCast, ← zpow_add₀ (by norm_num)]
    congr 1
    omega
  rw [e3] at hle
  have hb := abs_lt.1 (lt_of_lt_of_le hlt hle)
  have u1 := rhe_le hb.2.le
  have u2 := le_rhe (q := q) (f := f.emin) (m := -2 ^ (f.p - 1)) (by push_cast at hb ⊢; linarith [hb.1])
  have w1 := le_of_mul_le_mul_right u1 (two_zpow_pos f.emin)
  have w2 := le_of_mul_le_mul_right u2 (two_zpow_pos f.emin)
  have w1' : roundHalfEven (q / 2 ^ f.emin) ≤ 2 ^ (f.p - 1) := by exact_mod_cast w1
  have w2' : -2 ^ (f.p - 1) ≤ roundHalfEven (q / 2 ^ f.emin) := by exact_mod_cast w2
  refine ⟨_, _, ?_, e1⟩
  have h2 : (2 : ℤ) ^ f.p = 2 * 2 ^ (f.p - 1) := by rw [← pow_succ', Nat.sub_add_cancel hp]
  have h3 : (0 : ℤ) < 2 ^ (f.p - 1) := by positivity
  rw [abs_lt]
  constructor <;> linarith

/-- ... and no number of this kind is nearer. -/
theorem Fmt.round_nearest (f : Fmt) (hp : 1 ≤ f.p) (q y : ℚ) (hy : IsFloat f.p y) (hu : OnUnit f.emin y) : |f.round q - q| ≤ |y - q| := by
  rcases le_or_gt f.emin (Int.log 2 |q| - ((f.p : ℤ) - 1)) with hc | hc
  · rw [f.round_normal hc]
    exact (roundBits_correct f.p hp q).1.2 y hy
  by_cases hq : q = 0
  · rw [hq, f.round_zero]; simp
  have e1 : f.round q = (roundHalfEven (q / 2 ^ f.emin) : ℚ) * 2 ^ f.emin := by
    unfold Fmt.round
    rw [if_neg hq]
    dsimp only
    rw [max_eq_left hc.le]
  obtain ⟨z, rfl⟩ := hu
  rw [e1, scaled_distance, scaled_distance]
  exact mul_le_mul_of_nonneg_right (roundHalfEven_nearest _ z) (two_zpow_pos _).le

end Mizar
