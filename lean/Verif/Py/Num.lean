import Mathlib.Data.Rat.Floor
import Mathlib.Data.Int.Log
import Mathlib.Algebra.Order.Floor.Ring
import Mathlib.Tactic.Linarith
import Mathlib.Tactic.Ring
import Mathlib.Tactic.FieldSimp
import Mathlib.Tactic.NormNum
import Mathlib.Tactic.Positivity
import Verif.Py.Basic

/-!
Rounding primitives: round-half-even (`np.round`, `np.rint`), conversion of an exact quotient
of two Python integers to a double (53 bit mantissa, round-half-even) and Python's `int(x)`.

Where the code calls them: `/repo/mizarlabs/transformers/trading/bet_sizing.py` line 242,
`/repo/mizarlabs/model/model_selection.py` line 368, `/repo/mizarlabs/model/sequentially_bootstrapped_bagging_classifier.py`
lines 367, 386.
-/

namespace Mizar

/-- Round to the nearest integer, ties to even (`np.rint`, `np.round` with `decimals=0`). -/
def roundHalfEven {K : Type*} [Field K] [LinearOrder K] [FloorRing K] (x : K) : ℤ :=
  let f := ⌊x⌋
  let d := x - f
  if d < 1 / 2 then f
  else if 1 / 2 < d then f + 1
  else if f % 2 = 0 then f else f + 1

/-- The double nearest to the rational `q` (53 bit mantissa, ties to even).  Subnormal numbers are
not modelled; overflow is checked by the callers. -/
def toDouble (q : ℚ) : ℚ :=
  if q = 0 then 0
  else
    let e : ℤ := Int.log 2 |q| - 52
    (roundHalfEven (q / 2 ^ e) : ℚ) * 2 ^ e

/-- Python's `int(x)` on a finite float: truncation towards zero. -/
def pyIntTrunc (q : ℚ) : ℤ := if 0 ≤ q then ⌊q⌋ else ⌈q⌉

/-- Python's `int(a / b)` for integers: true division is the correctly rounded double quotient
(`OverflowError` when it does not fit, `ZeroDivisionError` for `b = 0`), then truncation. -/
def pyIntTrueDiv (a b : ℤ) : Py ℤ :=
  if b = 0 then .error .zeroDivisionError
  else
    let r := toDouble ((a : ℚ) / b)
    if (2 : ℚ) ^ 1024 ≤ |r| then .error .overflowError
    else .ok (pyIntTrunc r)

section
variable {K : Type*} [Field K] [LinearOrder K] [IsStrictOrderedRing K] [FloorRing K]

theorem roundHalfEven_intCast (m : ℤ) : roundHalfEven (m : K) = m := by
  simp [roundHalfEven]

theorem abs_roundHalfEven_sub_le (x : K) : |(roundHalfEven x : K) - x| ≤ 1 / 2 := by
  have h1 := Int.floor_le x
  have h2 := Int.lt_floor_add_one x
  unfold roundHalfEven
  simp only
  split_ifs with a b c <;> rw [abs_le] <;> push_cast <;> constructor <;> linarith

theorem roundHalfEven_mono {x y : K} (h : x ≤ y) : roundHalfEven x ≤ roundHalfEven y := by
  have h1 := Int.floor_le x
  have h2 := Int.lt_floor_add_one x
  have h3 := Int.floor_le y
  have h4 := Int.lt_floor_add_one y
  have h5 := Int.floor_le_floor h
  rcases h5.lt_or_eq with hlt | heq
  · have : ⌊x⌋ + 1 ≤ ⌊y⌋ := hlt
    have hx : roundHalfEven x ≤ ⌊x⌋ + 1 := by
      unfold roundHalfEven; simp only; split_ifs <;> omega
    have hy : ⌊y⌋ ≤ roundHalfEven y := by
      unfold roundHalfEven; simp only; split_ifs <;> omega
    omega
  · unfold roundHalfEven
    simp only [heq]
    have : (⌊x⌋ : K) = ⌊y⌋ := by rw [heq]
    split_ifs <;> first | omega | (exfalso; linarith)

theorem roundHalfEven_neg (x : K) : roundHalfEven (-x) = -roundHalfEven x := by
  have h1 := Int.floor_le x
  have h2 := Int.lt_floor_add_one x
  by_cases hx : (⌊x⌋ : K) = x
  · rw [← hx, ← Int.cast_neg, roundHalfEven_intCast, roundHalfEven_intCast]
  · have hlt : (⌊x⌋ : K) < x := lt_of_le_of_ne h1 hx
    have hf : ⌊-x⌋ = -⌊x⌋ - 1 := by
      rw [Int.floor_eq_iff]
      push_cast
      constructor <;> linarith
    unfold roundHalfEven
    simp only [hf]
    push_cast
    split_ifs <;> first | omega | (exfalso; linarith)

end

/-- Integers up to `2^53` in absolute value are exactly representable. -/
theorem toDouble_intCast {m : ℤ} (h : |m| ≤ 2 ^ 53) : toDouble (m : ℚ) = m := by
  unfold toDouble
  split_ifs with h0
  · exact h0.symm
  · have hm0 : m ≠ 0 := by exact_mod_cast h0
    have hpos : (0 : ℚ) < |(m : ℚ)| := abs_pos.2 h0
    have key : ∀ e : ℤ, (∃ k : ℤ, (m : ℚ) / 2 ^ e = k) →
        ((roundHalfEven ((m : ℚ) / 2 ^ e) : ℤ) : ℚ) * 2 ^ e = m := by
      rintro e ⟨k, hk⟩
      rw [hk, roundHalfEven_intCast, ← hk]
      field_simp
    apply key
    rcases h.lt_or_eq with hlt | heq
    · -- exponent ≤ 0
      have hlog : Int.log 2 |(m : ℚ)| < 53 := by
        rw [← Int.lt_zpow_iff_log_lt (by norm_num) hpos]
        have : ((|m| : ℤ) : ℚ) < ((2 ^ 53 : ℤ) : ℚ) := by exact_mod_cast hlt
        push_cast at this ⊢
        simpa using this
      obtain ⟨n, hn⟩ : ∃ n : ℕ, Int.log 2 |(m : ℚ)| - 52 = -(n : ℤ) :=
        ⟨(52 - Int.log 2 |(m : ℚ)|).toNat, by omega⟩
      refine ⟨m * 2 ^ n, ?_⟩
      rw [hn]
      push_cast
      rw [zpow_neg, zpow_natCast, div_inv_eq_mul]
    · have hq : |(m : ℚ)| = ((2 : ℕ) : ℚ) ^ (53 : ℤ) := by
        have : ((|m| : ℤ) : ℚ) = ((2 ^ 53 : ℤ) : ℚ) := by rw [heq]
        push_cast at this ⊢
        simpa using this
      have hlog : Int.log 2 |(m : ℚ)| = 53 := by
        rw [hq, Int.log_zpow (by norm_num)]
      have h2 : m = 2 ^ 53 ∨ m = -2 ^ 53 := by
        rcases abs_eq (by norm_num : (0:ℤ) ≤ 2 ^ 53) |>.1 heq with h | h
        · exact Or.inl h
        · exact Or.inr h
      rw [hlog]
      rcases h2 with h | h
      · exact ⟨2 ^ 52, by rw [h]; norm_num⟩
      · exact ⟨-2 ^ 52, by rw [h]; norm_num⟩

theorem pyIntTrunc_intCast (m : ℤ) : pyIntTrunc (m : ℚ) = m := by
  simp [pyIntTrunc]

/-- `int(a / b)` is exact when the quotient is an integer of at most 53 bits. -/
theorem pyIntTrueDiv_exact {a b m : ℤ} (hb : b ≠ 0) (hab : a = m * b) (h : |m| ≤ 2 ^ 53) :
    pyIntTrueDiv a b = .ok m := by
  have hq : (a : ℚ) / b = m := by
    rw [hab]; push_cast; field_simp
  have hr : toDouble ((a : ℚ) / b) = m := by rw [hq, toDouble_intCast h]
  have hlt : ¬ (2 : ℚ) ^ 1024 ≤ |(m : ℚ)| := by
    have h1 : |(m : ℚ)| ≤ 2 ^ 53 := by exact_mod_cast h
    have h2 : (2 : ℚ) ^ 53 < 2 ^ 1024 := pow_lt_pow_right₀ (by norm_num) (by norm_num)
    exact not_le.2 (lt_of_le_of_lt h1 h2)
  simp [pyIntTrueDiv, hb, hr, hlt, pyIntTrunc_intCast]

end Mizar
