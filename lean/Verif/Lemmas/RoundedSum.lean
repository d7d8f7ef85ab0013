import Verif.Lemmas.Rounded
import Verif.Lemmas.Boot
import Mathlib.Tactic.GCongr
import Mathlib.Tactic.Ring

namespace Mizar.Rd
open Mizar

variable {p : ℕ}

theorem isFloat_half_int (n : ℤ) (h : |n| < 2 ^ p) : IsFloat p ((n : ℚ) / 2) :=
  ⟨n, -1, h, by rw [zpow_neg_one]; ring⟩

theorem roundBits_half (hp : 1 ≤ p) : roundBits p (1 / 2) = 1 / 2 := by
  have := roundBits_eq_self p hp (isFloat_half_int 1 (by rw [abs_one]; exact one_lt_pow₀ (by norm_num) (by omega)))
  simpa using this

theorem roundBits_ge_one_sub (hp : 1 ≤ p) {q : ℚ} (h : 0 ≤ q) : (1 - 1 / 2 ^ p) * q ≤ roundBits p q := by
  have := roundBits_error p hp q
  rw [abs_of_nonneg h, abs_le] at this
  have e : q / 2 ^ p = 1 / 2 ^ p * q := by ring
  rw [e] at this
  linarith [this.1]

theorem roundBits_le_one_add (hp : 1 ≤ p) {q : ℚ} (h : 0 ≤ q) : roundBits p q ≤ (1 + 1 / 2 ^ p) * q := by
  have := roundBits_error p hp q
  rw [abs_of_nonneg h, abs_le] at this
  have e : q / 2 ^ p = 1 / 2 ^ p * q := by ring
  rw [e] at this
  linarith [this.2]

theorem eps_le (hp : 1 ≤ p) : (1 : ℚ) / 2 ^ p ≤ 1 / 2 := by
  apply one_div_le_one_div_of_le (by norm_num)
  calc (2 : ℚ) = 2 ^ 1 := by norm_num
    _ ≤ 2 ^ p := pow_le_pow_right₀ (by norm_num) hp

theorem eps_pos : (0 : ℚ) < 1 / 2 ^ p := by positivity

/-- Partial sums from a float `a` on. -/
theorem foldl_ge (hp : 1 ≤ p) (l : List ℚ) (hl : ∀ x ∈ l, 0 ≤ x) : ∀ a : ℚ, IsFloat p a → 
    a ≤ l.foldl (fun a b => roundBits p (a + b)) a ∧ IsFloat p (l.foldl (fun a b => roundBits p (a + b)) a) := by
  induction l with
  | nil => intro a ha; exact ⟨le_rfl, ha⟩
  | cons x l ih =>
    intro a ha
    have h1 : a ≤ roundBits p (a + x) := by
      have := roundBits_mono p hp (show a ≤ a + x by linarith [hl x (by simp)])
      rwa [roundBits_eq_self p hp ha] at this
    have h2 := ih (fun y hy => hl y (by simp [hy])) (roundBits p (a + x)) (isFloat_roundBits p hp _)
    exact ⟨h1.trans h2.1, h2.2⟩

theorem sum_pos (hp : 1 ≤ p) (l : List ℚ) (hl : ∀ x ∈ l, 0 < x) (hne : l ≠ []) : 0 < sum (roundBits p) l := by
  cases l with
  | nil => exact absurd rfl hne
  | cons x l =>
    unfold sum
    rw [List.foldl_cons, zero_add]
    have h := (foldl_ge hp l (fun y hy => (hl y (by simp [hy])).le) (roundBits p x) (isFloat_roundBits p hp _)).1
    exact lt_of_lt_of_le (roundBits_pos p hp (hl x (by simp))) h

/-- Summands up to one: the partial sums stay below their number. -/
theorem foldl_le_count (hp : 1 ≤ p) (l : List ℚ) (hl : ∀ x ∈ l, x ≤ 1) : ∀ (a : ℚ) (n : ℕ), a ≤ n → n + l.length < 2 ^ p →
    l.foldl (fun a b => roundBits p (a + b)) a ≤ (n + l.length : ℕ) := by
  induction l with
  | nil => intro a n ha _; simpa using ha
  | cons x l ih =>
    intro a n ha hn
    rw [List.length_cons] at hn ⊢
    have h1 : roundBits p (a + x) ≤ ((n + 1 : ℕ) : ℚ) := by
      have := roundBits_mono p hp (show a + x ≤ ((n + 1 : ℕ) : ℚ) by push_cast; linarith [hl x (by simp)])
      rwa [roundBits_natCast p hp (n + 1) (by omega)] at this
    have := ih (fun y hy => hl y (by simp [hy])) _ (n + 1) h1 (by omega)
    rw [List.foldl_cons]
    convert this using 2
    omega

/-- The same once half a unit is missing. -/
theorem foldl_le_half (hp : 1 ≤ p) (l : List ℚ) (hl : ∀ x ∈ l, x ≤ 1) : ∀ (a : ℚ) (n : ℕ), a ≤ n - 1 / 2 →
    2 * (n + l.length) ≤ 2 ^ p → l.foldl (fun a b => roundBits p (a + b)) a ≤ ((n + l.length : ℕ) : ℚ) - 1 / 2 := by
  induction l with
  | nil => intro a n ha _; simpa using ha
  | cons x l ih =>
    intro a n ha hn
    rw [List.length_cons] at hn ⊢
    have hfl : IsFloat p (((2 * (n + 1) - 1 : ℤ) : ℚ) / 2) := by
      apply isFloat_half_int
      rw [abs_of_nonneg (by omega)]
      have : ((2 * (n + (l.length + 1)) : ℕ) : ℤ) ≤ 2 ^ p := by exact_mod_cast hn
      push_cast at this
      omega
    have e : ((2 * (n + 1) - 1 : ℤ) : ℚ) / 2 = ((n + 1 : ℕ) : ℚ) - 1 / 2 := by push_cast; ring
    rw [e] at hfl
    have h1 : roundBits p (a + x) ≤ ((n + 1 : ℕ) : ℚ) - 1 / 2 := by
      have := roundBits_mono p hp (show a + x ≤ ((n + 1 : ℕ) : ℚ) - 1 / 2 by push_cast; linarith [hl x (by simp)])
      rwa [roundBits_eq_self p hp hfl] at this
    have := ih (fun y hy => hl y (by simp [hy])) _ (n + 1) h1 (by omega)
    rw [List.foldl_cons]
    convert this using 3
    omega

/-- Summands up to one, one of them up to a half. -/
theorem sum_le_half (hp : 1 ≤ p) (l : List ℚ) (hl : ∀ x ∈ l, x ≤ 1) (hh : ∃ x ∈ l, x ≤ 1 / 2) : ∀ (a : ℚ) (n : ℕ), a ≤ n →
    2 * (n + l.length) ≤ 2 ^ p → l.foldl (fun a b => roundBits p (a + b)) a ≤ ((n + l.length : ℕ) : ℚ) - 1 / 2 := by
  induction l with
  | nil => obtain ⟨x, hx, -⟩ := hh; cases hx
  | cons x l ih =>
    intro a n ha hn
    rw [List.length_cons] at hn ⊢
    rw [List.foldl_cons]
    by_cases hx : x ≤ 1 / 2
    · have hfl : IsFloat p (((2 * (n + 1) - 1 : ℤ) : ℚ) / 2) := by
        apply isFloat_half_int
        rw [abs_of_nonneg (by omega)]
        have : ((2 * (n + (l.length + 1)) : ℕ) : ℤ) ≤ 2 ^ p := by exact_mod_cast hn
        push_cast at this
        omega
      have e : ((2 * (n + 1) - 1 : ℤ) : ℚ) / 2 = ((n + 1 : ℕ) : ℚ) - 1 / 2 := by push_cast; ring
      rw [e] at hfl
      have h1 : roundBits p (a + x) ≤ ((n + 1 : ℕ) : ℚ) - 1 / 2 := by
        have := roundBits_mono p hp (show a + x ≤ ((n + 1 : ℕ) : ℚ) - 1 / 2 by push_cast; linarith)
        rwa [roundBits_eq_self p hp hfl] at this
      have := foldl_le_half hp l (fun y hy => hl y (by simp [hy])) _ (n + 1) h1 (by omega)
      convert this using 3
      omega
    · have hh' : ∃ x ∈ l, x ≤ 1 / 2 := by
        obtain ⟨y, hy, h⟩ := hh
        rcases List.mem_cons.1 hy with rfl | hy
        · exact absurd h hx
        · exact ⟨y, hy, h⟩
      have h1 : roundBits p (a + x) ≤ ((n + 1 : ℕ) : ℚ) := by
        have := roundBits_mono p hp (show a + x ≤ ((n + 1 : ℕ) : ℚ) by push_cast; linarith [hl x (by simp)])
        rwa [roundBits_natCast p hp (n + 1) (by omega)] at this
      have := ih (fun y hy => hl y (by simp [hy])) hh' _ (n + 1) h1 (by omega)
      convert this using 3
      omega

theorem foldl_ones (hp : 1 ≤ p) (k : ℕ) : ∀ n : ℕ, n + k < 2 ^ p →
    (List.replicate k (1 : ℚ)).foldl (fun a b => roundBits p (a + b)) n = (n + k : ℕ) := by
  induction k with
  | zero => intro n _; simp
  | succ k ih =>
    intro n hn
    rw [List.replicate_succ, List.foldl_cons]
    have e : ((n : ℚ) + 1) = ((n + 1 : ℕ) : ℚ) := by push_cast; ring
    rw [e, roundBits_natCast p hp (n + 1) (by omega), ih (n + 1) (by omega)]
    congr 1
    omega

/-- Relative error of a sum of numbers that are not negative. -/
theorem foldl_bounds (hp : 1 ≤ p) (l : List ℚ) (hl : ∀ x ∈ l, 0 ≤ x) : ∀ a : ℚ, 0 ≤ a →
    (1 - 1 / 2 ^ p) ^ l.length * (a + l.sum) ≤ l.foldl (fun a b => roundBits p (a + b)) a ∧
      l.foldl (fun a b => roundBits p (a + b)) a ≤ (1 + 1 / 2 ^ p) ^ l.length * (a + l.sum) := by
  have he := eps_le hp
  have he0 := eps_pos (p := p)
  induction l with
  | nil => intro a ha; simp
  | cons x l ih =>
    intro a ha
    have hx := hl x (by simp)
    have hax : 0 ≤ a + x := by linarith
    have hr := roundBits_nonneg p hp hax
    obtain ⟨h1, h2⟩ := ih (fun y hy => hl y (by simp [hy])) _ hr
    have g1 := roundBits_ge_one_sub hp hax
    have g2 := roundBits_le_one_add hp hax
    have hs : 0 ≤ l.sum := List.sum_nonneg fun y hy => hl y (by simp [hy])
    rw [List.foldl_cons, List.length_cons, List.sum_cons]
    constructor
    · refine le_trans ?_ h1
      rw [pow_succ, mul_assoc]
      apply mul_le_mul_of_nonneg_left _ (pow_nonneg (by linarith) _)
      nlinarith
    · refine h2.trans ?_
      rw [pow_succ, mul_assoc]
      apply mul_le_mul_of_nonneg_left _ (pow_nonneg (by linarith) _)
      nlinarith

theorem sum_bounds (hp : 1 ≤ p) (l : List ℚ) (hl : ∀ x ∈ l, 0 ≤ x) :
    (1 - 1 / 2 ^ p) ^ l.length * l.sum ≤ sum (roundBits p) l ∧ sum (roundBits p) l ≤ (1 + 1 / 2 ^ p) ^ l.length * l.sum := by
  have := foldl_bounds hp l hl 0 le_rfl
  simpa [sum] using this

/-- Cumulative sums of positive numbers are positive floats that do not decrease. -/
theorem cumsum_mono (hp : 1 ≤ p) (u : List ℚ) (hu : ∀ x ∈ u, 0 < x) : ∀ a : ℚ, 0 ≤ a → IsFloat p a →
    (cumsum (roundBits p) a u).Pairwise (· ≤ ·) ∧ ∀ y ∈ cumsum (roundBits p) a u, a ≤ y ∧ 0 < y ∧ IsFloat p y := by
  induction u with
  | nil => intro a _ _; simp [cumsum]
  | cons x u ih =>
    intro a ha hfa
    have hx := hu x (by simp)
    have h1 : a ≤ roundBits p (a + x) := by
      have := roundBits_mono p hp (show a ≤ a + x by linarith)
      rwa [roundBits_eq_self p hp hfa] at this
    have h2 : 0 < roundBits p (a + x) := roundBits_pos p hp (by linarith)
    obtain ⟨h3, h4⟩ := ih (fun y hy => hu y (by simp [hy])) _ h2.le (isFloat_roundBits p hp (a + x))
    rw [cumsum]
    refine ⟨List.pairwise_cons.2 ⟨fun y hy => (h4 y hy).1, h3⟩, ?_⟩
    intro y hy
    rcases List.mem_cons.1 hy with rfl | hy
    · exact ⟨h1, h2, isFloat_roundBits p hp _⟩
    · exact ⟨h1.trans (h4 y hy).1, (h4 y hy).2⟩

theorem cumsum_length (r : ℚ → ℚ) (u : List ℚ) (a : ℚ) : (cumsum r a u).length = u.length := by
  induction u generalizing a with
  | nil => rfl
  | cons x u ih => simp [cumsum, ih]

/-- One minus a float between one half and `2^p` is exact. -/
theorem isFloat_one_sub (hp : 1 ≤ p) {P : ℚ} (hP : IsFloat p P) (h1 : 1 / 2 ≤ P) (h2 : P ≤ 2 ^ p) : IsFloat p (1 - P) := by
  obtain ⟨m, e, hm1, hm2, rfl⟩ := normalise p hp (by linarith) hP
  have he := two_zpow_pos e
  have hmp : (0 : ℤ) < 2 ^ (p - 1) := by positivity
  rcases le_or_gt e 0 with h0 | h0
  · obtain ⟨n, rfl⟩ : ∃ n : ℕ, e = -(n : ℤ) := ⟨e.natAbs, by omega⟩
    refine ⟨2 ^ n - m, -(n : ℤ), ?_, ?_⟩
    · have h3 : (2 : ℤ) ^ n ≤ 2 * m := by
        have h4 : (1 : ℚ) / 2 ≤ m * (2 ^ n)⁻¹ := by rwa [zpow_neg, zpow_natCast] at h1
        rw [← div_eq_mul_inv, le_div_iff₀ (by positivity)] at h4
        have : (2 : ℚ) ^ n ≤ 2 * m := by linarith
        exact_mod_cast this
      have h5 : (0 : ℤ) < 2 ^ n := by positivity
      rw [abs_lt]
      constructor <;> omega
    · push_cast
      rw [sub_mul, zpow_neg, zpow_natCast, mul_inv_cancel₀ (by positivity)]
  · have h3 : (2 : ℚ) ^ p ≤ m * 2 ^ e := by
      have h4 : (2 : ℚ) ^ (p - 1) ≤ m := by exact_mod_cast hm1
      have h5 : (2 : ℚ) ≤ 2 ^ e := by
        calc (2 : ℚ) = 2 ^ (1 : ℤ) := by norm_num
          _ ≤ 2 ^ e := zpow_le_zpow_right₀ (by norm_num) (by omega)
      calc (2 : ℚ) ^ p = 2 ^ (p - 1) * 2 := by rw [← pow_succ]; congr 1; omega
        _ ≤ m * 2 ^ e := mul_le_mul h4 h5 (by norm_num) (le_trans (by positivity) h4)
    have h4 := le_antisymm h2 h3
    rw [h4]
    refine ⟨1 - 2 ^ p, 0, ?_, by push_cast; simp⟩
    have : (1 : ℤ) ≤ 2 ^ p := one_le_pow₀ (by norm_num)
    rw [abs_lt]
    constructor <;> omega

theorem rhe_eq_even {z : ℚ} {n : ℤ} (hn : n % 2 = 0) (h : |z - n| ≤ 1 / 2) : roundHalfEven z = n := by
  rw [abs_le] at h
  have h1 := abs_roundHalfEven_sub_le z
  rw [abs_le] at h1
  unfold roundHalfEven
  rcases lt_or_ge z n with hz | hz
  · have hf : ⌊z⌋ = n - 1 := by
      rw [Int.floor_eq_iff]
      push_cast
      constructor <;> linarith
    dsimp only
    rw [hf]
    push_cast
    rcases lt_or_eq_of_le h.1 with hl | hl
    · rw [if_neg (by linarith), if_pos (by linarith)]
      ring
    · rw [if_neg (by linarith), if_neg (by linarith), if_neg (by omega)]
      ring
  · have hf : ⌊z⌋ = n := by
      rw [Int.floor_eq_iff]
      constructor <;> linarith
    dsimp only
    rw [hf]
    rcases lt_or_eq_of_le h.2 with hl | hl
    · rw [if_pos (by linarith)]
    · rw [if_neg (by linarith), if_neg (by linarith), if_pos hn]

/-- What rounds to one. -/
theorem roundBits_eq_one (hp : 2 ≤ p) {q : ℚ} (h1 : 1 - 1 / 2 ^ (p + 1) ≤ q) (h2 : q ≤ 1 + 1 / 2 ^ p) : roundBits p q = 1 := by
  have he := eps_le (p := p) (by omega)
  have he' := eps_le (p := p + 1) (by omega)
  rcases lt_or_ge q 1 with hq | hq
  · rw [roundBits_binade p q (-1) (by norm_num; linarith) (by simpa using hq)]
    have e1 : (-1 : ℤ) - ((p : ℤ) - 1) = -(p : ℤ) := by ring
    rw [e1]
    have hr : roundHalfEven (q / 2 ^ (-(p : ℤ))) = 2 ^ p := by
      apply rhe_eq_even
      · obtain ⟨k, rfl⟩ : ∃ k, p = k + 1 := ⟨p - 1, by omega⟩
        rw [pow_succ]
        omega
      · rw [zpow_neg, zpow_natCast, div_inv_eq_mul]
        push_cast
        have h3 : (1 : ℚ) / 2 ^ (p + 1) * 2 ^ p = 1 / 2 := by rw [pow_succ]; field_simp
        have hP : (0 : ℚ) < 2 ^ p := by positivity
        have : q * 2 ^ p - 2 ^ p = (q - 1) * 2 ^ p := by ring
        rw [this, abs_le]
        constructor
        · have := mul_le_mul_of_nonneg_right (show -(1 / 2 ^ (p + 1)) ≤ q - 1 by linarith) hP.le
          rw [neg_mul, h3] at this
          exact this
        · nlinarith
    rw [hr, zpow_neg, zpow_natCast]
    push_cast
    rw [mul_inv_cancel₀ (by positivity)]
  · rw [roundBits_binade p q 0 (by simpa using hq) (by norm_num; linarith)]
    have e1 : (0 : ℤ) - ((p : ℤ) - 1) = -((p - 1 : ℕ) : ℤ) := by omega
    rw [e1]
    have hr : roundHalfEven (q / 2 ^ (-((p - 1 : ℕ) : ℤ))) = 2 ^ (p - 1) := by
      apply rhe_eq_even
      · obtain ⟨k, hk⟩ : ∃ k, p - 1 = k + 1 := ⟨p - 2, by omega⟩
        rw [hk, pow_succ]
        omega
      · rw [zpow_neg, zpow_natCast, div_inv_eq_mul]
        push_cast
        have h3 : (1 : ℚ) / 2 ^ p * 2 ^ (p - 1) = 1 / 2 := by
          have : (2 : ℚ) ^ p = 2 ^ (p - 1) * 2 := by rw [← pow_succ]; congr 1; omega
          rw [this]; field_simp
        have hP : (0 : ℚ) < 2 ^ (p - 1) := by positivity
        have : q * 2 ^ (p - 1) - 2 ^ (p - 1) = (q - 1) * 2 ^ (p - 1) := by ring
        rw [this, abs_le]
        constructor
        · nlinarith
        · have := mul_le_mul_of_nonneg_right (show q - 1 ≤ 1 / 2 ^ p by linarith) hP.le
          rw [h3] at this
          exact this
    rw [hr, zpow_neg, zpow_natCast]
    push_cast
    rw [mul_inv_cancel₀ (by positivity)]

/-- `(1 - P) + P` is one for a float `P`. -/
theorem one_sub_add (hp : 2 ≤ p) {P : ℚ} (hP : IsFloat p P) (h0 : 0 ≤ P) (h2 : P ≤ 2 ^ p) :
    roundBits p (roundBits p (1 - P) + P) = 1 := by
  rcases le_or_gt (1 / 2) P with h | h
  · rw [roundBits_eq_self p (by omega) (isFloat_one_sub (by omega) hP h h2), sub_add_cancel, roundBits_one p (by omega)]
  · have hb : |roundBits p (1 - P) - (1 - P)| ≤ 1 / 2 ^ (p + 1) := by
      rcases h0.eq_or_lt with rfl | hpos
      · rw [sub_zero, roundBits_one p (by omega), sub_self, abs_zero]
        positivity
      rw [roundBits_binade p (1 - P) (-1) (by norm_num; linarith) (by norm_num; linarith)]
      have e1 : (-1 : ℤ) - ((p : ℤ) - 1) = -(p : ℤ) := by ring
      rw [e1]
      set f : ℚ := 2 ^ (-(p : ℤ)) with hf
      have hf0 : 0 < f := two_zpow_pos _
      have hh := abs_roundHalfEven_sub_le ((1 - P) / f)
      have e2 : (roundHalfEven ((1 - P) / f) : ℚ) * f - (1 - P) = ((roundHalfEven ((1 - P) / f) : ℚ) - (1 - P) / f) * f := by
        field_simp
      rw [e2, abs_mul, abs_of_pos hf0]
      have e3 : (1 : ℚ) / 2 ^ (p + 1) = 1 / 2 * f := by
        rw [hf, zpow_neg, zpow_natCast, pow_succ]
        field_simp
      rw [e3]
      exact mul_le_mul_of_nonneg_right hh hf0.le
    rw [abs_le] at hb
    have e4 : (1 : ℚ) / 2 ^ (p + 1) ≤ 1 / 2 ^ p := by
      apply one_div_le_one_div_of_le (by positivity)
      exact pow_le_pow_right₀ (by norm_num) (by omega)
    apply roundBits_eq_one hp <;> linarith [hb.1, hb.2]

end Mizar.Rd
