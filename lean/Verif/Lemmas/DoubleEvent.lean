import Verif.Model.DoubleEvent
import Verif.Lemmas.Double
import Verif.Spec.DoubleEvent
import Mathlib.Tactic.NormNum

/-! Triple barrier events in floating point with a bounded exponent follow those without bounds. -/

namespace Mizar

theorem isFloat_zpow (p : ℕ) (hp : 1 ≤ p) (k : ℤ) : IsFloat p (2 ^ k) :=
  ⟨1, k, by rw [abs_one]; exact one_lt_pow₀ (by norm_num) (by omega), by simp⟩

theorem roundBits_zpow_self (p : ℕ) (hp : 1 ≤ p) (k : ℤ) : roundBits p (2 ^ k) = 2 ^ k := roundBits_eq_self p hp (isFloat_zpow p hp k)

/-- Numbers of at least the smallest normal size are rounded as without bounds. -/
theorem Fmt.round_of_le (f : Fmt) {q : ℚ} (h : (2 : ℚ) ^ (f.emin + ((f.p : ℤ) - 1)) ≤ |q|) : f.round q = roundBits f.p q := by
  apply f.round_normal
  have hq : 0 < |q| := lt_of_lt_of_le (two_zpow_pos _) h
  have := (Int.zpow_le_iff_le_log (b := 2) (by norm_num) hq (x := f.emin + ((f.p : ℤ) - 1))).1 (by exact_mod_cast h)
  omega

theorem Fmt.round_nonneg (f : Fmt) {q : ℚ} (h : 0 ≤ q) : 0 ≤ f.round q := by
  unfold Fmt.round
  split
  · exact le_rfl
  · dsimp only
    have := le_rhe (q := q) (f := max f.emin (Int.log 2 |q| - ((f.p : ℤ) - 1))) (m := 0) (by simpa using h)
    simpa using this

theorem Fmt.round_neg (f : Fmt) (q : ℚ) : f.round (-q) = -f.round q := by
  unfold Fmt.round
  by_cases h : q = 0
  · simp [h]
  · rw [if_neg (by simpa using h), if_neg h]
    simp only [abs_neg, neg_div, roundHalfEven_neg]
    push_cast
    ring

/-- Below the smallest normal number results stay there. -/
theorem Fmt.round_small (f : Fmt) (hp : 1 ≤ f.p) {q : ℚ} (h0 : 0 ≤ q) (h : q < (2 : ℚ) ^ (f.emin + ((f.p : ℤ) - 1))) :
    f.round q ≤ 2 ^ (f.emin + ((f.p : ℤ) - 1)) := by
  rcases h0.eq_or_lt with rfl | h0
  · rw [f.round_zero]; exact h.le
  have hlog : Int.log 2 |q| < f.emin + ((f.p : ℤ) - 1) := by
    rw [abs_of_pos h0]
    exact (Int.lt_zpow_iff_log_lt (b := 2) (by norm_num) h0 (x := f.emin + ((f.p : ℤ) - 1))).1 (by exact_mod_cast h)
  have e3 : (2 : ℚ) ^ (f.emin + ((f.p : ℤ) - 1)) = ((2 ^ (f.p - 1) : ℤ) : ℚ) * 2 ^ f.emin := by
    push_cast
    rw [← zpow_natCast, ← zpow_add₀ (by norm_num)]
    congr 1
    omega
  unfold Fmt.round
  rw [if_neg h0.ne']
  dsimp only
  rw [max_eq_left (by omega), e3]
  exact rhe_le (by rw [← e3]; exact h.le)

theorem roundBits_small (p : ℕ) (hp : 1 ≤ p) {q : ℚ} {k : ℤ} (h : q ≤ (2 : ℚ) ^ k) : roundBits p q ≤ 2 ^ k := by
  have := roundBits_mono p hp h
  rwa [roundBits_zpow_self p hp] at this

/-- Close to -1 only -1 is a float. -/
theorem roundBits_near_neg_one (p : ℕ) (hp : 1 ≤ p) {w : ℚ} (h0 : 0 ≤ w) (h : w ≤ (2 : ℚ) ^ (-(p : ℤ) - 2)) : roundBits p (w - 1) = -1 := by
  have hk : (2 : ℚ) ^ (-(p : ℤ) - 2) = 2 ^ (-(p : ℤ)) / 4 := by
    rw [zpow_sub₀ (by norm_num)]; norm_num
  have hP : (2 : ℚ) ^ (-(p : ℤ)) ≤ 1 / 2 := by
    calc (2 : ℚ) ^ (-(p : ℤ)) ≤ 2 ^ (-1 : ℤ) := zpow_le_zpow_right₀ (by norm_num) (by omega)
      _ = 1 / 2 := by norm_num
  have hP0 := two_zpow_pos (-(p : ℤ))
  rw [hk] at h
  have e : w - 1 = -(1 - w) := by ring
  rw [e, roundBits_neg]
  congr 1
  have h1 : roundBits p (1 - w) ≤ 1 := by
    have := roundBits_mono p hp (show 1 - w ≤ 1 by linarith)
    rwa [roundBits_one p hp] at this
  have hn := (roundBits_correct p hp (1 - w)).1.2 1 (by simpa using isFloat_zpow p hp 0)
  rw [show (1 : ℚ) - (1 - w) = w by ring, abs_of_nonneg h0] at hn
  have h2 := (abs_le.1 hn).1
  obtain ⟨z, hz⟩ := multiple_of_float p hp (isFloat_roundBits p hp (1 - w)) (k := -1) (by
    rw [show (2 : ℚ) ^ (-1 : ℤ) = 1 / 2 by norm_num]; linarith)
  rw [show (-1 : ℤ) - ((p : ℤ) - 1) = -(p : ℤ) by ring] at hz
  have hone : (1 : ℚ) = ((2 ^ p : ℤ) : ℚ) * 2 ^ (-(p : ℤ)) := by
    push_cast
    rw [← zpow_natCast, ← zpow_add₀ (by norm_num)]
    simp
  have hz1 : z ≤ 2 ^ p := by
    rw [hz] at h1
    have h1' : (z : ℚ) * 2 ^ (-(p : ℤ)) ≤ ((2 ^ p : ℤ) : ℚ) * 2 ^ (-(p : ℤ)) := by rw [← hone]; exact h1
    exact_mod_cast le_of_mul_le_mul_right h1' hP0
  have hz2 : (2 ^ p : ℤ) - 1 < z := by
    have : (((2 ^ p : ℤ) : ℚ) - 1) * 2 ^ (-(p : ℤ)) < z * 2 ^ (-(p : ℤ)) := by
      rw [← hz, sub_mul, ← hone, one_mul]
      linarith
    have := lt_of_mul_lt_mul_right this hP0.le
    exact_mod_cast this
  rw [hz, show z = 2 ^ p by omega, ← hone]

/-- Just below a power of two far above the precision, one is too little to matter. -/
theorem roundBits_huge (p : ℕ) (hp : 1 ≤ p) {k : ℤ} (hk : (p : ℤ) + 2 ≤ k) {v : ℚ} (hv : (2 : ℚ) ^ k ≤ v) : 2 ^ k ≤ roundBits p (v - 1) := by
  have h4 : (4 : ℚ) ≤ 2 ^ (k - p) := by
    calc (4 : ℚ) = 2 ^ (2 : ℤ) := by norm_num
      _ ≤ 2 ^ (k - p) := zpow_le_zpow_right₀ (by norm_num) (by omega)
  have hk0 : (4 : ℚ) ≤ 2 ^ k := h4.trans (zpow_le_zpow_right₀ (by norm_num) (by omega))
  refine le_trans ?_ (roundBits_mono p hp (show (2 : ℚ) ^ k - 1 ≤ v - 1 by linarith))
  have hn := (roundBits_correct p hp (2 ^ k - 1)).1.2 (2 ^ k) (isFloat_zpow p hp k)
  rw [show (2 : ℚ) ^ k - (2 ^ k - 1) = 1 by ring, abs_one] at hn
  have h2 := (abs_le.1 hn).1
  have hhalf : (2 : ℚ) ^ (k - 1) = 2 ^ k / 2 := by rw [zpow_sub₀ (by norm_num), zpow_one]
  obtain ⟨z, hz⟩ := multiple_of_float p hp (isFloat_roundBits p hp (2 ^ k - 1)) (k := k - 1) (by rw [hhalf]; linarith)
  rw [show k - 1 - ((p : ℤ) - 1) = k - p by ring] at hz
  have hpow : (2 : ℚ) ^ k = ((2 ^ p : ℤ) : ℚ) * 2 ^ (k - p) := by
    push_cast
    rw [← zpow_natCast, ← zpow_add₀ (by norm_num)]
    congr 1; ring
  have hz2 : (2 ^ p : ℤ) - 1 < z := by
    have : (((2 ^ p : ℤ) : ℚ) - 1) * 2 ^ (k - p) < z * 2 ^ (k - p) := by
      rw [← hz, sub_mul, ← hpow, one_mul]
      linarith
    have := lt_of_mul_lt_mul_right this (two_zpow_pos _).le
    exact_mod_cast this
  rw [hz, hpow]
  exact mul_le_mul_of_nonneg_right (by exact_mod_cast (show (2 : ℤ) ^ p ≤ z by omega)) (two_zpow_pos _).le

namespace Rd

/-- The formats in which underflow is far below the precision and overflow far above. -/
structure Wide (f : Fmt) : Prop where
  p : 1 ≤ f.p
  low : f.emin + 2 * (f.p : ℤ) + 1 ≤ 0
  high : (f.p : ℤ) + 2 ≤ f.emax

/-- A result in the two arithmetics: the same, which is 0 or at least `2^-p`, or beyond the bound. -/
inductive Same (f : Fmt) : XF ℚ → ℚ → Prop
  | fin (q : ℚ) : (q = 0 ∨ (2 : ℚ) ^ (-(f.p : ℤ)) ≤ |q|) → |q| < 2 ^ f.emax → roundBits f.p q = q → Same f (.fin q) q
  | up (q : ℚ) : 2 ^ f.emax ≤ q → Same f .pinf q
  | down (q : ℚ) : q ≤ -2 ^ f.emax → Same f .ninf q

theorem normal_le (f : Fmt) (W : Wide f) : (2 : ℚ) ^ (f.emin + ((f.p : ℤ) - 1)) ≤ 2 ^ (-(f.p : ℤ) - 2) :=
  zpow_le_zpow_right₀ (by norm_num) (by have := W.low; omega)

theorem same_float (f : Fmt) (W : Wide f) {q : ℚ} (h : q = 0 ∨ (2 : ℚ) ^ (-(f.p : ℤ)) ≤ |q|) : Same f (f.float q) (roundBits f.p q) := by
  have hr : f.round q = roundBits f.p q := by
    rcases h with rfl | h
    · rw [f.round_zero, roundBits_zero]
    · refine f.round_of_le ((normal_le f W).trans (le_trans ?_ h))
      exact zpow_le_zpow_right₀ (by norm_num) (by omega)
  unfold Fmt.float
  rw [hr]
  by_cases h1 : 2 ^ f.emax ≤ roundBits f.p q
  · rw [if_pos h1]; exact .up _ h1
  · rw [if_neg h1]
    by_cases h2 : roundBits f.p q ≤ -2 ^ f.emax
    · rw [if_pos h2]; exact .down _ h2
    · rw [if_neg h2]
      refine .fin _ ?_ (abs_lt.2 ⟨not_le.1 h2, not_le.1 h1⟩) (roundBits_eq_self f.p W.p (isFloat_roundBits f.p W.p q))
      rcases h with rfl | h
      · left; exact roundBits_zero _
      · right
        rcases le_total 0 q with h0 | h0
        · rw [abs_of_nonneg h0] at h
          rw [abs_of_nonneg (roundBits_nonneg f.p W.p h0)]
          have := roundBits_mono f.p W.p h
          rwa [roundBits_zpow_self f.p W.p] at this
        · rw [abs_of_nonpos h0] at h
          rw [← abs_neg, ← roundBits_neg, abs_of_nonneg (roundBits_nonneg f.p W.p (by linarith))]
          have := roundBits_mono f.p W.p h
          rwa [roundBits_zpow_self f.p W.p] at this

/-- Returns. -/
theorem same_ret (f : Fmt) (W : Wide f) {x y : ℚ} (hx : 0 < x) (hy : 0 < y) : Same f (retD f.float x y) (ret (roundBits f.p) x y) := by
  have hu : 0 < y / x := div_pos hy hx
  have e0 : XF.rounded f.float (XF.div (.fin y) (.fin x)) = f.float (y / x) := by
    simp [XF.div, hx.ne', XF.rounded]
  unfold retD ret
  rw [e0]
  generalize y / x = u at hu
  have hhalf : (2 : ℚ) ^ (-(f.p : ℤ)) ≤ 1 / 2 := by
    calc (2 : ℚ) ^ (-(f.p : ℤ)) ≤ 2 ^ (-1 : ℤ) := zpow_le_zpow_right₀ (by norm_num) (by have := W.p; omega)
      _ = 1 / 2 := by norm_num
  rcases le_or_gt ((2 : ℚ) ^ (f.emin + ((f.p : ℤ) - 1))) u with hn | hn
  · -- no underflow of the quotient
    have hr : f.round u = roundBits f.p u := f.round_of_le (by rwa [abs_of_pos hu])
    have hpos : 0 < roundBits f.p u := roundBits_pos f.p W.p hu
    have hM := two_zpow_pos f.emax
    unfold Fmt.float
    rw [hr]
    by_cases h1 : 2 ^ f.emax ≤ roundBits f.p u
    · rw [if_pos h1]
      exact .up _ (roundBits_huge f.p W.p W.high h1)
    · rw [if_neg h1, if_neg (by linarith)]
      show Same f (f.float (roundBits f.p u + -1)) _
      rw [← sub_eq_add_neg]
      apply same_float f W
      by_cases hv : roundBits f.p u = 1
      · left; rw [hv]; ring
      right
      rcases le_or_gt (1 / 2 : ℚ) (roundBits f.p u) with hv2 | hv2
      · obtain ⟨z, hz⟩ := multiple_of_float f.p W.p (isFloat_roundBits f.p W.p u) (k := -1) (by
          rw [show (2 : ℚ) ^ (-1 : ℤ) = 1 / 2 by norm_num]; exact hv2)
        rw [show (-1 : ℤ) - ((f.p : ℤ) - 1) = -(f.p : ℤ) by ring] at hz
        have hone : (1 : ℚ) = ((2 ^ f.p : ℤ) : ℚ) * 2 ^ (-(f.p : ℤ)) := by
          push_cast
          rw [← zpow_natCast, ← zpow_add₀ (by norm_num)]
          simp
        have hne : z - 2 ^ f.p ≠ 0 := by
          intro h
          apply hv
          rw [hz, show z = 2 ^ f.p by omega, ← hone]
        have e1 : roundBits f.p u - 1 = ((z - 2 ^ f.p : ℤ) : ℚ) * 2 ^ (-(f.p : ℤ)) := by
          have h5 : ((z - 2 ^ f.p : ℤ) : ℚ) = (z : ℚ) - ((2 ^ f.p : ℤ) : ℚ) := by push_cast; rfl
          rw [h5, sub_mul, ← hone, hz]
        rw [e1, abs_mul, abs_of_pos (two_zpow_pos (-(f.p : ℤ)))]
        have h3 : (1 : ℚ) ≤ |((z - 2 ^ f.p : ℤ) : ℚ)| := by exact_mod_cast Int.one_le_abs hne
        calc (2 : ℚ) ^ (-(f.p : ℤ)) = 1 * 2 ^ (-(f.p : ℤ)) := by ring
          _ ≤ _ := mul_le_mul_of_nonneg_right h3 (two_zpow_pos _).le
      · rw [abs_of_neg (by linarith)]
        linarith
  · -- the quotient is below the smallest normal number
    have w0 := f.round_nonneg hu.le
    have w1 := (f.round_small W.p hu.le hn).trans (normal_le f W)
    have w2 := roundBits_nonneg f.p W.p hu.le
    have w3 := (roundBits_small f.p W.p hn.le).trans (normal_le f W)
    have hM : (1 : ℚ) < 2 ^ f.emax := by
      calc (1 : ℚ) = 2 ^ (0 : ℤ) := by norm_num
        _ < 2 ^ f.emax := zpow_lt_zpow_right₀ (by norm_num) (by have := W.high; omega)
    have hsm : (2 : ℚ) ^ (-(f.p : ℤ) - 2) ≤ 1 / 2 :=
      le_trans (zpow_le_zpow_right₀ (by norm_num) (by omega)) hhalf
    have e1 : f.float u = .fin (f.round u) := by
      unfold Fmt.float
      rw [if_neg (by linarith), if_neg (by linarith)]
    rw [e1]
    show Same f (f.float (f.round u + -1)) _
    rw [← sub_eq_add_neg, roundBits_near_neg_one f.p W.p w2 w3]
    have := same_float f W (q := f.round u - 1) (Or.inr (by rw [abs_of_neg (by linarith)]; linarith))
    rwa [roundBits_near_neg_one f.p W.p w0 w1] at this

theorem Same.sided {f : Fmt} (W : Wide f) {x : XF ℚ} {q : ℚ} (h : Same f x q) {side : ℚ} (hs : side = 1 ∨ side = -1) :
    Same f (XF.rounded f.float (XF.mul x (.fin side))) (roundBits f.p (q * side)) := by
  have h10 : ¬ (1 : ℚ) < 0 := by norm_num
  cases h with
  | fin q h1 h2 h3 =>
    show Same f (f.float (q * side)) _
    apply same_float f W
    rcases hs with rfl | rfl
    · simpa using h1
    · simpa using h1
  | up q h1 =>
    have hM := two_zpow_pos f.emax
    have h4 := roundBits_mono f.p W.p h1
    rw [roundBits_zpow_self f.p W.p] at h4
    rcases hs with rfl | rfl
    · simpa [XF.mul, XF.infSign, XF.rounded] using Same.up (f := f) _ h4
    · have : Same f .ninf (roundBits f.p (q * -1)) := .down _ (by rw [mul_neg_one, roundBits_neg]; linarith)
      simpa [XF.mul, XF.infSign, XF.rounded, h10] using this
  | down q h1 =>
    have hM := two_zpow_pos f.emax
    have h4 := roundBits_mono f.p W.p h1
    rw [roundBits_neg, roundBits_zpow_self f.p W.p] at h4
    rcases hs with rfl | rfl
    · simpa [XF.mul, XF.infSign, XF.rounded, XF.neg] using Same.down (f := f) _ h4
    · have : Same f .pinf (roundBits f.p (q * -1)) := .up _ (by rw [mul_neg_one, roundBits_neg]; linarith)
      simpa [XF.mul, XF.infSign, XF.rounded, XF.neg, h10] using this

/-- Comparing a result with a barrier that does not overflow. -/
theorem same_lt (f : Fmt) (W : Wide f) {x : XF ℚ} {q : ℚ} (h : Same f x q) {b : ℚ} (hb : 0 ≤ b) (hbM : roundBits f.p b < 2 ^ f.emax) :
    XF.lt (f.float b) x = decide (roundBits f.p b < q) := by
  have hM := two_zpow_pos f.emax
  have w2 := roundBits_nonneg f.p W.p hb
  rcases le_or_gt ((2 : ℚ) ^ (f.emin + ((f.p : ℤ) - 1))) b with hn | hn
  · have hr : f.round b = roundBits f.p b := f.round_of_le (by rwa [abs_of_nonneg hb])
    have e1 : f.float b = .fin (roundBits f.p b) := by
      unfold Fmt.float
      rw [hr, if_neg (by linarith), if_neg (by linarith)]
    rw [e1]
    cases h with
    | fin q h1 h2 h3 => rfl
    | up q h1 => simp only [XF.lt]; rw [eq_comm, decide_eq_true_eq]; linarith
    | down q h1 => simp only [XF.lt]; rw [eq_comm, decide_eq_false_iff_not]; linarith
  · have w0 := f.round_nonneg hb
    have w1 := (f.round_small W.p hb hn).trans (normal_le f W)
    have w3 := (roundBits_small f.p W.p hn.le).trans (normal_le f W)
    have hlt : (2 : ℚ) ^ (-(f.p : ℤ) - 2) < 2 ^ (-(f.p : ℤ)) := zpow_lt_zpow_right₀ (by norm_num) (by omega)
    have hpm : (2 : ℚ) ^ (-(f.p : ℤ)) ≤ 2 ^ f.emax := zpow_le_zpow_right₀ (by norm_num) (by have := W.high; omega)
    have e1 : f.float b = .fin (f.round b) := by
      unfold Fmt.float
      rw [if_neg (by linarith), if_neg (by linarith)]
    rw [e1]
    cases h with
    | fin q h1 h2 h3 =>
      simp only [XF.lt]
      rw [decide_eq_decide]
      rcases h1 with rfl | h1
      · constructor <;> intro h <;> linarith
      · rcases le_total 0 q with h0 | h0
        · rw [abs_of_nonneg h0] at h1
          constructor <;> intro _ <;> linarith
        · constructor <;> intro h <;> linarith
    | up q h1 => simp only [XF.lt]; rw [eq_comm, decide_eq_true_eq]; linarith
    | down q h1 => simp only [XF.lt]; rw [eq_comm, decide_eq_false_iff_not]; linarith

theorem Same.neg {f : Fmt} {x : XF ℚ} {q : ℚ} (h : Same f x q) : Same f (XF.neg x) (-q) := by
  cases h with
  | fin q h1 h2 h3 => exact .fin _ (by simpa using h1) (by rwa [abs_neg]) (by rw [roundBits_neg, h3])
  | up q h1 => exact .down _ (by linarith)
  | down q h1 => exact .up _ (by linarith)

theorem eventD_map (g : ℚ → XF ℚ) (r : ℚ → ℚ) (c : ℚ → XF ℚ) (bars : List (ℤ × ℚ)) (m el : Bool) (start exp : ℤ) (x side ptf slf vol : ℚ)
    (hA : ∀ b ∈ bars, retD g x b.2 = c (ret r x b.2) ∧ sidedD g x b.2 side = c (r (ret r x b.2 * side)))
    (hP : ∀ b ∈ bars, ((profitBarrierD g ptf vol).any fun w => XF.lt w (sidedD g x b.2 side)) =
      ((profitBarrier r ptf vol).any fun w => decide (w < r (ret r x b.2 * side))))
    (hL : ∀ b ∈ bars, ((lossBarrierD g slf vol).any fun w => XF.lt (sidedD g x b.2 side) w) =
      ((lossBarrier r slf vol).any fun w => decide (r (ret r x b.2 * side) < w)))
    (h0 : ∀ q, XF.lt (.fin 0) (c q) = decide (0 < q)) (h1 : ∀ q, XF.lt (c q) (.fin 0) = decide (q < 0)) :
    eventD g bars m el start exp x side ptf slf vol =
      (event r bars m el start exp x side ptf slf vol).map fun e => (e.1, c e.2.1, e.2.2) := by
  have hh : hitsD g bars start exp x side ptf slf vol = hits r bars start exp x side ptf slf vol := by
    unfold hitsD hits firstHitD firstHit
    congr 3
    · exact List.filter_congr fun b hb => hP b (List.mem_filter.1 hb).1
    · exact List.filter_congr fun b hb => hL b (List.mem_filter.1 hb).1
  unfold eventD event
  dsimp only
  rw [hh, Option.map_map]
  cases hf : bars.find? fun b => b.1 == eventEnd exp (hits r bars start exp x side ptf slf vol) with
  | none => rfl
  | some b =>
    obtain ⟨e1, e2⟩ := hA b (List.mem_of_find?_eq_some hf)
    simp only [Option.map_some, Function.comp, labelOfD, labelOf, e1, e2]
    cases m <;> simp [h0, h1]

theorem Same.eq {f : Fmt} {x : XF ℚ} {q : ℚ} (h : Same f x q) : x = Spec.bounded f q := by
  have hM := two_zpow_pos f.emax
  unfold Spec.bounded
  cases h with
  | fin q h1 h2 h3 =>
    have := abs_lt.1 h2
    rw [if_neg (by linarith), if_neg (by linarith)]
  | up q h1 => rw [if_pos h1]
  | down q h1 => rw [if_neg (by linarith), if_pos h1]

theorem bounded_pos (f : Fmt) (q : ℚ) : XF.lt (.fin 0) (Spec.bounded f q) = decide (0 < q) := by
  have hM := two_zpow_pos f.emax
  unfold Spec.bounded
  split_ifs with h1 h2
  · simp only [XF.lt]; rw [eq_comm, decide_eq_true_eq]; linarith
  · simp only [XF.lt]; rw [eq_comm, decide_eq_false_iff_not]; linarith
  · rfl

theorem bounded_neg (f : Fmt) (q : ℚ) : XF.lt (Spec.bounded f q) (.fin 0) = decide (q < 0) := by
  have hM := two_zpow_pos f.emax
  unfold Spec.bounded
  split_ifs with h1 h2
  · simp only [XF.lt]; rw [eq_comm, decide_eq_false_iff_not]; linarith
  · simp only [XF.lt]; rw [eq_comm, decide_eq_true_eq]; linarith
  · rfl

theorem lt_neg_neg (a b : XF ℚ) : XF.lt (XF.neg a) (XF.neg b) = XF.lt b a := by
  cases a <;> cases b <;> simp [XF.lt, XF.neg]

theorem floatE_neg (f : Fmt) (q : ℚ) : f.float (-q) = XF.neg (f.float q) := by
  have hM := two_zpow_pos f.emax
  unfold Fmt.float
  rw [f.round_neg]
  by_cases h1 : 2 ^ f.emax ≤ f.round q
  · rw [if_neg (by linarith), if_pos (by linarith), if_pos h1]; rfl
  · by_cases h2 : f.round q ≤ -2 ^ f.emax
    · rw [if_pos (by linarith), if_neg h1, if_pos h2]; rfl
    · rw [if_neg (by linarith), if_neg (by linarith), if_neg h1, if_neg h2]; rfl

/-- The event of a wide format. -/
theorem eventD_wide (f : Fmt) (W : Wide f) (bars : List (ℤ × ℚ)) (hb : ∀ b ∈ bars, 0 < b.2) (m el : Bool) (start exp : ℤ)
    (x side ptf slf vol : ℚ) (hx : 0 < x) (hs : side = 1 ∨ side = -1) (hv : 0 ≤ vol)
    (hp : roundBits f.p (ptf * vol) < 2 ^ f.emax) (hl : roundBits f.p (slf * vol) < 2 ^ f.emax) :
    eventD f.float bars m el start exp x side ptf slf vol =
      (event (roundBits f.p) bars m el start exp x side ptf slf vol).map fun e => (e.1, Spec.bounded f e.2.1, e.2.2) := by
  have hS : ∀ b ∈ bars, Same f (sidedD f.float x b.2 side) (roundBits f.p (ret (roundBits f.p) x b.2 * side)) :=
    fun b h => (same_ret f W hx (hb b h)).sided W hs
  apply eventD_map
  · exact fun b h => ⟨(same_ret f W hx (hb b h)).eq, (hS b h).eq⟩
  · intro b h
    unfold profitBarrierD profitBarrier
    by_cases h0 : 0 < ptf
    · rw [if_pos h0, if_pos h0]
      exact same_lt f W (hS b h) (mul_nonneg h0.le hv) hp
    · rw [if_neg h0, if_neg h0]; rfl
  · intro b h
    unfold lossBarrierD lossBarrier
    by_cases h0 : 0 < slf
    · rw [if_pos h0, if_pos h0]
      show XF.lt _ (f.float (-slf * vol)) = decide (_ < roundBits f.p (-slf * vol))
      rw [neg_mul, floatE_neg, ← lt_neg_neg, roundBits_neg]
      have e : XF.neg (XF.neg (f.float (slf * vol))) = f.float (slf * vol) := by
        cases f.float (slf * vol) <;> simp [XF.neg]
      rw [e, same_lt f W (hS b h).neg (mul_nonneg h0.le hv) hl, decide_eq_decide]
      constructor <;> intro h <;> linarith
    · rw [if_neg h0, if_neg h0]; rfl
  · exact bounded_pos f
  · exact bounded_neg f

end Rd
end Mizar
